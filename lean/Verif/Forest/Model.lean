import Verif.Forest.Machine

/-!
# Model of prediction with a random forest

`source/core/decision_forest/forest/decision_forest_inference.hpp`.  The iterations of the collapsed
loop over blocks and trees are given to the threads in any way, and the threads run in any
interleaving of their accesses to `y_pred_tree` and `count_classes`.  What a tree predicts for a
sample is a parameter here (`Tree.follow` gives it for a fitted tree).
-/

namespace Verif.Forest

/-- Sizes of a call. -/
structure Dims where
  nThreads : Nat
  blockSize : Nat
  nsamp : Nat
  nClass : Nat
  nTree : Nat

/-- `da_utils::blocking_scheme` (da_utils.cpp 93-100), for a positive block size. -/
def Dims.nBlocks (d : Dims) : Nat :=
  if d.nsamp % d.blockSize > 0 then d.nsamp / d.blockSize + 1 else d.nsamp / d.blockSize

/-- `n_elem` (decision_forest_inference.hpp 51-54, 203-206). -/
def Dims.nElem (d : Dims) (b : Nat) : Nat :=
  if b = d.nBlocks - 1 ∧ d.nsamp % d.blockSize > 0 then d.nsamp % d.blockSize else d.blockSize

/-- One iteration of the loop of `parallel_count_classes` (decision_forest_inference.hpp 45-63) by thread
`t`, on block `task.1` with tree `task.2`.  `vote k s` is what tree `k` predicts for sample `s`;
`tree->predict` writes nothing when it returns an error, which is not looked at. -/
def countTask (d : Dims) (usable : Nat → Bool) (vote : Nat → Nat → Nat) (t : Nat) (task : Nat × Nat) :
    List (Op Nat Nat) :=
  let start := task.1 * d.blockSize
  let pred := t * d.blockSize
  let n := d.nElem task.1
  (if usable task.2 then (List.range n).map fun i => .put (pred + i) (vote task.2 (start + i)) else []) ++
  (List.range n).flatMap fun i => [.load (pred + i), .add fun c => ((start + i) * d.nClass + c, 1)]

/-- The same for `predict_proba` (decision_forest_inference.hpp 197-218); `prob k s j` is the proportion
of class `j` in the leaf that tree `k` gives for sample `s`. -/
def probaTask {K : Type} (d : Dims) (prob : Nat → Nat → Nat → K) (t : Nat) (task : Nat × Nat) :
    List (Op K K) :=
  let start := task.1 * d.blockSize
  let pred := t * d.blockSize
  let n := d.nElem task.1
  let ld := d.nThreads * d.blockSize
  ((List.range n).flatMap fun i => (List.range d.nClass).map fun j =>
    .put (pred + ld * j + i) (prob task.2 (start + i) j)) ++
  (List.range n).flatMap fun i => (List.range d.nClass).flatMap fun j =>
    [.load (pred + j * d.nThreads * d.blockSize + i), .add fun x => (j * d.nsamp + start + i, x)]

/-- All iterations of the collapsed loop. -/
def tasks (d : Dims) : List (Nat × Nat) :=
  (List.range d.nBlocks).flatMap fun b => (List.range d.nTree).map fun k => (b, k)

/-- A division of the iterations among the threads of the team: each is done once, by a thread with number
below `n_threads`. -/
def Divides (d : Dims) (work : Nat → List (Nat × Nat)) : Prop :=
  ((List.range d.nThreads).flatMap work).Perm (tasks d) ∧ ∀ t, d.nThreads ≤ t → work t = []

/-- A schedule in which every thread does its work in its own order. -/
def Schedules {V M : Type} (task : Nat → Nat × Nat → List (Op V M)) (work : Nat → List (Nat × Nat))
    (s : List (Nat × Op V M)) : Prop :=
  ∀ t, proj t s = (work t).flatMap (task t)

/-- The loop over the classes (decision_forest_inference.hpp 123-130): `max_count` and `class_i`. -/
def pick (cells : Nat → Nat) (nClass i : Nat) : Int × Int :=
  (List.range nClass).foldl (fun s c =>
    if s.1 < (cells (i * nClass + c) : Int) then ((cells (i * nClass + c) : Int), (c : Int)) else s) (-1, -1)

/-- `predict` (decision_forest_inference.hpp 99-132) for one schedule: `y_pred`, or `none` when an access
is outside its array. -/
def predict (d : Dims) (s : List (Nat × Op Nat Nat)) (reg : Nat → Nat) : Option (Nat → Int) :=
  match run (d.nThreads * d.blockSize) (d.nClass * d.nsamp) s
      { buf := fun _ => 0, cells := fun _ => 0, reg := reg } with
  | none => none
  | some m => some fun i => (pick m.cells d.nClass i).2

/-- The last loop of `predict_proba` (decision_forest_inference.hpp 221-232). -/
def average {K : Type} [Zero K] [Add K] [Div K] [NatCast K] (d : Dims) (sum : Nat → K) (i j : Nat) : K :=
  let ave := fun j => sum (j * d.nsamp + i) / (d.nTree : K)
  ave j / (List.range d.nClass).foldl (fun s j => s + ave j) 0

/-- `predict_proba` for one schedule: `y_proba` of sample `i` and class `j`. -/
def predictProba {K : Type} [Zero K] [Add K] [Div K] [NatCast K] (d : Dims) (s : List (Nat × Op K K))
    (reg : Nat → K) : Option (Nat → Nat → K) :=
  match run (d.nThreads * d.nClass * d.blockSize) (d.nClass * d.nsamp) s
      { buf := fun _ => 0, cells := fun _ => 0, reg := reg } with
  | none => none
  | some m => some (average d m.cells)

/-- `score` (decision_forest_inference.hpp 327-345), before the division by the number of samples. -/
def correct (pred : Nat → Int) (y : Nat → Int) (nsamp : Nat) : Nat :=
  (List.range nsamp).foldl (fun s i => if pred i = y i then s + 1 else s) 0

/-! ### The division that OpenMP makes by default

`schedule(static)` without a chunk size, as in GCC and LLVM: `q = n / T` iterations each, one more for
the first `n % T` threads. -/

def staticStart (n T t : Nat) : Nat := t * (n / T) + min t (n % T)

def staticWork (d : Dims) (team t : Nat) : List (Nat × Nat) :=
  if t < team then
    let n := (tasks d).length
    ((tasks d).drop (staticStart n team t)).take (staticStart n team (t + 1) - staticStart n team t)
  else []

end Verif.Forest
