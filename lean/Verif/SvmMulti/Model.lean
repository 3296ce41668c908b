import Mathlib.Algebra.Order.Field.Basic
import Mathlib.Algebra.Order.Group.Abs

/-
Model of the one-versus-one part of the SVM handle (`source/core/svm/svm.cpp`): the
classifiers created by `set_data`, the collection of the results in `compute` and the
votes in `predict` and `decision_function`.

Simplified: the training of a classifier is an arbitrary vector of multipliers (the
training itself is modelled in `Verif.Smo`); samples are their row numbers; labels are
natural numbers (`set_data` also accepts negative ones, which take part in no classifier
if there are more than two classes).
-/
namespace Verif.SvmMulti

variable {F : Type} [Field F] [LinearOrder F]

/-- The members of a `base_svm` object that the handle reads (svm.hpp 150-200). -/
structure Clf (F : Type) where
  /-- `pos_class`, `neg_class` -/
  pos : Nat
  neg : Nat
  /-- `idx_class`: the rows of the two classes -/
  idx : List Nat
  /-- `idx_is_positive` -/
  isPos : List Bool
  /-- `n_support_per_class` (negative first) -/
  cntNeg : Nat := 0
  cntPos : Nat := 0
  support : List Nat := []
  supNeg : List Nat := []
  supPos : List Nat := []
  alpha : Nat → F

/-- The pairs of classes in the order of the classifiers (svm.cpp 359-361). -/
def pairs (K : Nat) : List (Nat × Nat) :=
  (List.range K).flatMap fun i => (List.range' (i + 1) (K - (i + 1))).map fun j => (i, j)

/-- One classifier in `set_data` (svm.cpp 362-401); `none`: a class has no samples. -/
def makeClf (nrow : Nat) (y : Nat → Nat) (i j : Nat) : Option (Clf F) :=
  let idx := (List.range nrow).filter fun r => decide (y r = i) || decide (y r = j)
  let isPos := idx.map fun r => decide (y r = i)
  let posSize := isPos.count true
  if posSize = 0 ∨ idx.length - posSize = 0 then none
  else some { pos := i, neg := j, idx := idx, isPos := isPos, alpha := fun _ => 0 }

/-- All classifiers of a problem with `K > 2` classes. -/
def setData (nrow K : Nat) (y : Nat → Nat) : Option (List (Clf F)) :=
  (pairs K).mapM fun p => makeClf nrow y p.1 p.2

/-- `std::vector::resize`: the old entries stay, new ones are zero. -/
def resize (n : Nat) (l : List Nat) : List Nat := l.take n ++ List.replicate (n - l.length) 0

/-- Assignment of the first entries. -/
def overwrite (new old : List Nat) : List Nat := new ++ old.drop new.length

/-- `svc::set_sv` for a multiclass problem (c_svm.cpp 311-358; the same in nu_svm.cpp
603-650).  `a` are the multipliers after training, `response` is 1 for the positive
class and -1 for the other.  The counters `n_support_per_class` are only given a size in
`compute_impl` (base_svm.cpp 288), not reset. -/
def setSv (epsilon : F) (a : Nat → F) (c : Clf F) : Clf F :=
  let n := c.idx.length
  let sv := fun l => decide (epsilon < |a l|)
  let posn := fun l => c.isPos.getD l false
  let cntNeg := c.cntNeg + ((List.range n).filter fun l => sv l && !posn l).length
  let cntPos := c.cntPos + ((List.range n).filter fun l => sv l && posn l).length
  { c with
    cntNeg := cntNeg
    cntPos := cntPos
    support := (List.range n).filter sv
    supNeg := overwrite ((List.range n).filter fun l => sv l && !posn l) (resize cntNeg c.supNeg)
    supPos := overwrite ((List.range n).filter fun l => sv l && posn l) (resize cntPos c.supPos)
    alpha := fun l => if sv l then a l * (if posn l then 1 else -1) else a l }

/-- `is_sv`, `n_sv`, `n_sv_per_class`. -/
structure Gather where
  isSv : Nat → Bool
  nsv : Nat
  per : Nat → Nat

/-- One entry of `support_indexes_pos` or `support_indexes_neg` (svm.cpp 647-660). -/
def gatherOne (c : Clf F) (cls : Nat) (g : Gather) (s : Nat) : Gather :=
  let x := c.idx.getD s 0
  if g.isSv x then g
  else { isSv := fun z => if z = x then true else g.isSv z
         nsv := g.nsv + 1
         per := fun k => if k = cls then g.per k + 1 else g.per k }

/-- The part of the loop over the classifiers that collects the results (svm.cpp
645-660), first the positive class. -/
def gather (cs : List (Clf F)) : Gather :=
  cs.foldl (fun g c =>
    let g := c.supPos.foldl (gatherOne c c.pos) g
    c.supNeg.foldl (gatherOne c c.neg) g)
    { isSv := fun _ => false, nsv := 0, per := fun _ => 0 }

/-- Write to an array of `size` entries; `none` is a write outside. -/
def put {α : Type} (size : Nat) (a : Nat → α) (i : Nat) (v : α) : Option (Nat → α) :=
  if i < size then some fun z => if z = i then v else a z else none

/-- Loop state while the coefficients are copied: the next columns of the two classes,
the array. -/
structure Fill (F : Type) where
  ci : Nat
  cj : Nat
  coef : Nat → F

/-- One sample of a classifier (svm.cpp 708-720). -/
def fillOne (K nsv : Nat) (isSv : Nat → Bool) (c : Clf F) (rowi rowj : Nat) (s : Fill F) (l : Nat) :
    Option (Fill F) :=
  if isSv (c.idx.getD l 0) then
    if c.isPos.getD l false then do
      let coef ← put ((K - 1) * nsv) s.coef ((K - 1) * s.ci + rowi) (c.alpha l)
      some { s with ci := s.ci + 1, coef := coef }
    else do
      let coef ← put ((K - 1) * nsv) s.coef ((K - 1) * s.cj + rowj) (c.alpha l)
      some { s with cj := s.cj + 1, coef := coef }
  else some s

/-- `starting_col_idx` (svm.cpp 694-695). -/
def startCol (per : Nat → Nat) (c : Nat) : Nat := ((List.range c).map per).sum

/-- One classifier (svm.cpp 703-726): `starting_row_idx` and the array. -/
def fillClf (K nsv : Nat) (isSv : Nat → Bool) (per : Nat → Nat) (s : (Nat → Nat) × (Nat → F))
    (c : Clf F) : Option ((Nat → Nat) × (Nat → F)) := do
  let r ← (List.range c.idx.length).foldlM
    (fillOne K nsv isSv c (s.1 c.pos) (s.1 c.neg))
    { ci := startCol per c.pos, cj := startCol per c.neg, coef := s.2 }
  some (fun k => if k = c.pos ∨ k = c.neg then s.1 k + 1 else s.1 k, r.coef)

/-- One row of the loop for `support_indexes` (svm.cpp 731-736). -/
def indexOne (nsv : Nat) (isSv : Nat → Bool) (y : Nat → Nat) (s : (Nat → Nat) × (Nat → Nat)) (x : Nat) :
    Option ((Nat → Nat) × (Nat → Nat)) :=
  if isSv x then do
    let a ← put nsv s.2 (s.1 (y x)) x
    some (fun k => if k = y x then s.1 k + 1 else s.1 k, a)
  else some s

/-- Results of a multiclass problem. -/
structure Result (F : Type) where
  nsv : Nat
  per : Nat → Nat
  /-- `support_coefficients`, `support_indexes` -/
  coef : Nat → F
  index : Nat → Nat

/-- The end of `compute` (svm.cpp 677-737).  `coef0`, `index0` are the contents of the
arrays before. -/
def collect (nrow K : Nat) (y : Nat → Nat) (cs : List (Clf F)) (coef0 : Nat → F) (index0 : Nat → Nat) :
    Option (Result F) := do
  let g := gather cs
  let (_, coef) ← cs.foldlM (fillClf K g.nsv g.isSv g.per) (fun _ => 0, coef0)
  let (_, index) ← (List.range nrow).foldlM (indexOne g.nsv g.isSv y) (startCol g.per, index0)
  some { nsv := g.nsv, per := g.per, coef := coef, index := index }

/-- `compute` for a multiclass problem: the classifiers afterwards and the results.
`a k` are the multipliers found by classifier `k`. -/
def compute (nrow K : Nat) (y : Nat → Nat) (epsilon : F) (a : Nat → Nat → F) (cs : List (Clf F))
    (coef0 : Nat → F) (index0 : Nat → Nat) : List (Clf F) × Option (Result F) :=
  let cs' := cs.mapIdx fun k c => setSv epsilon (a k) c
  (cs', collect nrow K y cs' coef0 index0)

/-- `support_vectors` (svm.cpp 746-751): column by column, read with stride `nrow`. -/
def supportVectors (nrow : Nat) (index : Nat → Nat) (X : Nat → F) (i j : Nat) : F :=
  X (index i + j * nrow)

/-! ### Votes -/

/-- Votes of one sample (svm.cpp 812-821 and 926-929); `d k` is the decision value of
classifier `k`. -/
def votes (ps : List (Nat × Nat)) (d : Nat → F) : Nat → Nat :=
  ps.zipIdx.foldl (fun v p => fun c =>
    if c = (if 0 < d p.2 then p.1.1 else p.1.2) then v c + 1 else v c) fun _ => 0

/-- `max_votes`, `max_idx` after the first `k` classes (svm.cpp 824-833). -/
def argmax (v : Nat → Nat) : Nat → Nat × Nat
  | 0 => (0, 0)
  | k + 1 => let (m, i) := argmax v k; if m < v k then (v k, k) else (m, i)

/-- `predict` for one sample of a multiclass problem. -/
def predict (K : Nat) (d : Nat → F) : Nat := (argmax (votes (pairs K) d) K).2

/-- `confidence_sum` of one sample (svm.cpp 922-925). -/
def confidence (ps : List (Nat × Nat)) (d : Nat → F) : Nat → F :=
  ps.zipIdx.foldl (fun s p => fun c =>
    let s1 := fun c => if c = p.1.1 then s c + d p.2 else s c
    if c = p.1.2 then s1 c - d p.2 else s1 c) fun _ => 0

/-- `decision_values_ovr` of one sample (svm.cpp 933-939). -/
def ovr (K : Nat) (d : Nat → F) (c : Nat) : F :=
  (votes (pairs K) d c : F) + confidence (pairs K) d c / (3 * (|confidence (pairs K) d c| + 1))

end Verif.SvmMulti
