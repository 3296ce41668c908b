/-
DBSCAN clustering, /repo/source/core/clustering/dbscan/dbscan.cpp:294-496, starting from the
table of neighbours computed before it.

`nb[i]` is the list `neighbors[i]`; the table has `n_samples` entries.  Reading or writing a
label outside the array is undefined behaviour (`none`).  Memory exhaustion is not modelled.
-/
import Mathlib.Tactic.Common
namespace Verif.Dbscan

/-- `#define NOISE -1`, dbscan.cpp:46. -/
def noise : Int := -1
/-- `#define UNVISITED -2`, dbscan.cpp:47. -/
def unvisited : Int := -2

theorem countP_set_lt {l : List Int} {i : Nat} (h : i < l.length) (hu : l[i] = unvisited) (k : Nat) :
    (l.set i k).countP (· == unvisited) < l.countP (· == unvisited) := by
  have hk : ((k : Int) == unvisited) = false := by simp [unvisited]
  have hpos : 0 < l.countP (· == unvisited) := List.countP_pos_iff.mpr ⟨l[i], List.getElem_mem h, by simp [hu]⟩
  rw [List.countP_set h]
  simp only [hk, hu]
  simp
  omega

theorem countP_set_eq {l : List Int} {i : Nat} (h : i < l.length) (hu : l[i] = noise) (k : Nat) :
    (l.set i k).countP (· == unvisited) = l.countP (· == unvisited) := by
  rw [List.countP_set h]
  simp [hu, noise, unvisited]

/-- The loop over the growing vector `search_indices`, dbscan.cpp:423-444: the list holds the
entries from position `j` on; `append` adds at its end.  `k` is `n_clusters`. -/
def expand (nb : List (List Nat)) (core : List Bool) (k : Nat) (labels : List Int) :
    List Nat → Option (List Int)
  | [] => some labels
  | neigh :: rest =>
    if h : neigh < labels.length then
      if hn : labels[neigh] = noise then expand nb core k (labels.set neigh k) rest
      else if hu : labels[neigh] = unvisited then
        match core[neigh]?, nb[neigh]? with
        | some true, some more => expand nb core k (labels.set neigh k) (rest ++ more)
        | some false, _ => expand nb core k (labels.set neigh k) rest
        | _, _ => none
      else expand nb core k labels rest
    else none
termination_by queue => (labels.countP (· == unvisited), queue.length)
decreasing_by
  · rw [countP_set_eq h hn]; exact Prod.Lex.right _ (by simp)
  · exact Prod.Lex.left _ _ (countP_set_lt h hu k)
  · exact Prod.Lex.left _ _ (countP_set_lt h hu k)
  · exact Prod.Lex.right _ (by simp)

/-- One iteration of the outer loop, dbscan.cpp:408-448; the state is `(labels, n_clusters)`. -/
def serialStep (nb : List (List Nat)) (core : List Bool) (st : List Int × Nat) (i : Nat) :
    Option (List Int × Nat) :=
  match st.1[i]?, core[i]?, nb[i]? with
  | some l, some c, some ns =>
    if l ≠ unvisited then some st
    else if c = false then some (st.1.set i noise, st.2)
    else (expand nb core st.2 (st.1.set i st.2) ns).map fun lab => (lab, st.2 + 1)
  | _, _, _ => none

/-- `dbscan_clusters_serial`, dbscan.cpp:398-455, started with `n_clusters = 0` (line 461). -/
def serial (n : Nat) (nb : List (List Nat)) (core : List Bool) : Option (List Int × Nat) :=
  (List.range n).foldlM (serialStep nb core) (List.replicate n unvisited, 0)

/-- The core flags, dbscan.cpp:463-472: `neighbors[i].size() >= min_samples - 1`. -/
def coreFlags (nb : List (List Nat)) (minSamples : Int) : List Bool :=
  nb.map fun l => decide ((l.length : Int) ≥ minSamples - 1)

/-! ### The parallel method, dbscan.cpp:295-395 -/

/-- Atomic steps of one iteration of the first parallel loop (lines 320-351): the atomic read of
a label, the store to `duplicate_labels`, and the conditional atomic write of a label. -/
inductive Instr
  | read (x : Nat)
  | dup (at_ : Nat) (val : Nat)
  | write (x : Nat)
deriving DecidableEq, Repr

/-- Body of iteration `i` for a core sample, lines 322-350. -/
def body (i : Nat) (ns : List Nat) : List Instr :=
  [.read i, .write i] ++ ns.flatMap fun s =>
    [.read s, if i < s then .dup s i else .dup i s, .write s]

/-- An iteration in flight: its number, the steps left and its local `tmp_label`. -/
structure Task where
  i : Nat
  todo : List Instr
  reg : Int
deriving DecidableEq, Repr

/-- Shared arrays and all iterations. -/
structure PState where
  labels : List Int
  dup : List Int
  tasks : List Task
deriving DecidableEq, Repr

/-- State at the start of the parallel region, lines 311-312; iterations of samples that are not
core do nothing (line 321). -/
def pInit (n : Nat) (nb : List (List Nat)) (core : List Bool) : PState where
  labels := List.replicate n noise
  dup := List.replicate n noise
  tasks := (List.range n).map fun i =>
    ⟨i, if core[i]? = some true then body i (nb[i]?.getD []) else [], 0⟩

/-- One atomic step of the task at position `t`.  Stores to `duplicate_labels` are plain stores in
the code (a data race); here they are taken to be atomic.  A store outside the arrays is
undefined behaviour. -/
def pStep (s : PState) (t : Nat) : Option PState :=
  match s.tasks[t]? with
  | none => none
  | some ⟨_, [], _⟩ => none
  | some ⟨i, .read x :: rest, _⟩ =>
    match s.labels[x]? with
    | some l => some { s with tasks := s.tasks.set t ⟨i, rest, l⟩ }
    | none => none
  | some ⟨i, .dup a b :: rest, r⟩ =>
    if a < s.dup.length then some { s with dup := s.dup.set a b, tasks := s.tasks.set t ⟨i, rest, r⟩ }
    else none
  | some ⟨i, .write x :: rest, r⟩ =>
    if (i : Int) < r ∨ r = noise then
      if x < s.labels.length then
        some { s with labels := s.labels.set x i, tasks := s.tasks.set t ⟨i, rest, r⟩ }
      else none
    else some { s with tasks := s.tasks.set t ⟨i, rest, r⟩ }

/-- All steps of a schedule (the list of tasks that move). -/
def pRun (s : PState) (schedule : List Nat) : Option PState := schedule.foldlM pStep s

/-- Every iteration has finished. -/
def PState.finished (s : PState) : Prop := ∀ t ∈ s.tasks, t.todo = []

instance (s : PState) : Decidable s.finished := by unfold PState.finished; infer_instance

/-- The chain of lines 361-364, `while (duplicate_labels[c] != NOISE) c = duplicate_labels[c]`.
The fuel is the length of the array: a longer chain repeats an entry and never ends (`none`), as
does a subscript outside the array. -/
def follow (dup : List Int) : Nat → Int → Option Int
  | 0, _ => none
  | fuel + 1, c =>
    if c < 0 then none else
    match dup[c.toNat]? with
    | none => none
    | some d => if d ≠ noise then follow dup fuel d else some c

/-- Second parallel loop, lines 353-367. -/
def resolve (dup : List Int) (labels : List Int) : Option (List Int) :=
  labels.mapM fun l => if l = noise then some l else follow dup dup.length l

/-- The relabelling table of lines 370-382, state `(remap, next_id)`. -/
def remapStep (st : List Int × Nat) (lab : Int) : Option (List Int × Nat) :=
  if lab = noise then some st
  else if lab < 0 then none
  else match st.1[lab.toNat]? with
    | none => none
    | some r => if r = noise then some (st.1.set lab.toNat st.2, st.2 + 1) else some st

/-- Lines 352-392: everything after the first loop; result `(labels, n_clusters)`. -/
def finish (n : Nat) (s : PState) : Option (List Int × Nat) := do
  let labels ← resolve s.dup s.labels
  let (remap, k) ← labels.foldlM remapStep (List.replicate n noise, 0)
  let out ← labels.mapM fun l => if l = noise then some l else if l < 0 then none else remap[l.toNat]?
  pure (out, k)

/-- `dbscan_clusters_parallel`, dbscan.cpp:295-395, under a given schedule; `none` also when the
schedule is not a complete run. -/
def parallel (n : Nat) (nb : List (List Nat)) (core : List Bool) (schedule : List Nat) :
    Option (List Int × Nat) := do
  let s ← pRun (pInit n nb core) schedule
  if s.finished then finish n s else none

/-- `dbscan_clusters`, dbscan.cpp:458-496.  `method` is the hidden setting
`dbscan.cluster_methods` (`some true`: "parallel", `some false`: any other text), `threads` is
`omp_get_max_threads()`.  Result: labels, `n_clusters`, `n_core_samples` and the core flags. -/
def clusters (method : Option Bool) (threads : Nat) (schedule : List Nat) (n : Nat)
    (nb : List (List Nat)) (minSamples : Int) : Option (List Int × Nat × Nat × List Bool) :=
  let core := coreFlags nb minSamples
  let par := match method with
    | some b => b
    | none => decide (threads > 1)
  (if par then parallel n nb core schedule else serial n nb core).map fun r =>
    (r.1, r.2, core.countP id, core)

end Verif.Dbscan
