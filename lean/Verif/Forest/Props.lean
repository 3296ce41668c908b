import Verif.Forest.Proof
import Verif.Tree.Props
import Mathlib.Algebra.Field.Rat
import Mathlib.Algebra.BigOperators.Field
import Mathlib.Data.Nat.Cast.Field

/-!
# C39, C57: prediction with a forest
-/

namespace Verif.Forest

/-! ### C39: the votes -/

/-- The number of trees that predict class `c` for sample `i`. -/
def votes (vote : Nat → Nat → Nat) (nTree i c : Nat) : Nat :=
  ((List.range nTree).filter fun k => decide (vote k i = c)).length

theorem countTask_eq (d : Dims) (usable : Nat → Bool) (vote : Nat → Nat → Nat) (t : Nat) (x : Nat × Nat)
    (h : usable x.2 = true) : countTask d usable vote t x =
      fill (fun i => t * d.blockSize + i) (fun i => vote x.2 (x.1 * d.blockSize + i)) (List.range (d.nElem x.1)) ++
      drain (fun i => t * d.blockSize + i)
        (fun i c => ((x.1 * d.blockSize + i) * d.nClass + c, 1)) (List.range (d.nElem x.1)) := by
  unfold countTask fill drain
  simp only [h, if_true]

theorem mul_add_inj {n a b c e : Nat} (h1 : b < n) (h2 : e < n) (h : a * n + b = c * n + e) :
    a = c ∧ b = e := by
  have hn : 0 < n := by omega
  have x1 : (b + n * a) / n = a := by
    rw [Nat.add_mul_div_left _ _ hn, Nat.div_eq_of_lt h1, Nat.zero_add]
  have x2 : (e + n * c) / n = c := by
    rw [Nat.add_mul_div_left _ _ hn, Nat.div_eq_of_lt h2, Nat.zero_add]
  have : b + n * a = e + n * c := by rw [Nat.mul_comm n a, Nat.mul_comm n c]; omega
  rw [this, x2] at x1
  subst x1
  exact ⟨rfl, by omega⟩

theorem cell_lt {n m s c : Nat} (h1 : s < m) (h2 : c < n) : s * n + c < n * m := by
  have : (s + 1) * n ≤ m * n := Nat.mul_le_mul_right _ h1
  rw [Nat.mul_comm n m]
  rw [Nat.succ_mul] at this
  omega

/-- The counts that any division and any schedule produce. -/
theorem counts_eq (d : Dims) (hb : 0 < d.blockSize) (usable : Nat → Bool) (vote : Nat → Nat → Nat)
    (hu : ∀ k, k < d.nTree → usable k = true)
    (hv : ∀ k i, k < d.nTree → i < d.nsamp → vote k i < d.nClass)
    (work : Nat → List (Nat × Nat)) (hw : Divides d work) (s : List (Nat × Op Nat Nat))
    (hs : Schedules (countTask d usable vote) work s) (reg : Nat → Nat) :
    ∃ m, run (d.nThreads * d.blockSize) (d.nClass * d.nsamp) s
        { buf := fun _ => 0, cells := fun _ => 0, reg := reg } = some m ∧
      ∀ i c, i < d.nsamp → c < d.nClass → m.cells (i * d.nClass + c) = votes vote d.nTree i c := by
  obtain ⟨m, e1, e2⟩ := run_tasks (V := Nat) (M := Nat) d
    (fun t p => t < d.nThreads ∧ t * d.blockSize ≤ p ∧ p < t * d.blockSize + d.blockSize)
    (d.nThreads * d.blockSize) (d.nClass * d.nsamp)
    (by
      rintro t u p ⟨_, h1, h2⟩ ⟨_, h3, h4⟩
      by_contra hne
      rcases Nat.lt_or_gt_of_ne hne with h | h
      · have := Nat.mul_le_mul_right d.blockSize (Nat.succ_le_of_lt h)
        rw [Nat.succ_mul] at this
        omega
      · have := Nat.mul_le_mul_right d.blockSize (Nat.succ_le_of_lt h)
        rw [Nat.succ_mul] at this
        omega)
    (by
      rintro t p ⟨h0, _, h2⟩
      have := Nat.mul_le_mul_right d.blockSize (Nat.succ_le_of_lt h0)
      rw [Nat.succ_mul] at this
      omega)
    (countTask d usable vote)
    (fun x => (List.range (d.nElem x.1)).flatMap fun i =>
      [((x.1 * d.blockSize + i) * d.nClass + vote x.2 (x.1 * d.blockSize + i), 1)])
    (by
      intro t ht x hx rest R hrest b r
      obtain ⟨b0, hb0, hx⟩ := List.mem_flatMap.1 hx
      obtain ⟨k, hk, rfl⟩ := List.mem_map.1 hx
      have hb0 := List.mem_range.1 hb0
      have hk := List.mem_range.1 hk
      rw [countTask_eq _ _ _ _ _ (hu _ hk)]
      obtain ⟨a1, a2⟩ := task_adds
        (fun p => t < d.nThreads ∧ t * d.blockSize ≤ p ∧ p < t * d.blockSize + d.blockSize) (d.nClass * d.nsamp)
        (fun i => t * d.blockSize + i) (fun i => vote k (b0 * d.blockSize + i))
        (fun i c => ((b0 * d.blockSize + i) * d.nClass + c, 1)) (List.range (d.nElem b0))
        (by
          intro i hi
          have hi := List.mem_range.1 hi
          have := nElem_le d hb b0
          exact ⟨ht, by omega, by omega⟩)
        (fun i _ j _ e => by omega)
        (by
          intro i hi
          have := block_mem d hb b0 i hb0 (List.mem_range.1 hi)
          exact cell_lt this (hv k _ hk this))
        rest R hrest b r
      refine ⟨a1, a2.trans ?_⟩
      congr 1
      exact List.map_eq_flatMap)
    work hw s hs { buf := fun _ => 0, cells := fun _ => 0, reg := reg }
  refine ⟨m, e1, fun i c hi hc => ?_⟩
  rw [e2, tasks_amount d hb fun k s => [(s * d.nClass + vote k s, 1)]]
  simp only [Nat.zero_add]
  have inner : ∀ k, k < d.nTree → ∑ s ∈ Finset.range d.nsamp,
      amount [(s * d.nClass + vote k s, 1)] (i * d.nClass + c) = if vote k i = c then 1 else 0 := by
    intro k hk
    rw [Finset.sum_eq_single i]
    · unfold amount
      by_cases h : vote k i = c
      · simp [h]
      · have : ¬ i * d.nClass + vote k i = i * d.nClass + c := by omega
        simp [h]
    · intro s hs hne
      unfold amount
      have hs := Finset.mem_range.1 hs
      have : ¬ s * d.nClass + vote k s = i * d.nClass + c := fun e =>
        hne (mul_add_inj (hv k s hk hs) hc e).1
      simp [this]
    · intro h
      exact absurd (Finset.mem_range.2 hi) h
  rw [Finset.sum_congr rfl fun k hk => inner k (Finset.mem_range.1 hk)]
  unfold votes
  generalize d.nTree = n
  induction n with
  | zero => simp
  | succ n ih =>
    rw [Finset.sum_range_succ, ih, List.range_succ, List.filter_append, List.length_append]
    by_cases h : vote n i = c <;> simp [h]

theorem pick_spec (cells : Nat → Nat) (nClass i : Nat) : ∀ n, 1 ≤ n →
    ∃ k, k < n ∧ (List.range n).foldl (fun (s : Int × Int) c =>
        if s.1 < (cells (i * nClass + c) : Int) then ((cells (i * nClass + c) : Int), (c : Int)) else s)
        (-1, -1) = ((cells (i * nClass + k) : Int), (k : Int)) ∧
      (∀ c, c < n → cells (i * nClass + c) ≤ cells (i * nClass + k)) ∧
      ∀ c, c < k → cells (i * nClass + c) < cells (i * nClass + k)
  | 0, h => by omega
  | 1, _ => by
    refine ⟨0, by omega, ?_, fun c hc => ?_, fun c hc => by omega⟩
    · simp
      omega
    · have : c = 0 := by omega
      rw [this]
  | n + 2, _ => by
    obtain ⟨k, h1, h2, h3, h4⟩ := pick_spec cells nClass i (n + 1) (by omega)
    rw [List.range_succ, List.foldl_append, h2]
    simp only [List.foldl_cons, List.foldl_nil]
    by_cases c : cells (i * nClass + k) < cells (i * nClass + (n + 1))
    · rw [if_pos (by omega)]
      refine ⟨n + 1, by omega, rfl, fun c' hc' => ?_, fun c' hc' => ?_⟩
      · by_cases e : c' = n + 1
        · rw [e]
        · have := h3 c' (by omega); omega
      · have := h3 c' hc'; omega
    · rw [if_neg (by omega)]
      refine ⟨k, by omega, rfl, fun c' hc' => ?_, h4⟩
      by_cases e : c' = n + 1
      · rw [e]; omega
      · exact h3 c' (by omega)

/-- C39: whatever the division of blocks and trees among the threads and whatever the order in which
their accesses to memory happen, nothing is accessed outside its array and the result is the smallest
class among those with the most votes. -/
theorem C39_vote (d : Dims) (hb : 0 < d.blockSize) (hc : 1 ≤ d.nClass) (usable : Nat → Bool)
    (vote : Nat → Nat → Nat) (hu : ∀ k, k < d.nTree → usable k = true)
    (hv : ∀ k i, k < d.nTree → i < d.nsamp → vote k i < d.nClass)
    (work : Nat → List (Nat × Nat)) (hw : Divides d work) (s : List (Nat × Op Nat Nat))
    (hs : Schedules (countTask d usable vote) work s) (reg : Nat → Nat) :
    ∃ y, predict d s reg = some y ∧ ∀ i, i < d.nsamp → ∃ k : Nat, y i = (k : Int) ∧ k < d.nClass ∧
      (∀ c, c < d.nClass → votes vote d.nTree i c ≤ votes vote d.nTree i k) ∧
      ∀ c, c < k → votes vote d.nTree i c < votes vote d.nTree i k := by
  obtain ⟨m, e1, e2⟩ := counts_eq d hb usable vote hu hv work hw s hs reg
  refine ⟨_, by rw [predict, e1], fun i hi => ?_⟩
  obtain ⟨k, h1, h2, h3, h4⟩ := pick_spec m.cells d.nClass i d.nClass hc
  refine ⟨k, ?_, h1, fun c hc => ?_, fun c hc => ?_⟩
  · show (pick m.cells d.nClass i).2 = k
    unfold pick
    rw [h2]
  · rw [← e2 i c hi hc, ← e2 i k hi h1]; exact h3 c hc
  · rw [← e2 i c hi (by omega), ← e2 i k hi h1]; exact h4 c hc

/-- Three samples in blocks of two, two trees, two threads. -/
def small : Dims := { nThreads := 2, blockSize := 2, nsamp := 3, nClass := 2, nTree := 2 }

def smallVote (k i : Nat) : Nat := if k = 0 then (if i = 0 then 0 else 1) else 1

/-- Each thread does a block of each tree. -/
def smallWork (t : Nat) : List (Nat × Nat) :=
  if t = 0 then [(0, 0), (1, 1)] else if t = 1 then [(1, 0), (0, 1)] else []

/-- The two threads in turn. -/
def smallSched : List (Nat × Op Nat Nat) :=
  let p := fun t => (smallWork t).flatMap (countTask small (fun _ => true) smallVote t)
  (List.zipWith (fun a b => [(1, b), (0, a)]) (p 0) (p 1)).flatten

example : Divides small smallWork := by
  refine ⟨by decide +kernel, fun t ht => ?_⟩
  have ht : 2 ≤ t := ht
  simp [smallWork, show ¬ t = 0 by omega, show ¬ t = 1 by omega]

example : Schedules (countTask small (fun _ => true) smallVote) smallWork smallSched := by
  intro t
  match t with
  | 0 => rfl
  | 1 => rfl
  | t + 2 =>
    have e : smallWork (t + 2) = [] := rfl
    rw [e]
    simp [proj, smallSched, smallWork, countTask, small, Dims.nElem, Dims.nBlocks, List.range, List.range.loop]

-- sample 0 has a vote for each class, the others two for class 1
example : votes smallVote 2 0 0 = 1 ∧ votes smallVote 2 0 1 = 1 ∧
    (predict small smallSched fun _ => 0).map (fun y => [y 0, y 1, y 2]) = some [0, 1, 1] := by
  decide +kernel

/-- The class that a tree predicts for a point (decision_tree_inference.hpp 71-92). -/
def treeVote {α S : Type} (ops : Tree.Ops α) (nodes : List (Tree.Node α S)) (x : Nat → α) : Option Nat :=
  (Tree.follow nodes (Tree.goLeft ops x) nodes.length 0).bind fun k => nodes[k]?.map fun nd => nd.pred

/-- The trees that training can produce vote, and for a class below `n_class`: what `C39_vote` asks. -/
theorem C39_trees {α S : Type} (cfg : Tree.Cfg α S) (samp0 : Nat → Nat) (nObs depth0 : Nat) (h0 : 0 < nObs)
    (hm : 1 ≤ cfg.minNode) (hc : 1 ≤ cfg.nClass) (st : Tree.State α S)
    (h : Tree.Reach cfg samp0 nObs depth0 st) (x : Nat → α) :
    ∃ c, treeVote cfg.ops st.nodes x = some c ∧ c < cfg.nClass := by
  obtain ⟨k, nd, e1, e2, _⟩ := (Tree.C28_ends cfg samp0 nObs depth0 h0 hm st h).1 (Tree.goLeft cfg.ops x)
  refine ⟨nd.pred, ?_, (Tree.C54_leaf cfg samp0 nObs depth0 h0 hm hc st h k nd e2).2.2.1⟩
  unfold treeVote
  rw [e1, Option.bind_some, e2]
  rfl

/-- `score` counts the samples that are predicted correctly. -/
theorem C39_score (pred y : Nat → Int) (n : Nat) :
    correct pred y n = ((List.range n).filter fun i => decide (pred i = y i)).length := by
  unfold correct
  induction n with
  | zero => rfl
  | succ n ih =>
    rw [List.range_succ, List.foldl_append, ih, List.filter_append, List.length_append]
    by_cases h : pred n = y n <;> simp [h]

/-! ### The default division -/

theorem slices (l : List (Nat × Nat)) (T : Nat) : ∀ u, u ≤ T →
    (List.range u).flatMap (fun t => (l.drop (staticStart l.length T t)).take
      (staticStart l.length T (t + 1) - staticStart l.length T t)) = l.take (staticStart l.length T u)
  | 0, _ => by simp [staticStart]
  | u + 1, h => by
    rw [List.range_succ, List.flatMap_append, slices l T u (by omega)]
    simp only [List.flatMap_cons, List.flatMap_nil, List.append_nil]
    have : staticStart l.length T u ≤ staticStart l.length T (u + 1) := by
      unfold staticStart
      have := Nat.mul_le_mul_right (l.length / T) (Nat.le_succ u)
      rw [Nat.succ_eq_add_one] at this
      omega
    generalize staticStart l.length T u = a at *
    generalize staticStart l.length T (u + 1) = b at *
    obtain ⟨e, rfl⟩ := Nat.exists_eq_add_of_le this
    rw [Nat.add_sub_cancel_left, ← List.take_add]

/-- The division that `schedule(static)` makes is one of those of `C39_vote`: although the team may be
larger than `n_threads`, only the first `n_threads` threads have work. -/
theorem C39_static (d : Dims) (team maxThreads : Nat) (h1 : 1 ≤ team) (h2 : team ≤ maxThreads)
    (hn : d.nThreads = min maxThreads (d.nBlocks * d.nTree)) : Divides d (staticWork d team) := by
  have hlen : (tasks d).length = d.nBlocks * d.nTree := by
    unfold tasks
    simp
  have hend : staticStart (tasks d).length team team = (tasks d).length := by
    unfold staticStart
    have := Nat.div_add_mod (tasks d).length team
    have := Nat.mod_lt (tasks d).length (by omega : 0 < team)
    omega
  have hidle : ∀ t, d.nThreads ≤ t → staticWork d team t = [] := by
    intro t ht
    unfold staticWork
    by_cases c : t < team
    · rw [if_pos c]
      have hlt : d.nBlocks * d.nTree < team := by omega
      have e1 : (tasks d).length / team = 0 := Nat.div_eq_of_lt (by omega)
      have e2 : (tasks d).length % team = (tasks d).length := Nat.mod_eq_of_lt (by omega)
      have e : staticStart (tasks d).length team t = (tasks d).length := by
        unfold staticStart
        rw [e1, e2]
        omega
      dsimp only
      rw [e, List.drop_length]
      simp
    · rw [if_neg c]
  refine ⟨?_, hidle⟩
  have key : ∀ u, d.nThreads ≤ u →
      (List.range u).flatMap (staticWork d team) = (List.range d.nThreads).flatMap (staticWork d team) := by
    intro u hu
    induction u, hu using Nat.le_induction with
    | base => rfl
    | succ u hu ih =>
      rw [List.range_succ, List.flatMap_append, ih]
      simp [hidle u hu]
  have full : (List.range team).flatMap (staticWork d team) = tasks d := by
    have := slices (tasks d) team team (Nat.le_refl _)
    rw [hend, List.take_length] at this
    rw [← this]
    apply List.flatMap_congr
    intro t ht
    unfold staticWork
    rw [if_pos (List.mem_range.1 ht)]
  rcases Nat.le_total d.nThreads team with h | h
  · rw [← key team h, full]
  · have : ∀ u, team ≤ u → (List.range u).flatMap (staticWork d team) = tasks d := by
      intro u hu
      induction u, hu using Nat.le_induction with
      | base => exact full
      | succ u hu ih =>
        rw [List.range_succ, List.flatMap_append, ih]
        simp [staticWork, Nat.not_lt.2 hu]
    rw [this _ h]

/-! ### C57: probabilities -/

variable {K : Type} [Field K]

def place (d : Dims) (t : Nat) (x : Nat × Nat) : Nat :=
  t * d.blockSize + x.2 * (d.nThreads * d.blockSize) + x.1

def pairs (d : Dims) (b : Nat) : List (Nat × Nat) :=
  (List.range (d.nElem b)).flatMap fun i => (List.range d.nClass).map fun j => (i, j)

omit [Field K] in
theorem probaTask_eq (d : Dims) (prob : Nat → Nat → Nat → K) (t : Nat) (x : Nat × Nat) :
    probaTask d prob t x =
      fill (place d t) (fun p => prob x.2 (x.1 * d.blockSize + p.1) p.2) (pairs d x.1) ++
      drain (place d t) (fun p v => (p.2 * d.nsamp + (x.1 * d.blockSize + p.1), v)) (pairs d x.1) := by
  unfold probaTask fill drain pairs place
  simp only [List.map_flatMap, List.map_map, List.flatMap_assoc, List.flatMap_map]
  congr 1
  · congr 1
    funext i
    congr 1
    funext j
    simp only [Function.comp]
    rw [Nat.mul_comm (d.nThreads * d.blockSize) j]
  · congr 1
    funext i
    congr 1
    funext j
    rw [Nat.mul_assoc, Nat.add_assoc (j * d.nsamp)]

theorem place_inj (d : Dims) {t u : Nat} {x y : Nat × Nat} (ht : t < d.nThreads) (hu : u < d.nThreads)
    (hx : x.1 < d.blockSize) (hy : y.1 < d.blockSize) (h : place d t x = place d u y) :
    t = u ∧ x = y := by
  unfold place at h
  have e : ∀ v z : Nat, v * d.blockSize + z * (d.nThreads * d.blockSize) =
      (z * d.nThreads + v) * d.blockSize := by intro v z; ring
  rw [e, e] at h
  obtain ⟨h1, h2⟩ := mul_add_inj hx hy h
  obtain ⟨h3, h4⟩ := mul_add_inj ht hu h1
  exact ⟨h4, Prod.ext h2 h3⟩

/-- The sums that any division and any schedule produce. -/
theorem sums_eq (d : Dims) (hb : 0 < d.blockSize) (prob : Nat → Nat → Nat → K)
    (work : Nat → List (Nat × Nat)) (hw : Divides d work) (s : List (Nat × Op K K))
    (hs : Schedules (probaTask d prob) work s) (reg : Nat → K) :
    ∃ m, run (d.nThreads * d.nClass * d.blockSize) (d.nClass * d.nsamp) s
        { buf := fun _ => 0, cells := fun _ => 0, reg := reg } = some m ∧
      ∀ i j, i < d.nsamp → j < d.nClass →
        m.cells (j * d.nsamp + i) = ∑ k ∈ Finset.range d.nTree, prob k i j := by
  obtain ⟨m, e1, e2⟩ := run_tasks (V := K) (M := K) d
    (fun t p => t < d.nThreads ∧ ∃ x : Nat × Nat, x.1 < d.blockSize ∧ x.2 < d.nClass ∧ p = place d t x)
    (d.nThreads * d.nClass * d.blockSize) (d.nClass * d.nsamp)
    (by
      rintro t u p ⟨ht, x, x1, _, rfl⟩ ⟨hu, y, y1, _, e⟩
      exact (place_inj d ht hu x1 y1 e).1)
    (by
      rintro t p ⟨ht, x, x1, x2, rfl⟩
      unfold place
      have a1 : x.2 * d.nThreads + t < d.nThreads * d.nClass := cell_lt x2 ht
      have a2 := Nat.mul_le_mul_right d.blockSize (Nat.succ_le_of_lt a1)
      rw [Nat.succ_mul] at a2
      have e : t * d.blockSize + x.2 * (d.nThreads * d.blockSize) =
        (x.2 * d.nThreads + t) * d.blockSize := by ring
      omega)
    (probaTask d prob)
    (fun x => (List.range (d.nElem x.1)).flatMap fun i => (List.range d.nClass).map fun j =>
      (j * d.nsamp + (x.1 * d.blockSize + i), prob x.2 (x.1 * d.blockSize + i) j))
    (by
      intro t ht x hx rest R hrest b r
      obtain ⟨b0, hb0, hx⟩ := List.mem_flatMap.1 hx
      obtain ⟨k, hk, rfl⟩ := List.mem_map.1 hx
      have hb0 := List.mem_range.1 hb0
      have hmem : ∀ p ∈ pairs d b0, p.1 < d.nElem b0 ∧ p.2 < d.nClass := by
        intro p hp
        obtain ⟨i, hi, hp⟩ := List.mem_flatMap.1 hp
        obtain ⟨j, hj, rfl⟩ := List.mem_map.1 hp
        exact ⟨List.mem_range.1 hi, List.mem_range.1 hj⟩
      have hle := nElem_le d hb b0
      rw [probaTask_eq]
      obtain ⟨a1, a2⟩ := task_adds
        (fun p => t < d.nThreads ∧ ∃ x : Nat × Nat, x.1 < d.blockSize ∧ x.2 < d.nClass ∧ p = place d t x)
        (d.nClass * d.nsamp) (place d t) (fun p => prob k (b0 * d.blockSize + p.1) p.2)
        (fun p v => (p.2 * d.nsamp + (b0 * d.blockSize + p.1), v)) (pairs d b0)
        (fun p hp => ⟨ht, p, by have := (hmem p hp).1; omega, (hmem p hp).2, rfl⟩)
        (fun p hp q hq e => (place_inj d ht ht (by have := (hmem p hp).1; omega)
          (by have := (hmem q hq).1; omega) e).2)
        (by
          intro p hp
          have := block_mem d hb b0 p.1 hb0 (hmem p hp).1
          have := cell_lt (hmem p hp).2 this
          rw [Nat.mul_comm d.nClass]
          exact this)
        rest R hrest b r
      refine ⟨a1, a2.trans ?_⟩
      congr 1
      unfold pairs
      simp only [List.map_flatMap, List.map_map]
      rfl)
    work hw s hs { buf := fun _ => 0, cells := fun _ => 0, reg := reg }
  refine ⟨m, e1, fun i j hi hj => ?_⟩
  rw [e2, tasks_amount d hb fun k s => (List.range d.nClass).map fun j => (j * d.nsamp + s, prob k s j)]
  rw [zero_add]
  apply Finset.sum_congr rfl
  intro k _
  have one : ∀ s, s < d.nsamp → amount ((List.range d.nClass).map fun c => (c * d.nsamp + s, prob k s c))
      (j * d.nsamp + i) = if s = i then prob k i j else 0 := by
    intro s hs
    rw [List.map_eq_flatMap, ← amount_flatMap_range, Finset.sum_eq_single j]
    · unfold amount
      by_cases e : s = i
      · simp [e]
      · simp [e]
    · intro c hc hne
      unfold amount
      have : ¬ c * d.nsamp + s = j * d.nsamp + i := fun e => hne (mul_add_inj hs hi e).1
      simp [this]
    · intro h
      exact absurd (Finset.mem_range.2 hj) h
  rw [Finset.sum_congr rfl fun s hs => one s (Finset.mem_range.1 hs), Finset.sum_ite_eq' (Finset.range d.nsamp) i]
  rw [if_pos (Finset.mem_range.2 hi)]

theorem foldl_sum (f : Nat → K) (n : Nat) :
    (List.range n).foldl (fun s j => s + f j) 0 = ∑ j ∈ Finset.range n, f j := by
  induction n with
  | zero => simp
  | succ n ih => rw [List.range_succ, List.foldl_append, ih, Finset.sum_range_succ]; rfl

/-- C57: in exact arithmetic, whatever the division and the schedule, the probability of a class is the
mean over the trees of its proportion in the leaf that the sample reaches, and the probabilities of a
sample sum to 1. -/
theorem C57_mean [CharZero K] (d : Dims) (hb : 0 < d.blockSize) (ht : 0 < d.nTree)
    (prob : Nat → Nat → Nat → K)
    (hp : ∀ k i, k < d.nTree → i < d.nsamp → ∑ j ∈ Finset.range d.nClass, prob k i j = 1)
    (work : Nat → List (Nat × Nat)) (hw : Divides d work) (s : List (Nat × Op K K))
    (hs : Schedules (probaTask d prob) work s) (reg : Nat → K) :
    ∃ y, predictProba d s reg = some y ∧ ∀ i, i < d.nsamp →
      (∀ j, j < d.nClass → y i j = (∑ k ∈ Finset.range d.nTree, prob k i j) / d.nTree) ∧
      ∑ j ∈ Finset.range d.nClass, y i j = 1 := by
  obtain ⟨m, e1, e2⟩ := sums_eq d hb prob work hw s hs reg
  have hn : (d.nTree : K) ≠ 0 := Nat.cast_ne_zero.2 (by omega)
  refine ⟨_, by rw [predictProba, e1], fun i hi => ?_⟩
  have total : (List.range d.nClass).foldl (fun s j => s + m.cells (j * d.nsamp + i) / (d.nTree : K)) 0 = 1 := by
    rw [foldl_sum fun j => m.cells (j * d.nsamp + i) / (d.nTree : K), ← Finset.sum_div,
      Finset.sum_congr rfl fun j hj => e2 i j hi (Finset.mem_range.1 hj), Finset.sum_comm,
      Finset.sum_congr rfl fun k hk => hp k i (Finset.mem_range.1 hk) hi]
    simp [hn]
  have each : ∀ j, j < d.nClass → average d m.cells i j = (∑ k ∈ Finset.range d.nTree, prob k i j) / d.nTree := by
    intro j hj
    unfold average
    dsimp only
    rw [total, div_one, e2 i j hi hj]
  refine ⟨each, ?_⟩
  rw [← total, foldl_sum fun j => m.cells (j * d.nsamp + i) / (d.nTree : K)]
  apply Finset.sum_congr rfl
  intro j hj
  rw [each j (Finset.mem_range.1 hj), e2 i j hi (Finset.mem_range.1 hj)]

def smallProb (k i j : Nat) : Rat := if k = 0 then (if i = j then 1 / 4 else if j < 2 ∧ i < 2 then 3 / 4 else 1 / 2) else 1 / 2

def smallProba : List (Nat × Op Rat Rat) :=
  let p := fun t => (smallWork t).flatMap (probaTask small smallProb t)
  (List.zipWith (fun a b => [(1, b), (0, a)]) (p 0) (p 1)).flatten

example : (∀ k i, k < 2 → i < 3 → ∑ j ∈ Finset.range 2, smallProb k i j = 1) ∧
    (predictProba small smallProba fun _ => 0).map (fun y => [y 0 0, y 0 1, y 2 0]) =
      some [3 / 8, 5 / 8, 1 / 2] := by
  refine ⟨?_, by decide +kernel⟩
  have : ∀ (k : Fin 2) (i : Fin 3), ∑ j ∈ Finset.range 2, smallProb k i j = 1 := by decide +kernel
  intro k i hk hi
  exact this ⟨k, hk⟩ ⟨i, hi⟩

end Verif.Forest
