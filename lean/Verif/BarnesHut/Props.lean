import Verif.BarnesHut.Spec
import Verif.BarnesHut.Slots

/-
C115 to C118: the Barnes-Hut tree of t-SNE.
-/
set_option linter.unusedSectionVars false

namespace Verif.BarnesHut

open Moments (M Fault rd wr forUp divM ok_bind rd_ok wr_ok forUp_zero forUp_succ)

section Octants

variable {K : Type} [Field K] [LinearOrder K] [IsStrictOrderedRing K]

/-- C115.  The first part of `build_subtree` puts the points of a cell into the order of their
octants.  It reads and writes inside the arrays and its loops end; the positions outside the cell
keep their points and no point is lost; each octant gets an interval of positions, the intervals
follow each other and fill the cell, bit `d` of the octant of a point says whether coordinate `d` is
at least that of the centre, and the list of octants names those with points, in order. -/
theorem C115_points_in_octant_order {D n : Nat} {pts center : List K} {X : Nat → Nat → K} {C : Nat → K}
    (hpts : ∀ p < n, ∀ d < D, pts[p * D + d]? = some (X p d))
    (hcen : ∀ d < D, center[d]? = some (C d)) {start stop : Nat} {idx : List Nat}
    (hss : start ≤ stop) (hlen : stop ≤ idx.length)
    (hidx : ∀ i, start ≤ i → i < stop → idx.getD i 0 < n) :
    ∃ (b map idx' : List Nat) (B : Nat → Nat), divide D pts center start stop idx = .ok (b, map, idx') ∧
      idx'.Perm idx ∧ (∀ i, i < start ∨ stop ≤ i → idx'[i]? = idx[i]?) ∧
      (∀ o ≤ 2 ^ D, b[o]? = some (B o)) ∧ B 0 = start ∧ B (2 ^ D) = stop ∧
      (∀ o < 2 ^ D, B o ≤ B (o + 1)) ∧
      (∀ o < 2 ^ D, ∀ i, B o ≤ i → i < B (o + 1) → ∃ p < n, idx'[i]? = some p ∧
        ∀ d < D, (o.testBit d = true ↔ C d ≤ X p d)) ∧
      map.Pairwise (· < ·) ∧ ∀ o, o ∈ map ↔ o < 2 ^ D ∧ B o < B (o + 1) := by
  obtain ⟨b, idx', B, h1, h2, h3, h4, h5, h6, h7, h8, h9⟩ := divide_ok hpts hcen hss hlen hidx
  refine ⟨b, _, idx', B, h1, h6, h7, h2, h3, h4, fun o ho => h5 o (o + 1) (by omega) (by omega), ?_, ?_, ?_⟩
  · intro o ho i hi1 hi2
    have g1 := h5 0 o (by omega) (by omega)
    have g2 := h5 (o + 1) (2 ^ D) (by omega) (by omega)
    refine ⟨idx'.getD i 0, h8 i (by omega) (by omega), getElem?_getD (by rw [h6.length_eq]; omega), ?_⟩
    intro d hd
    rw [← h9 o ho i hi1 hi2, octOf_testBit D C _ d hd, decide_eq_true_eq]
  · exact List.Pairwise.filter _ List.pairwise_lt_range
  · intro o
    rw [List.mem_filter, List.mem_range, decide_eq_true_eq]

/-- Four of six points in the plane, around (1, 1). -/
example : divide 2 ([0, 0, 2, 2, 0, 2, 1, 1, 2, 0, 5, 5] : List ℚ) [1, 1] 1 5 [5, 1, 0, 2, 3, 4] =
    .ok ([1, 2, 2, 3, 5], [0, 2, 3], [5, 0, 2, 1, 3, 4]) := by decide +kernel

end Octants

/-- C116, in full, for a dimension: `build` succeeds for every number of points and every way of
reserving slots that gives free slots and fails only when the arena is full; the memory can be used
for the next call; the width is the greatest extent of the points, or `tiny`; the order has every
point once, and `point_pos` and `sorted_pos` are its inverse and the points in that order; and the
nodes are a tree, in which a node has the number, the first position and the mean of its points,
which lie in a cube that has half the width of its parent's, the children of an inner node divide its
points, and a leaf has at most eight points or is at level 32. -/
def C116_statement (D : Nat) : Prop :=
  ∀ (K : Type) [Field K] [LinearOrder K] [IsStrictOrderedRing K] (σ : Type) (A : Arena σ)
    (used : σ → Nat → Prop) (size : σ → Nat) (n : Nat) (pts : List K) (X : Nat → Nat → K)
    (parts : List (List Nat)) (sched : List Nat) (big low tiny theta floor : K) (m : Mem K),
    0 < n → (∀ p < n, ∀ d < D, pts[p * D + d]? = some (X p d)) →
    A.Ok (capacityOf D n) used size →
    (∀ s path ne s', A.take s path ne = (none, s') → capacityOf D n < size s + ne) →
    parts.flatten.Perm (List.range n) → sched.Perm (List.range n) →
    (∀ p < n, ∀ d < D, low ≤ X p d ∧ X p d ≤ big) → (m.ready = true → MemOk D n m) →
    ∃ t m' W, buildTree A D n 8 pts parts sched big low tiny theta floor m = .ok (t, m') ∧
      MemOk D n m' ∧ tiny ≤ W ∧ (∀ p < n, ∀ p' < n, ∀ d < D, X p d - X p' d ≤ W) ∧
      (W = tiny ∨ ∃ d < D, ∃ p < n, ∃ p' < n, W = X p d - X p' d) ∧
      TreeOk D 8 n False X (W / 2) (threshold (W / 2) theta floor) t

/-- C116 in two and three dimensions: no tree fills the arena. -/
theorem C116_tree_partial : C116_statement 2 ∧ C116_statement 3 := by
  constructor
  · intro K _ _ _ σ A used size n pts X parts sched big low tiny theta floor m hn hpts hA hfail hparts
      hsched hx hm
    refine buildTree_ok A (full := False) (u := 9) (dem := need2) hn hpts hA ?_ (Or.inr need2_step) ?_
      hparts hsched hx m hm
    · intro s path ne s' h
      have := hfail s path ne s' h
      right
      omega
    · right
      unfold need2 capacityOf maxDepth
      by_cases h : n ≤ 8 ∨ (32 : Nat) = 0
      · rw [if_pos h]; omega
      · rw [if_neg h, if_pos (by omega)]; omega
  · intro K _ _ _ σ A used size n pts X parts sched big low tiny theta floor m hn hpts hA hfail hparts
      hsched hx hm
    refine buildTree_ok A (full := False) (u := 9) (dem := need3) hn hpts hA ?_ (Or.inr need3_step) ?_
      hparts hsched hx m hm
    · intro s path ne s' h
      have := hfail s path ne s' h
      right
      omega
    · right
      unfold need3 capacityOf maxDepth
      by_cases h : n ≤ 8 ∨ (32 : Nat) = 0
      · rw [if_pos h]; omega
      · rw [if_neg h]; omega

/-- C116 in any dimension, for any bound of the leaves and any outcome of the reservations that gives
free slots: the tree is right, but a leaf may be larger. -/
theorem C116_any_dimension_partial {K : Type} [Field K] [LinearOrder K] [IsStrictOrderedRing K]
    {σ : Type} (A : Arena σ) {used : σ → Nat → Prop} {size : σ → Nat} {D n thr : Nat} {pts : List K}
    {X : Nat → Nat → K} (hn : 0 < n) (hpts : ∀ p < n, ∀ d < D, pts[p * D + d]? = some (X p d))
    (hA : A.Ok (capacityOf D n) used size) {parts : List (List Nat)}
    (hparts : parts.flatten.Perm (List.range n)) {sched : List Nat} (hsched : sched.Perm (List.range n))
    {big low tiny theta floor : K} (hx : ∀ p < n, ∀ d < D, low ≤ X p d ∧ X p d ≤ big) (m : Mem K)
    (hm : m.ready = true → MemOk D n m) :
    ∃ t m' W, buildTree A D n thr pts parts sched big low tiny theta floor m = .ok (t, m') ∧
      MemOk D n m' ∧ tiny ≤ W ∧ (∀ p < n, ∀ p' < n, ∀ d < D, X p d - X p' d ≤ W) ∧
      (W = tiny ∨ ∃ d < D, ∃ p < n, ∃ p' < n, W = X p d - X p' d) ∧
      TreeOk D thr n True X (W / 2) (threshold (W / 2) theta floor) t :=
  buildTree_ok A (u := 0) (dem := fun _ _ => 0) hn hpts hA (fun _ _ _ _ _ => Or.inl trivial)
    (Or.inl trivial) (Or.inl trivial) hparts hsched hx m hm

/-- Ten points in the plane, all but one at the origin. -/
def tenPoints : List ℚ := List.replicate 18 0 ++ [1, 1]

def blankMem : Mem ℚ := ⟨[], [], [], [], 0, false⟩

/-- The tree of the ten points: a chain of 31 cells with the nine points at the origin. -/
example : (buildTree (Arena.serial (capacityOf 2 10)) 2 10 8 tenPoints [[0, 1, 2], [3, 4, 5, 6, 7, 8, 9]]
    (List.range 10) 100 (-100) (1 / 10000) (1 / 2) (1 / 100) blankMem).map
      (fun r => (r.1.num, r.1.nodes.take 4)) =
    (.ok (34, [⟨[1 / 10, 1 / 10], 10, 0, 1, 2⟩, ⟨[0, 0], 9, 0, 3, 1⟩, ⟨[1, 1], 1, 9, 0, 0⟩,
      ⟨[0, 0], 9, 0, 4, 1⟩]) : M (Nat × List (Node ℚ))) := by decide +kernel

/-- Nine points at each of 0 to 8 on the line. -/
def ninePiles : List ℚ := (List.range 81).map fun i => ((i / 9 : Nat) : ℚ)

/-- C116 does not hold in one dimension: `capacity` is twice the number of points and 64, or 256,
and nine piles of nine equal points need 276 slots. -/
theorem C116_one_dimension_violated : ¬ C116_statement 1 := by
  intro h
  obtain ⟨t, m', W, h1, _, _, _, _, h2⟩ := h ℚ Nat (Arena.serial (capacityOf 1 81)) (fun s k => k < s)
    (fun s => s) 81 ninePiles (fun p _ => ninePiles.getD p 0) [List.range 81] (List.range 81) 100 (-100)
    (1 / 10000) (1 / 2) (1 / 100) blankMem (by omega)
    (by
      intro p hp d hd
      obtain rfl : d = 0 := by omega
      rw [Nat.mul_one, Nat.add_zero, List.getD, List.getElem?_eq_getElem (by simp [ninePiles]; omega)]
      rfl)
    (serial_ok _)
    (by
      intro s path ne s' h
      have h : (if s + ne > capacityOf 1 81 then (none, s) else (some s, s + ne)) = (none, s') := h
      by_cases hc : s + ne > capacityOf 1 81
      · exact hc
      · rw [if_neg hc] at h; cases h)
    (by simp) (List.Perm.refl _)
    (by
      have : ∀ p < 81, (-100 : ℚ) ≤ ninePiles.getD p 0 ∧ ninePiles.getD p 0 ≤ 100 := by decide +kernel
      intro p hp d _
      exact this p hp)
    (by intro h; cases h)
  have h3 := h2.root.shallow
  have h4 : (buildTree (Arena.serial (capacityOf 1 81)) 1 81 8 ninePiles [List.range 81] (List.range 81)
      100 (-100) (1 / 10000) (1 / 2) (1 / 100) blankMem).map
        (fun r => shallow 8 r.1.nodes maxDepth 0) = .ok false := by decide +kernel
  rw [h1] at h4
  have h5 : shallow 8 t.nodes maxDepth 0 = false := Except.ok.inj h4
  rw [h3] at h5
  cases h5

section Forces

variable {K : Type} [Field K] [LinearOrder K] [IsStrictOrderedRing K] {σ : Type}

/-- C117.  `build` followed by `compute_repulsive_forces`: for every number of points, every outcome of
the reservations that gives free slots and every order of the parallel loops, nothing outside an array
is read or written, no stack is too small and all loops end; for each point all points are divided
into bodies, each of which is a single point or does not contain this point and lies in a cube whose
width is at most `theta` times the distance of the point from the mean of the body; the force on the
point is the sum of the forces of these bodies, leaving out the point itself, and the normalisation is
the sum over all points and bodies, or 1 if there is only one point. -/
theorem C117_repulsive_forces (A : Arena σ) {used : σ → Nat → Prop} {size : σ → Nat} {D n thr : Nat}
    {pts : List K} {X : Nat → Nat → K} (hn : 0 < n)
    (hpts : ∀ p < n, ∀ d < D, pts[p * D + d]? = some (X p d))
    (hA : A.Ok (capacityOf D n) used size) {parts : List (List Nat)}
    (hparts : parts.flatten.Perm (List.range n)) {sched : List Nat} (hsched : sched.Perm (List.range n))
    {big low tiny theta floor : K} (hx : ∀ p < n, ∀ d < D, low ≤ X p d ∧ X p d ≤ big) (m : Mem K)
    (hm : m.ready = true → MemOk D n m) (hfloor : 0 ≤ floor) {rep sums : List K}
    (hrep : rep.length = n * D) {order : List Nat} (horder : order.Perm (List.range ((n + 3) / 4))) :
    ∃ t m' rep' total sums',
      buildTree A D n thr pts parts sched big low tiny theta floor m = .ok (t, m') ∧ MemOk D n m' ∧
      repulsiveForces D n (1 + floor) t pts rep sums order = .ok (rep', total, sums') ∧
      rep'.length = n * D ∧
      ∃ B : Nat → List (List Nat), (∀ i < n, (B i).flatten.Perm (List.range n) ∧
        (∀ S ∈ B i, MayJoin D X theta floor i S) ∧
        ∀ d < D, rep'[i * D + d]? = some ((B i).map (force D (1 + floor) X i d)).sum) ∧
        total = if n = 1 then 1
          else ∑ i ∈ Finset.range n, ((B i).map (share D (1 + floor) X i)).sum := by
  have heps : 0 < 1 + floor := by linarith
  obtain ⟨t, m', W, h1, h2, _, _, _, h6⟩ := C116_any_dimension_partial A (thr := thr) (tiny := tiny)
    (theta := theta) (floor := floor) hn hpts hA hparts hsched hx m hm
  obtain ⟨L, rep', total, sums', g1, g2, g3, g4⟩ := repulsiveForces_ok (sums := sums) heps hpts h6 hrep horder
  obtain ⟨B, k1, k2⟩ := forces_points heps hn h6.perm g3 g4
  exact ⟨t, m', rep', total, sums', h1, h2, g1, g2, B, k1, k2⟩

/-- C117 for `theta = 0`: the forces are those of all other points, one by one. -/
theorem C117_exact_forces (A : Arena σ) {used : σ → Nat → Prop} {size : σ → Nat} {D n thr : Nat}
    {pts : List K} {X : Nat → Nat → K} (hn : 0 < n)
    (hpts : ∀ p < n, ∀ d < D, pts[p * D + d]? = some (X p d))
    (hA : A.Ok (capacityOf D n) used size) {parts : List (List Nat)}
    (hparts : parts.flatten.Perm (List.range n)) {sched : List Nat} (hsched : sched.Perm (List.range n))
    {big low tiny floor : K} (hx : ∀ p < n, ∀ d < D, low ≤ X p d ∧ X p d ≤ big) (m : Mem K)
    (hm : m.ready = true → MemOk D n m) (hfloor : 0 ≤ floor) {rep sums : List K}
    (hrep : rep.length = n * D) {order : List Nat} (horder : order.Perm (List.range ((n + 3) / 4))) :
    ∃ t m' rep' total sums',
      buildTree A D n thr pts parts sched big low tiny 0 floor m = .ok (t, m') ∧
      repulsiveForces D n (1 + floor) t pts rep sums order = .ok (rep', total, sums') ∧
      ∀ i < n, ∀ d < D, rep'[i * D + d]? = some (∑ j ∈ (Finset.range n).erase i,
        (X i d - X j d) / (sqDist D (X i) (X j) + (1 + floor)) ^ 2) := by
  obtain ⟨t, m', rep', total, sums', h1, _, h3, _, B, h5, _⟩ := C117_repulsive_forces A (thr := thr)
    (tiny := tiny) (theta := 0) (sums := sums) hn hpts hA hparts hsched hx m hm hfloor hrep horder
  refine ⟨t, m', rep', total, sums', h1, h3, ?_⟩
  intro i hi d hd
  obtain ⟨g1, g2, g3⟩ := h5 i hi
  rw [g3 d hd, force_exact hi g1]
  intro S hS
  rcases g2 S hS with h | h
  · exact h
  · exact absurd h.2.1 (lt_irrefl _)

/-- Four points and two far ones, which are taken together by the four, as these are by the two. -/
example : (do
    let r ← buildTree (Arena.serial (capacityOf 1 6)) 1 6 1 [0, 101, 1, 2, 100, 3] [[2, 0, 5], [1, 4, 3]]
      [2, 0, 1, 5, 4, 3] 1000 (-1000) (1 / 10000) 1 (0 : ℚ) blankMem
    let f ← repulsiveForces 1 6 1 r.1 [0, 101, 1, 2, 100, 3] (List.replicate 6 7) [] [1, 0]
    .ok (r.1.idx, f.1[0]?, f.1[1]?)) =
    (.ok ([0, 2, 3, 5, 4, 1],
      some (-1 / 2 ^ 2 - 2 / 5 ^ 2 - 3 / 10 ^ 2 + 2 * (0 - 201 / 2) / ((201 / 2) ^ 2 + 1) ^ 2),
      some (1 / 2 ^ 2 + 4 * (101 - 3 / 2) / ((101 - 3 / 2) ^ 2 + 1) ^ 2)) :
      M (List Nat × Option ℚ × Option ℚ)) := by decide +kernel

/-- With `theta = 0` they are not. -/
example : (do
    let r ← buildTree (Arena.serial (capacityOf 1 6)) 1 6 1 [0, 101, 1, 2, 100, 3] [[2, 0, 5], [1, 4, 3]]
      [2, 0, 1, 5, 4, 3] 1000 (-1000) (1 / 10000) 0 (0 : ℚ) blankMem
    let f ← repulsiveForces 1 6 1 r.1 [0, 101, 1, 2, 100, 3] (List.replicate 6 7) [] [1, 0]
    .ok f.1[0]?) =
    (.ok (some (-1 / 2 ^ 2 - 2 / 5 ^ 2 - 3 / 10 ^ 2 - 100 / (100 ^ 2 + 1) ^ 2 - 101 / (101 ^ 2 + 1) ^ 2)) :
      M (Option ℚ)) := by decide +kernel

end Forces

namespace Slots

/-- C118, in full: however the accesses of the tasks to `num_nodes` follow each other, at the end,
when every request that was too large has been taken back, the blocks that were given are in the
arena, have no slot in common, and lie below `num_nodes`. -/
def C118_statement : Prop := ∀ (capacity : Nat) (evs : List Ev) (s : St), 1 ≤ capacity →
  run capacity evs = some s → s.pending = [] → Sound capacity s

/-- C118 does not hold: with 100 of 102 slots in use, a request for three that is too large raises the
counter to 103, one for one slot then fails as well and leaves it at 104; the first task takes its
three back, a request gets slot 101, the second task takes its one back, and the next request gets
slot 101 again. -/
theorem C118_slots_given_twice : ¬ C118_statement := by
  intro h
  exact absurd (h 102 [.ask 99, .ask 3, .ask 1, .back 0, .ask 1, .back 0, .ask 1]
    ⟨102, [], [(1, 99), (101, 1), (101, 1)]⟩ (by omega) (by decide) rfl) (by decide)

/-- C118 does not hold in another way: a block that was given lies above `num_nodes` at the end, where
the traversal skips it. -/
theorem C118_slots_skipped : ∃ s, run 102 [.ask 99, .ask 3, .ask 1, .back 0, .ask 1, .back 0] = some s ∧
    s.pending = [] ∧ (101, 1) ∈ s.given ∧ s.num = 101 :=
  ⟨⟨101, [], [(1, 99), (101, 1)]⟩, by decide, rfl, by simp, rfl⟩

/-- C118 when everything that is asked for fits into the arena, as C116 shows for two and three
dimensions: nothing is refused, and the blocks are right in every execution. -/
theorem C118_all_fits_partial (capacity : Nat) (evs : List Ev) (s : St)
    (hfit : 1 + asked evs ≤ capacity) (hr : run capacity evs = some s) :
    Sound capacity s ∧ s.pending = [] ∧ s.num = 1 + asked evs :=
  fits_ok capacity evs ⟨1, [], []⟩ s rfl (Nat.le_refl _) ⟨by simp, by simp⟩ hfit hr

/-- C118 when no request is made while another one is still to be taken back, as with one thread. -/
theorem C118_calm_partial (capacity : Nat) (evs : List Ev) (s : St)
    (hcalm : Calm capacity ⟨1, [], []⟩ evs) (hr : run capacity evs = some s) (hp : s.pending = []) :
    Sound capacity s :=
  calm_ok capacity hcalm s (Nat.le_refl _) (Or.inl ⟨rfl, by simp, by simp⟩) hr hp

example : run 10 [.ask 4, .ask 2, .ask 3] = some ⟨10, [], [(1, 4), (5, 2), (7, 3)]⟩ := by decide

example : run 8 [.ask 4, .ask 5, .back 0, .ask 3] = some ⟨8, [], [(1, 4), (5, 3)]⟩ := by decide

example : Calm 8 ⟨1, [], []⟩ [.ask 4, .ask 5, .back 0, .ask 3] :=
  .ask rfl rfl (.ask rfl rfl (.back rfl (.ask rfl rfl (.nil _))))

end Slots

end Verif.BarnesHut
