import Verif.ApproxNn.Blocks
import Mathlib.Data.Rat.Defs
import Mathlib.Algebra.Order.Ring.Rat
import Mathlib.Algebra.Field.Rat

/-
C126 and C127: what a search returns, and the sizes of its blocks.
-/
namespace Verif.ApproxNn

set_option linter.unusedSectionVars false

open Moments (M Fault)

variable {K : Type} [Field K] [LinearOrder K] [IsStrictOrderedRing K]

/-- What the library sets up for a search: an index that holds the rows `rows 0, ..., rows (N-1)`, each in a list,
numbered from `base`; the centroids, their squared norms if the metric is Euclidean, and the queries in memory;
work arrays and results of the right sizes; blocks done in some order. -/
structure Setup (eu : Bool) (F k nlist nprobe qb lb : Nat) (cent : List K) (ldc : Nat) (cnorm : List K)
    (X : List K) (ldx nq : Nat) (rows : Nat → Nat → K) (near : Nat → Nat) (base N : Nat) (s : Index K)
    (ob : List Nat) (b : Bufs K) (ind : List Nat) (dst : List K) : Prop where
  hk : 0 < k
  hprobe : 0 < nprobe ∧ nprobe ≤ nlist
  hnear : ∀ g < N, near g < nlist
  hindex : Stores eu F nlist rows near base N s
  list : 0 < lb
  hcent : Covers true cent ldc nlist F
  queries : Covers true X ldx nq F
  norms : eu = true → ∀ c < nlist, cnorm[c]? = some (∑ l ∈ Finset.range F, rowOf true cent ldc c l ^ 2)
  blocks : ∃ nb rem, Blocking.blockingScheme nq qb = some (nb, rem) ∧ ob.Perm (List.range nb)
  coarse : b.coarse.length = qb * nlist
  fine : b.fine.length = qb * lb
  gathered : b.queries.length = qb * F
  lists : b.qpc.length = nlist * qb
  results : nq * k ≤ ind.length ∧ nq * k ≤ dst.length

/-- Row `q` of the results is the answer for the candidates `C`: `k` neighbours (the number of the row plus one)
with their distances, in ascending order, nearest candidates first; when there are fewer candidates the rest is
-1 (that is, 0 here) with an infinite distance. -/
def Result (k : Nat) (inf : K) (C : List (Nat × K)) (q : Nat) (ind : List Nat) (dst : List K) : Prop :=
  ∃ kept rest : List (Nat × K), (kept ++ rest).Perm C ∧ (∀ p ∈ kept, ∀ r ∈ rest, p.2 ≤ r.2) ∧ kept.length = min k C.length ∧
    kept.Pairwise (fun p r => p.2 ≤ r.2) ∧
    ∀ a < k, ind[q * k + a]? = some (kept.getD a (0, inf)).1 ∧ dst[q * k + a]? = some (kept.getD a (0, inf)).2

theorem result_of {k q : Nat} {inf : K} {C row : List (Nat × K)} {ind : List Nat} {dst : List K}
    (h : Answer k inf C row) (hr : RowIs k q row ind dst) : Result k inf C q ind dst := by
  obtain ⟨kept, rest, h1, h2, h3, h4, h5⟩ := h
  refine ⟨kept, rest, h1, h2, h3, h4, ?_⟩
  intro a ha
  refine hr.2 a _ ?_
  rw [h5]
  by_cases hk : a < kept.length
  · rw [List.getElem?_append_left hk]
    simp [hk]
  · rw [List.getElem?_append_right (by omega), List.getElem?_replicate, if_pos (by omega)]
    simp [List.getD, List.getElem?_eq_none (show kept.length ≤ a by omega)]

/-- C126: for every query there are `nprobe` nearest centroids such that the result is the answer for the rows
in their lists. -/
def C126_statement : Prop :=
  ∀ (eu : Bool) (top inf : ℚ) (F k nlist nprobe qb lb : Nat) (cent : List ℚ) (ldc : Nat) (cnorm : List ℚ)
    (X : List ℚ) (ldx nq : Nat) (rows : Nat → Nat → ℚ) (near : Nat → Nat) (base N : Nat) (s : Index ℚ)
    (ob : List Nat) (b : Bufs ℚ) (ind : List Nat) (dst : List ℚ), top < inf →
    Setup eu F k nlist nprobe qb lb cent ldc cnorm X ldx nq rows near base N s ob b ind dst →
    ∃ ind' dst', search eu top inf F k nlist nprobe qb lb cent ldc cnorm X ldx nq s ob b ind dst = .ok (ind', dst') ∧
      ∀ q < nq, ∃ S, IsProbes nlist nprobe (fun c => dist eu F (rowOf true X ldx q) (rowOf true cent ldc c)) S ∧
        Result k inf (((List.range N).filter fun g => near g ∈ S).map fun g =>
          (base + g + 1, dist eu F (rowOf true X ldx q) (rows g))) q ind' dst'

/-- C126 when the distances from the queries to the centroids are below `top`, the largest number of the type:
the result is the answer for those rows of the probed lists that are nearer than `top`.  Missing for the full
property: distances that reach `top`, for which it fails. -/
theorem C126_search_partial {eu : Bool} {top inf : K} {F k nlist nprobe qb lb : Nat} {cent : List K} {ldc : Nat}
    {cnorm : List K} {X : List K} {ldx nq : Nat} {rows : Nat → Nat → K} {near : Nat → Nat} {base N : Nat}
    {s : Index K} {ob : List Nat} {b : Bufs K} {ind : List Nat} {dst : List K} (hti : top < inf)
    (h : Setup eu F k nlist nprobe qb lb cent ldc cnorm X ldx nq rows near base N s ob b ind dst)
    (ht : ∀ q < nq, ∀ c < nlist, dist eu F (rowOf true X ldx q) (rowOf true cent ldc c) < top) :
    ∃ ind' dst', search eu top inf F k nlist nprobe qb lb cent ldc cnorm X ldx nq s ob b ind dst = .ok (ind', dst') ∧
      ind'.length = ind.length ∧ dst'.length = dst.length ∧
      ∀ q < nq, ∃ S, IsProbes nlist nprobe (fun c => dist eu F (rowOf true X ldx q) (rowOf true cent ldc c)) S ∧
        Result k inf (((List.range N).filter fun g => near g ∈ S ∧ dist eu F (rowOf true X ldx q) (rows g) < top).map
          fun g => (base + g + 1, dist eu F (rowOf true X ldx q) (rows g))) q ind' dst' := by
  obtain ⟨nb, rem, hb1, hb2⟩ := h.blocks
  obtain ⟨ind', dst', h1, h2, h3, h4⟩ := search_ok h.hk h.hprobe.1 h.hprobe.2 hti.le h.hindex.points (Or.inl h.list)
    h.hcent h.queries h.norms ht hb1 hb2 ⟨h.coarse, h.fine, h.gathered, h.lists⟩ h.results.1 h.results.2
  refine ⟨ind', dst', h1, h2, h3, ?_⟩
  intro q hq
  obtain ⟨S, row, g1, g2, g3⟩ := h4 q hq
  refine ⟨S, g1, result_of (g2.perm ?_) g3⟩
  refine ((cands_perm h.hnear S _).filter _).trans (List.Perm.of_eq ?_)
  rw [List.filter_map, List.filter_filter]
  congr 1
  apply List.filter_congr
  intro g _
  rw [Bool.eq_iff_iff]
  simp [and_comm]

/-- When moreover all rows are nearer than `top` and all lists are probed, the search is exact: the result is the
answer for all rows. -/
theorem C126_exact_when_all_probed {eu : Bool} {top inf : K} {F k nlist qb lb : Nat} {cent : List K} {ldc : Nat}
    {cnorm : List K} {X : List K} {ldx nq : Nat} {rows : Nat → Nat → K} {near : Nat → Nat} {base N : Nat}
    {s : Index K} {ob : List Nat} {b : Bufs K} {ind : List Nat} {dst : List K} (hti : top < inf)
    (h : Setup eu F k nlist nlist qb lb cent ldc cnorm X ldx nq rows near base N s ob b ind dst)
    (ht : ∀ q < nq, ∀ c < nlist, dist eu F (rowOf true X ldx q) (rowOf true cent ldc c) < top)
    (hr : ∀ q < nq, ∀ g < N, dist eu F (rowOf true X ldx q) (rows g) < top) :
    ∃ ind' dst', search eu top inf F k nlist nlist qb lb cent ldc cnorm X ldx nq s ob b ind dst = .ok (ind', dst') ∧
      ∀ q < nq, Result k inf ((List.range N).map fun g =>
        (base + g + 1, dist eu F (rowOf true X ldx q) (rows g))) q ind' dst' := by
  obtain ⟨ind', dst', h1, _, _, h4⟩ := C126_search_partial hti h ht
  refine ⟨ind', dst', h1, ?_⟩
  intro q hq
  obtain ⟨S, g1, g2⟩ := h4 q hq
  have e : ((List.range N).filter fun g => near g ∈ S ∧ dist eu F (rowOf true X ldx q) (rows g) < top) =
      List.range N := by
    rw [List.filter_eq_self]
    intro g hg
    have hg' := List.mem_range.1 hg
    simpa using ⟨isProbes_all g1 _ (h.hnear g hg'), hr q hq g hg'⟩
  rw [e] at g2
  exact g2

/-- Three rows in two lists, the queries 0 and 10, one of the two lists probed and then both; `k = 2`. -/
def exIndex : Index ℚ := ⟨[2, 1], [0, 0], [[1, -1], [8]], [[1, 1], [64]], [[0, 2], [1]], 3, true⟩

example : search true 1000 2000 1 2 2 1 1 5 [0, 9] 1 [0, 81] [0, 10] 1 2 exIndex [1, 0]
      ⟨[0, 0], [0, 0, 0, 0, 0], [0], [0, 0], fun _ => 0⟩ [9, 9, 9, 9] [9, 9, 9, 9] =
    .ok ([1, 3, 2, 0], [1, 1, 4, 2000]) := by decide +kernel

example : search true 1000 2000 1 2 2 2 2 1 [0, 9] 1 [0, 81] [0, 10] 1 2 exIndex [0]
      ⟨[0, 0, 0, 0], [0, 0], [0, 0], [0, 0, 0, 0], fun _ => 0⟩ [9, 9, 9, 9] [9, 9, 9, 9] =
    .ok ([1, 3, 2, 1], [1, 1, 4, 81]) := by decide +kernel

/-- The property does not hold: when a distance to a centroid reaches `top` (it overflows), the centroid is not
put on the heap, and the heap's indices that were never written, zero in a new array, are taken for centroids.
Here list 0 is recorded twice for the query, the second time in the row of list 1 of the table, and list 1, which
holds the only row, is not searched. -/
theorem C126_overflow_violated : ¬ C126_statement := by
  intro H
  have hs : Stores true 1 2 (fun _ _ => (100 : ℚ)) (fun _ => 1) 0 1 ⟨[0, 1], [0, 0], [[], [100]], [[], [10000]], [[], [0]], 1, true⟩ := by
    refine ⟨rfl, by decide, by decide, ?_, ?_⟩
    · decide +kernel
    · simp [members, List.range_succ]
      norm_num
  obtain ⟨ind', dst', e, hq⟩ := H true 1000 2000 1 1 2 2 1 1 [100, 100] 1 [10000, 10000] [0] 1 1 (fun _ _ => 100) (fun _ => 1) 0 1
    ⟨[0, 1], [0, 0], [[], [100]], [[], [10000]], [[], [0]], 1, true⟩ [0] ⟨[0, 0], [0], [0], [0, 0], fun _ => 0⟩ [9] [9]
    (by norm_num)
    ⟨by omega, by omega, by intro g _; omega, hs, by omega, by
      intro i hi j hj
      have : i = 0 ∨ i = 1 := by omega
      have : j = 0 := by omega
      simp [pos]; omega, by
      intro i hi j hj
      simp [pos]; omega, by
      intro _ c hc
      have : c = 0 ∨ c = 1 := by omega
      rcases this with rfl | rfl <;> simp [rowOf, pos] <;> norm_num,
      ⟨1, 0, by decide, by decide⟩, rfl, rfl, rfl, rfl, by decide⟩
  have : search true 1000 2000 1 1 2 2 1 1 [100, 100] 1 [10000, 10000] [0] 1 1
    ⟨[0, 1], [0, 0], [[], [100]], [[], [10000]], [[], [0]], 1, true⟩ [0] ⟨[0, 0], [0], [0], [0, 0], fun _ => 0⟩ [9] [9] =
    .ok ([0], [(2000 : ℚ)]) := by decide +kernel
  rw [this] at e
  simp only [Except.ok.injEq, Prod.mk.injEq] at e
  obtain ⟨e1, e2⟩ := e
  subst e1 e2
  obtain ⟨S, h1, h2⟩ := hq 0 (by omega)
  have hm : 1 ∈ S := isProbes_all h1 1 (by omega)
  obtain ⟨kept, rest, g1, g2, g3, g4, g5⟩ := h2
  have hl : kept.length = 1 := by rw [g3]; simp [List.range_succ, hm]
  have := (g5 0 (by omega)).1
  have hmem : kept.getD 0 (0, 2000) ∈ kept ++ rest := by
    cases kept with
    | nil => simp at hl
    | cons a l => simp
  have hmem := g1.mem_iff.1 hmem
  simp [List.range_succ, hm] at hmem
  simp [hmem] at this

/-! The sizes of the blocks. -/

/-- C127: for numbers of features, queries and threads from one on, the search picks a positive number of queries
per block, at most the number of queries per thread, and a number of vectors per block up to the size of the
largest list, positive if that is, such that the work arrays stay within the budget.  `imax` is the largest
`da_int`, 2^31 - 1 or 2^63 - 1, and `budget` is 2^20 or 2^21. -/
def C127_statement : Prop :=
  ∀ imax budget f nq threads maxList : Nat, imax = 2 ^ 31 - 1 ∨ imax = 2 ^ 63 - 1 → budget = 2 ^ 20 ∨ budget = 2 ^ 21 →
    1 ≤ f → f ≤ imax → 1 ≤ nq → 1 ≤ threads →
    ∃ q l : Int, blockSizes imax budget f nq threads maxList = .sizes q l ∧ 1 ≤ q ∧
      q ≤ max 1 ((nq / threads : Nat) : Int) ∧ 0 ≤ l ∧ l ≤ maxList ∧ (1 ≤ maxList → 1 ≤ l) ∧ q * l + (q + l) * f ≤ budget

/-- The property does not hold: with 64-bit integers and 524288 features the number of queries per block is zero,
by which `blocking_scheme` then divides. -/
theorem C127_zero_block_violated : ¬ C127_statement := by
  intro H
  obtain ⟨q, l, e, h1, _⟩ := H (2 ^ 63 - 1) (2 ^ 20) 524288 1 1 1 (Or.inr rfl) (Or.inl rfl) (by norm_num) (by norm_num)
    (by norm_num) (by norm_num)
  rw [blockSizes_zero (by norm_num) (by norm_num)] at e
  simp only [Sizes.sizes.injEq] at e
  omega

/-- Nor does it hold with 32-bit integers: the square of the number of features overflows. -/
theorem C127_square_violated : ¬ C127_statement := by
  intro H
  obtain ⟨q, l, e, h1, _⟩ := H (2 ^ 31 - 1) (2 ^ 20) 46341 1 1 1 (Or.inl rfl) (Or.inl rfl) (by norm_num) (by norm_num)
    (by norm_num) (by norm_num)
  rw [blockSizes, if_pos (by norm_num)] at e
  simp at e

/-- C127 for all numbers of features below half the budget whose square plus the budget is representable.
Missing for the full property: the other numbers of features, for which it fails. -/
theorem C127_block_sizes_partial {imax budget f nq threads maxList : Nat} (hi : f * f + budget ≤ imax)
    (hf : 2 * f + 1 ≤ budget) :
    ∃ q l : Int, blockSizes imax budget f nq threads maxList = .sizes q l ∧ 1 ≤ q ∧
      q ≤ max 1 ((nq / threads : Nat) : Int) ∧ 0 ≤ l ∧ l ≤ maxList ∧ (1 ≤ maxList → 1 ≤ l) ∧
      q * l + (q + l) * f ≤ budget :=
  blockSizes_ok hi hf

/-- The assumptions are exactly what it takes: without them the product overflows or both sizes are zero. -/
theorem C127_exact_extent {imax budget f nq threads maxList : Nat} :
    (imax < f * f + budget → blockSizes imax budget f nq threads maxList = .overflow) ∧
    (f * f + budget ≤ imax → budget < 2 * f + 1 → blockSizes imax budget f nq threads maxList = .sizes 0 0) :=
  ⟨fun h => by rw [blockSizes, if_pos h], fun h1 h2 => blockSizes_zero h1 h2⟩

/-- The block size of `add` is positive and at most the number of rows per thread, and a block's distances for
all threads stay within the budget unless a block has a single row. -/
theorem C127_add_block_size {budget n threads nlist : Nat} (ht : 1 ≤ threads) (hn : 1 ≤ nlist) :
    1 ≤ addBlockSize budget n threads nlist ∧ addBlockSize budget n threads nlist ≤ max 1 (n / threads) ∧
    (addBlockSize budget n threads nlist = 1 ∨ addBlockSize budget n threads nlist * (threads * nlist) ≤ budget) := by
  have e : max 1 nlist = nlist := by omega
  have hp : 0 < threads * nlist := Nat.mul_pos ht hn
  obtain ⟨d, hd⟩ : ∃ d, d = budget / (threads * nlist) := ⟨_, rfl⟩
  have h := Nat.div_mul_le_self budget (threads * nlist)
  simp only [addBlockSize, e, ← hd]
  rw [← hd] at h
  refine ⟨by omega, by omega, ?_⟩
  by_cases h1 : min (max 1 (n / threads)) (max 1 d) = 1
  · exact Or.inl h1
  · right
    have : min (max 1 (n / threads)) (max 1 d) ≤ d := by omega
    exact (Nat.mul_le_mul_right _ this).trans h

example : blockSizes (2 ^ 63 - 1) (2 ^ 20) 128 10000 8 5000 = .sizes 903 903 := by decide +kernel

example : blockSizes (2 ^ 63 - 1) (2 ^ 20) 128 100 8 5000 = .sizes 12 5000 := by decide +kernel

example : addBlockSize (2 ^ 23) 1000000 8 1024 = 1024 := by decide

end Verif.ApproxNn
