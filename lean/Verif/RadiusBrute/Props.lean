/-
C32: brute-force radius neighbours are complete, symmetric and schedule independent.
-/
import Verif.RadiusBrute.Proof
import Verif.Dbscan.Props
import Mathlib.Algebra.Order.Field.Rat
import Mathlib.Tactic.NormNum
namespace Verif.RadiusBrute
open Verif.Dbscan (IsTable IsClustering Core Linked)

variable {K : Type} [Field K] [LinearOrder K]

/-- The distance the user asked for, by the documentation of `da_metric`. -/
def userDist (d : Kernels K) (metric : Metric) (p : K) (i j : Nat) : K :=
  if metric = .euclidean ∨ metric = .euclideanGemm then d.euclid i j
  else if metric = .sqeuclidean ∨ metric = .sqeuclideanGemm then d.euclid i j * d.euclid i j
  else if metric = .minkowski then d.minkowski p i j
  else d.other metric i j

/-- What the kernels compute is symmetric, Euclidean distances are not negative, and the Minkowski
distance with power 2 is the Euclidean one. -/
structure Valid (d : Kernels K) : Prop where
  euclid_symm : ∀ i j, d.euclid i j = d.euclid j i
  euclid_nonneg : ∀ i j, 0 ≤ d.euclid i j
  mink_symm : ∀ p i j, d.minkowski p i j = d.minkowski p j i
  mink_two : ∀ i j, d.minkowski 2 i j = d.euclid i j
  other_symm : ∀ m i j, d.other m i j = d.other m j i

theorem userDist_symm {d : Kernels K} (h : Valid d) (m : Metric) (p : K) (i j : Nat) :
    userDist d m p i j = userDist d m p j i := by
  unfold userDist
  rw [h.euclid_symm i j, h.mink_symm p i j, h.other_symm m i j]

/-- C32, full statement. -/
def C32_statement : Prop :=
  ∀ (d : Kernels ℚ) (n : Nat) (metric : Metric) (p eps : ℚ) (threads : List (List Nat)),
    Valid d → 0 < n → 0 ≤ eps → threads.flatten.Perm (List.range (iterations n)) →
    ∃ nb, brute d n metric p eps threads = some nb ∧
      IsTable n (fun i j => decide (userDist d metric p i j ≤ eps)) nb

theorem iterations_eq {n nb rem : Nat} (h : Blocking.blockingScheme n (min 256 n) = some (nb, rem)) :
    iterations n = tri nb := by
  simp only [iterations, h, tri]

/-- The table in terms of the test the routine performs. -/
theorem brute_table {d : Kernels K} (n : Nat) (metric : Metric) (p eps : K)
    (threads : List (List Nat)) (hn : 0 < n) (hth : threads.flatten.Perm (List.range (iterations n)))
    (w : Nat → Nat → Bool) (hw : ∀ i j, near d metric p eps (min i j) (max i j) ↔ w i j = true) :
    ∃ nb, brute d n metric p eps threads = some nb ∧ IsTable n w nb := by
  obtain ⟨nbk, rem, hs⟩ : ∃ nbk rem, Blocking.blockingScheme n (min 256 n) = some (nbk, rem) := by
    unfold Blocking.blockingScheme
    rw [if_neg (by omega)]
    exact ⟨_, _, rfl⟩
  rw [iterations_eq hs] at hth
  obtain ⟨hnd, hmem⟩ := all_pushes (scheme hs) d metric p eps threads hth
  unfold brute
  simp only [hs]
  rw [if_pos]
  swap
  · simp only [List.all_eq_true, decide_eq_true_eq, List.mem_map]
    rintro l ⟨ks, hks, rfl⟩ ⟨i, j⟩ hx
    exact ((hmem i j).mp (List.mem_flatMap.mpr ⟨ks, hks, hx⟩)).2.1
  refine ⟨_, rfl, by simp, ?_, ?_⟩
  · intro i l hl j
    rw [List.getElem?_map] at hl
    obtain ⟨i', hi', rfl⟩ := Option.map_eq_some_iff.mp hl
    obtain ⟨hin, rfl⟩ := List.getElem?_eq_some_iff.mp hi'
    simp only [List.getElem_range, List.length_range] at hin ⊢
    rw [List.flatMap_map]
    simp only [List.mem_flatMap, List.mem_filterMap, Option.ite_none_right_eq_some, Option.some.injEq]
    have := hmem i j
    rw [hw, List.mem_flatMap] at this
    constructor
    · rintro ⟨ks, hks, ⟨a, b⟩, hx, rfl, rfl⟩
      have := this.mp ⟨ks, hks, List.mem_flatMap.mpr hx⟩
      exact ⟨this.2.2.1, fun e => this.1 e.symm, this.2.2.2⟩
    · rintro ⟨hj, hne, hww⟩
      obtain ⟨ks, hks, hx⟩ := this.mpr ⟨fun e => hne e.symm, hin, hj, hww⟩
      exact ⟨ks, hks, (i, j), List.mem_flatMap.mp hx, rfl, rfl⟩
  · intro i l hl
    rw [List.getElem?_map] at hl
    obtain ⟨i', hi', rfl⟩ := Option.map_eq_some_iff.mp hl
    have hnod := filterMap_nodup _ hnd i'
    rw [List.filterMap_flatMap] at hnod
    rw [List.flatMap_map]
    exact hnod

variable [IsStrictOrderedRing K]

/-- C32 (every metric except Minkowski with power 2, which is the case where the full statement is
false).  For every data set, every distribution of the loop over any number of threads and every
order within a thread, the table lists for each sample exactly the other samples whose distance
under the chosen metric is at most eps, each once. -/
theorem C32_brute_exact_partial (d : Kernels K) (n : Nat) (metric : Metric) (p eps : K) (threads : List (List Nat))
    (hd : Valid d) (hn : 0 < n) (heps : 0 ≤ eps) (hm : ¬ (metric = .minkowski ∧ p = 2))
    (hth : threads.flatten.Perm (List.range (iterations n))) :
    ∃ nb, brute d n metric p eps threads = some nb ∧
      IsTable n (fun i j => decide (userDist d metric p i j ≤ eps)) nb := by
  refine brute_table n metric p eps threads hn hth _ ?_
  intro i j
  have hsymm : userDist d metric p (min i j) (max i j) = userDist d metric p i j := by
    rcases Nat.le_total i j with h | h
    · rw [Nat.min_eq_left h, Nat.max_eq_right h]
    · rw [Nat.min_eq_right h, Nat.max_eq_left h, userDist_symm hd]
  rw [decide_eq_true_eq, ← hsymm]
  generalize min i j = a
  generalize max i j = b
  unfold near metricInternal epsInternal userDist
  cases metric with
  | euclideanGemm =>
    simp only [true_or, or_true, if_true, entry]
    rw [← pow_two, pow_le_pow_iff_left₀ (hd.euclid_nonneg a b) heps (by norm_num)]
  | minkowski =>
    have : p ≠ 2 := fun h => hm ⟨rfl, h⟩
    simp [this, entry]
  | _ => simp [entry, pow_two]

/-- Three samples on a line at 0, 1 and 3. -/
def exKernels : Kernels ℚ where
  euclid i j := |([0, 1, 3].getD i 0 : ℚ) - [0, 1, 3].getD j 0|
  minkowski _ i j := |([0, 1, 3].getD i 0 : ℚ) - [0, 1, 3].getD j 0|
  other _ i j := |([0, 1, 3].getD i 0 : ℚ) - [0, 1, 3].getD j 0|

theorem exValid : Valid exKernels :=
  ⟨fun _ _ => abs_sub_comm _ _, fun _ _ => abs_nonneg _, fun _ _ _ => abs_sub_comm _ _, fun _ _ => rfl,
    fun _ _ _ => abs_sub_comm _ _⟩

example : iterations 3 = 1 ∧ brute exKernels 3 .euclideanGemm 2 2 [[], [0]] = some [[1], [0, 2], [1]] ∧
    iterations 600 = 6 := by decide +kernel

omit [IsStrictOrderedRing K] in
/-- C32, the remaining case.  With Minkowski power 2 (its default) the table lists the samples whose
squared distance is at most eps. -/
theorem C32_minkowski_two (d : Kernels K) (n : Nat) (eps : K) (threads : List (List Nat))
    (hd : Valid d) (hn : 0 < n) (hth : threads.flatten.Perm (List.range (iterations n))) :
    ∃ nb, brute d n .minkowski 2 eps threads = some nb ∧
      IsTable n (fun i j => decide (d.minkowski 2 i j ^ 2 ≤ eps)) nb := by
  refine brute_table n .minkowski 2 eps threads hn hth _ ?_
  intro i j
  have hsymm : d.euclid (min i j) (max i j) = d.minkowski 2 i j := by
    rw [hd.mink_two]
    rcases Nat.le_total i j with h | h
    · rw [Nat.min_eq_left h, Nat.max_eq_right h]
    · rw [Nat.min_eq_right h, Nat.max_eq_left h, hd.euclid_symm]
  simp [near, metricInternal, epsInternal, entry, hsymm]

/-- C32.  The full statement is false: two samples 1/2 apart are reported as neighbours for eps 1/3
under the Minkowski metric with power 2. -/
theorem C32_minkowski_violated : ¬ C32_statement := by
  intro h
  let d : Kernels ℚ := ⟨fun i j => if i = j then 0 else 1/2, fun _ i j => if i = j then 0 else 1/2, fun _ i j => if i = j then 0 else 1/2⟩
  have hs : ∀ i j : Nat, (if i = j then (0 : ℚ) else 1/2) = if j = i then 0 else 1/2 := by
    intro i j; simp only [eq_comm]
  have hd : Valid d := ⟨hs, fun i j => by simp only [d]; split <;> norm_num, fun _ => hs, fun _ _ => rfl, fun _ => hs⟩
  obtain ⟨nb, h1, h2⟩ := h d 2 .minkowski 2 (1/3) [[0]] hd (by norm_num) (by norm_num) (by decide)
  have e : brute d 2 .minkowski 2 (1/3) [[0]] = some [[1], [0]] := by decide +kernel
  rw [e] at h1
  cases h1
  have := (h2.mem 0 [1] rfl 1).mp (by simp)
  simp [userDist, d] at this
  norm_num at this

/-- C32 with C33.  Brute-force neighbours followed by the serial clustering: for every metric except
Minkowski with power 2 the labels are the density-connected clusters of the data under that metric. -/
theorem C33_brute_serial_partial (d : Kernels K) (n : Nat) (metric : Metric) (p eps : K) (minSamples : Int)
    (threads : List (List Nat)) (hd : Valid d) (hn : 0 < n) (heps : 0 ≤ eps)
    (hm : ¬ (metric = .minkowski ∧ p = 2)) (hth : threads.flatten.Perm (List.range (iterations n))) :
    ∃ nb labels k nc flags, brute d n metric p eps threads = some nb ∧
      Dbscan.clusters none 1 [] n nb minSamples = some (labels, k, nc, flags) ∧
      IsClustering n (fun i j => decide (userDist d metric p i j ≤ eps)) minSamples (fun i => labels.getD i (-1)) k := by
  obtain ⟨nb, h1, h2⟩ := C32_brute_exact_partial d n metric p eps threads hd hn heps hm hth
  obtain ⟨labels, k, nc, flags, h3, _, h4, _⟩ := Dbscan.C33_serial_partial none 1 [] (.inr ⟨rfl, le_refl 1⟩) n _ nb
    minSamples (fun i j => by rw [userDist_symm hd]) h2
  exact ⟨nb, labels, k, nc, flags, h1, h3, h4⟩

example : Valid exKernels ∧ (0 : ℚ) ≤ 2 ∧ [[0], ([] : List Nat)].flatten.Perm (List.range (iterations 3)) :=
  ⟨exValid, by norm_num, by decide⟩

end Verif.RadiusBrute
