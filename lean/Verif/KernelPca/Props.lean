import Verif.KernelPca.ProofComp
import Mathlib.Tactic.FinCases
import Mathlib.Tactic.IntervalCases
import Mathlib.Tactic.NormNum

set_option linter.unusedSectionVars false

/-
C160-C162: the centred kernel, the components, and the transformation.
-/
namespace Verif.KernelPca

open Finset

variable {K : Type*} [Field K] [LinearOrder K] [IsStrictOrderedRing K]

/-- `M` holds the symmetric n by n matrix `k` in either storage order. -/
structure Holds (row : Bool) (n : Nat) (k : Nat → Nat → K) (M : Nat → K) : Prop where
  entry : ∀ i j, i < n → j < n → M (pos row n i j) = k i j
  symm : ∀ i j, i < n → j < n → k i j = k j i

theorem Holds.mean {row : Bool} {n : Nat} {k : Nat → Nat → K} {M : Nat → K} (h : Holds row n k M) {i : Nat} (hi : i < n) :
    rowMean row n n M i = (∑ l ∈ range n, k i l) / n := by
  rw [rowMean_eq, Finset.sum_congr rfl fun j hj => h.entry i j hi (Finset.mem_range.1 hj)]

theorem Holds.grand {row : Bool} {n : Nat} {k : Nat → Nat → K} {M : Nat → K} (h : Holds row n k M) :
    grandMean n (rowMean row n n M) = (∑ a ∈ range n, ∑ c ∈ range n, k a c) / n / n := by
  rw [grandMean_eq, Finset.sum_congr rfl fun j hj => h.mean (Finset.mem_range.1 hj), ← Finset.sum_div]

theorem Holds.col {row : Bool} {n : Nat} {k : Nat → Nat → K} {M : Nat → K} (h : Holds row n k M) {j : Nat} (hj : j < n) :
    ∑ l ∈ range n, k l j = ∑ l ∈ range n, k j l :=
  Finset.sum_congr rfl fun l hl => h.symm l j (Finset.mem_range.1 hl) hj

/-- **C160.** After the centring the upper triangle of the array is that of (I - 1/n) k (I - 1/n), whatever the storage order, and the rest of
the array is as before. -/
theorem C160_training {row : Bool} {n : Nat} {k : Nat → Nat → K} {M : Nat → K} (h : Holds row n k M) :
    (∀ i j, i ≤ j → j < n → centreTraining row n M (i + j * n) = centred n k i j) ∧
    ∀ c, (∀ i j, i ≤ j → j < n → c ≠ i + j * n) → centreTraining row n M c = M c := by
  obtain ⟨h1, h2⟩ := centreUpper_wr n (rowMean row n n M) (grandMean n (rowMean row n n M)) M
  refine ⟨fun i j hij hj => ?_, fun c hc => h2 c fun i j d => hc i j (by omega) d.1⟩
  have e : M (i + j * n) = k i j := by
    cases row with
    | false => exact h.entry i j (by omega) hj
    | true => rw [h.symm i j (by omega) hj, ← h.entry j i hj (by omega)]; simp [pos, Nat.add_comm]
  have := h1 i j ⟨hj, by omega⟩
  unfold centreTraining
  refine Eq.trans this ?_
  show M (i + j * n) + (grandMean n (rowMean row n n M) - rowMean row n n M j - rowMean row n n M i) = _
  rw [e, centred_means (by omega) k (by omega) hj, h.mean (show i < n by omega), h.mean hj, h.grand, h.col hj]
  ring

/-- **C160.** The matrix so stored is symmetric and its rows add up to 0. -/
theorem C160_rows {row : Bool} {n : Nat} {k : Nat → Nat → K} {M : Nat → K} (h : Holds row n k M) :
    (∀ i j, i < n → j < n → upper n (centreTraining row n M) i j = centred n k i j) ∧
    ∀ i < n, ∑ j ∈ range n, upper n (centreTraining row n M) i j = 0 := by
  have key : ∀ i j, i < n → j < n → upper n (centreTraining row n M) i j = centred n k i j := by
    intro i j hi hj
    unfold upper
    split
    · next g => exact (C160_training h).1 i j g hj
    · next g =>
      rw [(C160_training h).1 j i (by omega) hi]
      exact centred_symm (by omega) h.symm hj hi
  refine ⟨key, fun i hi => ?_⟩
  rw [Finset.sum_congr rfl fun j hj => key i j hi (Finset.mem_range.1 hj)]
  exact centred_row (by omega) k hi

/-- **C160.** The kernel between new and training samples is centred by the means of the training samples. -/
theorem C160_new {row : Bool} {m n : Nat} {k k' : Nat → Nat → K} {M M' : Nat → K} (h : Holds row n k M)
    (h' : ∀ i j, i < m → j < n → M' (pos row (if row then n else m) i j) = k' i j) {i j : Nat} (hi : i < m) (hj : j < n) :
    centreNew row m n (rowMean row n n M) (grandMean n (rowMean row n n M)) M' (pos row (if row then n else m) i j) =
      centredNew n k k' i j := by
  have hm : rowMean row n (if row then n else m) M' i = (∑ l ∈ range n, k' i l) / n := by
    rw [rowMean_eq, Finset.sum_congr rfl fun j hj => h' i j hi (Finset.mem_range.1 hj)]
  rw [centreNew_wr row m n _ _ M' hi hj, h' i j hi hj, hm, h.mean hj, h.grand]
  unfold centredNew
  have : ∀ a, (k' i a - (∑ c ∈ range n, k c a) / n) * proj n a j =
      (if a = j then k' i a - (∑ c ∈ range n, k c a) / n else 0) -
        (k' i a * (1 / n) - (∑ c ∈ range n, k c a) * (1 / n / n)) := by
    intro a
    by_cases g : a = j
    · simp only [proj, if_pos g]; ring
    · simp only [proj, if_neg g]; ring
  rw [Finset.sum_congr rfl fun a _ => this a, Finset.sum_sub_distrib, Finset.sum_ite_eq', if_pos (Finset.mem_range.2 hj),
    Finset.sum_sub_distrib, ← Finset.sum_mul, ← Finset.sum_mul, h.col hj, Finset.sum_comm (f := fun a c => k c a)]
  ring

/-- The kernel of the samples 0, 2 (linear kernel). -/
example : centreTraining false 2 (fun c : Nat => if c = 3 then (4 : ℚ) else 0) 0 = 1 ∧
    centreTraining false 2 (fun c : Nat => if c = 3 then (4 : ℚ) else 0) 2 = -1 ∧
    centreTraining false 2 (fun c : Nat => if c = 3 then (4 : ℚ) else 0) 3 = 1 := by decide +kernel

example : Holds true 2 (fun i j => if i = 1 ∧ j = 1 then (4 : ℚ) else 0) (fun c : Nat => if c = 3 then (4 : ℚ) else 0) :=
  ⟨fun i j hi hj => by interval_cases i <;> interval_cases j <;> decide +kernel,
    fun i j hi hj => by interval_cases i <;> interval_cases j <;> decide +kernel⟩

/-- A call of compute with the dense solver, which does what LAPACK promises. -/
structure Dense (e : Env K) (o : Opts) (h : Handle K) (k : Nat → Nat → K) : Prop where
  valid : o.valid = true
  dense : o.random = false
  size : 0 < h.n
  nOpt : o.nOpt ≤ h.n
  holds : Holds h.row h.n k e.kernel
  eigen : Eigen h.n (upper h.n (centreTraining h.row h.n e.kernel))
    (e.syevd (centreTraining h.row h.n e.kernel)).1 (e.syevd (centreTraining h.row h.n e.kernel)).2

/-- The j-th greatest eigenvalue. -/
def Env.mu (e : Env K) (h : Handle K) (j : Nat) : K := (e.syevd (centreTraining h.row h.n e.kernel)).1.getD (h.n - 1 - j) 0

theorem compute_dense {b : Bounds K} {e : Env K} {o : Opts} {h : Handle K} {k : Nat → Nat → K} (d : Dense e o h k) :
    compute b e o h = finish b e o
      { h with rowMeans := rowMean h.row h.n h.n e.kernel, grand := grandMean h.n (rowMean h.row h.n h.n e.kernel) }
      (e.syevd (centreTraining h.row h.n e.kernel)).1.reverse
      (signColumns h.n h.n (e.syevd (centreTraining h.row h.n e.kernel)).2) := by
  unfold compute
  simp only [d.valid, d.dense, Bool.true_eq_false, Bool.false_eq_true, if_false]

theorem headD_getD (l : List K) : l.headD 0 = l.getD 0 0 := by cases l <;> rfl

theorem Dense.head {e : Env K} {o : Opts} {h : Handle K} {k : Nat → Nat → K} (d : Dense e o h k) :
    (e.syevd (centreTraining h.row h.n e.kernel)).1.reverse.headD 0 = e.mu h 0 := by
  have := reverse_getD d.eigen.len d.size
  rw [headD_getD]
  exact this

theorem Dense.clamped {b : Bounds K} {e : Env K} {o : Opts} {h : Handle K} {k : Nat → Nat → K} (d : Dense e o h k)
    (hc : (clamp b (e.syevd (centreTraining h.row h.n e.kernel)).1.reverse o.nOpt).2 = true) :
    (clamp b (e.syevd (centreTraining h.row h.n e.kernel)).1.reverse o.nOpt).1 =
      (e.syevd (centreTraining h.row h.n e.kernel)).1.reverse.map (kept (b.pos * e.mu h 0)) := by
  rw [← d.head]
  exact clampFrom_ok _ _ _ _ _ hc

/-- The number of eigenvalues that are not taken for 0. -/
def Env.positive (e : Env K) (h : Handle K) (b : Bounds K) : Nat :=
  (e.syevd (centreTraining h.row h.n e.kernel)).1.countP fun w => decide (0 < w ∧ b.pos * e.mu h 0 ≤ w)

theorem Dense.components {b : Bounds K} {e : Env K} {o : Opts} {h : Handle K} {k : Nat → Nat → K} (d : Dense e o h k) :
    components o.nOpt o.removeZero ((e.syevd (centreTraining h.row h.n e.kernel)).1.reverse.map (kept (b.pos * e.mu h 0))) =
      some (if o.nOpt = 0 then e.positive h b else if o.removeZero then min (e.positive h b) o.nOpt else o.nOpt) := by
  have hs := lowerBound_sorted (map_sorted (pb := b.pos * e.mu h 0) (reverse_sorted d.eigen.sorted))
  have hp : (((e.syevd (centreTraining h.row h.n e.kernel)).1.reverse.map (kept (b.pos * e.mu h 0))).countP
      fun e => decide (0 < e)) = e.positive h b := by
    rw [List.countP_map, List.countP_reverse]
    unfold Env.positive
    congr 1
    funext w
    simp only [Function.comp, kept_pos]
  unfold KernelPca.components
  rw [hs, hp]
  by_cases h0 : o.nOpt = 0
  · simp [h0]
  · by_cases h1 : o.removeZero = true
    · simp [h0, h1]
    · simp [h0, h1]

theorem Dense.nc_le {b : Bounds K} {e : Env K} {o : Opts} {h : Handle K} {k : Nat → Nat → K} (d : Dense e o h k) :
    (if o.nOpt = 0 then e.positive h b else if o.removeZero then min (e.positive h b) o.nOpt else o.nOpt) ≤ h.n := by
  have h1 : e.positive h b ≤ h.n := by
    have := List.countP_le_length (p := fun w => decide (0 < w ∧ b.pos * e.mu h 0 ≤ w))
      (l := (e.syevd (centreTraining h.row h.n e.kernel)).1)
    rw [d.eigen.len] at this
    exact this
  have h2 := d.nOpt
  split
  · exact h1
  · split <;> omega

/-- **C161.** The number of components and the eigenvalues: as many as asked for, or as there are positive ones; descending, not negative, and
each the eigenvalue of the centred kernel matrix unless that is negligible. -/
theorem C161_eigenvalues {b : Bounds K} {e : Env K} {o : Opts} {h h' : Handle K} {k : Nat → Nat → K} (d : Dense e o h k)
    (hs : compute b e o h = (h', .success)) :
    h'.nc = (if o.nOpt = 0 then e.positive h b else if o.removeZero then min (e.positive h b) o.nOpt else o.nOpt) ∧
    h'.nc ≤ h.n ∧ h'.eigenvalues.length = h'.nc ∧
    (∀ j < h'.nc, h'.eigenvalues.getD j 0 = if 0 < e.mu h j ∧ b.pos * e.mu h 0 ≤ e.mu h j then e.mu h j else 0) ∧
    (∀ i j, i ≤ j → j < h'.nc → 0 ≤ h'.eigenvalues.getD j 0 ∧ h'.eigenvalues.getD j 0 ≤ h'.eigenvalues.getD i 0) ∧
    (o.nOpt = 0 ∨ o.removeZero = true → ∀ j < h'.nc, 0 < h'.eigenvalues.getD j 0) := by
  rw [compute_dense d] at hs
  obtain ⟨hc, nc, hn, h1, -, h3, -⟩ := finish_cases _ _ _ _ _ _ hs
  rw [d.clamped hc] at hn h3
  rw [d.components, Option.some.injEq] at hn
  have hle : nc ≤ h.n := hn ▸ d.nc_le
  have val : ∀ j < nc, h'.eigenvalues.getD j 0 = kept (b.pos * e.mu h 0) (e.mu h j) := fun j hj => by
    rw [h3, resize_getD _ _ hj, map_getD, reverse_getD d.eigen.len (by omega)]
    rfl
  have sorted := map_sorted (pb := b.pos * e.mu h 0) (reverse_sorted d.eigen.sorted)
  have hlen : ((e.syevd (centreTraining h.row h.n e.kernel)).1.reverse.map (kept (b.pos * e.mu h 0))).length = h.n := by
    rw [List.length_map, List.length_reverse, d.eigen.len]
  subst h1
  refine ⟨hn.symm, hle, by rw [h3, resize_length], fun j hj => by rw [val j hj, kept], fun i j hij hj => ?_, fun hz j hj => ?_⟩
  · refine ⟨by rw [val j hj]; exact kept_nonneg _ _, ?_⟩
    rcases Nat.lt_or_eq_of_le hij with g | g
    · have := List.pairwise_iff_getElem.1 sorted i j (by omega) (by omega) g
      rw [h3, resize_getD _ _ hj, resize_getD _ _ (by omega), List.getD_eq_getElem?_getD, List.getD_eq_getElem?_getD,
        List.getElem?_eq_getElem (show j < _ by omega), List.getElem?_eq_getElem (show i < _ by omega)]
      exact this
    · rw [g]
  · rw [h3, resize_getD _ _ hj, sorted_pos sorted]
    have hp : (((e.syevd (centreTraining h.row h.n e.kernel)).1.reverse.map (kept (b.pos * e.mu h 0))).countP
        fun e => decide (0 < e)) = e.positive h b := by
      rw [List.countP_map, List.countP_reverse]
      unfold Env.positive
      congr 1
      funext w
      simp only [Function.comp, kept_pos]
    rw [hp]
    rcases hz with g | g
    · rw [if_pos g] at hn; omega
    · rw [g] at hn
      split at hn
      · omega
      · simp only [if_true] at hn; omega

/-- **C161.** Component j is an eigenvector of the centred kernel matrix for the j-th greatest eigenvalue, up to its sign the vector found by the
solver, stored at the documented position of either order, with a nonnegative entry of greatest absolute value. -/
theorem C161_eigenvectors {b : Bounds K} {e : Env K} {o : Opts} {h h' : Handle K} {k : Nat → Nat → K} (d : Dense e o h k)
    (hs : compute b e o h = (h', .success)) {j : Nat} (hj : j < h'.nc) :
    (∀ i < h.n, ∑ l ∈ range h.n, centred h.n k i l * h'.eigenvectors (pos h.row (if h.row then h'.nc else h.n) l j) =
      e.mu h j * h'.eigenvectors (pos h.row (if h.row then h'.nc else h.n) i j)) ∧
    (∃ s : K, (s = 1 ∨ s = -1) ∧ ∀ i < h.n, h'.eigenvectors (pos h.row (if h.row then h'.nc else h.n) i j) =
      s * (e.syevd (centreTraining h.row h.n e.kernel)).2 ((h.n - 1 - j) * h.n + i)) ∧
    SignFixed h.n fun i => h'.eigenvectors (pos h.row (if h.row then h'.nc else h.n) i j) := by
  have hle := (C161_eigenvalues d hs).2.1
  rw [compute_dense d] at hs
  obtain ⟨hc, nc, hn, h1, h2, -⟩ := finish_cases _ _ _ _ _ _ hs
  subst h1
  have hv : ∀ i < h.n, h'.eigenvectors (pos h.row (if h.row then h'.nc else h.n) i j) =
      signColumns h.n h.n (e.syevd (centreTraining h.row h.n e.kernel)).2 ((h.n - 1 - j) * h.n + i) := fun i hi => by
    rw [h2]
    unfold keepVectors
    rw [if_neg (by rw [d.dense]; simp)]
    exact copyVectors_at h.row h.n h'.nc _ _ hi hj
  obtain ⟨a1, m, hm, a2, a3⟩ := signColumns_at d.size h.n (e.syevd (centreTraining h.row h.n e.kernel)).2
    (show h.n - 1 - j < h.n by omega)
  have hsign : ∃ s : K, (s = 1 ∨ s = -1) ∧ ∀ i < h.n, h'.eigenvectors (pos h.row (if h.row then h'.nc else h.n) i j) =
      s * (e.syevd (centreTraining h.row h.n e.kernel)).2 ((h.n - 1 - j) * h.n + i) := by
    rcases a1 with a1 | a1
    · exact ⟨1, Or.inl rfl, fun i hi => by rw [hv i hi, a1 i hi, one_mul]⟩
    · exact ⟨-1, Or.inr rfl, fun i hi => by rw [hv i hi, a1 i hi, neg_one_mul]⟩
  refine ⟨fun i hi => ?_, hsign, m, hm, ?_, fun i hi => ?_⟩
  · obtain ⟨s, -, es⟩ := hsign
    rw [Finset.sum_congr rfl fun l hl => by
      rw [es l (Finset.mem_range.1 hl), ← (C160_rows d.holds).1 i l hi (Finset.mem_range.1 hl), mul_left_comm],
      ← Finset.mul_sum, d.eigen.eq i _ hi (by omega), es i hi]
    unfold Env.mu
    ring
  · show 0 ≤ h'.eigenvectors _
    rw [hv m hm]; exact a2
  · show |h'.eigenvectors _| ≤ |h'.eigenvectors _|
    rw [hv i hi, hv m hm]; exact a3 i hi

/-- **C161.** compute fails exactly when one of the eigenvalues asked for is negative beyond the tolerance. -/
theorem C161_fails {b : Bounds K} {e : Env K} {o : Opts} {h : Handle K} {k : Nat → Nat → K} (d : Dense e o h k)
    (hf : o.fitInverse = false) :
    (compute b e o h).2 = .failed ↔ ∃ j < h.n, (o.nOpt = 0 ∨ j < o.nOpt) ∧ e.mu h j < 0 ∧
      e.mu h j < -min b.negAbs (b.negRel * e.mu h 0) := by
  have hl : (e.syevd (centreTraining h.row h.n e.kernel)).1.reverse.length = h.n := by
    rw [List.length_reverse, d.eigen.len]
  have hend := clampFrom_end (b.pos * (e.syevd (centreTraining h.row h.n e.kernel)).1.reverse.headD 0)
    (-min b.negAbs (b.negRel * (e.syevd (centreTraining h.row h.n e.kernel)).1.reverse.headD 0))
    (if o.nOpt = 0 ∨ (e.syevd (centreTraining h.row h.n e.kernel)).1.reverse.length < o.nOpt then
      (e.syevd (centreTraining h.row h.n e.kernel)).1.reverse.length else o.nOpt)
    (e.syevd (centreTraining h.row h.n e.kernel)).1.reverse 0
  rw [d.head, hl] at hend
  have hst : (compute b e o h).2 = .failed ↔
      ¬ (clamp b (e.syevd (centreTraining h.row h.n e.kernel)).1.reverse o.nOpt).2 = true := by
    rw [compute_dense d]
    unfold finish
    simp only
    by_cases hc : (clamp b (e.syevd (centreTraining h.row h.n e.kernel)).1.reverse o.nOpt).2 = true
    · rw [d.clamped hc, d.components, hc]
      simp [hf]
    · rw [Bool.not_eq_true] at hc
      rw [hc]
      simp
  rw [hst]
  unfold clamp
  rw [d.head, hl, hend]
  have hno := d.nOpt
  constructor
  · intro g
    by_contra hne
    refine g fun j hj hjc hh => hne ⟨j, hj, ?_, ?_⟩
    · by_cases h0 : o.nOpt = 0
      · exact Or.inl h0
      · rw [if_neg (by omega)] at hjc; exact Or.inr (by omega)
    · rw [reverse_getD d.eigen.len hj] at hh; exact hh
  · rintro ⟨j, hj, h0, h1, h2⟩ g
    refine g j hj ?_ ?_
    · split
      · omega
      · omega
    · rw [reverse_getD d.eigen.len hj]; exact ⟨h1, h2⟩

/-- Entry (i, j) of the result of transform. -/
theorem transform_at {sq : K → K} {h : Handle K} {m ldx : Nat} (hl : if h.row then h.nc ≤ ldx else m ≤ ldx) (M X : Nat → K)
    {i j : Nat} (hi : i < m) (hj : j < h.nc) :
    transform sq h m M X ldx (pos h.row ldx i j) =
      (∑ l ∈ range h.n, centreNew h.row m h.n h.rowMeans h.grand M (pos h.row (if h.row then h.n else m) i l) *
        h.eigenvectors (pos h.row (if h.row then h.nc else h.n) l j)) * scaleOf sq h.eigenvalues j := by
  unfold transform
  have e1 := (scaleColumns_wr sq h.row hl h.eigenvalues (gemmNN h.row m h.nc h.n
    (centreNew h.row m h.n h.rowMeans h.grand M) (if h.row then h.n else m) h.eigenvectors (if h.row then h.nc else h.n) X
    ldx)).1 i j ⟨hi, hj⟩
  have e2 := (gemmNN_wr h.row hl h.n (centreNew h.row m h.n h.rowMeans h.grand M) (if h.row then h.n else m) h.eigenvectors
    (if h.row then h.nc else h.n) X).1 i j ⟨hi, hj⟩
  exact e1.trans (congrArg (· * scaleOf sq h.eigenvalues j) e2)

/-- `sq` is the square root. -/
def IsSqrt (sq : K → K) : Prop := ∀ x, 0 ≤ x → 0 ≤ sq x ∧ sq x * sq x = x

/-- **C162.** transform projects the centred kernel of the new samples onto the components, divided by the square root of the eigenvalue, and
writes nothing else. -/
theorem C162_new {sq : K → K} {b : Bounds K} {e : Env K} {o : Opts} {h h' : Handle K} {k k' : Nat → Nat → K} (d : Dense e o h k)
    (hs : compute b e o h = (h', .success)) {m ldx : Nat} (hl : if h.row then h'.nc ≤ ldx else m ≤ ldx) {M : Nat → K}
    (hM : ∀ i j, i < m → j < h.n → M (pos h.row (if h.row then h.n else m) i j) = k' i j) (X : Nat → K) :
    (∀ i j, i < m → j < h'.nc → transform sq h' m M X ldx (pos h.row ldx i j) =
      if 0 < h'.eigenvalues.getD j 0 then
        (∑ l ∈ range h.n, centredNew h.n k k' i l * h'.eigenvectors (pos h.row (if h.row then h'.nc else h.n) l j)) /
          sq (h'.eigenvalues.getD j 0)
      else 0) ∧
    ∀ c, (∀ i j, i < m → j < h'.nc → c ≠ pos h.row ldx i j) → transform sq h' m M X ldx c = X c := by
  have hs' := hs
  rw [compute_dense d] at hs'
  obtain ⟨-, nc, -, -, -, -, -, hr, hn, hm, hg, -⟩ := finish_cases _ _ _ _ _ _ hs'
  simp only at hr hn hm hg
  have hl' : if h'.row then h'.nc ≤ ldx else m ≤ ldx := by rw [hr]; exact hl
  refine ⟨fun i j hi hj => ?_, fun c hc => ?_⟩
  · have := transform_at (sq := sq) hl' M X hi hj
    rw [hr, hn, hm, hg] at this
    rw [this, Finset.sum_congr rfl fun l hl => by rw [C160_new d.holds hM hi (Finset.mem_range.1 hl)]]
    unfold scaleOf
    by_cases hp : 0 < h'.eigenvalues.getD j 0
    · rw [if_pos hp, if_pos hp, mul_one_div]
    · rw [if_neg hp, if_neg hp, mul_zero]
  · unfold transform
    exact ((scaleColumns_wr sq h'.row hl' h'.eigenvalues _).2 c fun i j dd => by rw [hr]; exact hc i j dd.1 dd.2).trans
      ((gemmNN_wr h'.row hl' h'.n _ _ _ _ X).2 c fun i j dd => by rw [hr]; exact hc i j dd.1 dd.2)

/-- The training samples as new samples. -/
theorem centredNew_self {n : Nat} (hn : 0 < n) {k : Nat → Nat → K} (i j : Nat) (hi : i < n) (hj : j < n) :
    centredNew n k k i j = centred n k i j := by
  rw [centred_means hn k hi hj]
  unfold centredNew
  have : ∀ a, (k i a - (∑ c ∈ range n, k c a) / n) * proj n a j =
      (if a = j then k i a - (∑ c ∈ range n, k c a) / n else 0) -
        (k i a * (1 / n) - (∑ c ∈ range n, k c a) * (1 / n / n)) := by
    intro a
    by_cases g : a = j
    · simp only [proj, if_pos g]; ring
    · simp only [proj, if_neg g]; ring
  rw [Finset.sum_congr rfl fun a _ => this a, Finset.sum_sub_distrib, Finset.sum_ite_eq', if_pos (Finset.mem_range.2 hj),
    Finset.sum_sub_distrib, ← Finset.sum_mul, ← Finset.sum_mul, Finset.sum_comm (f := fun a c => k c a)]
  ring

/-- **C162.** Transforming the training samples gives the scores. -/
theorem C162_training {sq : K → K} (hsq : IsSqrt sq) {b : Bounds K} {e : Env K} {o : Opts} {h h' : Handle K} {k : Nat → Nat → K}
    (d : Dense e o h k) (hs : compute b e o h = (h', .success)) {ldx : Nat} (hl : if h.row then h'.nc ≤ ldx else h.n ≤ ldx)
    (X out : Nat → K) {i j : Nat} (hi : i < h.n) (hj : j < h'.nc) :
    transform sq h' h.n e.kernel X ldx (pos h.row ldx i j) =
      scores sq h'.row h'.n h'.nc h'.eigenvalues h'.eigenvectors out (pos h.row (if h.row then h'.nc else h.n) i j) := by
  have hs' := hs
  rw [compute_dense d] at hs'
  obtain ⟨-, nc, -, -, -, -, -, hr, hn, -⟩ := finish_cases _ _ _ _ _ _ hs'
  simp only at hr hn
  have hsc := (scores_wr sq h'.row h'.n h'.nc h'.eigenvalues h'.eigenvectors out).1 i j ⟨by omega, hj⟩
  simp only [hr, hn] at hsc
  rw [hr, hn, hsc, (C162_new (sq := sq) d hs hl (k' := k) (fun i j hi hj => by
    have := d.holds.entry i j hi hj
    simpa using this) X).1 i j hi hj]
  have hval := (C161_eigenvalues d hs).2.2.2.1 j hj
  have hnn := ((C161_eigenvalues d hs).2.2.2.2.1 j j (le_refl _) hj).1
  split
  · next hp =>
    have hmu : h'.eigenvalues.getD j 0 = e.mu h j := by
      rw [hval]
      split
      · rfl
      · next g => rw [hval, if_neg g] at hp; exact absurd hp (lt_irrefl _)
    rw [Finset.sum_congr rfl fun l hl => by rw [centredNew_self d.size i l hi (Finset.mem_range.1 hl)],
      (C161_eigenvectors d hs hj).1 i hi, ← hmu]
    obtain ⟨-, hss⟩ := hsq _ hp.le
    have hne : sq (h'.eigenvalues.getD j 0) ≠ 0 := fun g => by
      rw [g, mul_zero] at hss
      exact absurd hp (by rw [← hss]; exact lt_irrefl _)
    rw [div_eq_iff hne, mul_assoc, hss]
    ring
  · next hp =>
    have hz : h'.eigenvalues.getD j 0 = 0 := le_antisymm (not_lt.1 hp) hnn
    have : sq 0 = 0 := by
      have := (hsq 0 (le_refl _)).2
      exact mul_self_eq_zero.1 this
    rw [hz, this, mul_zero]

/-- The samples -1, 1 with the linear kernel. -/
def exEnv : Env ℚ where
  kernel := fun c => if c = 0 ∨ c = 3 then 1 else -1
  syevd := fun _ => ([0, 2], fun c => if c = 3 then -1 else 1)
  random := fun _ => ([], fun _ => 0)
  ridge := some fun _ => 7

def exBounds : Bounds ℚ := ⟨1 / 10 ^ 12, 1 / 10 ^ 10, 1 / 10 ^ 5⟩

def fresh {K : Type*} [Field K] : Handle K := ⟨false, 0, false, false, 0, fun _ => 0, 0, [], fun _ => 0, fun _ => 0⟩

example : (compute exBounds exEnv ⟨true, 0, false, false, false⟩ (setData false 2 fresh)).2 = .success ∧
    (compute exBounds exEnv ⟨true, 0, false, false, false⟩ (setData false 2 fresh)).1.nc = 1 ∧
    (compute exBounds exEnv ⟨true, 0, false, false, false⟩ (setData false 2 fresh)).1.eigenvalues = [2] ∧
    (compute exBounds exEnv ⟨true, 0, false, false, false⟩ (setData false 2 fresh)).1.eigenvectors 1 = -1 := by decide +kernel

example : Dense exEnv ⟨true, 0, false, false, false⟩ (setData false 2 fresh) (fun i j => if i = j then 1 else -1) where
  valid := rfl
  dense := rfl
  size := by decide
  nOpt := by decide
  holds := ⟨fun i j (hi : i < 2) (hj : j < 2) => by interval_cases i <;> interval_cases j <;> decide +kernel,
    fun i j (hi : i < 2) (hj : j < 2) => by interval_cases i <;> interval_cases j <;> decide +kernel⟩
  eigen := ⟨rfl, by decide +kernel,
    fun i j (hi : i < 2) (hj : j < 2) => by interval_cases i <;> interval_cases j <;> decide +kernel⟩

end Verif.KernelPca
