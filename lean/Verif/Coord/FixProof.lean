import Verif.Coord.GapProof

/-! # Where no step helps the gap is zero -/

set_option linter.unusedSectionVars false

namespace Verif.Coord

open Finset

section
variable {K : Type} [Field K] [LinearOrder K] [IsStrictOrderedRing K]

/-- What is below every small multiple is not positive. -/
theorem nonpos_of_small (D C : K) (hC : 0 ≤ C) (h : ∀ t, 0 < t → t ≤ 1 → D ≤ C * t) : D ≤ 0 := by
  by_contra hD
  have hD : 0 < D := lt_of_not_ge hD
  have hC1 : 0 < C + 1 := by linarith
  obtain ⟨t, ht⟩ : ∃ t, t = min 1 (D / (2 * (C + 1))) := ⟨_, rfl⟩
  have h0 : 0 < t := by rw [ht]; exact lt_min one_pos (by positivity)
  have h1 : t ≤ 1 := by rw [ht]; exact min_le_left _ _
  have h2 : t ≤ D / (2 * (C + 1)) := by rw [ht]; exact min_le_right _ _
  have h3 := h t h0 h1
  have h4 : t * (2 * (C + 1)) ≤ D := by rwa [le_div_iff₀ (by positivity)] at h2
  nlinarith

/-- The conditions at a minimiser of `a s² - g s + l |b + s|`. -/
theorem stationary (a g l b : K) (ha : 0 ≤ a) (h : ∀ s, 0 ≤ a * s ^ 2 - g * s + l * (|b + s| - |b|)) (hl : 0 ≤ l) :
    |g| ≤ l ∧ g * b = l * |b| := by
  have hb : ∀ s, |b + s| - |b| ≤ |s| := fun s => by linarith [abs_add_le b s]
  have h1 : g ≤ l := by
    have := nonpos_of_small (g - l) a ha (fun t h0 _ => by
      have h2 := h t
      have h3 := mul_le_mul_of_nonneg_left (hb t) hl
      rw [abs_of_pos h0] at h3
      have : 0 ≤ t * (a * t - g + l) := by nlinarith
      have := nonneg_of_mul_nonneg_right this h0
      linarith)
    linarith
  have h2 : -g ≤ l := by
    have := nonpos_of_small (-g - l) a ha (fun t h0 _ => by
      have h2 := h (-t)
      have h3 := mul_le_mul_of_nonneg_left (hb (-t)) hl
      rw [abs_neg, abs_of_pos h0] at h3
      have : 0 ≤ t * (a * t + g + l) := by nlinarith
      have := nonneg_of_mul_nonneg_right this h0
      linarith)
    linarith
  have habs : |g| ≤ l := abs_le.mpr ⟨by linarith, h1⟩
  refine ⟨habs, le_antisymm ?_ ?_⟩
  · calc g * b ≤ |g * b| := le_abs_self _
      _ = |g| * |b| := abs_mul _ _
      _ ≤ l * |b| := mul_le_mul_of_nonneg_right habs (abs_nonneg b)
  · have := nonpos_of_small (l * |b| - g * b) (a * b ^ 2) (by positivity) (fun t h0 h1 => by
      have h2 := h (-(t * b))
      have h3 : |b + -(t * b)| = (1 - t) * |b| := by
        rw [show b + -(t * b) = (1 - t) * b by ring, abs_mul, abs_of_nonneg (by linarith)]
      rw [h3] at h2
      have : 0 ≤ t * (a * b ^ 2 * t + g * b - l * |b|) := by nlinarith
      have := nonneg_of_mul_nonneg_right this h0
      linarith)
    linarith

/-- The same with the values kept from being negative. -/
theorem stationary_pos (a g l b : K) (ha : 0 ≤ a) (hb : 0 ≤ b) (h : ∀ s, 0 ≤ b + s → 0 ≤ a * s ^ 2 - g * s + l * s) :
    g ≤ l ∧ g * b = l * b := by
  have h1 : g ≤ l := by
    have := nonpos_of_small (g - l) a ha (fun t h0 _ => by
      have h2 := h t (by linarith)
      have : 0 ≤ t * (a * t - g + l) := by nlinarith
      have := nonneg_of_mul_nonneg_right this h0
      linarith)
    linarith
  refine ⟨h1, le_antisymm (mul_le_mul_of_nonneg_right h1 hb) ?_⟩
  have := nonpos_of_small (l * b - g * b) (a * b ^ 2) (by positivity) (fun t h0 h1 => by
      have h2 := h (-(t * b)) (by nlinarith)
      have : 0 ≤ t * (a * b ^ 2 * t + g * b - l * b) := by nlinarith
      have := nonneg_of_mul_nonneg_right this h0
      linarith)
  linarith

/-- No allowed change of one coefficient lowers the objective. -/
def Still (c : K) (d : Data K) (b : Nat → K) : Prop :=
  ∀ k, k < d.n → ∀ t, (d.positive = true → k < d.nmod → 0 ≤ t) → obj c d b ≤ obj c d (put b k t)

theorem put_id {A : Type} (f : Nat → A) (k : Nat) : put f k (f k) = f := by
  funext j
  unfold put
  split
  · next h => rw [h]
  · rfl

/-- The objective along a coordinate, from where it is. -/
theorem obj_change (c : K) (d : Data K) (b : Nat → K) {k : Nat} (hk : k < d.n) (s : K) :
    obj c d (put b k (b k + s)) - obj c d b
      = c * (∑ i ∈ range d.m, d.col k i ^ 2) / 2 * s ^ 2 - c * (∑ i ∈ range d.m, d.col k i * resid d b i) * s
        + if k < d.nmod then d.l1reg * (|b k + s| - |b k|) + d.l2reg * (2 * b k * s + s ^ 2) else 0 := by
  have h1 := obj_put c d b hk (b k + s)
  have h2 := obj_put c d b hk (b k)
  rw [put_id] at h2
  rw [h1, h2, lin_term]
  split <;> ring

theorem maxAbs_le (w : Nat → K) (c : K) (hc : 0 ≤ c) : ∀ n, (∀ j, j < n → |w j| ≤ c) → maxAbs w n ≤ c
  | 0, _ => hc
  | n + 1, h => max_le (maxAbs_le w c hc n fun j hj => h j (by omega)) (h n (by omega))

theorem maxElem_le (w : Nat → K) (c : K) : ∀ n, (∀ j, j ≤ n → w j ≤ c) → maxElem w n ≤ c
  | 0, h => h 0 le_rfl
  | n + 1, h => max_le (maxElem_le w c n fun j hj => h j (by omega)) (h (n + 1) le_rfl)

theorem gap_zero (d : Data K) (ok : d.Ok) (b r : Nat → K) (ha : Allowed d b) (hr : Right d b r)
    (hs : Still (1 / (d.m : K)) d b) : dualGap d b r = 0 := by
  have hm : (0 : K) < (d.m : K) := by exact_mod_cast ok.m_pos
  obtain ⟨work, hwork⟩ : ∃ work : Nat → K, ∀ j, work j = dot d.m (fun i => d.X i j) r - 2 * (d.l2reg * (d.m : K)) * b j :=
    ⟨_, fun _ => rfl⟩
  have hdot : ∀ j, j < d.nmod → ∑ i ∈ range d.m, d.col j i * resid d b i = dot d.m (fun i => d.X i j) r := by
    intro j hj
    rw [dot_right d hr]
    apply sum_congr rfl
    intro i _
    rw [col_feature d hj]
  -- the derivative along each feature
  have hst : ∀ j, j < d.nmod → (d.positive = false → |work j| ≤ d.l1reg * (d.m : K))
      ∧ (work j ≤ d.l1reg * (d.m : K)) ∧ work j * b j = d.l1reg * (d.m : K) * |b j| := by
    intro j hj
    have hjn : j < d.n := lt_of_lt_of_le hj d.nmod_le
    have hg : 1 / (d.m : K) * (∑ i ∈ range d.m, d.col j i * resid d b i) - 2 * d.l2reg * b j = work j / (d.m : K) := by
      rw [hdot j hj, hwork j]; field_simp
    obtain ⟨A, hA⟩ : ∃ A, A = 1 / (d.m : K) * (∑ i ∈ range d.m, d.col j i ^ 2) / 2 + d.l2reg := ⟨_, rfl⟩
    have hA0 : 0 ≤ A := by
      have : 0 ≤ ∑ i ∈ range d.m, d.col j i ^ 2 := sum_nonneg fun i _ => sq_nonneg _
      have := ok.l2
      rw [hA]; positivity
    have hch : ∀ s, obj (1 / (d.m : K)) d (put b j (b j + s)) - obj (1 / (d.m : K)) d b
        = A * s ^ 2 - work j / (d.m : K) * s + d.l1reg * (|b j + s| - |b j|) := by
      intro s
      rw [obj_change _ d b hjn, if_pos hj, ← hg, hA]
      ring
    have hscale : ∀ a : K, a / (d.m : K) ≤ d.l1reg → a ≤ d.l1reg * (d.m : K) := fun a h => by
      rwa [div_le_iff₀ hm] at h
    by_cases hp : d.positive = true
    · have hb := ha hp j hj
      have h := stationary_pos A (work j / (d.m : K)) d.l1reg (b j) hA0 hb (fun s h0 => by
        have h1 := hch s
        have h2 := hs j hjn (b j + s) (fun _ _ => h0)
        rw [abs_of_nonneg h0, abs_of_nonneg hb] at h1
        have h3 : d.l1reg * (b j + s - b j) = d.l1reg * s := by ring
        rw [h3] at h1
        linarith)
      refine ⟨fun h => absurd h (by simp [hp]), hscale _ h.1, ?_⟩
      rw [abs_of_nonneg hb]
      have h2 := h.2
      field_simp at h2
      linarith
    · have hp : d.positive = false := by simpa using hp
      have h := stationary A (work j / (d.m : K)) d.l1reg (b j) hA0 (fun s => by
        have h1 := hch s
        have h2 := hs j hjn (b j + s) (fun h => absurd h (by simp [hp]))
        linarith) ok.l1
      have h1 : |work j| ≤ d.l1reg * (d.m : K) := by
        apply hscale
        have h1 := h.1
        rwa [abs_div, abs_of_pos hm] at h1
      refine ⟨fun _ => h1, le_trans (le_abs_self _) h1, ?_⟩
      have h2 := h.2
      field_simp at h2
      linarith
  have hl0 : 0 ≤ d.l1reg * (d.m : K) := mul_nonneg ok.l1 hm.le
  -- the scaling factor is one
  have hdn : ¬ d.l1reg * (d.m : K) < (if d.positive then maxElem work (d.nmod - 1) else maxAbs work d.nmod) := by
    rw [not_lt]
    split
    · exact maxElem_le _ _ _ fun j hj => (hst j (by have := ok.n_pos; omega)).2.1
    · next hp =>
      exact maxAbs_le _ _ hl0 _ fun j hj => (hst j hj).1 (by simpa using hp)
  have hwk : (fun j => dot d.m (fun i => d.X i j) r - 2 * (d.l2reg * (d.m : K)) * b j) = work := by
    funext j; exact (hwork j).symm
  have hgap : dualGap d b r = (dot d.m r r + (d.l1reg * (d.m : K) * (∑ j ∈ range d.nmod, |b j|) - dot d.m r d.y
      + d.l2reg * (d.m : K) * 2 * dot d.nmod b b)) / (d.m : K) := by
    unfold dualGap
    simp only [hwk, if_neg hdn]
    ring
  -- the scalar product with the responses
  have hry : dot d.m r d.y = dot d.m r r + ∑ j ∈ range d.nmod, b j * dot d.m (fun i => d.X i j) r := by
    have h1 : dot d.m r d.y = ∑ i ∈ range d.m, (r i * r i + (∑ j ∈ range d.nmod, r i * (d.X i j * b j))
        + r i * (if d.icpt then b (d.n - 1) else 0)) := by
      unfold dot
      apply sum_congr rfl
      intro i hi
      have := regSum_split d ok b i
      rw [this, ← hr i (mem_range.mp hi), mul_add, mul_add, mul_sum]
    rw [h1, sum_add_distrib, sum_add_distrib, sum_comm]
    have h2 : ∑ i ∈ range d.m, r i * (if d.icpt then b (d.n - 1) else 0) = 0 := by
      by_cases hi : d.icpt = true
      · simp only [hi, if_true]
        rw [← sum_mul]
        have hn : d.n - 1 < d.n := by
          have := ok.n_pos
          have := d.nmod_le
          omega
        have hnf : ¬ d.n - 1 < d.nmod := by unfold Data.nmod; simp [hi]
        -- the sum of the residuals is zero, since the intercept cannot be improved
        have hsum : ∑ i ∈ range d.m, r i = (∑ i ∈ range d.m, resid d b i) :=
          sum_congr rfl fun i hi => hr i (mem_range.mp hi)
        obtain ⟨S, hS⟩ : ∃ S, S = ∑ i ∈ range d.m, resid d b i := ⟨_, rfl⟩
        have hch : ∀ s, 0 ≤ 1 / 2 * s ^ 2 - S / (d.m : K) * s + 0 * (|0 + s| - |0|) := by
          intro s
          have h1 := obj_change (1 / (d.m : K)) d b hn s
          have h2 := hs (d.n - 1) hn (b (d.n - 1) + s) (fun _ h => absurd h hnf)
          rw [if_neg hnf] at h1
          have h3 : ∑ i ∈ range d.m, d.col (d.n - 1) i ^ 2 = (d.m : K) := by
            rw [sum_congr rfl (fun i _ => by rw [col_icpt d hnf, one_pow] : ∀ i ∈ range d.m, d.col (d.n - 1) i ^ 2 = 1)]
            simp
          have h4 : ∑ i ∈ range d.m, d.col (d.n - 1) i * resid d b i = S := by
            rw [hS]
            exact sum_congr rfl (fun i _ => by rw [col_icpt d hnf, one_mul])
          rw [h3, h4] at h1
          have h5 : 1 / (d.m : K) * (d.m : K) = 1 := by field_simp
          rw [h5] at h1
          have h6 : 1 / (d.m : K) * S = S / (d.m : K) := by ring
          rw [h6] at h1
          linarith
        have h := stationary (1 / 2) (S / (d.m : K)) 0 0 (by norm_num) hch le_rfl
        have h0 : S / (d.m : K) = 0 := abs_nonpos_iff.mp h.1
        have hS0 : S = 0 := by
          rcases div_eq_zero_iff.mp h0 with h | h
          · exact h
          · exact absurd h hm.ne'
        rw [hsum, ← hS, hS0, zero_mul]
      · simp [hi]
    rw [h2, add_zero]
    unfold dot
    congr 1
    apply sum_congr rfl
    intro j _
    rw [mul_sum]
    apply sum_congr rfl
    intro i _
    ring
  have hsum : ∑ j ∈ range d.nmod, b j * dot d.m (fun i => d.X i j) r
      = d.l1reg * (d.m : K) * (∑ j ∈ range d.nmod, |b j|) + d.l2reg * (d.m : K) * 2 * dot d.nmod b b := by
    unfold dot
    rw [mul_sum, mul_sum, ← sum_add_distrib]
    apply sum_congr rfl
    intro j hj
    have h1 := (hst j (mem_range.mp hj)).2.2
    have h2 := hwork j
    unfold dot at h2
    rw [h2] at h1
    linarith
  rw [hgap, hry, hsum]
  rw [div_eq_zero_iff]
  left
  ring

end

end Verif.Coord
