import Verif.Coord.LinregProof

/-! # The steps minimise along their coordinate and keep the residual -/

set_option linter.unusedSectionVars false

namespace Verif.Coord

open Finset

section
variable {K : Type} [Field K] [LinearOrder K]

/-- The residual kept by the solver is that of the coefficients `b`. -/
def Right (d : Data K) (b r : Nat → K) : Prop := ∀ i, i < d.m → r i = resid d b i

variable [IsStrictOrderedRing K]

theorem weight_pos (d : Data K) (ok : d.Ok) : 0 < weight d := by
  unfold weight
  have : (0 : K) < (d.m : K) := by exact_mod_cast ok.m_pos
  split <;> positivity

theorem dot_right (d : Data K) {b r : Nat → K} (h : Right d b r) (a : Nat → K) :
    dot d.m a r = ∑ i ∈ range d.m, a i * resid d b i := by
  unfold dot
  apply sum_congr rfl
  intro i hi
  rw [h i (mem_range.mp hi)]

theorem curve_nonneg (d : Data K) (ok : d.Ok) {k : Nat} (hk : k < d.nmod) : 0 ≤ d.xv k := by
  rw [ok.curve k hk]
  have hm : (0 : K) < (d.m : K) := by exact_mod_cast ok.m_pos
  have : 0 ≤ ∑ i ∈ range d.m, d.X i k ^ 2 := sum_nonneg fun i _ => sq_nonneg _
  split
  · positivity
  · linarith

/-- The linear term of the objective along a coordinate. -/
theorem lin_term (d : Data K) (b : Nat → K) (k : Nat) :
    ∑ i ∈ range d.m, d.col k i * (resid d b i + b k * d.col k i)
      = (∑ i ∈ range d.m, d.col k i * resid d b i) + b k * ∑ i ∈ range d.m, d.col k i ^ 2 := by
  rw [mul_sum, ← sum_add_distrib]
  apply sum_congr rfl
  intro i _
  ring

/-- A minimiser of the quadratic along a coordinate is a minimiser of the objective. -/
theorem obj_put_le (c : K) (d : Data K) (b : Nat → K) {k : Nat} (hk : k < d.n) (u t : K)
    (h : (c * (∑ i ∈ range d.m, d.col k i ^ 2) / 2 * u ^ 2
        - c * (∑ i ∈ range d.m, d.col k i * (resid d b i + b k * d.col k i)) * u)
        + (if k < d.nmod then d.l1reg * |u| + d.l2reg * u ^ 2 else 0)
      ≤ (c * (∑ i ∈ range d.m, d.col k i ^ 2) / 2 * t ^ 2
        - c * (∑ i ∈ range d.m, d.col k i * (resid d b i + b k * d.col k i)) * t)
        + (if k < d.nmod then d.l1reg * |t| + d.l2reg * t ^ 2 else 0)) :
    obj c d (put b k u) ≤ obj c d (put b k t) := by
  rw [obj_put c d b hk u, obj_put c d b hk t]
  linarith

theorem col_feature (d : Data K) {k : Nat} (hk : k < d.nmod) (i : Nat) : d.col k i = d.X i k := by
  simp [Data.col, hk]

theorem col_icpt (d : Data K) {k : Nat} (hk : ¬ k < d.nmod) (i : Nat) : d.col k i = 1 := by
  simp [Data.col, hk]

/-- The step of the GLMnet variant minimises along its coordinate. -/
theorem glmNew_min (d : Data K) (ok : d.Ok) (hs : d.scaling = .standardize ∨ d.scaling = .scaleOnly)
    (b r : Nat → K) (hr : Right d b r) {k : Nat} (hk : k < d.n) (hd : k < d.nmod → glmDivisor d k ≠ 0) (t : K) :
    obj (weight d) d (put b k (glmNew d b k r)) ≤ obj (weight d) d (put b k t) := by
  apply obj_put_le _ _ _ hk
  have hm : (0 : K) < (d.m : K) := by exact_mod_cast ok.m_pos
  rw [lin_term]
  by_cases hf : k < d.nmod
  · have hcol : ∀ i, d.col k i = d.X i k := col_feature d hf
    have hdot : dot d.m (fun i => d.X i k) r = ∑ i ∈ range d.m, d.col k i * resid d b i := by
      rw [dot_right d hr]; exact sum_congr rfl fun i _ => by rw [hcol]
    have hQ : glmCurve d k = weight d * ∑ i ∈ range d.m, d.col k i ^ 2 := by
      have h1 : glmCurve d k = d.xv k := by unfold glmCurve; simp [hs]
      rw [h1, ok.curve k hf]
      have h2 : ∑ i ∈ range d.m, d.col k i ^ 2 = ∑ i ∈ range d.m, d.X i k ^ 2 :=
        sum_congr rfl fun i _ => by rw [hcol]
      rw [h2]
      congr 1
      rcases hs with hs | hs <;> simp [weight, hs]
    set G := ∑ i ∈ range d.m, d.col k i * resid d b i with hG
    set Q := ∑ i ∈ range d.m, d.col k i ^ 2 with hQd
    have hQ0 : 0 ≤ Q := sum_nonneg fun i _ => sq_nonneg _
    have hq : 0 < glmDivisor d k := by
      apply lt_of_le_of_ne _ (Ne.symm (hd hf))
      unfold glmDivisor
      rw [hQ]
      have := mul_nonneg (weight_pos d ok).le hQ0
      linarith [ok.l2]
    have hg : (if d.scaling = .standardize then G / (d.m : K) else G) = weight d * G := by
      rcases hs with hs | hs
      · simp [weight, hs, div_eq_mul_inv, mul_comm]
      · simp [weight, hs]
    have hnew : glmNew d b k r
        = (if weight d * (G + b k * Q) < 0 then -max (|weight d * (G + b k * Q)| - d.l1reg) 0
          else max (|weight d * (G + b k * Q)| - d.l1reg) 0) / glmDivisor d k := by
      unfold glmNew
      simp only [hf, if_true, hdot]
      rw [hg, hQ]
      have : weight d * G + b k * (weight d * Q) = weight d * (G + b k * Q) := by ring
      rw [this]
    have key := soft_min (glmDivisor d k) (weight d * (G + b k * Q)) d.l1reg t hq ok.l1
    simp only at key
    rw [← hnew] at key
    have hdv : glmDivisor d k = weight d * Q + 2 * d.l2reg := by unfold glmDivisor; rw [hQ]
    set u := glmNew d b k r
    simp only [hf, if_true]
    rw [hdv] at key
    nlinarith [key]
  · have hcol : ∀ i, d.col k i = 1 := col_icpt d hf
    have hdot : ∑ i ∈ range d.m, r i = ∑ i ∈ range d.m, d.col k i * resid d b i := by
      apply sum_congr rfl
      intro i hi
      rw [hcol, hr i (mem_range.mp hi)]; ring
    have hQ : ∑ i ∈ range d.m, d.col k i ^ 2 = (d.m : K) := by
      simp [hcol]
    have hnew : glmNew d b k r * (d.m : K) = (∑ i ∈ range d.m, d.col k i * resid d b i) + b k * (d.m : K) := by
      unfold glmNew
      simp only [hf, if_false, hdot]
      field_simp
    set u := glmNew d b k r
    simp only [hf, if_false]
    rw [hQ, ← hnew]
    have hw := weight_pos d ok
    have : 0 ≤ weight d * (d.m : K) / 2 * (t - u) ^ 2 := by positivity
    nlinarith [this]

/-- The sum of the residuals of centred data. -/
theorem resid_sum (d : Data K) (ok : d.Ok) (hi : d.icpt = true) (b : Nat → K) :
    ∑ i ∈ range d.m, resid d b i = -((d.m : K) * b (d.n - 1)) := by
  unfold resid
  rw [sum_sub_distrib, ok.centredY hi, sum_comm, d.split_sum ok.n_pos]
  have h1 : ∑ j ∈ range d.nmod, ∑ i ∈ range d.m, d.col j i * b j = 0 := by
    apply sum_eq_zero
    intro j hj
    rw [mem_range] at hj
    rw [← sum_mul]
    have : ∑ i ∈ range d.m, d.col j i = ∑ i ∈ range d.m, d.X i j :=
      sum_congr rfl fun i _ => col_feature d hj i
    rw [this, ok.centredX hi j hj, zero_mul]
  have h2 : ¬ d.n - 1 < d.nmod := by unfold Data.nmod; simp [hi]
  rw [h1]
  simp [hi, col_icpt d h2]

theorem not_feature (d : Data K) {k : Nat} (hk : k < d.n) (hf : ¬ k < d.nmod) : d.icpt = true ∧ k = d.n - 1 := by
  unfold Data.nmod at hf
  by_cases h : d.icpt = true
  · simp only [h, if_true] at hf
    exact ⟨h, by omega⟩
  · simp only [h] at hf
    exact absurd hk hf

theorem sgn_soft (g l q m : K) (hm : 0 < m) (hl : 0 ≤ l) :
    sgn g * max (|g| - l * m) 0 / (q * m)
      = (if g / m < 0 then -max (|g / m| - l) 0 else max (|g / m| - l) 0) / q := by
  have hmax : max (|g| - l * m) 0 = m * max (|g / m| - l) 0 := by
    rw [abs_div, abs_of_pos hm, mul_max_of_nonneg _ _ hm.le, mul_zero, mul_sub]
    congr 1
    field_simp
  rw [hmax]
  by_cases h0 : g = 0
  · subst h0
    simp only [sgn, abs_zero, if_true, zero_mul, zero_div, lt_irrefl, if_false]
    rw [max_eq_right (by linarith)]; simp
  · have ha : |g| ≠ 0 := by simpa using h0
    by_cases hg : g < 0
    · have : g / m < 0 := div_neg_of_neg_of_pos hg hm
      simp only [sgn, ha, if_false, this, if_true]
      rw [abs_of_neg hg]
      field_simp
    · have hg' : 0 < g := lt_of_le_of_ne (le_of_not_gt hg) (Ne.symm h0)
      have : ¬ g / m < 0 := not_lt.mpr (div_nonneg hg'.le hm.le)
      simp only [sgn, ha, if_false, this, if_false]
      rw [abs_of_pos hg']
      field_simp

/-- What a step of the scikit-learn variant computes when the residual is right: the new value, and the residual of
the coefficients with the new value. -/
theorem skStep_spec (d : Data K) (ok : d.Ok) (hs : d.scaling = .none ∨ d.scaling = .centering)
    (b r : Nat → K) (action : Int) (hr : action ≤ 0 → Right d b r) {k : Nat} (hk : k < d.n) :
    Right d (put b k (skStep d b k action r).1) (skStep d b k action r).2
    ∧ (d.positive = true → k < d.nmod → 0 ≤ (skStep d b k action r).1)
    ∧ ∀ t, (d.positive = true → k < d.nmod → 0 ≤ t) →
        obj (weight d) d (put b k (skStep d b k action r).1) ≤ obj (weight d) d (put b k t) := by
  have hm : (0 : K) < (d.m : K) := by exact_mod_cast ok.m_pos
  have hw : weight d = 1 / (d.m : K) := by rcases hs with hs | hs <;> simp [weight, hs]
  obtain ⟨r1, hr1⟩ : ∃ r1, r1 = if 0 < action then d.fresh b else r := ⟨_, rfl⟩
  have hr1' : Right d b r1 := by
    rw [hr1]
    by_cases ha : 0 < action
    · rw [if_pos ha]; intro i _; exact fresh_eq d ok.n_pos b i
    · rw [if_neg ha]; exact hr (by omega)
  by_cases hz : k < d.nmod ∧ d.xv k = 0
  · -- a feature of zeros
    have hst : skStep d b k action r = (0, r1) := by
      unfold skStep
      simp only [hz, and_self, if_true, hr1]
    have hf := hz.1
    have hzero : ∀ i ∈ range d.m, d.X i k ^ 2 = 0 := by
      have h1 := ok.curve k hf
      have h2 : d.scaling ≠ .standardize := by rcases hs with hs | hs <;> simp [hs]
      rw [hz.2, if_neg h2, one_mul] at h1
      exact (sum_eq_zero_iff_of_nonneg fun i _ => sq_nonneg _).mp h1.symm
    have hcol : ∀ i, i < d.m → d.col k i = 0 := by
      intro i hi
      rw [col_feature d hf]
      exact pow_eq_zero_iff (two_ne_zero) |>.mp (hzero i (mem_range.mpr hi))
    rw [hst]
    refine ⟨?_, fun _ _ => le_rfl, ?_⟩
    · intro i hi
      rw [resid_put d b hk, hcol i hi]
      simp only [hr1' i hi, mul_zero, sub_zero]
    · intro t _
      apply obj_put_le _ _ _ hk
      have hQ : ∑ i ∈ range d.m, d.col k i ^ 2 = 0 :=
        sum_eq_zero fun i hi => by rw [hcol i (mem_range.mp hi)]; ring
      have hG : ∑ i ∈ range d.m, d.col k i * (resid d b i + b k * d.col k i) = 0 :=
        sum_eq_zero fun i hi => by rw [hcol i (mem_range.mp hi)]; ring
      simp only [hQ, hG, hf, if_true, abs_zero]
      have h1 := mul_nonneg ok.l1 (abs_nonneg t)
      have h2 := mul_nonneg ok.l2 (sq_nonneg t)
      linarith
  · obtain ⟨r2, hr2⟩ : ∃ r2 : Nat → K, r2 = if b k ≠ 0 then fun i => r1 i + b k * d.col k i else r1 := ⟨_, rfl⟩
    have hr2' : ∀ i, i < d.m → r2 i = resid d b i + b k * d.col k i := by
      intro i hi
      rw [hr2]
      by_cases h0 : b k ≠ 0
      · rw [if_pos h0, hr1' i hi]
      · rw [if_neg h0, hr1' i hi]
        have : b k = 0 := by simpa using h0
        rw [this]; ring
    obtain ⟨g, hg⟩ : ∃ g, g = dot d.m (d.col k) r2 := ⟨_, rfl⟩
    have hg' : g = ∑ i ∈ range d.m, d.col k i * (resid d b i + b k * d.col k i) := by
      rw [hg]; unfold dot
      exact sum_congr rfl fun i hi => by rw [hr2' i (mem_range.mp hi)]
    obtain ⟨v, hv⟩ : ∃ v, v = if d.positive ∧ g < 0 then 0
      else sgn g * max (|g| - d.l1reg * (d.m : K)) 0
        / ((if k < d.nmod then d.xv k else 1) + d.l2reg * ((d.m : K) * 2)) := ⟨_, rfl⟩
    have hst : skStep d b k action r = (v, if v ≠ 0 then fun i => r2 i - v * d.col k i else r2) := by
      unfold skStep
      simp only [hz, if_false, ← hr1, ← hr2, ← hg, ← hv]
    rw [hst]
    refine ⟨?_, ?_⟩
    · intro i hi
      rw [resid_put d b hk]
      by_cases h0 : v ≠ 0
      · simp only [if_pos h0]
        rw [hr2' i hi]; ring
      · have : v = 0 := by simpa using h0
        simp only [if_neg h0]
        rw [hr2' i hi, this]; ring
    · by_cases hf : k < d.nmod
      · have hcol : ∀ i, d.col k i = d.X i k := col_feature d hf
        have hQ : d.xv k = ∑ i ∈ range d.m, d.col k i ^ 2 := by
          have h2 : d.scaling ≠ .standardize := by rcases hs with hs | hs <;> simp [hs]
          rw [ok.curve k hf, if_neg h2, one_mul]
          exact sum_congr rfl fun i _ => by rw [hcol]
        have hQ0 : 0 < d.xv k :=
          lt_of_le_of_ne (curve_nonneg d ok hf) (fun h => hz ⟨hf, h.symm⟩)
        have hq : 0 < d.xv k / (d.m : K) + 2 * d.l2reg := by
          have : 0 < d.xv k / (d.m : K) := div_pos hQ0 hm
          linarith [ok.l2]
        have hden : d.xv k + d.l2reg * ((d.m : K) * 2) = (d.xv k / (d.m : K) + 2 * d.l2reg) * (d.m : K) := by
          field_simp
        have key := fun t => soft_min (d.xv k / (d.m : K) + 2 * d.l2reg) (g / (d.m : K)) d.l1reg t hq ok.l1
        simp only [hf, if_true, hden, sgn_soft g d.l1reg _ (d.m : K) hm ok.l1] at hv
        have hgoal : ∀ u : K, (weight d * (∑ i ∈ range d.m, d.col k i ^ 2) / 2 * u ^ 2
            - weight d * (∑ i ∈ range d.m, d.col k i * (resid d b i + b k * d.col k i)) * u)
            + (if k < d.nmod then d.l1reg * |u| + d.l2reg * u ^ 2 else 0)
            = (d.xv k / (d.m : K) + 2 * d.l2reg) / 2 * u ^ 2 - g / (d.m : K) * u + d.l1reg * |u| := by
          intro u
          rw [← hQ, ← hg', hw]
          simp only [hf, if_true]
          ring
        by_cases hp : d.positive = true ∧ g < 0
        · rw [if_pos hp] at hv
          subst hv
          refine ⟨fun _ _ => le_rfl, ?_⟩
          intro t ht
          have ht0 := ht hp.1 hf
          apply obj_put_le _ _ _ hk
          rw [hgoal, hgoal]
          have h1 := mul_nonneg ok.l1 (abs_nonneg t)
          have h2 : 0 ≤ (d.xv k / (d.m : K) + 2 * d.l2reg) / 2 * t ^ 2 := by positivity
          have h3 : g / (d.m : K) * t ≤ 0 :=
            mul_nonpos_of_nonpos_of_nonneg (div_nonpos_of_nonpos_of_nonneg hp.2.le hm.le) ht0
          simp only [abs_zero]
          linarith
        · rw [if_neg hp] at hv
          refine ⟨?_, ?_⟩
          · intro hpos _
            have hg0 : ¬ g / (d.m : K) < 0 := by
              intro h
              exact hp ⟨hpos, by
                by_contra hc
                exact absurd h (not_lt.mpr (div_nonneg (le_of_not_gt hc) hm.le))⟩
            rw [hv, if_neg hg0]
            exact div_nonneg (le_max_right _ _) hq.le
          · intro t _
            apply obj_put_le _ _ _ hk
            rw [hgoal, hgoal]
            have := key t
            simp only at this
            rw [← hv] at this
            exact this
      · obtain ⟨hi, hke⟩ := not_feature d hk hf
        have hg0 : g = 0 := by
          rw [hg', lin_term]
          have h1 : ∑ i ∈ range d.m, d.col k i * resid d b i = ∑ i ∈ range d.m, resid d b i :=
            sum_congr rfl fun i _ => by rw [col_icpt d hf, one_mul]
          have h2 : ∑ i ∈ range d.m, d.col k i ^ 2 = (d.m : K) := by simp [col_icpt d hf]
          rw [h1, h2, resid_sum d ok hi, ← hke]; ring
        have hv0 : v = 0 := by
          rw [hv, hg0]; simp [sgn]
        refine ⟨fun _ h => absurd h hf, ?_⟩
        intro t _
        apply obj_put_le _ _ _ hk
        rw [← hg', hg0, hv0]
        simp only [hf, if_false]
        have h2 : ∑ i ∈ range d.m, d.col k i ^ 2 = (d.m : K) := by simp [col_icpt d hf]
        rw [h2]
        have : 0 ≤ weight d * (d.m : K) / 2 * t ^ 2 := by
          have := weight_pos d ok; positivity
        linarith

/-- The residual of the GLMnet variant after its refresh. -/
theorem glmResidual_right (d : Data K) (ok : d.Ok) (b b0 r : Nat → K) (action : Int) (kdiff : K)
    (h : 0 < action ∨ (action = 0 ∧ Right d b r) ∨
      (∃ k, k < d.n ∧ action = -((k : Int) + 1) ∧ kdiff = b k - b0 k ∧ b = put b0 k (b k) ∧ Right d b0 r)) :
    Right d b (glmResidual d b action kdiff r) := by
  unfold glmResidual
  rcases h with h | ⟨h, hr⟩ | ⟨k, hk, ha, hd, hb, hr⟩
  · rw [if_pos h]; intro i _; exact fresh_eq d ok.n_pos b i
  · subst h
    simpa using hr
  · have h1 : ¬ 0 < action := by omega
    have h2 : action < 0 := by omega
    have h3 : (-(action + 1)).toNat = k := by omega
    rw [if_neg h1]
    have hres : ∀ i, resid d b i = resid d b0 i - kdiff * d.col k i := by
      intro i
      rw [hb, resid_put d b0 hk, hd]
    by_cases h0 : kdiff ≠ 0
    · rw [if_pos ⟨h2, h0⟩, h3]
      by_cases hf : k < d.nmod
      · simp only [hf, if_true]
        intro i hi
        simp only [hres, hr i hi, col_feature d hf]
      · simp only [hf, if_false]
        intro i hi
        simp only [hres, hr i hi, col_icpt d hf, mul_one]
    · rw [if_neg (fun h => h0 h.2)]
      have : kdiff = 0 := by simpa using h0
      intro i hi
      rw [hres, this, hr i hi]; ring

end

end Verif.Coord
