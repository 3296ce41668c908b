import Verif.LeastSq.Scale

set_option linter.unusedSectionVars false

/-
What `preprocess_data` computes for each kind of scaling.
-/
namespace Verif.LeastSq

open Finset (range)
open Verif.Logistic (lin icpt loop upd fill entry)

/-- The data that can be scaled: no constant feature to be standardized, and a response that is not
constant (with an intercept) or not zero (without) for `scale only`. -/
def Good (scaling : Scaling) (ic : Bool) (n p : Nat) (X : Nat → Nat → ℝ) (y : Nat → ℝ) : Prop :=
  (scaling = .standardize → ∀ j, j < p → Varies n fun i => X i j) ∧
  (scaling = .scaleOnly → ic = true → Varies n y) ∧
  (scaling = .scaleOnly → ic = false → ∃ i, i < n ∧ y i ≠ 0)

/-- The unit of the response. -/
noncomputable def unitY (scaling : Scaling) (ic : Bool) (n : Nat) (y : Nat → ℝ) : ℝ :=
  if scaling = .standardize ∨ scaling = .scaleOnly then
    if ic then dev n y else Real.sqrt ((∑ i ∈ range n, y i ^ 2) / (n : ℝ))
  else 1

/-- The unit of a feature. -/
noncomputable def unitX (scaling : Scaling) (n : Nat) (X : Nat → Nat → ℝ) (j : Nat) : ℝ :=
  if scaling = .standardize then dev n fun i => X i j else 1

/-- The common factor of the scaled data. -/
noncomputable def common (scaling : Scaling) (n : Nat) : ℝ :=
  if scaling = .scaleOnly then Real.sqrt (n : ℝ) else 1

theorem mean_eq (n : Nat) (f : Nat → ℝ) : mean n f = avg n f := by
  unfold mean avg
  rw [Verif.Logistic.loop_sum, zero_add]

theorem variance_eq (n : Nat) (f : Nat → ℝ) :
    variance n f = (∑ i ∈ range n, (f i - avg n f) ^ 2) / (n : ℝ) := by
  unfold variance
  rw [Verif.Logistic.loop_sum, zero_add, mean_eq]
  congr 1
  exact Finset.sum_congr rfl fun i _ => (sq _).symm

theorem colDot_eq (n : Nat) (X : Nat → Nat → ℝ) (j : Nat) :
    colDot n X j = ∑ i ∈ range n, X i j ^ 2 := by
  unfold colDot
  rw [Verif.Logistic.loop_sum, zero_add]
  exact Finset.sum_congr rfl fun i _ => (sq _).symm

theorem avg_sum {n : Nat} (hn : 0 < n) (f : Nat → ℝ) : ∑ i ∈ range n, (f i - avg n f) = 0 := by
  have hn' : (n : ℝ) ≠ 0 := by exact_mod_cast hn.ne'
  rw [Finset.sum_sub_distrib, Finset.sum_const, Finset.card_range, nsmul_eq_mul]
  unfold avg
  field_simp
  ring

/-- The rearranged formula for the variance. -/
theorem var_alt {n : Nat} (hn : 0 < n) (f : Nat → ℝ) :
    (∑ i ∈ range n, f i ^ 2) / (n : ℝ) - avg n f * avg n f =
      (∑ i ∈ range n, (f i - avg n f) ^ 2) / (n : ℝ) := by
  have hn' : (n : ℝ) ≠ 0 := by exact_mod_cast hn.ne'
  have e : ∑ i ∈ range n, (f i - avg n f) ^ 2 =
      ∑ i ∈ range n, f i ^ 2 - n * (avg n f * avg n f) := by
    have e1 : ∀ i ∈ range n, (f i - avg n f) ^ 2 =
        f i ^ 2 - 2 * avg n f * (f i - avg n f) - avg n f * avg n f := fun i _ => by ring
    rw [Finset.sum_congr rfl e1, Finset.sum_sub_distrib, Finset.sum_sub_distrib,
      ← Finset.mul_sum, avg_sum hn]
    simp
  rw [e]
  field_simp

theorem dev_nonneg (n : Nat) (f : Nat → ℝ) : 0 ≤ dev n f := Real.sqrt_nonneg _

theorem eq_avg_of_dev {n : Nat} (hn : 0 < n) {f : Nat → ℝ} (h : dev n f = 0) (i : Nat)
    (hi : i < n) : f i = avg n f := by
  have hn' : (0 : ℝ) < n := by exact_mod_cast hn
  have h1 : (∑ i ∈ range n, (f i - avg n f) ^ 2) / (n : ℝ) = 0 :=
    (Real.sqrt_eq_zero (div_nonneg (Finset.sum_nonneg fun _ _ => sq_nonneg _) hn'.le)).mp h
  have h2 : ∑ i ∈ range n, (f i - avg n f) ^ 2 = 0 := by
    rcases div_eq_zero_iff.mp h1 with h | h
    · exact h
    · exact absurd h hn'.ne'
  have h3 := (Finset.sum_eq_zero_iff_of_nonneg fun i _ => sq_nonneg (f i - avg n f)).mp h2 i
    (Finset.mem_range.mpr hi)
  have := pow_eq_zero_iff (two_ne_zero) |>.mp h3
  linarith

theorem dev_ne_zero {n : Nat} {f : Nat → ℝ} (h : Varies n f) : dev n f ≠ 0 := by
  obtain ⟨i, i', hi, hi', hne⟩ := h
  have hn : 0 < n := by omega
  intro e
  exact hne ((eq_avg_of_dev hn e i hi).trans (eq_avg_of_dev hn e i' hi').symm)

theorem dev_eq_zero {n : Nat} (hn : 0 < n) {f : Nat → ℝ} (h : ¬ Varies n f) : dev n f = 0 := by
  have hn' : (n : ℝ) ≠ 0 := by exact_mod_cast hn.ne'
  have hc : ∀ i, i < n → f i = f 0 := fun i hi => by
    by_contra hne
    exact h ⟨i, 0, hi, hn, hne⟩
  have ha : avg n f = f 0 := by
    unfold avg
    rw [Finset.sum_congr rfl fun i hi => hc i (Finset.mem_range.mp hi)]
    simp only [Finset.sum_const, Finset.card_range, nsmul_eq_mul]
    field_simp
  unfold dev
  rw [Finset.sum_eq_zero]
  · simp
  · intro i hi
    rw [ha, hc i (Finset.mem_range.mp hi)]
    simp

theorem varies_iff {n : Nat} (hn : 0 < n) {f : Nat → ℝ} : dev n f ≠ 0 ↔ Varies n f :=
  ⟨fun h => by
    by_contra hc
    exact h (dev_eq_zero hn hc), dev_ne_zero⟩

theorem norm_zero {n : Nat} (hn : 0 < n) {y : Nat → ℝ}
    (h : Real.sqrt ((∑ i ∈ range n, y i ^ 2) / (n : ℝ)) = 0) (i : Nat) (hi : i < n) : y i = 0 := by
  have hn' : (0 : ℝ) < n := by exact_mod_cast hn
  have h1 := (Real.sqrt_eq_zero (div_nonneg (Finset.sum_nonneg fun i _ => sq_nonneg (y i))
    hn'.le)).mp h
  have h2 : ∑ i ∈ range n, y i ^ 2 = 0 := by
    rcases div_eq_zero_iff.mp h1 with h | h
    · exact h
    · exact absurd h hn'.ne'
  exact pow_eq_zero_iff (two_ne_zero) |>.mp
    ((Finset.sum_eq_zero_iff_of_nonneg fun i _ => sq_nonneg (y i)).mp h2 i (Finset.mem_range.mpr hi))

theorem isZero_zero (p : Nat) : isZero p (fun _ => (0 : ℝ)) = true := by
  simp [isZero]

theorem isZero_iff (p : Nat) (a : Nat → ℝ) : isZero p a = true ↔ ∀ j, j < p → a j = 0 := by
  simp [isZero]

/-- A loop that rewrites the cells of an array by divisions. -/
theorem loopO_dv (n : Nat) (y : Nat → ℝ) (a b : ℝ) (hb : b ≠ 0) :
    ∃ y', (loopO n y fun j y => (dv (y j - a) b).map (upd y j)) = some y' ∧
      ∀ i, i < n → y' i = (y i - a) / b := by
  obtain ⟨y', e, h1, _⟩ := loopO_inv (fun m (w : Nat → ℝ) =>
      (∀ i, i < m → w i = (y i - a) / b) ∧ ∀ i, m ≤ i → w i = y i) n y
    (fun j y => (dv (y j - a) b).map (upd y j)) ⟨fun i hi => absurd hi (Nat.not_lt_zero i),
      fun _ _ => rfl⟩ (by
      rintro i w hi ⟨h1, h2⟩
      refine ⟨_, by rw [dv_ne hb]; rfl, ?_, ?_⟩
      · intro k hk
        by_cases ek : k = i
        · subst ek
          rw [Verif.Logistic.upd_same, h2 k (Nat.le_refl k)]
        · rw [Verif.Logistic.upd_ne _ _ ek]
          exact h1 k (by omega)
      · intro k hk
        rw [Verif.Logistic.upd_ne _ _ (by omega)]
        exact h2 k (by omega))
  exact ⟨y', e, h1⟩

theorem loopO_dv0 (n : Nat) (y : Nat → ℝ) (b : ℝ) (hb : b ≠ 0) :
    ∃ y', (loopO n y fun j y => (dv (y j) b).map (upd y j)) = some y' ∧
      ∀ i, i < n → y' i = y i / b := by
  obtain ⟨y', e, h⟩ := loopO_dv n y 0 b hb
  simp only [sub_zero] at e h
  exact ⟨y', e, h⟩

/-- The loop over the features without an intercept. -/
theorem loopO_sd {n : Nat} (hn : 0 < n) (p : Nat) (X : Nat → Nat → ℝ) (coord : Bool)
    (h : coord = true → ∀ j, j < p → Varies n fun i => X i j) :
    ∃ s, loopO p ((fun _ => (0 : ℝ)), fun _ => (0 : ℝ)) (sdStep Real.sqrt coord n X) = some s ∧
      (∀ j, j < p → s.1 j = dev n fun i => X i j) ∧
      (coord = true → ∀ j, j < p → s.2 j =
        (∑ i ∈ range n, X i j ^ 2) / (n : ℝ) / (dev n fun i => X i j) ^ 2) := by
  have hn' : (0 : ℝ) < n := by exact_mod_cast hn
  have hv : ∀ j, colDot n X j / (n : ℝ) -
      (loop n 0 fun i t => t + X i j) / (n : ℝ) * ((loop n 0 fun i t => t + X i j) / (n : ℝ)) =
      (∑ i ∈ range n, (X i j - avg n fun i => X i j) ^ 2) / (n : ℝ) := fun j => by
    rw [colDot_eq, Verif.Logistic.loop_sum, zero_add]
    exact var_alt hn fun i => X i j
  have hsq : ∀ j, (dev n fun i => X i j) ^ 2 =
      (∑ i ∈ range n, (X i j - avg n fun i => X i j) ^ 2) / (n : ℝ) := fun j =>
    Real.sq_sqrt (div_nonneg (Finset.sum_nonneg fun _ _ => sq_nonneg _) hn'.le)
  obtain ⟨s, e, h1, h2⟩ := loopO_inv (fun m (s : (Nat → ℝ) × (Nat → ℝ)) =>
      (∀ j, j < m → s.1 j = dev n fun i => X i j) ∧
      (coord = true → ∀ j, j < m → s.2 j =
        (∑ i ∈ range n, X i j ^ 2) / (n : ℝ) / (dev n fun i => X i j) ^ 2)) p
    ((fun _ => (0 : ℝ)), fun _ => (0 : ℝ)) (sdStep Real.sqrt coord n X)
    ⟨fun i hi => absurd hi (Nat.not_lt_zero i), fun _ i hi => absurd hi (Nat.not_lt_zero i)⟩ (by
      rintro j s hj ⟨h1, h2⟩
      have a1 : ∀ k, k < j + 1 → upd s.1 j (dev n fun i => X i j) k = dev n fun i => X i k := by
        intro k hk
        by_cases ek : k = j
        · subst ek
          rw [Verif.Logistic.upd_same]
        · rw [Verif.Logistic.upd_ne _ _ ek]
          exact h1 k (by omega)
      have d1 : Real.sqrt ((∑ i ∈ range n, (X i j - avg n fun i => X i j) ^ 2) / (n : ℝ)) =
          dev n fun i => X i j := rfl
      cases hc : coord with
      | false =>
        refine ⟨(upd s.1 j (dev n fun i => X i j), s.2), ?_, a1, fun h => by simp at h⟩
        simp only [sdStep, hv, d1, Bool.false_eq_true, if_false]
      | true =>
        have hne : (dev n fun i => X i j) ^ 2 ≠ 0 := pow_ne_zero 2 (dev_ne_zero (h hc j hj))
        refine ⟨(upd s.1 j (dev n fun i => X i j),
          upd s.2 j ((∑ i ∈ range n, X i j ^ 2) / (n : ℝ) / (dev n fun i => X i j) ^ 2)), ?_, a1, ?_⟩
        · simp only [sdStep, hv, d1, if_true]
          rw [← hsq, dv_ne hne, colDot_eq]
          rfl
        · intro _ k hk
          simp only
          by_cases ek : k = j
          · subst ek
            rw [Verif.Logistic.upd_same]
          · rw [Verif.Logistic.upd_ne _ _ ek]
            exact h2 hc k (by omega))
  exact ⟨s, e, h1, h2⟩

/-- What `preprocess_data` leaves, for all kinds of scaling but `none`. -/
structure Ready (scaling : Scaling) (ic coord : Bool) (n p : Nat) (X : Nat → Nat → ℝ)
    (y : Nat → ℝ) (P : Prep ℝ) : Prop where
  scaled : Scaled ic n p X y P.X P.y P.shifts P.scales (common scaling n)
  scales : ∀ j, j < p → P.scales j = unitX scaling n X j
  yscale : P.scales p = unitY scaling ic n y
  xv : coord = true → ∀ j, j < p → P.xv j =
    (if scaling = .standardize then 1 / (n : ℝ) else 1) * ∑ i ∈ range n, P.X i j ^ 2

theorem sum_div_sub {n : Nat} (hn : 0 < n) (f : Nat → ℝ) (b : ℝ) :
    ∑ i ∈ range n, (f i - avg n f) / b = 0 := by
  rw [← Finset.sum_div, avg_sum hn, zero_div]

theorem prep_ready (scaling : Scaling) (ic coord : Bool) {n : Nat} (p : Nat) (X : Nat → Nat → ℝ)
    (y : Nat → ℝ) (hn : 0 < n) (hs : scaling ≠ .none) (hg : Good scaling ic n p X y) :
    ∃ P, preprocess Real.sqrt scaling ic coord n p X y = some P ∧
      Ready scaling ic coord n p X y P := by
  have hn' : (0 : ℝ) < n := by exact_mod_cast hn
  have hroot : Real.sqrt (n : ℝ) ≠ 0 := (Real.sqrt_pos.mpr hn').ne'
  have hrootsq : Real.sqrt (n : ℝ) ^ 2 = n := Real.sq_sqrt hn'.le
  cases scaling with
  | none => exact absurd rfl hs
  | centering =>
    cases ic with
    | false =>
      refine ⟨_, rfl, ⟨⟨?_, ?_, ?_, ?_, ?_, ?_⟩, ?_, ?_, ?_⟩⟩
      · intro i j _ _; simp [common]
      · intro i _; simp [common]
      · intro j _; simp
      · simp [common]
      · intro h; simp at h
      · intro _; simp
      · intro j _; simp [unitX]
      · simp [unitY]
      · intro hc j _
        simp [hc, colDot_eq]
    | true =>
      refine ⟨_, rfl, ⟨⟨?_, ?_, ?_, ?_, ?_, ?_⟩, ?_, ?_, ?_⟩⟩
      · intro i j _ hj
        simp only [standardize, isZero_zero, if_true, mean_eq]
        rw [Verif.Logistic.upd_ne _ _ (show j ≠ p by omega)]
        simp [common]
      · intro i _
        simp only [standardize, isZero_zero, if_true, mean_eq]
        rw [Verif.Logistic.upd_same]
        simp [common]
      · intro j _; simp
      · simp [common]
      · intro _
        simp only [standardize, isZero_zero, if_true, mean_eq]
        exact ⟨fun j _ => sum_div_sub hn (fun i => X i j) _, sum_div_sub hn y _⟩
      · intro h; simp at h
      · intro j _; simp [unitX]
      · simp [unitY]
      · intro hc j _
        simp only [hc, if_true, colDot_eq]
        simp
  | standardize =>
    have hv := hg.1 rfl
    cases ic with
    | true =>
      refine ⟨_, rfl, ⟨⟨?_, ?_, ?_, ?_, ?_, ?_⟩, ?_, ?_, ?_⟩⟩
      · intro i j _ hj
        simp only [standardize, isZero_zero, if_true, mean_eq, variance_eq]
        have hd : Real.sqrt ((∑ i ∈ range n, (X i j - avg n fun i => X i j) ^ 2) / (n : ℝ)) ≠ 0 :=
          dev_ne_zero (hv j hj)
        rw [Verif.Logistic.upd_ne _ _ (show j ≠ p by omega),
          Verif.Logistic.upd_ne _ _ (show j ≠ p by omega), if_neg hd]
        simp only [common]
        field_simp
        simp
      · intro i hi
        simp only [standardize, isZero_zero, if_true, mean_eq, variance_eq]
        rw [Verif.Logistic.upd_same, Verif.Logistic.upd_same]
        by_cases hd : Real.sqrt ((∑ i ∈ range n, (y i - avg n y) ^ 2) / (n : ℝ)) = 0
        · rw [hd]
          have := eq_avg_of_dev hn hd i hi
          simp [this]
        · rw [if_neg hd]
          simp only [common]
          field_simp
          simp
      · intro j hj
        simp only [standardize, isZero_zero, if_true, mean_eq, variance_eq]
        rw [Verif.Logistic.upd_ne _ _ (show j ≠ p by omega)]
        exact dev_ne_zero (hv j hj)
      · simp [common]
      · intro _
        simp only [standardize, isZero_zero, if_true, mean_eq]
        exact ⟨fun j _ => sum_div_sub hn (fun i => X i j) _, sum_div_sub hn y _⟩
      · intro h; simp at h
      · intro j hj
        simp only [standardize, isZero_zero, if_true, mean_eq, variance_eq]
        rw [Verif.Logistic.upd_ne _ _ (show j ≠ p by omega)]
        simp [unitX, dev]
      · simp only [standardize, isZero_zero, if_true, mean_eq, variance_eq]
        rw [Verif.Logistic.upd_same]
        simp [unitY, dev]
      · intro hc j hj
        simp only [standardize, isZero_zero, if_true, mean_eq, variance_eq, hc]
        have hd : Real.sqrt ((∑ i ∈ range n, (X i j - avg n fun i => X i j) ^ 2) / (n : ℝ)) ≠ 0 :=
          dev_ne_zero (hv j hj)
        have hsq := Real.sq_sqrt (div_nonneg (Finset.sum_nonneg fun i (_ : i ∈ range n) =>
          sq_nonneg (X i j - avg n fun i => X i j)) hn'.le)
        rw [if_neg hd]
        simp only [div_pow]
        rw [hsq, ← Finset.sum_div]
        have hne : (∑ i ∈ range n, (X i j - avg n fun i => X i j) ^ 2) ≠ 0 := by
          intro e
          rw [e] at hd
          simp at hd
        field_simp
    | false =>
      obtain ⟨s, e, h1, h2⟩ := loopO_sd hn p X coord fun _ => hv
      have hsc : ∀ j, j < p → (if isZero p s.1 = true then
          fun j => Real.sqrt (variance n fun i => X i j) else s.1) j = dev n fun i => X i j := by
        intro j hj
        split
        · simp only [variance_eq]; rfl
        · exact h1 j hj
      obtain ⟨sY, hsY⟩ : ∃ t, t = Real.sqrt ((∑ i ∈ range n, y i ^ 2) / (n : ℝ)) := ⟨_, rfl⟩
      have hsY' : Real.sqrt ((loop n 0 fun i t => t + y i * y i) / (n : ℝ)) = sY := by
        rw [Verif.Logistic.loop_sum, zero_add, hsY]
        congr 2
        exact Finset.sum_congr rfl fun i _ => (sq _).symm
      have hscY : (if isZero 1 (fun _ => sY) = true then
          fun _ => Real.sqrt (variance n y) else fun _ => sY) 0 = sY := by
        split
        · rename_i hz
          have hz' := (isZero_iff 1 _).mp hz 0 (Nat.lt_succ_self 0)
          rw [hz', variance_eq]
          refine dev_eq_zero hn ?_
          rintro ⟨i, i', hi, hi', hne⟩
          exact hne ((norm_zero hn (hsY ▸ hz') i hi).trans (norm_zero hn (hsY ▸ hz') i' hi').symm)
        · rfl
      refine ⟨⟨fun i j => (X i j - 0) / (if (if isZero p s.1 = true then
          fun j => Real.sqrt (variance n fun i => X i j) else s.1) j = 0 then 1 else
            (if isZero p s.1 = true then
          fun j => Real.sqrt (variance n fun i => X i j) else s.1) j),
          fun i => (y i - 0) / (if (if isZero 1 (fun _ => sY) = true then
          fun _ => Real.sqrt (variance n y) else fun _ => sY) 0 = 0 then 1 else
          (if isZero 1 (fun _ => sY) = true then
          fun _ => Real.sqrt (variance n y) else fun _ => sY) 0), fun _ => 0,
          upd (if isZero p s.1 = true then
          fun j => Real.sqrt (variance n fun i => X i j) else s.1) p
          ((if isZero 1 (fun _ => sY) = true then
          fun _ => Real.sqrt (variance n y) else fun _ => sY) 0), s.2⟩, ?_,
          ⟨⟨?_, ?_, ?_, ?_, ?_, ?_⟩, ?_, ?_, ?_⟩⟩
      · unfold preprocess
        simp only [e, Option.bind_eq_bind, Option.bind_some, hsY']
        rfl
      · intro i j _ hj
        simp only [common]
        rw [Verif.Logistic.upd_ne _ _ (show j ≠ p by omega), hsc j hj, if_neg (dev_ne_zero (hv j hj))]
        have := dev_ne_zero (hv j hj)
        field_simp
        simp
      · intro i hi
        simp only [common]
        rw [Verif.Logistic.upd_same, hscY]
        by_cases hz : sY = 0
        · rw [norm_zero hn (y := y) (hsY ▸ hz) i hi, hz]
          simp
        · rw [if_neg hz]
          field_simp
          simp
      · intro j hj
        simp only
        rw [Verif.Logistic.upd_ne _ _ (show j ≠ p by omega), hsc j hj]
        exact dev_ne_zero (hv j hj)
      · simp [common]
      · intro h; simp at h
      · intro _; simp
      · intro j hj
        simp only
        rw [Verif.Logistic.upd_ne _ _ (show j ≠ p by omega), hsc j hj]
        simp [unitX]
      · simp only
        rw [Verif.Logistic.upd_same, hscY, hsY]
        simp [unitY]
      · intro hc j hj
        simp only
        rw [h2 hc j hj, hsc j hj, if_neg (dev_ne_zero (hv j hj))]
        simp only [sub_zero, div_pow, if_true]
        rw [← Finset.sum_div]
        ring
  | scaleOnly =>
    cases ic with
    | true =>
      have hY : dev n y ≠ 0 := dev_ne_zero (hg.2.1 rfl rfl)
      have hsd : Real.sqrt (variance n y) = dev n y := by rw [variance_eq]; rfl
      obtain ⟨y', e, h1⟩ := loopO_dv n y (mean n y) (dev n y * Real.sqrt (n : ℝ))
        (mul_ne_zero hY hroot)
      obtain ⟨sh, hsh⟩ : ∃ t : Nat → ℝ, t = if coord = true then fun j => mean n fun i => X i j
        else fun _ => 0 := ⟨_, rfl⟩
      obtain ⟨R, hR⟩ : ∃ R, R = standardize Real.sqrt n p X (some sh)
        (some fun _ => Real.sqrt (n : ℝ)) := ⟨_, rfl⟩
      have hmu : ∀ j, j < p → R.2.1 j = avg n fun i => X i j := by
        intro j _
        rw [hR]
        simp only [standardize]
        by_cases hz : isZero p sh = true
        · rw [if_pos hz]
          exact mean_eq n _
        · rw [if_neg hz, hsh]
          cases coord with
          | true => exact mean_eq n _
          | false =>
            rw [hsh] at hz
            simp [isZero_zero] at hz
      have hsc : ∀ j, j < p → R.2.2 j = Real.sqrt (n : ℝ) := by
        intro j hj
        rw [hR]
        simp only [standardize]
        have hnz : ¬ isZero p (fun _ => Real.sqrt (n : ℝ)) = true := fun h =>
          hroot ((isZero_iff p _).mp h j hj)
        rw [if_neg hnz]
        split <;> rfl
      have hval : ∀ i j, R.1 i j = (X i j - R.2.1 j) / (if R.2.2 j = 0 then 1 else R.2.2 j) := by
        intro i j
        rw [hR]
        rfl
      have hval' : ∀ i j, j < p → R.1 i j = (X i j - avg n fun i => X i j) / Real.sqrt (n : ℝ) := by
        intro i j hj
        rw [hval, hmu j hj, hsc j hj, if_neg hroot]
      refine ⟨⟨R.1, y', upd R.2.1 p (mean n y), upd (fun _ => 1) p (dev n y),
        if coord = true then fun j => variance n fun i => X i j else fun _ => 0⟩, ?_,
        ⟨⟨?_, ?_, ?_, ?_, ?_, ?_⟩, ?_, ?_, ?_⟩⟩
      · unfold preprocess
        simp only [Option.bind_eq_bind, hsd, e, Option.bind_some, ← hsh, ← hR]
      · intro i j _ hj
        simp only [common]
        rw [Verif.Logistic.upd_ne _ _ (show j ≠ p by omega),
          Verif.Logistic.upd_ne _ _ (show j ≠ p by omega), hval' i j hj, hmu j hj, if_pos trivial]
        field_simp
        ring
      · intro i hi
        simp only [common]
        rw [Verif.Logistic.upd_same, Verif.Logistic.upd_same, h1 i hi, if_pos trivial]
        field_simp
        ring
      · intro j hj
        simp only
        rw [Verif.Logistic.upd_ne _ _ (show j ≠ p by omega)]
        exact one_ne_zero
      · simpa [common] using hroot
      · intro _
        refine ⟨fun j hj => ?_, ?_⟩
        · rw [Finset.sum_congr rfl fun i _ => hval' i j hj]
          exact sum_div_sub hn (fun i => X i j) _
        · rw [Finset.sum_congr rfl fun i hi => h1 i (Finset.mem_range.mp hi), mean_eq]
          exact sum_div_sub hn y _
      · intro h; simp at h
      · intro j hj
        simp only
        rw [Verif.Logistic.upd_ne _ _ (show j ≠ p by omega)]
        simp [unitX]
      · simp only
        rw [Verif.Logistic.upd_same]
        simp [unitY]
      · intro hc j hj
        simp only [hc, if_true, variance_eq]
        have e2 : ∀ i ∈ range n, R.1 i j ^ 2 = (X i j - avg n fun i => X i j) ^ 2 / n :=
          fun i _ => by rw [hval' i j hj, div_pow, hrootsq]
        rw [Finset.sum_congr rfl e2, ← Finset.sum_div]
        simp
    | false =>
      obtain ⟨i0, hi0, hy0⟩ := hg.2.2 rfl rfl
      have hss : (loop n 0 fun i t => t + y i * y i) = ∑ i ∈ range n, y i ^ 2 := by
        rw [Verif.Logistic.loop_sum, zero_add]
        exact Finset.sum_congr rfl fun i _ => (sq _).symm
      have hpos : 0 < ∑ i ∈ range n, y i ^ 2 :=
        Finset.sum_pos' (fun i _ => sq_nonneg (y i))
          ⟨i0, Finset.mem_range.mpr hi0, by positivity⟩
      have hyn : Real.sqrt (∑ i ∈ range n, y i ^ 2) ≠ 0 := (Real.sqrt_pos.mpr hpos).ne'
      obtain ⟨y', e, h1⟩ := loopO_dv0 n y (Real.sqrt (∑ i ∈ range n, y i ^ 2)) hyn
      refine ⟨⟨fun i j => X i j / Real.sqrt (n : ℝ), y', fun _ => 0,
        upd (fun _ => 1) p (Real.sqrt (∑ i ∈ range n, y i ^ 2) / Real.sqrt (n : ℝ)),
        if coord = true then fun j => colDot n X j / (n : ℝ) else fun _ => 0⟩, ?_,
        ⟨⟨?_, ?_, ?_, ?_, ?_, ?_⟩, ?_, ?_, ?_⟩⟩
      · unfold preprocess
        simp only [Option.bind_eq_bind, hss, e, Option.bind_some]
      · intro i j _ hj
        simp only [common]
        rw [Verif.Logistic.upd_ne _ _ (show j ≠ p by omega)]
        field_simp
        simp
      · intro i hi
        simp only [common]
        rw [Verif.Logistic.upd_same, h1 i hi]
        field_simp
        simp
      · intro j hj
        simp only
        rw [Verif.Logistic.upd_ne _ _ (show j ≠ p by omega)]
        exact one_ne_zero
      · simpa [common] using hroot
      · intro h; simp at h
      · intro _; simp
      · intro j hj
        simp only
        rw [Verif.Logistic.upd_ne _ _ (show j ≠ p by omega)]
        simp [unitX]
      · simp only
        rw [Verif.Logistic.upd_same]
        simp [unitY]
      · intro hc j hj
        simp only [hc, if_true, colDot_eq]
        have e2 : ∀ i ∈ range n, (X i j / Real.sqrt (n : ℝ)) ^ 2 = X i j ^ 2 / n :=
          fun i _ => by rw [div_pow, hrootsq]
        rw [Finset.sum_congr rfl e2, ← Finset.sum_div]
        simp

end Verif.LeastSq
