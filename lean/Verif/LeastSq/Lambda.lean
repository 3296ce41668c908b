import Verif.LeastSq.Prep

set_option linter.unusedSectionVars false

/-
The penalty that the solvers get, and what the coefficients that come back minimise.
-/
namespace Verif.LeastSq

open Finset (range)
open Verif.Logistic (lin icpt loop upd)

theorem cost_mul (k w l1 l2 : ℝ) (σ : Nat → ℝ) (ic : Bool) (n p : Nat) (X : Nat → Nat → ℝ)
    (y c : Nat → ℝ) :
    cost (k * w) (k * l1) (k * l2) σ ic n p X y c = k * cost w l1 l2 σ ic n p X y c := by
  unfold cost
  ring

theorem cost_units {w l1 l2 : ℝ} {σ τ : Nat → ℝ} {p : Nat} (h : ∀ j, j < p → σ j = τ j) (ic : Bool)
    (n : Nat) (X : Nat → Nat → ℝ) (y : Nat → ℝ) :
    cost w l1 l2 σ ic n p X y = cost w l1 l2 τ ic n p X y := by
  funext c
  unfold cost
  have e1 : ∑ j ∈ range p, |σ j * c j| = ∑ j ∈ range p, |τ j * c j| :=
    Finset.sum_congr rfl fun j hj => by rw [h j (Finset.mem_range.mp hj)]
  have e2 : ∑ j ∈ range p, (σ j * c j) ^ 2 = ∑ j ∈ range p, (τ j * c j) ^ 2 :=
    Finset.sum_congr rfl fun j hj => by rw [h j (Finset.mem_range.mp hj)]
  rw [e1, e2]

/-- A positive multiple of the cost has the same minimisers. -/
theorem min_mul {w l1 l2 w' l1' l2' : ℝ} {σ c : Nat → ℝ} {ic : Bool} {n p : Nat}
    {X : Nat → Nat → ℝ} {y : Nat → ℝ} (k : ℝ) (hk : 0 < k) (e : w' = k * w) (e1 : l1' = k * l1)
    (e2 : l2' = k * l2) (h : Minimises (cost w l1 l2 σ ic n p X y) c) :
    Minimises (cost w' l1' l2' σ ic n p X y) c := by
  intro d
  rw [e, e1, e2, cost_mul, cost_mul]
  exact mul_le_mul_of_nonneg_left (h d) hk.le

/-! ### The divisions -/

/-- When the scaling and the way back both succeed. -/
theorem good_of_some (scaling : Scaling) (ic coord : Bool) {n : Nat} (p : Nat)
    (X : Nat → Nat → ℝ) (y : Nat → ℝ) (hn : 0 < n) {P : Prep ℝ}
    (hP : preprocess Real.sqrt scaling ic coord n p X y = some P) {c c' : Nat → ℝ}
    (hr : revert scaling ic p P.shifts P.scales c = some c') : Good scaling ic n p X y := by
  have hsc : scaling ≠ .none → ∀ j, j < p → P.scales j ≠ 0 := by
    intro hs j hj h0
    rw [revert_fail scaling ic p P.shifts P.scales c hs j hj h0] at hr
    exact absurd hr (by simp)
  refine ⟨?_, ?_, ?_⟩
  · rintro rfl j hj
    have hs := hsc (by decide) j hj
    refine (varies_iff hn).mp ?_
    cases ic with
    | true =>
      unfold preprocess at hP
      simp only [Option.some.injEq] at hP
      rw [← hP] at hs
      simp only [standardize, isZero_zero, if_true, variance_eq] at hs
      rw [Verif.Logistic.upd_ne _ _ (show j ≠ p by omega)] at hs
      exact hs
    | false =>
      have hv : coord = true → ∀ j, j < p → Varies n fun i => X i j := by
        intro hc k hk
        by_contra hno
        have hz := dev_eq_zero hn hno
        have hd : colDot n X k / (n : ℝ) - (loop n 0 fun i t => t + X i k) / (n : ℝ) *
            ((loop n 0 fun i t => t + X i k) / (n : ℝ)) = 0 := by
          rw [colDot_eq, Verif.Logistic.loop_sum, zero_add]
          have := var_alt hn fun i => X i k
          unfold avg at this
          rw [this]
          have hn' : (0 : ℝ) < n := by exact_mod_cast hn
          exact (Real.sqrt_eq_zero (div_nonneg (Finset.sum_nonneg fun _ _ => sq_nonneg _)
            hn'.le)).mp hz
        have := loopO_fail p ((fun _ => (0 : ℝ)), fun _ => (0 : ℝ)) (sdStep Real.sqrt coord n X) k hk
          fun s => by
            simp only [sdStep, hc, if_true, hd, dv_zero, Option.map_none]
        unfold preprocess at hP
        simp only [this] at hP
        exact absurd hP (by simp)
      obtain ⟨s, e, h1, _⟩ := loopO_sd hn p X coord hv
      unfold preprocess at hP
      simp only [e, Option.bind_eq_bind, Option.bind_some, Option.some.injEq] at hP
      rw [← hP] at hs
      simp only [standardize] at hs
      rw [Verif.Logistic.upd_ne _ _ (show j ≠ p by omega)] at hs
      by_cases hz : isZero p s.1 = true
      · rw [if_pos hz] at hs
        simp only [variance_eq] at hs
        exact hs
      · rw [if_neg hz, h1 j hj] at hs
        exact hs
  · rintro rfl rfl
    by_contra hno
    have hz : Real.sqrt (variance n y) = 0 := by
      rw [variance_eq]
      exact dev_eq_zero hn hno
    have := loopO_fail n y (fun j y' => (dv (y' j - mean n y)
      (Real.sqrt (variance n y) * Real.sqrt (n : ℝ))).map (upd y' j)) 0 hn fun s => by
        simp only [hz, zero_mul, dv_zero, Option.map_none]
    unfold preprocess at hP
    simp only [this] at hP
    exact absurd hP (by simp)
  · rintro rfl rfl
    by_contra hno
    have hz : Real.sqrt (loop n 0 fun i t => t + y i * y i) = 0 := by
      rw [Verif.Logistic.loop_sum, zero_add, Finset.sum_eq_zero]
      · exact Real.sqrt_zero
      · intro i hi
        by_contra hne
        exact hno ⟨i, Finset.mem_range.mp hi, fun h => hne (by rw [h, mul_zero])⟩
    have := loopO_fail n y (fun j y' => (dv (y' j)
      (Real.sqrt (loop n 0 fun i t => t + y i * y i))).map (upd y' j)) 0 hn fun s => by
        simp only [hz, dv_zero, Option.map_none]
    unfold preprocess at hP
    simp only [this] at hP
    exact absurd hP (by simp)

theorem unitY_nonneg (scaling : Scaling) (ic : Bool) (n : Nat) (y : Nat → ℝ) :
    0 ≤ unitY scaling ic n y := by
  unfold unitY
  split
  · split
    · exact dev_nonneg _ _
    · exact Real.sqrt_nonneg _
  · norm_num

/-! ### The penalty -/

/-- The solvers that minimise the sum of the squares. -/
def Direct (m : Method) : Prop := m ≠ .coord ∧ m ≠ .lbfgsb

/-- The penalty of a solver in ridge regression. -/
noncomputable def lamOf (scaling : Scaling) (m : Method) (lambda sY : ℝ) (n : Nat) : ℝ :=
  match scaling, m with
  | .standardize, .coord => lambda / sY
  | .standardize, .lbfgsb => lambda / sY
  | .standardize, _ => lambda / sY * n
  | .scaleOnly, .lbfgsb => lambda / n / n
  | .scaleOnly, _ => lambda / n
  | _, .lbfgsb => lambda / n
  | _, .coord => lambda / n
  | _, _ => lambda

theorem ridge_lambda {m : Method} {scaling : Scaling} {lambda sY l : ℝ} {n : Nat} (hn : 0 < n)
    (h : scaleLambda m scaling 0 lambda sY n = some l) :
    (scaling = .standardize → lambda ≠ 0 → sY ≠ 0) ∧
    l = lamOf scaling m lambda sY n := by
  have hn' : (n : ℝ) ≠ 0 := by exact_mod_cast hn.ne'
  unfold scaleLambda at h
  by_cases h0 : lambda = 0
  · simp [h0] at h
    subst h
    refine ⟨fun _ h => absurd h0 h, ?_⟩
    rw [h0]
    cases scaling <;> cases m <;> simp [lamOf]
  · by_cases hs : sY = 0
    · cases scaling <;> cases m <;> simp [h0, hs, dv, hn', lamOf] at h ⊢ <;> exact h.symm
    · cases scaling <;> cases m <;> simp [h0, hs, dv, hn', lamOf] at h ⊢ <;> exact h.symm

theorem elastic_lambda {m : Method} {scaling : Scaling} {alpha lambda sY l : ℝ} {n : Nat}
    (ha : alpha ≠ 0) (h : scaleLambda m scaling alpha lambda sY n = some l) :
    ((scaling = .standardize ∨ scaling = .scaleOnly) → lambda ≠ 0 → sY ≠ 0) ∧
    l = if scaling = .standardize ∨ scaling = .scaleOnly then lambda / sY else lambda := by
  unfold scaleLambda at h
  by_cases h0 : lambda = 0
  · simp [h0] at h
    subst h
    exact ⟨fun _ h => absurd h0 h, by simp [h0]⟩
  · by_cases hs : sY = 0
    · cases scaling <;> simp [h0, ha, hs, dv] at h ⊢ <;> exact h.symm
    · cases scaling <;> simp [h0, ha, hs, dv] at h ⊢ <;> exact h.symm

theorem scaleLambda_some {m : Method} {scaling : Scaling} {alpha lambda sY : ℝ} {n : Nat}
    (hn : 0 < n) (h : sY ≠ 0 ∨ lambda = 0 ∨ scaling = .none ∨ scaling = .centering) :
    ∃ l, scaleLambda m scaling alpha lambda sY n = some l := by
  have hn' : (n : ℝ) ≠ 0 := by exact_mod_cast hn.ne'
  unfold scaleLambda
  by_cases h0 : lambda = 0
  · simp [h0]
  · by_cases ha : alpha = 0
    · rcases h with h | h | h | h
      · cases scaling <;> cases m <;> simp [h0, ha, h, dv, hn']
      · exact absurd h h0
      · subst h; cases m <;> simp [h0, ha, dv, hn']
      · subst h; cases m <;> simp [h0, ha, dv, hn']
    · rcases h with h | h | h | h
      · cases scaling <;> simp [h0, ha, h, dv]
      · exact absurd h h0
      · subst h; simp [h0, ha]
      · subst h; simp [h0, ha]

/-! ### The coefficients that come back -/

/-- The general form: the units of the data are those of the scaling. -/
theorem fit_units {scaling : Scaling} {ic coord : Bool} {n p : Nat} {X : Nat → Nat → ℝ}
    {y : Nat → ℝ} (hn : 0 < n) {P : Prep ℝ}
    (hP : preprocess Real.sqrt scaling ic coord n p X y = some P) {w l1 l2 : ℝ} (hw : 0 < w)
    (h1 : 0 ≤ l1) (h2 : 0 ≤ l2) {c c' : Nat → ℝ}
    (hc : Minimises (cost w l1 l2 (fun _ => 1) ic n p P.X P.y) c ∨
      scaling ≠ .none ∧ Minimises0 p (cost w l1 l2 (fun _ => 1) ic n p P.X P.y) c)
    (hr : revert scaling ic p P.shifts P.scales c = some c') :
    Minimises (cost w (l1 * common scaling n ^ 2 * unitY scaling ic n y)
      (l2 * common scaling n ^ 2) (unitX scaling n X) ic n p X y) c' := by
  by_cases hs : scaling = .none
  · subst hs
    have hc : Minimises (cost w l1 l2 (fun _ => 1) ic n p P.X P.y) c := by
      rcases hc with h | h
      · exact h
      · exact absurd rfl h.1
    unfold preprocess at hP
    simp only [Option.some.injEq] at hP
    unfold revert at hr
    simp only [if_true, Option.some.injEq] at hr
    rw [← hP] at hc
    rw [← hr]
    have hu : unitX .none n X = fun _ => 1 := funext fun j => by simp [unitX]
    rw [hu]
    simp only [common, unitY]
    simpa using hc
  · have hg := good_of_some scaling ic coord p X y hn hP hr
    obtain ⟨P', hP', R⟩ := prep_ready scaling ic coord p X y hn hs hg
    rw [hP] at hP'
    obtain rfl : P = P' := Option.some.inj hP'
    have hc : Minimises (cost w l1 l2 (fun _ => 1) ic n p P.X P.y) c := by
      rcases hc with h | h
      · exact h
      · exact R.scaled.min_of_min0 hw.le h.2
    obtain ⟨c2, e2, k1, k2, _⟩ := revert_eq scaling ic p P.shifts P.scales c hs R.scaled.hσ
    rw [hr] at e2
    obtain rfl : c' = c2 := Option.some.inj e2
    have key := R.scaled.minimises hn hw h1 h2 hc k1 fun hic => by rw [k2, if_pos hic]
    rw [R.yscale, abs_of_nonneg (unitY_nonneg _ _ _ _), cost_units R.scales] at key
    exact key

theorem common_sq (scaling : Scaling) (n : Nat) :
    common scaling n ^ 2 = if scaling = .scaleOnly then (n : ℝ) else 1 := by
  unfold common
  split
  · exact Real.sq_sqrt (Nat.cast_nonneg n)
  · norm_num

/-- The penalty of a solver is not negative. -/
theorem lam_nonneg {m : Method} {scaling : Scaling} {ic coord : Bool} {n p : Nat}
    {X : Nat → Nat → ℝ} {y : Nat → ℝ} (hn : 0 < n) {lambda : ℝ} (hl : 0 ≤ lambda) {P : Prep ℝ}
    (hP : preprocess Real.sqrt scaling ic coord n p X y = some P) {l : ℝ}
    (hlam : scaleLambda m scaling 0 lambda (P.scales p) n = some l) {c c' : Nat → ℝ}
    (hr : revert scaling ic p P.shifts P.scales c = some c') :
    l = lamOf scaling m lambda (P.scales p) n ∧
      (scaling ≠ .none → P.scales p = unitY scaling ic n y) ∧ 0 ≤ l := by
  have hn' : (0 : ℝ) < n := by exact_mod_cast hn
  obtain ⟨hs, e⟩ := ridge_lambda hn hlam
  have hY : scaling ≠ .none → P.scales p = unitY scaling ic n y := by
    intro h
    obtain ⟨P', hP', R⟩ := prep_ready scaling ic coord p X y hn h
      (good_of_some scaling ic coord p X y hn hP hr)
    rw [hP] at hP'
    obtain rfl : P = P' := Option.some.inj hP'
    exact R.yscale
  have hY0 := unitY_nonneg scaling ic n y
  have hl0 : 0 ≤ l := by
    cases scaling with
    | standardize =>
      rw [← hY (by decide)] at hY0
      rw [e]
      cases m <;> simp only [lamOf] <;> positivity
    | _ => rw [e]; cases m <;> simp only [lamOf] <;> positivity
  exact ⟨e, hY, hl0⟩

/-- Ridge regression. -/
theorem ridge_units {m : Method} {scaling : Scaling} {ic coord : Bool} {n p : Nat}
    {X : Nat → Nat → ℝ} {y : Nat → ℝ} (hn : 0 < n) {lambda : ℝ} (hl : 0 ≤ lambda) {P : Prep ℝ}
    (hP : preprocess Real.sqrt scaling ic coord n p X y = some P) {l : ℝ}
    (hlam : scaleLambda m scaling 0 lambda (P.scales p) n = some l) {c c' : Nat → ℝ}
    (hc : Minimises (solverCost m scaling 0 l ic n p P.X P.y) c ∨
      scaling ≠ .none ∧ Minimises0 p (solverCost m scaling 0 l ic n p P.X P.y) c)
    (hr : revert scaling ic p P.shifts P.scales c = some c') :
    Minimises (cost (1 / 2) 0
      ((if scaling = .standardize then n * lambda / unitY scaling ic n y else lambda) / 2)
      (unitX scaling n X) ic n p X y) c' := by
  have hn' : (0 : ℝ) < n := by exact_mod_cast hn
  obtain ⟨e, hY, hl0⟩ := lam_nonneg hn hl hP hlam hr
  unfold solverCost at hc
  have key := fit_units hn hP (by split <;> positivity) (by simp) (by linarith) hc hr
  simp only [mul_zero, zero_mul, sub_zero, mul_one] at key
  rw [common_sq] at key
  by_cases hm : m = .lbfgsb ∨ (m = .coord ∧ scaling ≠ .scaleOnly)
  · rw [if_pos hm] at key
    refine min_mul (n : ℝ) hn' (by field_simp) (by simp) ?_ key
    cases scaling with
    | standardize =>
      rw [hY (by decide)] at e
      rw [e, if_pos rfl, if_neg (by decide)]
      rcases hm with hm | ⟨hm, _⟩ <;> (subst hm; simp only [lamOf]; ring)
    | scaleOnly =>
      rcases hm with hm | ⟨_, hm⟩
      · subst hm
        rw [e]
        simp only [lamOf, if_true, reduceCtorEq, if_false]
        field_simp
      · exact absurd rfl hm
    | none =>
      rw [e]
      rcases hm with hm | ⟨hm, _⟩ <;>
        (subst hm; simp only [lamOf, reduceCtorEq, if_false]; field_simp)
    | centering =>
      rw [e]
      rcases hm with hm | ⟨hm, _⟩ <;>
        (subst hm; simp only [lamOf, reduceCtorEq, if_false]; field_simp)
  · rw [if_neg hm] at key
    refine min_mul 1 one_pos (by simp) (by simp) ?_ key
    cases scaling with
    | standardize =>
      rw [hY (by decide)] at e
      rw [e]
      cases m <;> simp [lamOf] at hm ⊢ <;> ring
    | scaleOnly =>
      rw [e]
      cases m <;> simp [lamOf] at hm ⊢ <;> field_simp
    | none =>
      rw [e]
      cases m <;> simp [lamOf] at hm ⊢
    | centering =>
      rw [e]
      cases m <;> simp [lamOf] at hm ⊢

/-- The elastic net. -/
theorem elastic_units {scaling : Scaling} {ic : Bool} {n p : Nat} {X : Nat → Nat → ℝ}
    {y : Nat → ℝ} (hn : 0 < n) {alpha lambda : ℝ} (hl : 0 ≤ lambda) (ha : 0 < alpha)
    (ha1 : alpha ≤ 1) {P : Prep ℝ}
    (hP : preprocess Real.sqrt scaling ic true n p X y = some P) {l : ℝ}
    (hlam : scaleLambda .coord scaling alpha lambda (P.scales p) n = some l) {c c' : Nat → ℝ}
    (hc : Minimises (solverCost .coord scaling alpha l ic n p P.X P.y) c)
    (hr : revert scaling ic p P.shifts P.scales c = some c') :
    Minimises (cost (1 / (2 * (n : ℝ))) (lambda * alpha)
      (lambda * (1 - alpha) / (2 * unitY scaling ic n y)) (unitX scaling n X) ic n p X y) c' := by
  have hn' : (0 : ℝ) < n := by exact_mod_cast hn
  obtain ⟨hs, e⟩ := elastic_lambda ha.ne' hlam
  have hY : scaling ≠ .none → P.scales p = unitY scaling ic n y := by
    intro h
    obtain ⟨P', hP', R⟩ := prep_ready scaling ic true p X y hn h
      (good_of_some scaling ic true p X y hn hP hr)
    rw [hP] at hP'
    obtain rfl : P = P' := Option.some.inj hP'
    exact R.yscale
  have hY0 := unitY_nonneg scaling ic n y
  -- the penalty times the unit of the response
  have hl1 : l * unitY scaling ic n y = lambda := by
    by_cases h : scaling = .standardize ∨ scaling = .scaleOnly
    · rw [e, if_pos h, hY (by rcases h with h | h <;> rw [h] <;> decide)]
      by_cases h0 : lambda = 0
      · rw [h0]; simp
      · have := hs h h0
        rw [hY (by rcases h with h | h <;> rw [h] <;> decide)] at this
        field_simp
    · rw [e, if_neg h]
      unfold unitY
      rw [if_neg h, mul_one]
  have hl2 : l = lambda / unitY scaling ic n y := by
    by_cases h : scaling = .standardize ∨ scaling = .scaleOnly
    · rw [e, if_pos h, hY (by rcases h with h | h <;> rw [h] <;> decide)]
    · rw [e, if_neg h]
      unfold unitY
      rw [if_neg h, div_one]
  have hl0 : 0 ≤ l := by rw [hl2]; positivity
  unfold solverCost at hc
  have key := fit_units hn hP (by split <;> positivity) (by positivity)
    (div_nonneg (mul_nonneg hl0 (by linarith)) (by norm_num)) (Or.inl hc) hr
  rw [common_sq] at key
  have hsub : lambda * (1 - alpha) / (2 * unitY scaling ic n y) = l * (1 - alpha) / 2 := by
    rw [hl2]
    ring
  rw [hsub]
  by_cases hso : scaling = .scaleOnly
  · rw [if_pos hso, if_neg (by simp [hso])] at key
    refine min_mul (1 / (n : ℝ)) (by positivity) (by field_simp) ?_ ?_ key
    · rw [← hl1]
      field_simp
    · field_simp
  · rw [if_neg hso, if_pos (by simp [hso])] at key
    refine min_mul 1 one_pos (by simp) ?_ (by simp) key
    rw [← hl1]
    ring

end Verif.LeastSq
