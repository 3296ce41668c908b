import Verif.LeastSq.Spec
import Verif.Logistic.Loop
import Mathlib.Algebra.BigOperators.Field
import Mathlib.Tactic.Ring
import Mathlib.Tactic.FieldSimp
import Mathlib.Tactic.Linarith

set_option linter.unusedSectionVars false

/-
Loops that can fail, the two scalings of the coefficients, and how a minimiser of the scaled
problem becomes one of the problem of the user.
-/
namespace Verif.LeastSq

open Finset (range)
open Verif.Logistic (lin icpt loop upd fill entry)

section
variable {S : Type}

theorem loopO_inv (P : Nat → S → Prop) (n : Nat) (s : S) (f : Nat → S → Option S) (h0 : P 0 s)
    (h : ∀ i s, i < n → P i s → ∃ s', f i s = some s' ∧ P (i + 1) s') :
    ∃ s', loopO n s f = some s' ∧ P n s' := by
  induction n with
  | zero => exact ⟨s, rfl, h0⟩
  | succ n ih =>
    obtain ⟨s1, e1, h1⟩ := ih fun i s hi => h i s (Nat.lt_succ_of_lt hi)
    obtain ⟨s2, e2, h2⟩ := h n s1 (Nat.lt_succ_self n) h1
    exact ⟨s2, by rw [loopO, e1]; exact e2, h2⟩

theorem loopO_fail (n : Nat) (s : S) (f : Nat → S → Option S) (i : Nat) (hi : i < n)
    (h : ∀ s, f i s = none) : loopO n s f = none := by
  induction n with
  | zero => omega
  | succ n ih =>
    by_cases e : i = n
    · subst e
      rw [loopO]
      cases loopO i s f with
      | none => rfl
      | some s' => exact h s'
    · rw [loopO, ih (by omega)]
      rfl
end

section
variable {K : Type} [Field K] [LinearOrder K]

theorem dv_ne {a b : K} (h : b ≠ 0) : dv a b = some (a / b) := if_neg h

theorem dv_zero (a : K) : dv a 0 = none := if_pos rfl

theorem revert_eq (scaling : Scaling) (ic : Bool) (p : Nat) (shifts scales coef : Nat → K)
    (hs : scaling ≠ .none) (h : ∀ k, k < p → scales k ≠ 0) :
    ∃ c, revert scaling ic p shifts scales coef = some c ∧
      (∀ k, k < p → c k = scales p / scales k * coef k) ∧
      (c p = if ic then shifts p + scales p * coef p - ∑ k ∈ range p, shifts k * c k
        else coef p) ∧
      ∀ k, p < k → c k = coef k := by
  obtain ⟨s, e, h1, h2, h3⟩ := loopO_inv (fun m (s : (Nat → K) × K) =>
      (∀ k, k < m → s.1 k = scales p / scales k * coef k) ∧ (∀ k, m ≤ k → s.1 k = coef k) ∧
        s.2 = ∑ k ∈ range m, shifts k * (scales p / scales k * coef k)) p (coef, (0 : K))
    (fun k s => do
      let q ← dv (scales p) (scales k)
      let c := upd s.1 k (q * s.1 k)
      pure (c, s.2 + shifts k * c k))
    ⟨fun k hk => absurd hk (Nat.not_lt_zero k), fun _ _ => rfl, by simp⟩ (by
      rintro i ⟨c, t⟩ hi ⟨h1, h2, h3⟩
      refine ⟨_, by rw [dv_ne (h i hi)]; rfl, ?_, ?_, ?_⟩
      · intro k hk
        by_cases ek : k = i
        · subst ek
          have e2 := h2 k (Nat.le_refl k)
          simp only at e2
          simp only [Verif.Logistic.upd_same]
          rw [e2]
        · simp only [Verif.Logistic.upd_ne _ _ ek]
          exact h1 k (by omega)
      · intro k hk
        simp only [Verif.Logistic.upd_ne _ _ (show k ≠ i by omega)]
        exact h2 k (by omega)
      · simp only [Verif.Logistic.upd_same]
        rw [Finset.sum_range_succ]
        simp only at h2 h3
        rw [h2 i (Nat.le_refl i), h3])
  have hr : revert scaling ic p shifts scales coef =
      some (if ic then upd s.1 p (shifts p + scales p * s.1 p - s.2) else s.1) := by
    unfold revert
    rw [if_neg hs, e]
    rfl
  refine ⟨_, hr, ?_, ?_, ?_⟩
  · intro k hk
    cases ic with
    | true =>
      simp only [if_true, Verif.Logistic.upd_ne _ _ (show k ≠ p by omega)]
      exact h1 k hk
    | false => exact h1 k hk
  · cases ic with
    | true =>
      simp only [if_true, Verif.Logistic.upd_same]
      rw [h2 p (Nat.le_refl p), h3]
      congr 1
      refine Finset.sum_congr rfl fun k hk => ?_
      have hk' := Finset.mem_range.mp hk
      rw [Verif.Logistic.upd_ne _ _ (show k ≠ p by omega), h1 k hk']
    | false =>
      simp only [Bool.false_eq_true, if_false]
      exact h2 p (Nat.le_refl p)
  · intro k hk
    cases ic with
    | true =>
      simp only [if_true, Verif.Logistic.upd_ne _ _ (show k ≠ p by omega)]
      exact h2 k (by omega)
    | false => exact h2 k (by omega)

theorem revert_fail (scaling : Scaling) (ic : Bool) (p : Nat) (shifts scales coef : Nat → K)
    (hs : scaling ≠ .none) (k : Nat) (hk : k < p) (h : scales k = 0) :
    revert scaling ic p shifts scales coef = none := by
  unfold revert
  rw [if_neg hs, loopO_fail p _ _ k hk]
  · rfl
  · intro s
    rw [h, dv_zero]
    rfl

theorem warmstart_eq (ic : Bool) (p : Nat) (shifts scales coef : Nat → K) (h : scales p ≠ 0) :
    ∃ c, warmstart ic p shifts scales coef = some c ∧
      (∀ k, k < p → c k = scales k * coef k / scales p) ∧
      (c p = if ic then (coef p - shifts p + ∑ k ∈ range p, shifts k * coef k) / scales p
        else coef p) ∧
      ∀ k, p < k → c k = coef k := by
  obtain ⟨s, e, h1, h2, h3⟩ := loopO_inv (fun m (s : (Nat → K) × K) =>
      (∀ k, k < m → s.1 k = scales k * coef k / scales p) ∧ (∀ k, m ≤ k → s.1 k = coef k) ∧
        s.2 = ∑ k ∈ range m, shifts k * coef k) p (coef, (0 : K))
    (fun k s => do
      let cum := s.2 + shifts k * s.1 k
      let v ← dv (scales k * s.1 k) (scales p)
      pure (upd s.1 k v, cum))
    ⟨fun k hk => absurd hk (Nat.not_lt_zero k), fun _ _ => rfl, by simp⟩ (by
      rintro i ⟨c, t⟩ hi ⟨h1, h2, h3⟩
      refine ⟨_, by rw [dv_ne h]; rfl, ?_, ?_, ?_⟩
      · intro k hk
        by_cases ek : k = i
        · subst ek
          have e2 := h2 k (Nat.le_refl k)
          simp only at e2
          simp only [Verif.Logistic.upd_same]
          rw [e2]
        · simp only [Verif.Logistic.upd_ne _ _ ek]
          exact h1 k (by omega)
      · intro k hk
        simp only [Verif.Logistic.upd_ne _ _ (show k ≠ i by omega)]
        exact h2 k (by omega)
      · rw [Finset.sum_range_succ]
        simp only at h2 h3 ⊢
        rw [h2 i (Nat.le_refl i), h3])
  cases ic with
  | true =>
    have hw : warmstart true p shifts scales coef =
        some (upd s.1 p ((s.1 p - shifts p + s.2) / scales p)) := by
      unfold warmstart
      rw [e]
      simp only [Option.bind_eq_bind, Option.bind_some, if_true]
      rw [dv_ne h]
      rfl
    refine ⟨_, hw, ?_, ?_, ?_⟩
    · intro k hk
      rw [Verif.Logistic.upd_ne _ _ (show k ≠ p by omega)]
      exact h1 k hk
    · rw [Verif.Logistic.upd_same, h2 p (Nat.le_refl p), h3]
      rfl
    · intro k hk
      rw [Verif.Logistic.upd_ne _ _ (show k ≠ p by omega)]
      exact h2 k (by omega)
  | false =>
    refine ⟨s.1, by unfold warmstart; rw [e]; rfl, h1, ?_, ?_⟩
    · exact h2 p (Nat.le_refl p)
    · intro k hk
      exact h2 k (by omega)
end

/-! ### Minimisers -/

/-- The data `(X, y)` of the user in terms of the scaled data `(Z, z)`. -/
structure Scaled (ic : Bool) (n p : Nat) (X : Nat → Nat → ℝ) (y : Nat → ℝ) (Z : Nat → Nat → ℝ)
    (z : Nat → ℝ) (μ σ : Nat → ℝ) (ρ : ℝ) : Prop where
  hX : ∀ i j, i < n → j < p → X i j = μ j + ρ * σ j * Z i j
  hY : ∀ i, i < n → y i = μ p + σ p * ρ * z i
  hσ : ∀ j, j < p → σ j ≠ 0
  hρ : ρ ≠ 0
  centred : ic = true → (∀ j, j < p → ∑ i ∈ range n, Z i j = 0) ∧ ∑ i ∈ range n, z i = 0
  plain : ic = false → (∀ j, j < p → μ j = 0) ∧ μ p = 0

variable {ic : Bool} {n p : Nat} {X Z : Nat → Nat → ℝ} {y z : Nat → ℝ} {μ σ : Nat → ℝ} {ρ : ℝ}

/-- What is left of sample `i` by the features alone. -/
noncomputable def res (p : Nat) (Z : Nat → Nat → ℝ) (z c : Nat → ℝ) (i : Nat) : ℝ :=
  z i - ∑ j ∈ range p, Z i j * c j

theorem sum_shift (n : Nat) (f : Nat → ℝ) (a e : ℝ) (h : ∑ i ∈ range n, f i = 0) :
    ∑ i ∈ range n, (a * f i + e) ^ 2 = a ^ 2 * ∑ i ∈ range n, f i ^ 2 + n * e ^ 2 := by
  have : ∀ i ∈ range n, (a * f i + e) ^ 2 = a ^ 2 * f i ^ 2 + 2 * a * e * f i + e ^ 2 :=
    fun i _ => by ring
  rw [Finset.sum_congr rfl this, Finset.sum_add_distrib, Finset.sum_add_distrib,
    ← Finset.mul_sum, ← Finset.mul_sum, h]
  simp

theorem res_sum (h : (∀ j, j < p → ∑ i ∈ range n, Z i j = 0) ∧ ∑ i ∈ range n, z i = 0)
    (c : Nat → ℝ) : ∑ i ∈ range n, res p Z z c i = 0 := by
  unfold res
  rw [Finset.sum_sub_distrib, h.2, Finset.sum_comm]
  have : ∀ j ∈ range p, ∑ i ∈ range n, Z i j * c j = 0 := fun j hj => by
    rw [← Finset.sum_mul, h.1 j (Finset.mem_range.mp hj), zero_mul]
  rw [Finset.sum_congr rfl this]
  simp

/-- The sum of squares of the scaled problem. -/
theorem Scaled.ssr_scaled (H : Scaled ic n p X y Z z μ σ ρ) (c : Nat → ℝ) :
    ssr ic n p Z z c = ∑ i ∈ range n, res p Z z c i ^ 2 + if ic then n * c p ^ 2 else 0 := by
  unfold ssr
  cases hic : ic with
  | true =>
    have e : ∀ i ∈ range n, (z i - lin Z p c (icpt true (c p)) i) ^ 2 =
        (1 * res p Z z c i + -c p) ^ 2 := fun i _ => by
      simp only [lin, icpt, res, if_true]
      ring
    rw [Finset.sum_congr rfl e, sum_shift n _ 1 _ (res_sum (H.centred hic) c)]
    simp
  | false =>
    simp [lin, icpt, res]

/-- The sum of squares of the problem of the user. -/
theorem Scaled.ssr_user (H : Scaled ic n p X y Z z μ σ ρ) (hτ : σ p ≠ 0) (d : Nat → ℝ) :
    ssr ic n p X y d = (σ p * ρ) ^ 2 * ∑ i ∈ range n, res p Z z (fun j => σ j * d j / σ p) i ^ 2 +
      if ic then n * (μ p - ∑ j ∈ range p, μ j * d j - d p) ^ 2 else 0 := by
  have e0 : ∀ i, i < n → y i - lin X p d (icpt ic (d p)) i =
      (σ p * ρ) * res p Z z (fun j => σ j * d j / σ p) i +
        (μ p - ∑ j ∈ range p, μ j * d j - icpt ic (d p)) := by
    intro i hi
    have e1 : ∑ j ∈ range p, X i j * d j =
        ∑ j ∈ range p, μ j * d j + (σ p * ρ) * ∑ j ∈ range p, Z i j * (σ j * d j / σ p) := by
      rw [Finset.mul_sum, ← Finset.sum_add_distrib]
      refine Finset.sum_congr rfl fun j hj => ?_
      rw [H.hX i j hi (Finset.mem_range.mp hj)]
      field_simp
    simp only [lin, res, H.hY i hi, e1]
    ring
  unfold ssr
  rw [Finset.sum_congr rfl fun i hi => by rw [e0 i (Finset.mem_range.mp hi)]]
  cases hic : ic with
  | true =>
    rw [sum_shift n _ _ _ (res_sum (H.centred hic) _)]
    simp [icpt]
  | false =>
    obtain ⟨h1, h2⟩ := H.plain hic
    have : ∑ j ∈ range p, μ j * d j = 0 := Finset.sum_eq_zero fun j hj => by
      rw [h1 j (Finset.mem_range.mp hj), zero_mul]
    simp only [icpt, Bool.false_eq_true, if_false, this, h2, sub_zero, add_zero, mul_pow,
      Finset.mul_sum]

theorem ssr_nonneg (ic : Bool) (n p : Nat) (X : Nat → Nat → ℝ) (y c : Nat → ℝ) :
    0 ≤ ssr ic n p X y c := Finset.sum_nonneg fun _ _ => sq_nonneg _

theorem cost_nonneg {w l1 l2 : ℝ} (hw : 0 ≤ w) (h1 : 0 ≤ l1) (h2 : 0 ≤ l2) (σ : Nat → ℝ)
    (ic : Bool) (n p : Nat) (X : Nat → Nat → ℝ) (y c : Nat → ℝ) :
    0 ≤ cost w l1 l2 σ ic n p X y c :=
  add_nonneg (add_nonneg (mul_nonneg hw (ssr_nonneg _ _ _ _ _ _))
    (mul_nonneg h1 (Finset.sum_nonneg fun _ _ => abs_nonneg _)))
    (mul_nonneg h2 (Finset.sum_nonneg fun _ _ => sq_nonneg _))

theorem cost_congr {w l1 l2 : ℝ} (ic : Bool) (n p : Nat) (X : Nat → Nat → ℝ) (y : Nat → ℝ)
    {σ c d : Nat → ℝ} (h : ∀ j, j < p → c j = d j) (hp : ic = true → c p = d p) :
    cost w l1 l2 σ ic n p X y c = cost w l1 l2 σ ic n p X y d := by
  have hi : icpt ic (c p) = icpt ic (d p) := by
    cases ic with
    | true => simp [icpt, hp rfl]
    | false => rfl
  have e : ∀ i, lin X p c (icpt ic (c p)) i = lin X p d (icpt ic (d p)) i := fun i => by
    unfold lin
    rw [hi]
    congr 1
    exact Finset.sum_congr rfl fun j hj => by rw [h j (Finset.mem_range.mp hj)]
  unfold cost ssr
  congr 1
  · congr 1
    · congr 1
      exact Finset.sum_congr rfl fun i _ => by rw [e i]
    · congr 1
      exact Finset.sum_congr rfl fun j hj => by rw [h j (Finset.mem_range.mp hj)]
  · congr 1
    exact Finset.sum_congr rfl fun j hj => by rw [h j (Finset.mem_range.mp hj)]

/-- The scaled cost of coefficients with intercept 0 is not larger. -/
theorem Scaled.cost_zero (H : Scaled ic n p X y Z z μ σ ρ) {w l1 l2 : ℝ} (hw : 0 ≤ w)
    (τ c : Nat → ℝ) :
    cost w l1 l2 τ ic n p Z z (upd c p 0) ≤ cost w l1 l2 τ ic n p Z z c := by
  have e : ∀ j ∈ range p, upd c p 0 j = c j := fun j hj =>
    Verif.Logistic.upd_ne _ _ (by have := Finset.mem_range.mp hj; omega)
  have e1 : ∑ j ∈ range p, |τ j * upd c p 0 j| = ∑ j ∈ range p, |τ j * c j| :=
    Finset.sum_congr rfl fun j hj => by rw [e j hj]
  have e2 : ∑ j ∈ range p, (τ j * upd c p 0 j) ^ 2 = ∑ j ∈ range p, (τ j * c j) ^ 2 :=
    Finset.sum_congr rfl fun j hj => by rw [e j hj]
  have e3 : ∀ i, res p Z z (upd c p 0) i = res p Z z c i := fun i => by
    unfold res
    congr 1
    exact Finset.sum_congr rfl fun j hj => by rw [e j hj]
  unfold cost
  rw [e1, e2, H.ssr_scaled, H.ssr_scaled, Verif.Logistic.upd_same]
  simp only [e3]
  have : (0 : ℝ) ≤ if ic = true then (n : ℝ) * c p ^ 2 else 0 := by
    split
    · positivity
    · exact le_refl 0
  have h0 : (if ic = true then (n : ℝ) * (0 : ℝ) ^ 2 else 0) = 0 := by split <;> simp
  rw [h0]
  nlinarith [mul_nonneg hw this]

/-- Minimisers among the coefficients with intercept 0 are minimisers. -/
theorem Scaled.min_of_min0 (H : Scaled ic n p X y Z z μ σ ρ) {w l1 l2 : ℝ} (hw : 0 ≤ w)
    {τ c : Nat → ℝ} (h : Minimises0 p (cost w l1 l2 τ ic n p Z z) c) :
    Minimises (cost w l1 l2 τ ic n p Z z) c := fun d =>
  (h.2 (upd d p 0) (Verif.Logistic.upd_same _ _ _)).trans (H.cost_zero hw τ d)

/-- The intercept of a minimiser of the scaled problem is 0. -/
theorem Scaled.icpt_zero (H : Scaled ic n p X y Z z μ σ ρ) (hn : 0 < n) {w l1 l2 : ℝ} (hw : 0 < w)
    {τ c : Nat → ℝ} (h : Minimises (cost w l1 l2 τ ic n p Z z) c) (hic : ic = true) : c p = 0 := by
  have e : ∀ j ∈ range p, upd c p 0 j = c j := fun j hj =>
    Verif.Logistic.upd_ne _ _ (by have := Finset.mem_range.mp hj; omega)
  have e1 : ∑ j ∈ range p, |τ j * upd c p 0 j| = ∑ j ∈ range p, |τ j * c j| :=
    Finset.sum_congr rfl fun j hj => by rw [e j hj]
  have e2 : ∑ j ∈ range p, (τ j * upd c p 0 j) ^ 2 = ∑ j ∈ range p, (τ j * c j) ^ 2 :=
    Finset.sum_congr rfl fun j hj => by rw [e j hj]
  have e3 : ∀ i, res p Z z (upd c p 0) i = res p Z z c i := fun i => by
    unfold res
    congr 1
    exact Finset.sum_congr rfl fun j hj => by rw [e j hj]
  have := h (upd c p 0)
  unfold cost at this
  rw [e1, e2, H.ssr_scaled, H.ssr_scaled, Verif.Logistic.upd_same, if_pos hic, if_pos hic] at this
  simp only [e3] at this
  have hn' : (0 : ℝ) < n := by exact_mod_cast hn
  have h2 : w * ((n : ℝ) * c p ^ 2) ≤ 0 := by nlinarith
  have h3 : c p ^ 2 ≤ 0 := by
    by_contra hc
    have : 0 < w * ((n : ℝ) * c p ^ 2) := mul_pos hw (mul_pos hn' (not_le.mp hc))
    linarith
  exact pow_eq_zero_iff (two_ne_zero) |>.mp (le_antisymm h3 (sq_nonneg _))

/-- A minimiser of the scaled problem, with its scaling reverted, minimises a problem of the user
in which the penalties are scaled. -/
theorem Scaled.minimises (H : Scaled ic n p X y Z z μ σ ρ) (hn : 0 < n) {w l1 l2 : ℝ} (hw : 0 < w)
    (h1 : 0 ≤ l1) (h2 : 0 ≤ l2) {c c' : Nat → ℝ}
    (h : Minimises (cost w l1 l2 (fun _ => 1) ic n p Z z) c)
    (hc : ∀ k, k < p → c' k = σ p / σ k * c k)
    (hc0 : ic = true → c' p = μ p + σ p * c p - ∑ k ∈ range p, μ k * c' k) :
    Minimises (cost w (l1 * ρ ^ 2 * |σ p|) (l2 * ρ ^ 2) σ ic n p X y) c' := by
  intro d
  by_cases hτ : σ p = 0
  · have z1 : ∀ k, k < p → c' k = 0 := fun k hk => by rw [hc k hk, hτ]; simp
    have : cost w (l1 * ρ ^ 2 * |σ p|) (l2 * ρ ^ 2) σ ic n p X y c' = 0 := by
      have s1 : ∑ j ∈ range p, |σ j * c' j| = 0 := Finset.sum_eq_zero fun j hj => by
        rw [z1 j (Finset.mem_range.mp hj)]; simp
      have s2 : ∑ j ∈ range p, (σ j * c' j) ^ 2 = 0 := Finset.sum_eq_zero fun j hj => by
        rw [z1 j (Finset.mem_range.mp hj)]; simp
      have s3 : ssr ic n p X y c' = 0 := by
        unfold ssr
        refine Finset.sum_eq_zero fun i hi => ?_
        have hi' := Finset.mem_range.mp hi
        have s4 : ∑ j ∈ range p, X i j * c' j = 0 := Finset.sum_eq_zero fun j hj => by
          rw [z1 j (Finset.mem_range.mp hj), mul_zero]
        have s5 : ∑ k ∈ range p, μ k * c' k = 0 := Finset.sum_eq_zero fun j hj => by
          rw [z1 j (Finset.mem_range.mp hj), mul_zero]
        rw [H.hY i hi', hτ]
        unfold lin
        rw [s4]
        cases hic : ic with
        | true => simp [icpt, hc0 hic, hτ, s5]
        | false => simp [icpt, (H.plain hic).2]
      unfold cost
      rw [s1, s2, s3]
      simp
    rw [this]
    exact cost_nonneg hw.le (by positivity) (by positivity) _ _ _ _ _ _ _
  · have hback : ∀ j ∈ range p, σ j * c' j / σ p = c j := fun j hj => by
      have hj' := Finset.mem_range.mp hj
      rw [hc j hj']
      have := H.hσ j hj'
      field_simp
    have hres : ∀ i, res p Z z (fun j => σ j * c' j / σ p) i = res p Z z c i := fun i => by
      unfold res
      congr 1
      exact Finset.sum_congr rfl fun j hj => by simp only; rw [hback j hj]
    -- the cost of the user in terms of the scaled cost
    have low : ∀ d : Nat → ℝ, (σ p * ρ) ^ 2 *
        cost w l1 l2 (fun _ => 1) ic n p Z z (upd (fun j => σ j * d j / σ p) p 0) +
        w * (if ic then (n : ℝ) * (μ p - ∑ j ∈ range p, μ j * d j - d p) ^ 2 else 0) =
        cost w (l1 * ρ ^ 2 * |σ p|) (l2 * ρ ^ 2) σ ic n p X y d := by
      intro d
      obtain ⟨u, hu⟩ : ∃ u : Nat → ℝ, u = fun j => σ j * d j / σ p := ⟨_, rfl⟩
      have e : ∀ j ∈ range p, upd u p 0 j = u j := fun j hj =>
        Verif.Logistic.upd_ne _ _ (by have := Finset.mem_range.mp hj; omega)
      have e1 : ∑ j ∈ range p, |1 * upd u p 0 j| = (∑ j ∈ range p, |σ j * d j|) / |σ p| := by
        rw [Finset.sum_div]
        exact Finset.sum_congr rfl fun j hj => by rw [e j hj, hu, one_mul, abs_div]
      have e2 : ∑ j ∈ range p, (1 * upd u p 0 j) ^ 2 =
          (∑ j ∈ range p, (σ j * d j) ^ 2) / σ p ^ 2 := by
        rw [Finset.sum_div]
        exact Finset.sum_congr rfl fun j hj => by rw [e j hj, hu, one_mul, div_pow]
      have e3 : ∀ i, res p Z z (upd u p 0) i = res p Z z u i := fun i => by
        unfold res
        congr 1
        exact Finset.sum_congr rfl fun j hj => by rw [e j hj]
      have h0 : (if ic = true then (n : ℝ) * (0 : ℝ) ^ 2 else 0) = 0 := by split <;> simp
      unfold cost
      rw [← hu, e1, e2, H.ssr_scaled, H.ssr_user hτ, Verif.Logistic.upd_same, h0, ← hu]
      simp only [e3]
      have habs : |σ p| ≠ 0 := abs_ne_zero.mpr hτ
      have hsq : σ p ^ 2 = |σ p| ^ 2 := (sq_abs _).symm
      have hsq' : (σ p * ρ) ^ 2 = |σ p| ^ 2 * ρ ^ 2 := by rw [mul_pow, hsq]
      rw [hsq', hsq]
      field_simp
      ring
    rw [← low c', ← low d]
    have hmin := h (upd (fun j => σ j * d j / σ p) p 0)
    have hce : cost w l1 l2 (fun _ => 1) ic n p Z z (upd (fun j => σ j * c' j / σ p) p 0) =
        cost w l1 l2 (fun _ => 1) ic n p Z z c := by
      refine cost_congr ic n p Z z (fun j hj => ?_) fun hic => ?_
      · rw [Verif.Logistic.upd_ne _ _ (show j ≠ p by omega)]
        exact hback j (Finset.mem_range.mpr hj)
      · rw [Verif.Logistic.upd_same, H.icpt_zero hn hw h hic]
    have hzero : (if ic then (n : ℝ) * (μ p - ∑ j ∈ range p, μ j * c' j - c' p) ^ 2 else 0) = 0 := by
      split
      · rename_i hic
        rw [hc0 hic, H.icpt_zero hn hw h hic]
        ring
      · rfl
    rw [hce, hzero]
    have hge : (0 : ℝ) ≤
        if ic then (n : ℝ) * (μ p - ∑ j ∈ range p, μ j * d j - d p) ^ 2 else 0 := by
      split
      · positivity
      · exact le_refl 0
    nlinarith [mul_le_mul_of_nonneg_left hmin (sq_nonneg (σ p * ρ)), mul_nonneg hw.le hge]

end Verif.LeastSq
