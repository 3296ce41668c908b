import Verif.Logistic.Deriv

/-
The two-class call-backs.
-/
namespace Verif.Logistic

set_option linter.unusedSectionVars false

open Finset (range)

section
variable {K : Type*} [Field K] [LinearOrder K]

theorem nmod_eq (D : Data K) : D.nmod = width D.intercept D.nfeat := rfl

theorem width_sub (ic : Bool) (nf : Nat) : (width ic nf - if ic then 1 else 0) = nf := by
  cases ic <;> simp [width]

end

theorem lin_congr {A : Nat → Nat → ℝ} {nf : Nat} {β γ : Nat → ℝ} {b c : ℝ} {i : Nat}
    (h : ∀ j, j < nf → β j = γ j) (hb : b = c) : lin A nf β b i = lin A nf γ c i := by
  unfold lin
  rw [hb, Finset.sum_congr rfl fun j hj => by rw [h j (Finset.mem_range.mp hj)]]

/-- What `eval_feature_matrix` leaves for sample `i`. -/
theorem eval_lin {row : Bool} {X : Nat → ℝ} {ld ns nf : Nat} {A : Nat → Nat → ℝ}
    (hA : Stored row X ld ns nf A) (x : Nat → ℝ) (xo vo : Nat) (v : Nat → ℝ) (ic : Bool) {i : Nat}
    (hi : i < ns) :
    evalFeatureMatrix row (width ic nf) x xo ns X ld v vo ic (vo + i) =
      lin A nf (fun j => x (xo + j)) (icpt ic (x (xo + nf))) i := by
  rw [evalFeatureMatrix_at, if_pos (by omega), width_sub, show vo + i - vo = i by omega]
  unfold lin
  congr 1
  · exact Finset.sum_congr rfl fun j hj => by rw [entry_stored hA hi (Finset.mem_range.mp hj)]
  · cases ic <;> simp [icpt, width]

theorem eval_lin0 {row : Bool} {X : Nat → ℝ} {ld ns nf : Nat} {A : Nat → Nat → ℝ}
    (hA : Stored row X ld ns nf A) (x v : Nat → ℝ) (ic : Bool) {i : Nat} (hi : i < ns) :
    evalFeatureMatrix row (width ic nf) x 0 ns X ld v 0 ic i = lin A nf x (icpt ic (x nf)) i := by
  have := eval_lin hA x 0 0 v ic hi
  simpa using this

theorem one_add_exp_pos (η : ℝ) : 0 < 1 + Real.exp η := by
  have := Real.exp_pos η; linarith

/-- Overflow-free form of the loss of a sample. -/
theorem log_one_exp (η : ℝ) :
    Real.log (1 + Real.exp η) = η + Real.log (1 + Real.exp (-η)) := by
  have h : 1 + Real.exp η = Real.exp η * (1 + Real.exp (-η)) := by
    rw [mul_add, mul_one, ← Real.exp_add]; simp [add_comm]
  rw [h, Real.log_mul (Real.exp_pos η).ne' (one_add_exp_pos (-η)).ne', Real.log_exp]

theorem loss_two (y η : ℝ) :
    -(y * Real.log (prob1 η) + (1 - y) * Real.log (1 - prob1 η)) =
      Real.log (1 + Real.exp η) - y * η := by
  have h := (one_add_exp_pos η).ne'
  have h1 : Real.log (prob1 η) = η - Real.log (1 + Real.exp η) := by
    unfold prob1
    rw [Real.log_div (Real.exp_pos η).ne' h, Real.log_exp]
  have h2 : 1 - prob1 η = 1 / (1 + Real.exp η) := by
    unfold prob1; field_simp; ring
  rw [h1, h2, one_div, Real.log_inv]
  ring

theorem objfunTwo_eq (round : ℝ → ℝ) {row : Bool} {X : Nat → ℝ} {ld : Nat} {y : Nat → ℝ}
    {ns nf : Nat} {ic : Bool} {lambda alpha : ℝ} {nclass : Nat} (W : Work ℝ) (x : Nat → ℝ)
    {A : Nat → Nat → ℝ} {lab : Nat → Nat} (hA : Stored row X ld ns nf A)
    (hy : ∀ i, i < ns → round (y i) = (lab i : ℝ)) (h1 : 0 ≤ lambda) (h2 : 0 ≤ alpha)
    (h3 : alpha ≤ 1) :
    (objfunTwo (realOps round) (mkData row X ld y ns nf ic lambda alpha nclass) W x).1 =
      costTwo A lab ns nf ic lambda alpha x := by
  unfold objfunTwo costTwo
  show loop ns 0 _ + regfun nf x (lambda * alpha) (lambda * (1 - alpha) / 2) = _
  rw [pen_eq _ _ _ _ h1 h2 h3]
  congr 1
  rw [loop_add_num ns 0 _ (fun i =>
      -((lab i : ℝ) * Real.log (prob1 (lin A nf x (icpt ic (x nf)) i)) +
        (1 - (lab i : ℝ)) * Real.log (1 - prob1 (lin A nf x (icpt ic (x nf)) i)))) ?_, zero_add]
  intro i s hi
  have e : evalFeatureMatrix row (width ic nf) x 0 ns X ld W.lincomb 0 ic i =
      lin A nf x (icpt ic (x nf)) i := eval_lin0 hA x _ ic hi
  show (if evalFeatureMatrix row (width ic nf) x 0 ns X ld W.lincomb 0 ic i < 0 then
      s + (Real.log (1 + Real.exp (evalFeatureMatrix row (width ic nf) x 0 ns X ld W.lincomb 0 ic i))
        - round (y i) * evalFeatureMatrix row (width ic nf) x 0 ns X ld W.lincomb 0 ic i)
      else s + (Real.log (1 + Real.exp (-evalFeatureMatrix row (width ic nf) x 0 ns X ld W.lincomb 0 ic i))
        + (1 - round (y i)) * evalFeatureMatrix row (width ic nf) x 0 ns X ld W.lincomb 0 ic i)) = _
  rw [e, hy i hi, loss_two]
  by_cases h : lin A nf x (icpt ic (x nf)) i < 0
  · rw [if_pos h]
  · rw [if_neg h, log_one_exp (lin A nf x (icpt ic (x nf)) i)]; ring

/-- The work array after the objective. -/
theorem objfunTwo_work (round : ℝ → ℝ) {row : Bool} {X : Nat → ℝ} {ld : Nat} {y : Nat → ℝ}
    {ns nf : Nat} {ic : Bool} {lambda alpha : ℝ} {nclass : Nat} (W : Work ℝ) (x : Nat → ℝ)
    {A : Nat → Nat → ℝ} (hA : Stored row X ld ns nf A) {i : Nat} (hi : i < ns) :
    (objfunTwo (realOps round) (mkData row X ld y ns nf ic lambda alpha nclass) W x).2.lincomb i =
      lin A nf x (icpt ic (x nf)) i := eval_lin0 hA x _ ic hi

/-- The gradient in closed form, from linear combinations that are right. -/
theorem objgrdTwo_eq (round : ℝ → ℝ) {X : Nat → ℝ} {ld : Nat} {y : Nat → ℝ}
    {ns nf : Nat} {ic : Bool} {lambda alpha : ℝ} {nclass : Nat} (W : Work ℝ) (x g : Nat → ℝ)
    (xnew : Bool) {A : Nat → Nat → ℝ} {lab : Nat → Nat} (hA : Stored false X ld ns nf A)
    (hy : ∀ i, i < ns → round (y i) = (lab i : ℝ)) (h1 : 0 ≤ lambda) (h2 : 0 ≤ alpha)
    (h3 : alpha ≤ 1)
    (hW : xnew = false → ∀ i, i < ns → W.lincomb i = lin A nf x (icpt ic (x nf)) i)
    {p : Nat} (hp : p < width ic nf) :
    objgrdTwo (realOps round) (mkData false X ld y ns nf ic lambda alpha nclass) W (width ic nf) x g
        xnew p =
      ∑ i ∈ range ns, (prob1 (lin A nf x (icpt ic (x nf)) i) - (lab i : ℝ)) *
          dlin A nf (fun j => j) ic nf p i +
        if p < nf then lambda * alpha * sgn (x p) + lambda * (1 - alpha) * x p else 0 := by
  obtain ⟨lc, hlc⟩ : ∃ lc : Nat → ℝ, lc =
      (if xnew then evalFeatureMatrix false (width ic nf) x 0 ns X ld W.lincomb 0 ic
        else W.lincomb) := ⟨_, rfl⟩
  have el : ∀ i, i < ns → lc i = lin A nf x (icpt ic (x nf)) i := by
    intro i hi
    rw [hlc]
    cases xnew with
    | false => exact hW rfl i hi
    | true => exact eval_lin0 hA x _ ic hi
  obtain ⟨G, hG⟩ : ∃ G : Nat → ℝ, G = fun i =>
    prob1 (lin A nf x (icpt ic (x nf)) i) - (lab i : ℝ) := ⟨_, rfl⟩
  obtain ⟨s, hs⟩ : ∃ s : (Nat → ℝ) × ℝ, s = loop ns (W.gradp, (0 : ℝ)) fun i s =>
      let gp :=
        if lc i < 0 then upd s.1 i (Real.exp (lc i) / (1 + Real.exp (lc i)) - round (y i))
        else upd s.1 i (1 / (1 + Real.exp (-(lc i))) - round (y i))
      (gp, s.2 + gp i) := ⟨_, rfl⟩
  have es : (∀ i, i < ns → s.1 i = G i) ∧ s.2 = ∑ i ∈ range ns, G i := by
    rw [hs]
    refine loop_inv (fun k (s : (Nat → ℝ) × ℝ) => (∀ i, i < k → s.1 i = G i) ∧
      s.2 = ∑ i ∈ range k, G i) ns _ _ ⟨fun i hi => by omega, by simp⟩ ?_
    intro i s hi ⟨ih, is⟩
    have eg : (if lc i < 0 then upd s.1 i (Real.exp (lc i) / (1 + Real.exp (lc i)) - round (y i))
        else upd s.1 i (1 / (1 + Real.exp (-(lc i))) - round (y i))) = upd s.1 i (G i) := by
      rw [el i hi, hy i hi, hG]
      by_cases h : lin A nf x (icpt ic (x nf)) i < 0
      · rw [if_pos h]; rfl
      · rw [if_neg h]
        simp only [prob1]
        congr 2
        have := (one_add_exp_pos (lin A nf x (icpt ic (x nf)) i)).ne'
        have := (one_add_exp_pos (-(lin A nf x (icpt ic (x nf)) i))).ne'
        rw [Real.exp_neg] at *
        have := (Real.exp_pos (lin A nf x (icpt ic (x nf)) i)).ne'
        field_simp
        ring
    simp only [eg, upd_same]
    refine ⟨fun c hc => ?_, by rw [is, Finset.sum_range_succ]⟩
    by_cases h : c = i
    · rw [h, upd_same]
    · rw [upd_ne _ _ h]; exact ih c (by omega)
  have e : objgrdTwo (realOps round) (mkData false X ld y ns nf ic lambda alpha nclass) W
      (width ic nf) x g xnew = reggrd nf x (lambda * alpha) (lambda * (1 - alpha) / 2)
        (if ic then upd (loop nf (fill g 0 (width ic nf) 0) fun j g =>
            upd g j (g j + loop ns 0 fun i t => t + entry false X ld i j * s.1 i))
              (width ic nf - 1) s.2
          else loop nf (fill g 0 (width ic nf) 0) fun j g =>
            upd g j (g j + loop ns 0 fun i t => t + entry false X ld i j * s.1 i)) := by
    rw [hs, hlc]; rfl
  rw [e, pengrd_eq _ _ _ _ _ _ h1 h2 h3]
  congr 1
  have ew : ∀ c, c < width ic nf → (loop nf (fill g 0 (width ic nf) 0) fun j g =>
      upd g j (g j + loop ns 0 fun i t => t + entry false X ld i j * s.1 i)) c =
      if c < nf then ∑ i ∈ range ns, A i c * G i else 0 := by
    intro c hc
    rw [loop_upd0 nf _ (fun j t => t + loop ns 0 fun i t => t + entry false X ld i j * s.1 i) c,
      fill_in _ _ (Nat.zero_le _) hc]
    by_cases h : c < nf
    · rw [if_pos h, if_pos h, loop_sum, zero_add, zero_add]
      exact Finset.sum_congr rfl fun i hi => by
        rw [entry_stored hA (Finset.mem_range.mp hi) h, es.1 i (Finset.mem_range.mp hi)]
    · rw [if_neg h, if_neg h]
  have ed : ∀ i, dlin A nf (fun j => j) ic nf p i =
      if p < nf then A i p else if ic then 1 else 0 := by
    intro i
    unfold dlin one_
    simp only [mul_ite, mul_one, mul_zero]
    rw [Finset.sum_ite_eq' (range nf) p]
    by_cases h : p < nf
    · rw [if_pos (Finset.mem_range.mpr h), if_pos h, if_neg (by omega : ¬ nf = p)]
      cases ic <;> simp
    · rw [if_neg (by simpa using h), if_neg h]
      cases ic with
      | false => simp
      | true =>
        have : nf = p := by unfold width at hp; simp at hp; omega
        simp [this]
  have hGi : ∀ i, prob1 (lin A nf x (icpt ic (x nf)) i) - (lab i : ℝ) = G i := fun i => by rw [hG]
  simp only [ed, hGi]
  cases ic with
  | false =>
    have hp' : p < nf := by simpa [width] using hp
    simp only [Bool.false_eq_true, if_false, if_pos hp'] at ew ⊢
    rw [ew p hp, if_pos hp']
    exact Finset.sum_congr rfl fun i _ => mul_comm _ _
  | true =>
    simp only [if_true] at ew ⊢
    have hw : width true nf - 1 = nf := by simp [width]
    rw [hw]
    by_cases h : p < nf
    · rw [upd_ne _ _ (by omega), ew p hp, if_pos h]
      exact Finset.sum_congr rfl fun i _ => by rw [if_pos h, mul_comm]
    · have : p = nf := by unfold width at hp; simp at hp; omega
      rw [this, upd_same, es.2]
      exact Finset.sum_congr rfl fun i _ => by simp

/-- The derivative of the cost. -/
theorem costTwo_deriv (A : Nat → Nat → ℝ) (lab : Nat → Nat) (ns nf : Nat) (ic : Bool)
    (lambda alpha : ℝ) (x : Nat → ℝ) (p : Nat)
    (h : lambda * alpha = 0 ∨ x p ≠ 0 ∨ nf ≤ p) :
    HasDerivAt (fun t => costTwo A lab ns nf ic lambda alpha (moved x p t))
      (∑ i ∈ range ns, (prob1 (lin A nf x (icpt ic (x nf)) i) - (lab i : ℝ)) *
          dlin A nf (fun j => j) ic nf p i +
        if p < nf then lambda * alpha * sgn (x p) + lambda * (1 - alpha) * x p else 0) (x p) := by
  unfold costTwo
  apply HasDerivAt.add
  · refine HasDerivAt.fun_sum fun i _ => ?_
    simp only [loss_two]
    have hl := lin_deriv A nf (fun j => j) ic nf p i x
    have hv : lin A nf (moved x p (x p)) (icpt ic (moved x p (x p) nf)) i =
        lin A nf x (icpt ic (x nf)) i := by rw [moved_self]
    have he := (hl.exp.const_add 1).log (by
      show 1 + Real.exp _ ≠ 0
      exact (one_add_exp_pos _).ne')
    have := he.sub (hl.const_mul (lab i : ℝ))
    refine HasDerivAt.congr_deriv this ?_
    simp only [show (fun j => moved x p (x p) j) = x from moved_self x p, moved_self]
    unfold prob1
    ring
  · exact pen_first_deriv lambda alpha nf p x h

end Verif.Logistic
