import Verif.Logistic.Two

/-
The least-squares call-backs.
-/
namespace Verif.Logistic

set_option linter.unusedSectionVars false

open Finset (range)

section
variable {row : Bool} {X : Nat → ℝ} {ld : Nat} {y : Nat → ℝ}
  {ns nf : Nat} {ic : Bool} {lambda alpha : ℝ} {nclass : Nat} {A : Nat → Nat → ℝ}

theorem width_pred (ic : Bool) (nf : Nat) : (if ic then width ic nf - 1 else width ic nf) = nf := by
  cases ic <;> simp [width]

theorem residual (hA : Stored row X ld ns nf A) (mv x : Nat → ℝ) {i : Nat} (hi : i < ns) :
    loop ns (evalFeatureMatrix row (width ic nf) x 0 ns X ld mv 0 ic)
      (fun i v => upd v i (v i + -1 * y i)) i = lin A nf x (icpt ic (x nf)) i - y i := by
  rw [loop_upd0 ns _ (fun i t => t + -1 * y i) i, if_pos hi, eval_lin0 hA x mv ic hi]
  ring

theorem objfunMse_eq (hA : Stored row X ld ns nf A) (h1 : 0 ≤ lambda) (h2 : 0 ≤ alpha)
    (h3 : alpha ≤ 1) (mv x : Nat → ℝ) :
    (objfunMse (mkData row X ld y ns nf ic lambda alpha nclass) mv (width ic nf) x).1 =
      costMse A y ns nf ic lambda alpha x := by
  unfold objfunMse costMse
  show loop ns 0 (fun i s => s + loop ns (evalFeatureMatrix row (width ic nf) x 0 ns X ld mv 0 ic)
      (fun i v => upd v i (v i + -1 * y i)) i ^ 2) / ((2 * ns : Nat) : ℝ) +
    regfun (if ic then width ic nf - 1 else width ic nf) x (lambda * alpha)
      (lambda * (1 - alpha) / 2) = _
  rw [width_pred, pen_eq _ _ _ _ h1 h2 h3, loop_sum, zero_add]
  congr 1
  rw [one_div, inv_mul_eq_div]
  congr 1
  · exact Finset.sum_congr rfl fun i hi => by rw [residual hA mv x (Finset.mem_range.mp hi)]
  · push_cast; ring

theorem objgrdMse_eq (hA : Stored row X ld ns nf A) (h1 : 0 ≤ lambda) (h2 : 0 ≤ alpha)
    (h3 : alpha ≤ 1) (mv x g : Nat → ℝ) {p : Nat} (hp : p < width ic nf) :
    objgrdMse (mkData row X ld y ns nf ic lambda alpha nclass) mv (width ic nf) x g p =
      1 / (ns : ℝ) * ∑ i ∈ range ns, (lin A nf x (icpt ic (x nf)) i - y i) *
          dlin A nf (fun j => j) ic nf p i +
        if p < nf then lambda * alpha * sgn (x p) + lambda * (1 - alpha) * x p else 0 := by
  obtain ⟨r, hr⟩ : ∃ r : Nat → ℝ, r = loop ns
    (evalFeatureMatrix row (width ic nf) x 0 ns X ld mv 0 ic)
      (fun i v => upd v i (v i + -1 * y i)) := ⟨_, rfl⟩
  have er : ∀ i, i < ns → r i = lin A nf x (icpt ic (x nf)) i - y i := fun i hi => by
    rw [hr]; exact residual hA mv x hi
  have e : objgrdMse (mkData row X ld y ns nf ic lambda alpha nclass) mv (width ic nf) x g =
      reggrd (if ic then width ic nf - 1 else width ic nf) x (lambda * alpha)
        (lambda * (1 - alpha) / 2)
        (if ic then loop ns (upd (loop (width ic nf - if ic then 1 else 0) g fun j g =>
            upd g j (1 / (ns : ℝ) * loop ns 0 fun i t => t + entry row X ld i j * r i))
              (width ic nf - 1) 0) (fun i g => upd g (width ic nf - 1)
                (g (width ic nf - 1) + 1 / (ns : ℝ) * r i))
          else loop (width ic nf - if ic then 1 else 0) g fun j g =>
            upd g j (1 / (ns : ℝ) * loop ns 0 fun i t => t + entry row X ld i j * r i)) := by
    rw [hr]; rfl
  rw [e, width_pred, width_sub, pengrd_eq _ _ _ _ _ _ h1 h2 h3]
  congr 1
  have ew : ∀ c, c < nf → (loop nf g fun j g =>
      upd g j (1 / (ns : ℝ) * loop ns 0 fun i t => t + entry row X ld i j * r i)) c =
      1 / (ns : ℝ) * ∑ i ∈ range ns, (lin A nf x (icpt ic (x nf)) i - y i) * A i c := by
    intro c h
    rw [loop_upd0 nf _ (fun j _ => 1 / (ns : ℝ) * loop ns 0 fun i t =>
      t + entry row X ld i j * r i) c, if_pos h, loop_sum, zero_add]
    congr 1
    exact Finset.sum_congr rfl fun i hi => by
      rw [entry_stored hA (Finset.mem_range.mp hi) h, er i (Finset.mem_range.mp hi), mul_comm]
  have ed : ∀ i, dlin A nf (fun j => j) ic nf p i =
      if p < nf then A i p else if ic then 1 else 0 := by
    intro i
    unfold dlin one_
    simp only [mul_ite, mul_one, mul_zero]
    rw [Finset.sum_ite_eq' (range nf) p]
    by_cases h : p < nf
    · rw [if_pos (Finset.mem_range.mpr h), if_pos h, if_neg (by omega : ¬ nf = p)]
      cases ic <;> simp
    · rw [if_neg (by simpa using h), if_neg h]
      cases ic with
      | false => simp
      | true =>
        have : nf = p := by unfold width at hp; simp at hp; omega
        simp [this]
  simp only [ed]
  by_cases h : p < nf
  · simp only [if_pos h]
    cases ic with
    | false => exact ew p h
    | true =>
      simp only [if_true]
      have hw : width true nf - 1 = nf := by simp [width]
      rw [hw, loop_keep ns _ _ p fun i v _ => upd_ne _ _ (by omega), upd_ne _ _ (by omega)]
      exact ew p h
  · simp only [if_neg h]
    cases ic with
    | false => simp [width] at hp; omega
    | true =>
      have e : p = nf := by unfold width at hp; simp at hp; omega
      simp only [if_true, mul_one]
      have hw : width true nf - 1 = nf := by simp [width]
      rw [hw, e, loop_add ns _ _ nf (fun i => 1 / (ns : ℝ) * r i) fun i v _ => upd_same _ _ _,
        upd_same, zero_add, Finset.mul_sum]
      exact Finset.sum_congr rfl fun i hi => by rw [er i (Finset.mem_range.mp hi)]

theorem costMse_deriv (hn : 0 < ns) (x : Nat → ℝ) (p : Nat)
    (h : lambda * alpha = 0 ∨ x p ≠ 0 ∨ nf ≤ p) :
    HasDerivAt (fun t => costMse A y ns nf ic lambda alpha (moved x p t))
      (1 / (ns : ℝ) * ∑ i ∈ range ns, (lin A nf x (icpt ic (x nf)) i - y i) *
          dlin A nf (fun j => j) ic nf p i +
        if p < nf then lambda * alpha * sgn (x p) + lambda * (1 - alpha) * x p else 0) (x p) := by
  unfold costMse
  apply HasDerivAt.add
  · have hl : ∀ i, HasDerivAt (fun t => (lin A nf (moved x p t) (icpt ic (moved x p t nf)) i - y i) ^ 2)
        (2 * ((lin A nf x (icpt ic (x nf)) i - y i) * dlin A nf (fun j => j) ic nf p i)) (x p) := by
      intro i
      have h1 := ((lin_deriv A nf (fun j => j) ic nf p i x).sub_const (y i)).pow 2
      refine HasDerivAt.congr_deriv h1 ?_
      simp only [show (fun j => moved x p (x p) j) = x from moved_self x p, moved_self]
      push_cast
      ring
    have := (HasDerivAt.fun_sum (u := range ns) fun i _ => hl i).const_mul (1 / (2 * (ns : ℝ)))
    refine HasDerivAt.congr_deriv this ?_
    rw [← Finset.mul_sum]
    have : (ns : ℝ) ≠ 0 := by exact_mod_cast hn.ne'
    field_simp
  · exact pen_first_deriv lambda alpha nf p x h

end

end Verif.Logistic
