import Verif.Logistic.Loop
import Verif.Logistic.Spec
import Mathlib.Analysis.SpecialFunctions.Log.Deriv
import Mathlib.Analysis.SpecialFunctions.ExpDeriv
import Mathlib.Analysis.Calculus.Deriv.Abs
import Mathlib.Analysis.Calculus.Deriv.Pow

/-
Derivatives of the parts of the cost functions with respect to one coefficient.
-/
namespace Verif.Logistic

set_option linter.unusedSectionVars false

open Finset (range)

theorem moved_self (x : Nat → ℝ) (p : Nat) : moved x p (x p) = x := by
  funext c
  unfold moved
  by_cases h : c = p
  · rw [if_pos h, h]
  · rw [if_neg h]

/-- `1` when `c = p`, else `0`. -/
def one_ (p c : Nat) : ℝ := if c = p then 1 else 0

theorem moved_deriv (x : Nat → ℝ) (p c : Nat) :
    HasDerivAt (fun t => moved x p t c) (one_ p c) (x p) := by
  unfold moved one_
  by_cases h : c = p
  · simp only [if_pos h]; exact hasDerivAt_id _
  · simp only [if_neg h]; exact hasDerivAt_const _ _

/-- The derivative of a linear combination whose coefficients are stored at `idx j` and whose
intercept is stored at `q`. -/
noncomputable def dlin (A : Nat → Nat → ℝ) (nfeat : Nat) (idx : Nat → Nat) (ic : Bool) (q p i : Nat) : ℝ :=
  ∑ j ∈ range nfeat, A i j * one_ p (idx j) + if ic then one_ p q else 0

theorem lin_deriv (A : Nat → Nat → ℝ) (nfeat : Nat) (idx : Nat → Nat) (ic : Bool) (q p i : Nat)
    (x : Nat → ℝ) :
    HasDerivAt (fun t => lin A nfeat (fun j => moved x p t (idx j)) (icpt ic (moved x p t q)) i)
      (dlin A nfeat idx ic q p i) (x p) := by
  unfold lin dlin
  apply HasDerivAt.add
  · refine HasDerivAt.fun_sum fun j _ => ?_
    exact (moved_deriv x p (idx j)).const_mul (A i j)
  · cases ic with
    | false => simp only [icpt, Bool.false_eq_true, if_false]; exact hasDerivAt_const _ _
    | true => simp only [icpt, if_true]; exact moved_deriv x p q

theorem abs_deriv {s : ℝ} (h : s ≠ 0) : HasDerivAt (fun t : ℝ => |t|) (sgn s) s := by
  unfold sgn
  rw [if_neg h]
  by_cases hs : s < 0
  · rw [if_pos hs]; exact hasDerivAt_abs_neg hs
  · rw [if_neg hs]; exact hasDerivAt_abs_pos (lt_of_le_of_ne (not_lt.mp hs) (Ne.symm h))

/-- The derivative of the penalty on coefficients stored at `idx j`. -/
theorem penalty_deriv (lambda alpha : ℝ) (m : Nat) (idx : Nat → Nat) (p : Nat) (x : Nat → ℝ)
    (h : lambda * alpha = 0 ∨ x p ≠ 0) :
    HasDerivAt (fun t => penalty lambda alpha m fun j => moved x p t (idx j))
      (∑ j ∈ range m, (lambda * alpha * sgn (x p) + lambda * (1 - alpha) * x p) * one_ p (idx j))
      (x p) := by
  have e : (fun t => penalty lambda alpha m fun j => moved x p t (idx j)) =
      fun t => ∑ j ∈ range m, (lambda * alpha * |moved x p t (idx j)| +
        lambda * ((1 - alpha) / 2) * moved x p t (idx j) ^ 2) := by
    funext t
    unfold penalty
    rw [Finset.sum_add_distrib, ← Finset.mul_sum, ← Finset.mul_sum]
    ring
  rw [e]
  refine HasDerivAt.fun_sum fun j _ => ?_
  unfold one_ moved
  by_cases hj : idx j = p
  · simp only [if_pos hj, mul_one]
    apply HasDerivAt.add
    · rcases h with h | h
      · rw [h]; simp only [zero_mul]; exact hasDerivAt_const _ _
      · exact (abs_deriv h).const_mul _
    · have := ((hasDerivAt_id (x p)).pow 2).const_mul (lambda * ((1 - alpha) / 2))
      refine HasDerivAt.congr_deriv this ?_
      simp; ring
  · simp only [if_neg hj, mul_zero]
    exact hasDerivAt_const _ _

/-- The derivative of the penalty where the moved coefficient is not penalized. -/
theorem penalty_const (lambda alpha : ℝ) (m : Nat) (idx : Nat → Nat) (p : Nat) (x : Nat → ℝ)
    (h : ∀ j, j < m → idx j ≠ p) (t : ℝ) :
    (penalty lambda alpha m fun j => moved x p t (idx j)) =
      penalty lambda alpha m fun j => x (idx j) := by
  have e : ∀ j ∈ range m, moved x p t (idx j) = x (idx j) := fun j hj =>
    if_neg (h j (Finset.mem_range.mp hj))
  have e1 : ∑ j ∈ range m, |moved x p t (idx j)| = ∑ j ∈ range m, |x (idx j)| :=
    Finset.sum_congr rfl fun j hj => by rw [e j hj]
  have e2 : ∑ j ∈ range m, moved x p t (idx j) ^ 2 = ∑ j ∈ range m, x (idx j) ^ 2 :=
    Finset.sum_congr rfl fun j hj => by rw [e j hj]
  unfold penalty
  rw [e1, e2]

theorem entry_stored {row : Bool} {X : Nat → ℝ} {ld ns nf : Nat} {A : Nat → Nat → ℝ}
    (hA : Stored row X ld ns nf A) {i j : Nat} (hi : i < ns) (hj : j < nf) :
    entry row X ld i j = A i j := by
  have := hA i j hi hj
  unfold entry
  cases row <;> simpa using this

/-- The code's weights of the penalty give the documented penalty. -/
theorem pen_eq (lambda alpha : ℝ) (m : Nat) (x : Nat → ℝ) (h1 : 0 ≤ lambda) (h2 : 0 ≤ alpha)
    (h3 : alpha ≤ 1) :
    regfun m x (lambda * alpha) (lambda * (1 - alpha) / 2) = penalty lambda alpha m x := by
  rw [regfun_eq m x (mul_nonneg h1 h2)
    (div_nonneg (mul_nonneg h1 (sub_nonneg.mpr h3)) (by norm_num))]
  unfold penalty
  ring

theorem pengrd_eq (lambda alpha : ℝ) (m : Nat) (x g : Nat → ℝ) (p : Nat) (h1 : 0 ≤ lambda)
    (h2 : 0 ≤ alpha) (h3 : alpha ≤ 1) :
    reggrd m x (lambda * alpha) (lambda * (1 - alpha) / 2) g p =
      g p + if p < m then lambda * alpha * sgn (x p) + lambda * (1 - alpha) * x p else 0 := by
  rw [reggrd_at m x (mul_nonneg h1 h2)
    (div_nonneg (mul_nonneg h1 (sub_nonneg.mpr h3)) (by norm_num))]
  congr 1
  by_cases h : p < m
  · rw [if_pos h, if_pos h]; ring
  · rw [if_neg h, if_neg h]

/-- The derivative of the penalty on the first `m` coefficients is what `reggrd` adds. -/
theorem pen_first_deriv (lambda alpha : ℝ) (m p : Nat) (x : Nat → ℝ)
    (h : lambda * alpha = 0 ∨ x p ≠ 0 ∨ m ≤ p) :
    HasDerivAt (fun t => penalty lambda alpha m (moved x p t))
      (if p < m then lambda * alpha * sgn (x p) + lambda * (1 - alpha) * x p else 0) (x p) := by
  by_cases hp : p < m
  · rw [if_pos hp]
    have := penalty_deriv lambda alpha m (fun j => j) p x (by
      rcases h with h | h | h
      · exact Or.inl h
      · exact Or.inr h
      · omega)
    refine HasDerivAt.congr_deriv this ?_
    unfold one_
    rw [← Finset.mul_sum, Finset.sum_ite_eq' (range m) p, if_pos (Finset.mem_range.mpr hp), mul_one]
  · rw [if_neg hp]
    have := fun t => penalty_const lambda alpha m (fun j => j) p x (fun j hj => by omega) t
    simp only [show ∀ t, (fun j => moved x p t j) = moved x p t from fun _ => rfl] at this
    rw [show (fun t => penalty lambda alpha m (moved x p t)) = fun _ => penalty lambda alpha m x
      from funext this]
    exact hasDerivAt_const _ _

end Verif.Logistic
