import Verif.Logistic.Model
import Mathlib.Analysis.SpecialFunctions.Log.Basic
import Mathlib.Algebra.BigOperators.Intervals

/-
What the cost functions of doc/Algorithms/linear_models/linear_models.rst say, in terms of a
matrix of features, class labels and the coefficients.
-/
namespace Verif.Logistic

open Finset (range)

/-- The arithmetic of the reals; the rounding of a label stays arbitrary. -/
noncomputable def realOps (round : ℝ → ℝ) : Ops ℝ := ⟨Real.exp, Real.log, round⟩

/-- `A` is the matrix that is stored in `X`. -/
def Stored (row : Bool) (X : Nat → ℝ) (ld nsamples nfeat : Nat) (A : Nat → Nat → ℝ) : Prop :=
  ∀ i j, i < nsamples → j < nfeat → X (if row then i * ld + j else j * ld + i) = A i j

/-- The labels are classes. -/
def Labelled (round : ℝ → ℝ) (y : Nat → ℝ) (nsamples nclass : Nat) (lab : Nat → Nat) : Prop :=
  ∀ i, i < nsamples → round (y i) = (lab i : ℝ) ∧ lab i < nclass

/-- `X_i β + β_0`. -/
noncomputable def lin (A : Nat → Nat → ℝ) (nfeat : Nat) (β : Nat → ℝ) (β0 : ℝ) (i : Nat) : ℝ :=
  ∑ j ∈ range nfeat, A i j * β j + β0

/-- The documented penalty `λ (α ‖β‖₁ + (1 − α)/2 ‖β‖₂²)` of `m` coefficients. -/
noncomputable def penalty (lambda alpha : ℝ) (m : Nat) (β : Nat → ℝ) : ℝ :=
  lambda * (alpha * ∑ j ∈ range m, |β j| + (1 - alpha) / 2 * ∑ j ∈ range m, β j ^ 2)

/-- The vector with coefficient `p` replaced by `t`. -/
def moved (x : Nat → ℝ) (p : Nat) (t : ℝ) : Nat → ℝ := fun c => if c = p then t else x c

/-! ### Two classes -/

/-- The intercept, the last coefficient if there is one. -/
noncomputable def icpt (ic : Bool) (v : ℝ) : ℝ := if ic then v else 0

/-- The probability of class 1. -/
noncomputable def prob1 (η : ℝ) : ℝ := Real.exp η / (1 + Real.exp η)

/-- `-Σ (y log p + (1 − y) log (1 − p))` with the penalty on the coefficients of the features. -/
noncomputable def costTwo (A : Nat → Nat → ℝ) (lab : Nat → Nat) (nsamples nfeat : Nat)
    (ic : Bool) (lambda alpha : ℝ) (x : Nat → ℝ) : ℝ :=
  ∑ i ∈ range nsamples,
      -((lab i : ℝ) * Real.log (prob1 (lin A nfeat x (icpt ic (x nfeat)) i)) +
        (1 - (lab i : ℝ)) * Real.log (1 - prob1 (lin A nfeat x (icpt ic (x nfeat)) i))) +
    penalty lambda alpha nfeat x

/-! ### Several classes, the last one as reference -/

/-- Coefficients of a class. -/
def width (ic : Bool) (nfeat : Nat) : Nat := if ic then nfeat + 1 else nfeat

/-- `β_k X_i`; the coefficients of a class are stored together, its intercept last. -/
noncomputable def linRef (A : Nat → Nat → ℝ) (nfeat : Nat) (ic : Bool) (x : Nat → ℝ) (k i : Nat) : ℝ :=
  lin A nfeat (fun j => x (k * width ic nfeat + j)) (icpt ic (x (k * width ic nfeat + nfeat))) i

/-- The documented probability of class `k` out of `nclass`. -/
noncomputable def probRef (nclass : Nat) (η : Nat → ℝ) (k : Nat) : ℝ :=
  if k < nclass - 1 then Real.exp (η k) / (1 + ∑ l ∈ range (nclass - 1), Real.exp (η l))
  else 1 / (1 + ∑ l ∈ range (nclass - 1), Real.exp (η l))

/-- The negative log-likelihood. -/
noncomputable def lossRef (A : Nat → Nat → ℝ) (lab : Nat → Nat) (nsamples nfeat nclass : Nat)
    (ic : Bool) (x : Nat → ℝ) : ℝ :=
  ∑ i ∈ range nsamples, -Real.log (probRef nclass (fun k => linRef A nfeat ic x k i) (lab i))

/-- The negative log-likelihood with the penalty on the coefficients of the features of all
classes. -/
noncomputable def costRef (A : Nat → Nat → ℝ) (lab : Nat → Nat) (nsamples nfeat nclass : Nat)
    (ic : Bool) (lambda alpha : ℝ) (x : Nat → ℝ) : ℝ :=
  lossRef A lab nsamples nfeat nclass ic x +
    ∑ k ∈ range (nclass - 1), penalty lambda alpha nfeat fun j => x (k * width ic nfeat + j)

/-! ### Several classes, all alike -/

/-- `β_k X_i`; coefficient `j` of class `k` is at `j * nclass + k`, the intercepts at the end. -/
noncomputable def linSoft (A : Nat → Nat → ℝ) (nfeat nclass : Nat) (ic : Bool) (x : Nat → ℝ)
    (k i : Nat) : ℝ :=
  lin A nfeat (fun j => x (j * nclass + k)) (icpt ic (x (nfeat * nclass + k))) i

/-- The soft-max probability of class `k` out of `nclass`. -/
noncomputable def probSoft (nclass : Nat) (η : Nat → ℝ) (k : Nat) : ℝ :=
  Real.exp (η k) / ∑ l ∈ range nclass, Real.exp (η l)

/-- The negative log-likelihood with the penalty on the coefficients of the features of all
classes. -/
noncomputable def costSoft (A : Nat → Nat → ℝ) (lab : Nat → Nat) (nsamples nfeat nclass : Nat)
    (ic : Bool) (lambda alpha : ℝ) (x : Nat → ℝ) : ℝ :=
  ∑ i ∈ range nsamples, -Real.log (probSoft nclass (fun k => linSoft A nfeat nclass ic x k i) (lab i)) +
    ∑ k ∈ range nclass, penalty lambda alpha nfeat fun j => x (j * nclass + k)

/-! ### Least squares -/

/-- `1/(2n) Σ (X_i β + β_0 − y_i)²` with the penalty. -/
noncomputable def costMse (A : Nat → Nat → ℝ) (y : Nat → ℝ) (nsamples nfeat : Nat) (ic : Bool)
    (lambda alpha : ℝ) (x : Nat → ℝ) : ℝ :=
  1 / (2 * (nsamples : ℝ)) *
      ∑ i ∈ range nsamples, (lin A nfeat x (icpt ic (x nfeat)) i - y i) ^ 2 +
    penalty lambda alpha nfeat x

end Verif.Logistic
