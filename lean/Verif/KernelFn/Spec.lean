import Verif.PairDist.Spec
import Mathlib.Analysis.SpecialFunctions.Trigonometric.DerivHyp

/-
What the kernel functions ought to be (doc/Algorithms/kernel_functions/kernel_functions.rst:39-66),
without the model.
-/
namespace Verif.KernelFn.Spec

open Finset (range)

/-- `x · y`. -/
noncomputable def linear (k : Nat) (x y : Nat → ℝ) : ℝ := ∑ l ∈ range k, x l * y l

/-- `(γ x · y + c)^d`. -/
noncomputable def polynomial (gamma : ℝ) (d : Nat) (c : ℝ) (k : Nat) (x y : Nat → ℝ) : ℝ :=
  (gamma * (∑ l ∈ range k, x l * y l) + c) ^ d

/-- `tanh (γ x · y + c)`. -/
noncomputable def sigmoid (gamma c : ℝ) (k : Nat) (x y : Nat → ℝ) : ℝ :=
  Real.tanh (gamma * (∑ l ∈ range k, x l * y l) + c)

/-- `exp (-γ ‖x - y‖²)`. -/
noncomputable def rbf (gamma : ℝ) (k : Nat) (x y : Nat → ℝ) : ℝ :=
  Real.exp (-gamma * ∑ l ∈ range k, (x l - y l) ^ 2)

end Verif.KernelFn.Spec
