import Verif.LeastSq.Model
import Verif.Logistic.Spec
import Mathlib.Analysis.Real.Sqrt

/-
What the fits should return, in terms of the data and the coefficients: the sum of squared
residuals, its minimisers and the penalised problems.
-/
namespace Verif.LeastSq

open Finset (range)
open Verif.Logistic (lin icpt)

/-- `Σ (y_i − X_i β − β_0)²`; the intercept, if there is one, is coefficient `p`. -/
noncomputable def ssr (ic : Bool) (n p : Nat) (X : Nat → Nat → ℝ) (y c : Nat → ℝ) : ℝ :=
  ∑ i ∈ range n, (y i - lin X p c (icpt ic (c p)) i) ^ 2

/-- The coefficients `c` minimise `F`. -/
def Minimises (F : (Nat → ℝ) → ℝ) (c : Nat → ℝ) : Prop := ∀ d, F c ≤ F d

/-- The coefficients `c`, with intercept 0, minimise `F` among those with intercept 0. -/
def Minimises0 (p : Nat) (F : (Nat → ℝ) → ℝ) (c : Nat → ℝ) : Prop :=
  c p = 0 ∧ ∀ d, d p = 0 → F c ≤ F d

/-- The sum of squares with weight `w`, an `l1` and a squared `l2` penalty, where coefficient `j`
counts in units of `1/σ_j`. -/
noncomputable def cost (w l1 l2 : ℝ) (σ : Nat → ℝ) (ic : Bool) (n p : Nat) (X : Nat → Nat → ℝ)
    (y c : Nat → ℝ) : ℝ :=
  w * ssr ic n p X y c + l1 * ∑ j ∈ range p, |σ j * c j| + l2 * ∑ j ∈ range p, (σ j * c j) ^ 2

/-- The mean of a column. -/
noncomputable def avg (n : Nat) (f : Nat → ℝ) : ℝ := (∑ i ∈ range n, f i) / (n : ℝ)

/-- The standard deviation of a column. -/
noncomputable def dev (n : Nat) (f : Nat → ℝ) : ℝ :=
  Real.sqrt ((∑ i ∈ range n, (f i - avg n f) ^ 2) / (n : ℝ))

/-- What a solver minimises on the scaled data: the mean of the squares for L-BFGS-B
(linmod_nln_optim.hpp, C134) and for coordinate descent, except with `scale only` (C95), and their
sum for the direct solvers, with half the weight each, and the elastic net penalty. -/
noncomputable def solverCost (m : Method) (scaling : Scaling) (alpha l : ℝ) (ic : Bool)
    (n p : Nat) (Z : Nat → Nat → ℝ) (z c : Nat → ℝ) : ℝ :=
  cost (if m = .lbfgsb ∨ (m = .coord ∧ scaling ≠ .scaleOnly) then 1 / (2 * (n : ℝ)) else 1 / 2)
    (l * alpha) (l * (1 - alpha) / 2) (fun _ => 1) ic n p Z z c

/-- Some value of the column differs from another one. -/
def Varies (n : Nat) (f : Nat → ℝ) : Prop := ∃ i i', i < n ∧ i' < n ∧ f i ≠ f i'

end Verif.LeastSq
