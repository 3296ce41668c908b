import Verif.Coord.Linreg

/-!
# The problem the coordinate descent solver is meant to solve

Nothing here refers to the steps, the residual kept by the solver or its ledger.
-/

namespace Verif.Coord

section
variable {K : Type} [Field K] [LinearOrder K]

/-- What the model leaves unexplained of sample `i`. -/
def resid (d : Data K) (b : Nat → K) (i : Nat) : K := d.y i - ∑ j ∈ Finset.range d.n, d.col j i * b j

/-- The objective: the squared residuals with weight `c / 2`, and the two penalties on all coefficients but the
intercept. -/
def obj (c : K) (d : Data K) (b : Nat → K) : K :=
  c / 2 * (∑ i ∈ Finset.range d.m, resid d b i ^ 2)
    + d.l1reg * (∑ j ∈ Finset.range d.nmod, |b j|) + d.l2reg * ∑ j ∈ Finset.range d.nmod, b j ^ 2

/-- The weight of the squared residuals in the problem that the steps minimise (linmod_nln_optim.cpp:781-787,
885-888): the mean of the squares, except for `scale only`, where the data themselves have been divided by the root
of the number of samples. -/
def weight (d : Data K) : K := if d.scaling = .scaleOnly then 1 else 1 / (d.m : K)

/-- The data as `preprocess_data` (linear_model.cpp:2067-2330) leaves them: at least one sample, a column for each
coefficient, penalties that are not negative, `xv` the squared length of each feature in the units of the problem,
and, when there is an intercept, centred features and responses. -/
structure Data.Ok (d : Data K) : Prop where
  m_pos : 0 < d.m
  n_pos : 0 < d.nmod
  l1 : 0 ≤ d.l1reg
  l2 : 0 ≤ d.l2reg
  curve : ∀ k, k < d.nmod → d.xv k =
    (if d.scaling = .standardize then 1 / (d.m : K) else 1) * ∑ i ∈ Finset.range d.m, d.X i k ^ 2
  centredX : d.icpt = true → ∀ k, k < d.nmod → ∑ i ∈ Finset.range d.m, d.X i k = 0
  centredY : d.icpt = true → ∑ i ∈ Finset.range d.m, d.y i = 0

/-- The coefficients the model allows: not negative if asked for. -/
def Allowed (d : Data K) (b : Nat → K) : Prop := d.positive = true → ∀ j, j < d.nmod → 0 ≤ b j

/-- Coefficients from which no other ones differ by more than `g` in the objective. -/
def Within (c g : K) (d : Data K) (b : Nat → K) : Prop := ∀ b', Allowed d b' → obj c d b ≤ obj c d b' + g

end

end Verif.Coord
