import Verif.Coord.Model

/-!
# The call-backs of linear regression for the coordinate descent solver

`/repo/source/core/linear_model/linmod_nln_optim.cpp`: the step functions `stepfun_linreg_glmnet` (lines 704-814) and
`stepfun_linreg_sklearn` (lines 831-963) and the check `stepchk_linreg_dualgap` (lines 971-1033).  The choice between
the two steps is that of `fit_linreg_coord`, linear_model.cpp:1261-1267.

The user data that change are the residual.  `X i j` is the feature `j` of sample `i`, whatever the storage order.
The calls of BLAS are their exact sums.
-/

namespace Verif.Coord

/-- `scaling_t`, the values the solver can be run with. -/
inductive Scaling where
  | none | centering | scaleOnly | standardize
  deriving DecidableEq, Repr

/-- `stepfun_usrdata_linreg` (lines 62-80, 113-124) without the residual: `m` samples, `n` coefficients with that of
the intercept, if any, at the end. -/
structure Data (K : Type) where
  m : Nat
  n : Nat
  icpt : Bool
  X : Nat → Nat → K
  y : Nat → K
  l1reg : K
  l2reg : K
  xv : Nat → K
  scaling : Scaling
  positive : Bool

/-- The number of coefficients without the intercept. -/
def Data.nmod {K : Type} (d : Data K) : Nat := if d.icpt then d.n - 1 else d.n

section
variable {K : Type} [Field K] [LinearOrder K]

/-- The column that belongs to a coefficient: a feature, or ones for the intercept. -/
def Data.col (d : Data K) (k i : Nat) : K := if k < d.nmod then d.X i k else 1

/-- `cblas_dot` of two arrays of `m` entries. -/
def dot (m : Nat) (a b : Nat → K) : K := ∑ i ∈ Finset.range m, a i * b i

/-- The residual computed afresh, lines 726-738 and 852-864: `eval_feature_matrix` (lines 140-155) and the
subtraction. -/
def Data.fresh (d : Data K) (coef : Nat → K) : Nat → K := fun i =>
  d.y i - ((∑ j ∈ Finset.range d.nmod, d.X i j * coef j) + if d.icpt then coef (d.n - 1) else 0)

/-- `regfun`, lines 158-171. -/
def regfun (n : Nat) (x : Nat → K) (l1 l2 : K) : K :=
  (if 0 < l1 then l1 * ∑ j ∈ Finset.range n, |x j| else 0) + (if 0 < l2 then l2 * dot n x x else 0)

/-- The value of the objective given back by both steps, lines 713-724 and 842-850. -/
def value (d : Data K) (coef r : Nat → K) : K :=
  dot d.m r r / ((d.m : K) * 2) + regfun d.nmod coef d.l1reg d.l2reg

/-- The residual at the beginning of a step of the GLMnet variant, lines 726-766. -/
def glmResidual (d : Data K) (coef : Nat → K) (action : Int) (kdiff : K) (r : Nat → K) : Nat → K :=
  if 0 < action then d.fresh coef
  else if action < 0 ∧ kdiff ≠ 0 then
    let kold := (-(action + 1)).toNat
    if kold < d.nmod then fun i => r i - kdiff * d.X i kold else fun i => r i - kdiff
  else r

/-- The curvature used by the GLMnet variant, lines 770, 788-790. -/
def glmCurve (d : Data K) (k : Nat) : K :=
  if d.scaling = .standardize ∨ d.scaling = .scaleOnly then d.xv k else 1

/-- The divisor of line 800. -/
def glmDivisor (d : Data K) (k : Nat) : K := glmCurve d k + 2 * d.l2reg

/-- The new value of a coefficient in the GLMnet variant, lines 768-811, with the residual up to date. -/
def glmNew (d : Data K) (coef : Nat → K) (k : Nat) (r : Nat → K) : K :=
  if k < d.nmod then
    let g := dot d.m (fun i => d.X i k) r
    let g := if d.scaling = .standardize then g / (d.m : K) else g
    let b := g + coef k * glmCurve d k
    let shr := max (|b| - d.l1reg) 0
    (if b < 0 then -shr else shr) / glmDivisor d k
  else (∑ i ∈ Finset.range d.m, r i) / (d.m : K) + coef k

/-- `stepfun_linreg_glmnet` with `f` not given. -/
def glmStep (d : Data K) (coef : Nat → K) (k : Nat) (action : Int) (kdiff : K) (r : Nat → K) : K × (Nat → K) :=
  let r := glmResidual d coef action kdiff r
  (glmNew d coef k r, r)

/-- The function `sign`, lines 866-869. -/
def sgn (a : K) : K := if |a| = 0 then 0 else a / |a|

/-- `stepfun_linreg_sklearn` with `f` not given, lines 852-962. -/
def skStep (d : Data K) (coef : Nat → K) (k : Nat) (action : Int) (r : Nat → K) : K × (Nat → K) :=
  let r := if 0 < action then d.fresh coef else r
  if k < d.nmod ∧ d.xv k = 0 then (0, r)
  else
    let l1 := d.l1reg * (d.m : K)
    let l2 := d.l2reg * ((d.m : K) * 2)
    let r := if coef k ≠ 0 then fun i => r i + coef k * d.col k i else r
    let g := dot d.m (d.col k) r
    let b := if d.positive ∧ g < 0 then 0
      else sgn g * max (|g| - l1) 0 / ((if k < d.nmod then d.xv k else 1) + l2)
    (b, if b ≠ 0 then fun i => r i - b * d.col k i else r)

/-- The largest entry in modulus of the first `n` (`cblas_iamax`). -/
def maxAbs (w : Nat → K) : Nat → K
  | 0 => 0
  | n + 1 => max (maxAbs w n) |w n|

/-- The largest of the first `n + 1` entries (`std::max_element`). -/
def maxElem (w : Nat → K) : Nat → K
  | 0 => w 0
  | n + 1 => max (maxElem w n) (w (n + 1))

/-- `stepchk_linreg_dualgap`, lines 971-1033. -/
def dualGap (d : Data K) (coef r : Nat → K) : K :=
  let l1 := d.l1reg * (d.m : K)
  let halfL2 := d.l2reg * (d.m : K)
  let l2 := 2 * halfL2
  let work : Nat → K := fun j => dot d.m (fun i => d.X i j) r - l2 * coef j
  let dn := if d.positive then maxElem work (d.nmod - 1) else maxAbs work d.nmod
  let nrm2R := dot d.m r r
  let rty := dot d.m r d.y
  let nrm2c := dot d.nmod coef coef
  let nrm1c := ∑ j ∈ Finset.range d.nmod, |coef j|
  let c := if l1 < dn then l1 / dn else 1
  let gap := if l1 < dn then 1 / 2 * (nrm2R + nrm2R * (c * c)) else nrm2R
  (gap + (l1 * nrm1c - c * rty + halfL2 * (1 + c * c) * nrm2c)) / (d.m : K)

/-- The call-backs of `fit_linreg_coord` (linear_model.cpp:1261-1274): neither ever fails. -/
def calls (d : Data K) : Calls (Nat → K) K where
  step coef k action kdiff r :=
    if d.scaling = .none ∨ d.scaling = .centering then
      let s := skStep d coef k action r
      (s.1, s.2, false)
    else
      let s := glmStep d coef k action kdiff r
      (s.1, s.2, false)
  value coef r := value d coef r
  check coef r := (dualGap d coef r, r, false)

end

end Verif.Coord
