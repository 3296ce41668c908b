import Verif.KernelPca.Model
import Mathlib.Algebra.Order.Group.Unbundled.Abs

/-
Principal component analysis (source/core/factorization/pca/pca.cpp): the matrix that is decomposed, the total variance, the
scores, transform and inverse_transform, and the flags of the handle.

Numbers are the elements of an ordered field, square roots are parameters; rounding, NaN and infinities are not modelled.  An array is a
function of its flat index.  The LAPACK routines and da_random_svd appear as the arrays they return, da_qr is in TallSkinny; the
means, variances and standardize are contracts (Moments), da_syrk, cblas_gemm and cblas_gemv too.  The checks of the arguments
of transform and inverse_transform and failed allocations are left out.
-/
namespace Verif.Pca

open Verif.Logistic (loop upd)
open Verif.PairDist (cell)
open Verif.KernelPca (gemmNN)

/-- pca_method_svd, pca_method_cov, pca_method_corr. -/
inductive Method | svd | cov | corr
deriving DecidableEq

variable {K : Type*} [Field K] [LinearOrder K]

/-- Contract of da_basic_statistics::mean with da_axis_col: the mean of column j of an array with n rows. -/
def colMean (row : Bool) (n ld : Nat) (A : Nat → K) (j : Nat) : K := (loop n 0 fun i s => s + A (cell row ld i j)) / n

/-- column_sdevs_nonzero, pca.cpp:476-477, 488-489. -/
def nonzero (sds : Nat → K) (j : Nat) : K := if sds j = 0 then 1 else sds j

/-- The copy of the data that is decomposed (all solvers but syevd), pca.cpp:454-459, 486-496, 500-507. -/
def standardizedCopy (method : Method) (n p lda : Nat) (A means sdnz : Nat → K) (C : Nat → K) : Nat → K :=
  loop p C fun j C => loop n C fun i C => upd C (i + j * n)
    (match method with
      | .svd => A (i + lda * j)
      | .cov => A (i + lda * j) - means j
      | .corr => (A (i + lda * j) - means j) / sdnz j)

/-- Contract of da_syrk: the upper triangle of the product of the transposed matrix with itself, pca.cpp:426-430. -/
def syrkUpper (n p lda ldvt : Nat) (A V : Nat → K) : Nat → K :=
  loop p V fun j V => loop (j + 1) V fun i V =>
    upd V (i + ldvt * j) (loop n 0 fun r s => s + A (r + lda * i) * A (r + lda * j))

/-- The correction by the means and deviations for solver_syevd, pca.cpp:446-452, 473-484. -/
def correctGram (method : Method) (n p ldvt : Nat) (means sdnz V : Nat → K) : Nat → K :=
  if method = .svd then V
  else loop p V fun j V => loop (j + 1) V fun i V => upd V (i + ldvt * j)
    (if method = .corr then (V (i + ldvt * j) - n * means j * means i) / (sdnz j * sdnz i)
      else V (i + ldvt * j) - n * means j * means i)

/-- The matrix given to syevd. -/
def gramOf (method : Method) (n p lda : Nat) (A means sdnz V : Nat → K) : Nat → K :=
  correctGram method n p p means sdnz (syrkUpper n p lda p A V)

/-- total_variance, pca.cpp:512-524. -/
def totalVariance (syevd : Bool) (n p : Nat) (div : K) (C V : Nat → K) : K :=
  (if syevd then loop p 0 fun i s => s + V (i + p * i) else loop (n * p) 0 fun i s => s + C i * C i) / div

/-- colmax of column j of U, pca.cpp:775-779. -/
def colMax (n ldu : Nat) (u : Nat → K) (j : Nat) : K :=
  loop n 0 fun i c => if |c| < |u (i + ldu * j)| then u (i + ldu * j) else c

/-- One pass of the loop that fixes the signs, pca.cpp:773-789. -/
def flipSign (n p ldu ldvt j : Nat) (s : (Nat → K) × (Nat → K)) : (Nat → K) × (Nat → K) :=
  if colMax n ldu s.1 j < 0 then
    (loop n s.1 fun i u => upd u (i + ldu * j) (-u (i + ldu * j)), loop p s.2 fun i v => upd v (j + ldvt * i) (-v (j + ldvt * i)))
  else s

/-- The loop that fixes the signs of U and VT, pca.cpp:771-790. -/
def fixSigns (n p ns ldu ldvt : Nat) (s : (Nat → K) × (Nat → K)) : (Nat → K) × (Nat → K) :=
  loop ns s fun j s => flipSign n p ldu ldvt j s

/-- The results that transform and inverse_transform use. -/
structure Fit (K : Type*) where
  row : Bool
  method : Method
  whiten : Bool
  p : Nat
  npc : Nat
  ldvt : Nat
  sqrtDiv : K
  eps : K
  means : Nat → K
  sds : Nat → K
  sdnz : Nat → K
  sigma : Nat → K
  vt : Nat → K

/-- copy_2D_results_array (basic_handle.cpp:235-251) and the loops of da_pca_scores, pca.cpp:117-147. -/
def scores (f : Fit K) (n ldu : Nat) (u out : Nat → K) : Nat → K :=
  let out := if f.row then loop n out fun i out => loop f.npc out fun j out => upd out (i * f.npc + j) (u (i + ldu * j))
    else loop f.npc out fun j out => loop n out fun i out => upd out (i + j * n) (u (i + ldu * j))
  let factor := fun j => if f.whiten then f.sqrtDiv else f.sigma j
  if f.row then loop n out fun i out => loop f.npc out fun j out => upd out (i * f.npc + j) (out (i * f.npc + j) * factor j)
  else loop f.npc out fun j out => loop n out fun i out => upd out (i + j * n) (out (i + j * n) * factor j)

/-- sdev_factor, pca.cpp:853-855, 870-872, 888-889. -/
def sdevFactor (f : Fit K) (j : Nat) : K :=
  let num := if f.whiten then f.sqrtDiv else 1
  if f.method = .corr then num / f.sdnz j else num

/-- The entry of v for feature j and component i, pca.cpp:843-902. -/
def vEntry (f : Fit K) (j i : Nat) : K :=
  if f.whiten then
    if f.sigma (f.npc - 1) = 0 then
      f.vt (i + f.ldvt * j) * sdevFactor f j / (if 0 < f.sigma i then f.sigma i else f.eps)
    else f.vt (i + f.ldvt * j) * sdevFactor f j / f.sigma i
  else f.vt (i + f.ldvt * j) * sdevFactor f j

/-- The loops that fill v, pca.cpp:827-902. -/
def buildV (f : Fit K) (v : Nat → K) : Nat → K :=
  loop f.p v fun j v => loop f.npc v fun i v =>
    upd v (if f.row then i + f.npc * j else j + f.p * i) (vEntry f j i)

/-- Contract of cblas_gemv with CblasTrans: mean_correction, pca.cpp:922-923. -/
def meanCorrection (f : Fit K) (v : Nat → K) (c : Nat) : K :=
  loop f.p 0 fun j s => s + v (cell f.row (if f.row then f.npc else f.p) j c) * f.means j

/-- transform, pca.cpp:800-945. -/
def transform (f : Fit K) (m : Nat) (X : Nat → K) (ldx : Nat) (T : Nat → K) (ldt : Nat) : Nat → K :=
  let v := buildV f fun _ => 0
  let T := gemmNN f.row m f.npc f.p X ldx v (if f.row then f.npc else f.p) T ldt
  if f.method = .svd then T
  else if f.row then loop m T fun j T => loop f.npc T fun i T => upd T (i + ldt * j) (T (i + ldt * j) - meanCorrection f v i)
  else loop f.npc T fun j T => loop m T fun i T => upd T (i + ldt * j) (T (i + ldt * j) - meanCorrection f v j)

/-- The operator of inverse_transform with its leading dimension, pca.cpp:982-1025. -/
def inverseOperator (f : Fit K) : (Nat → K) × Nat :=
  if f.whiten then
    if f.row then (loop f.p (fun _ => 0) fun j o => loop f.npc o fun i o =>
        upd o (j + f.p * i) (f.vt (i + f.ldvt * j) * f.sigma i / f.sqrtDiv), f.p)
    else (loop f.p (fun _ => 0) fun j o => loop f.npc o fun i o =>
        upd o (i + f.npc * j) (f.vt (i + f.ldvt * j) * f.sigma i / f.sqrtDiv), f.npc)
  else
    if f.row then (loop f.p (fun _ => 0) fun j o => loop f.npc o fun i o => upd o (j + f.p * i) (f.vt (i + f.ldvt * j)), f.p)
    else (f.vt, f.ldvt)

/-- is_zero (statistical_utilities.cpp:41-50). -/
def isZero (p : Nat) (a : Nat → K) : Bool := (List.range p).all fun j => decide (a j = 0)

/-- The shift that standardize uses and leaves in its argument, statistical_utilities.cpp:94-205: shifts that are all 0 are taken as a
request to compute the means of the columns. -/
def shiftUsed (row : Bool) (k p ld : Nat) (means X : Nat → K) : Nat → K :=
  if isZero p means then colMean row k ld X else means

/-- The scale likewise; `dev` stands for the deviations of the columns of the array. -/
def scaleUsed (p : Nat) (sds dev : Nat → K) : Nat → K := if isZero p sds then dev else sds

/-- Contract of standardize with mode = 1 and da_axis_col, as inverse_transform calls it, pca.cpp:1033-1048. -/
def undo (f : Fit K) (k : Nat) (dev X : Nat → K) (ld : Nat) : Nat → K :=
  let sh := shiftUsed f.row k f.p ld f.means X
  let sc := fun j => if f.method = .corr then nonzero (scaleUsed f.p f.sds dev) j else 1
  if f.method = .svd then X
  else if f.row then loop k X fun i X => loop f.p X fun j X => upd X (i * ld + j) (X (i * ld + j) * sc j + sh j)
  else loop f.p X fun j X => loop k X fun i X => upd X (i + j * ld) (X (i + j * ld) * sc j + sh j)

/-- inverse_transform, pca.cpp:948-1051: the result and column_means as it is left. -/
def inverseTransform (f : Fit K) (k : Nat) (Y : Nat → K) (ldy : Nat) (dev Z : Nat → K) (ldz : Nat) : (Nat → K) × (Nat → K) :=
  let Z := gemmNN f.row k f.p f.npc Y ldy (inverseOperator f).1 (inverseOperator f).2 Z ldz
  (undo f k dev Z ldz, if f.method = .svd then f.means else shiftUsed f.row k f.p ldz f.means Z)

/-! The flags of the handle. -/

/-- Members of the handle that outlive a call; `hasData` says that A is no null pointer, `hasTemp` that A_temp is none, `uSize` is the length
of u, `uMember` the member u_size. -/
structure Flags where
  n : Nat
  p : Nat
  hasData : Bool
  hasTemp : Bool
  initdone : Bool
  trained : Bool
  dof : Int
  qr : Bool
  storeU : Bool
  ns : Nat
  uSize : Nat
  uMember : Nat
deriving DecidableEq

/-- The solvers, auto having been replaced. -/
inductive Solver | gesvdx | gesvd | gesdd | syevd | random
deriving DecidableEq

/-- The options that compute reads; `svdOk` says whether the solver of this call succeeds. -/
structure Opts where
  biased : Bool
  storeU : Bool
  solver : Solver
  npc : Nat
  svdOk : Bool
deriving DecidableEq

inductive Outcome | success | failed | outside
deriving DecidableEq

/-- A handle as constructed, pca.hpp:41-94. -/
def fresh : Flags := ⟨0, 0, false, false, false, false, 0, false, false, 0, 0, 0⟩

/-- init, pca.cpp:250-317; `ok` says whether check_2D_array accepts the arguments. -/
def setData (ok row : Bool) (n p : Nat) (f : Flags) : Flags :=
  let f := if f.hasTemp then { f with hasTemp := false, hasData := false } else f
  if ok then { f with n := n, p := p, hasData := true, hasTemp := row, initdone := true, trained := false, qr := false,
                      storeU := false, uSize := 0 }
  else f

/-- Whether this call does a QR decomposition, pca.cpp:534; (T)n / (T)p > 1.2. -/
def needsQr (o : Opts) (f : Flags) : Bool :=
  decide (o.solver ≠ .syevd) && decide (o.solver ≠ .random) && decide (6 * f.p < 5 * f.n)

/-- u_size, pca.cpp:386-413; for syevd it keeps its value. -/
def uSizeOf (o : Opts) (f : Flags) : Nat :=
  match o.solver with
  | .gesvdx => if o.storeU then f.n * o.npc else 0
  | .gesvd => if o.storeU then f.n * min f.n f.p else 0
  | .gesdd => f.n * min f.n f.p
  | .syevd => f.uMember
  | .random => if o.storeU then f.n * o.npc else 0

/-- The members set from the options before the first check, pca.cpp:328-342. -/
def withOptions (o : Opts) (f : Flags) : Flags := { f with ns := o.npc, storeU := o.storeU }

/-- The divisor and the workspace, pca.cpp:364-420. -/
def withWork (o : Opts) (f : Flags) : Flags :=
  { withOptions o f with dof := if o.biased then -1 else f.dof, uSize := uSizeOf o f, uMember := uSizeOf o f }

/-- The flag of the QR decomposition, pca.cpp:534-536. -/
def withQr (o : Opts) (f : Flags) : Flags := { withWork o f with qr := needsQr o f || f.qr }

/-- compute, pca.cpp:321-797, as far as the flags go: reading from a null pointer is `outside`, and so is da_qr_apply without a decomposition in
the same call (n_blocks is 0, and da_qr.hpp:399-404 stores into an empty vector). -/
def compute (o : Opts) (f : Flags) : Flags × Outcome :=
  if f.initdone = false then (f, .failed)
  else if o.solver = .syevd ∧ o.storeU = true then (withOptions o f, .failed)
  else if f.hasData = false then (withWork o f, .outside)
  else if o.svdOk = false then (withQr o f, .failed)
  else if (withQr o f).qr = true ∧ o.storeU = true ∧ needsQr o f = false then (withQr o f, .outside)
  else ({ withQr o f with trained := true }, .success)

/-- The query for the scores, pca.cpp:78, 104-118, with an array that is long enough; reading past the end of u is `outside`. -/
def queryScores (f : Flags) : Outcome :=
  if f.trained = false then .failed
  else if f.storeU = false then .failed
  else if f.n * f.ns ≤ f.uSize then .success else .outside

/-- div, pca.cpp:364-371. -/
def divisor (biased : Bool) (n : Nat) : Nat := if biased then n else if n = 1 then 1 else n - 1

/-- The divisor of the variances for a value of dof, contract of da_basic_statistics::variance. -/
def varianceDivisor (dof : Int) (n : Nat) : Int := if dof < 0 then n else if dof = 0 then n - 1 else dof

end Verif.Pca
