import Verif.Cov.Syrk

/-
Covariance and correlation matrices:
/repo/source/core/basic_statistics/correlation_and_covariance.cpp:40-153.

Arithmetic is exact, in an ordered field; the square root is a parameter.  `new T[n * p]` and
the vector of means do not fail; the temporary blocks of `da_syrk` may.
-/
namespace Verif.Cov

open Moments (M Fault rd wr forUp Order Axis Env divM standardize)

variable {K : Type} [Field K] [LinearOrder K] [IsStrictOrderedRing K]

inductive Status
  | success
  | invalidLd
  | invalidDim
  | invalidPtr
  | invalidInput
  | internal
  deriving DecidableEq, Repr

/-- What the run-time system decides in one call, and what fresh memory holds. -/
structure CovEnv (K : Type) where
  /-- the sums of `standardize` -/
  sums : Nat → Env
  /-- fresh memory of `standardize` -/
  junk : List K
  /-- the `n * p` cells of `x_copy` -/
  fresh : List K
  syrk : SyrkEnv
  /-- the order of the iterations of the loop that copies the triangle -/
  mirror : List Nat

/-- The copy of the data, correlation_and_covariance.cpp:71-85: `outer` lines of `inner`
entries, in either order. -/
def copyData (outer inner ldx : Nat) (x : List K) (y : List K) : M (List K) :=
  forUp outer (fun j y =>
    forUp inner (fun i y => do
      let a ← rd x (j * ldx + i)
      wr y (j * inner + i) a) y) y

/-- The copy of one triangle into the other, correlation_and_covariance.cpp:121-128. -/
def mirrorCopy (p ldmat : Nat) (rows : List Nat) (mat : List K) : M (List K) :=
  rows.foldlM (fun mat i =>
    (List.range' (i + 1) (p - (i + 1))).foldlM (fun mat j => do
      let a ← rd mat (i + j * ldmat)
      wr mat (j + i * ldmat) a) mat) mat

/-- `scale_factor`, correlation_and_covariance.cpp:89-94 and 113-115. -/
def covFactor (corr : Bool) (dof : Int) (n : Nat) : Int :=
  let f := if dof < 0 then (n : Int) else if dof = 0 then (n : Int) - 1 else dof
  if f < 1 ∨ corr then 1 else f

/-- The standardization of the copy, correlation_and_covariance.cpp:96-107. -/
def prepareData (sqrt : K → K) (thr : Nat) (e : CovEnv K) (order : Order) (n p ldc : Nat) (dof : Int)
    (corr : Bool) (centered : Int) (y : List K) :
    M (Moments.Status × Option (List K)) :=
  if corr then do
    let r ← standardize sqrt thr e.sums e.junk order .col n p (some y) ldc 1 0 none none
    .ok (r.1, r.2.1)
  else if centered = 0 then do
    let r ← standardize sqrt thr e.sums e.junk order .col n p (some y) ldc dof 0
      (some (List.replicate p 0)) none
    .ok (r.1, r.2.1)
  else .ok (.success, some y)

/-- `cov_corr_matrix` after the checks, correlation_and_covariance.cpp:62-140.  The status of
`da_syrk` is not looked at. -/
def covBody (sqrt : K → K) (thr : Nat) (e : CovEnv K) (order : Order) (n p : Nat) (x : List K)
    (ldx : Nat) (dof : Int) (mat : List K) (ldmat : Nat) (corr : Bool) (centered : Int) :
    M (Status × List K) := do
  let ldc := if order = .col then n else p
  let y ← copyData (if order = .col then p else n) ldc ldx x e.fresh
  match ← prepareData sqrt thr e order n p ldc dof corr centered y with
  | (.success, some y) =>
    let alpha ← divM 1 ((covFactor corr dof n : Int) : K)
    let r ← daSyrk e.syrk order (if order = .col then .upper else .lower) .yes p n alpha y ldc 0
      mat ldmat
    let mat ← mirrorCopy p ldmat e.mirror r.2
    let mat ← if corr then forUp p (fun i mat => wr mat (i * ldmat + i) 1) mat else .ok mat
    .ok (.success, mat)
  | _ => .ok (.internal, mat)

/-- `cov_corr_matrix`, correlation_and_covariance.cpp:42-141. -/
def covCorr (sqrt : K → K) (thr : Nat) (e : CovEnv K) (order : Order) (n p : Int)
    (x : Option (List K)) (ldx : Int) (dof : Int) (mat : Option (List K)) (ldmat : Int) (corr : Bool)
    (centered : Int) : M (Status × Option (List K)) :=
  if order = .col ∧ ldx < n then .ok (.invalidLd, mat)
  else if order = .row ∧ ldx < p then .ok (.invalidLd, mat)
  else if ldmat < p then .ok (.invalidLd, mat)
  else if n ≤ 1 ∨ p < 1 then .ok (.invalidDim, mat)
  else match x, mat with
    | some x, some m =>
      if centered ≠ 0 ∧ centered ≠ 1 then .ok (.invalidInput, mat)
      else do
        let r ← covBody sqrt thr e order n.toNat p.toNat x ldx.toNat dof m ldmat.toNat corr centered
        .ok (r.1, some r.2)
    | _, _ => .ok (.invalidPtr, mat)

/-- `covariance_matrix`, correlation_and_covariance.cpp:143-147. -/
def covariance (sqrt : K → K) (thr : Nat) (e : CovEnv K) (order : Order) (n p : Int)
    (x : Option (List K)) (ldx : Int) (dof : Int) (mat : Option (List K)) (ldmat : Int)
    (centered : Int) : M (Status × Option (List K)) :=
  covCorr sqrt thr e order n p x ldx dof mat ldmat false centered

/-- `correlation_matrix`, correlation_and_covariance.cpp:149-153. -/
def correlation (sqrt : K → K) (thr : Nat) (e : CovEnv K) (order : Order) (n p : Int)
    (x : Option (List K)) (ldx : Int) (mat : Option (List K)) (ldmat : Int) :
    M (Status × Option (List K)) :=
  covCorr sqrt thr e order n p x ldx 0 mat ldmat true 0

end Verif.Cov
