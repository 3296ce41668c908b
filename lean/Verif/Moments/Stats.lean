import Mathlib.Algebra.Order.Ring.WithTop
import Verif.Moments.Model

/-
The statistics of /repo/source/core/basic_statistics/moment_statistics.cpp:48-84, 435-821,
`row_to_col_major` (row_to_col_major.cpp:41-66) and `standardize`
(statistical_utilities.cpp:41-276).

Numbers are elements of an ordered field, so nothing is rounded; `sqrt`, `log` and `exp`
are functions given by the caller, and `pow(v, 1.5)` is `v * sqrt v`.  Dividing by zero,
which gives an infinity or a NaN in floating point, is a fault; so is the square root of a
negative number.  A pointer is an optional list, `none` being null, and different pointers
are different arrays.  The instantiations for `_Float16` are not modelled.
-/
namespace Verif.Moments

inductive Status
  | success
  | invalidDim
  | invalidPtr
  | invalidLd
  | negativeData
  | invalidInput
  deriving DecidableEq, Repr

variable {K : Type} [Field K] [LinearOrder K]

/-- `power`, moment_statistics.cpp:48-62. -/
def powerGo : (fuel : Nat) → K → Nat → K → K
  | 0, result, _, _ => result
  | fuel + 1, result, exponent, base =>
    if exponent > 0 then
      let result := if exponent % 2 = 1 then result * base else result
      powerGo fuel result (exponent / 2) (base * base)
    else result

def power (a : K) (exponent : Nat) : K := powerGo (exponent + 1) 1 exponent a

/-- The summands, moment_statistics.cpp:64-84. -/
def arithmeticSum : Kern K K := .one fun x => x

/-- `log_sum`; minus infinity is `⊥`. -/
def logSum (log : K → K) : Kern K (WithBot K) :=
  .one fun x => if x = 0 then ⊥ else (log x : WithBot K)

def inverseSum : Kern K K := .one fun x => if x = 0 then 0 else 1 / x

def sumOfSquares : Kern K K := .two fun x mean => (x - mean) * (x - mean)

def sumOfPowers (k : Nat) : Kern K K := .two fun x mean => power (x - mean) k

def divM (a b : K) : M K := if b = 0 then .error .divZero else .ok (a / b)

def sqrtM (sqrt : K → K) (a : K) : M K := if a < 0 then .error .nan else .ok (sqrt a)

/-- `for (i = 0; i < n; ++i) s[i] = f(i, s[i])`. -/
def mapN {α : Type} (n : Nat) (f : Nat → α → M α) (s : List α) : M (List α) :=
  forUp n (fun i s => do
    let a ← rd s i
    let b ← f i a
    wr s i b) s

/-- `check_data`, moment_statistics.cpp:435-454. -/
def checkData (order : Order) (m n : Int) (x : Option (List K)) (ldx : Int)
    (dest : Option (List K)) : Status :=
  if m < 1 ∨ n < 1 then .invalidDim
  else if x = none ∨ dest = none then .invalidPtr
  else if order = .col then
    if ldx < m then .invalidLd else .success
  else
    if ldx < n then .invalidLd else .success

/-- `axis_size` and `divisor` of the functions below, with the branch for the whole matrix,
e.g. moment_statistics.cpp:489-506. -/
def axisSize (axis : Axis) (m n : Nat) : Nat :=
  match axis with
  | .all => 1
  | .col => n
  | .row => m

def divisor (axis : Axis) (m n : Nat) : Nat :=
  match axis with
  | .all => m * n
  | .col => m
  | .row => n

/-- `mean`, moment_statistics.cpp:456-509. -/
def mean (thr : Nat) (e : Env) (order : Order) (axis : Axis) (m n : Int) (x : Option (List K))
    (ldx : Int) (amean : Option (List K)) : M (Status × Option (List K)) :=
  match checkData order m n x ldx amean with
  | .success =>
    match x, amean with
    | some x, some out => do
      let out ← daSum thr e order axis m.toNat n.toNat arithmeticSum x ldx.toNat out none
      let out ← mapN (axisSize axis m.toNat n.toNat)
        (fun _ a => divM a ((divisor axis m.toNat n.toNat : Nat) : K)) out
      .ok (.success, some out)
    | _, _ => .error .freed
  | s => .ok (s, amean)

/-- `is_positive`, moment_statistics.cpp:511-523: whether a negative entry was found. -/
def findNegative (order : Order) (m n : Nat) (x : List K) (ldx : Nat) : M Bool :=
  let outer := if order = .col then n else m
  let inner := if order = .col then m else n
  forUp outer (fun i found =>
    forUp inner (fun j found =>
      if found then .ok true
      else do
        let a ← rd x (j + ldx * i)
        .ok (decide (a < 0))) found) false

/-- `geometric_mean`, moment_statistics.cpp:525-559.  The sums of logarithms, which the
code keeps in `gmean`, are in an array of the same length of their own, because they may be
minus infinity; `exp` of minus infinity is 0. -/
def geometricMean (log exp : K → K) (thr : Nat) (e : Env) (order : Order) (axis : Axis)
    (m n : Int) (x : Option (List K)) (ldx : Int) (gmean : Option (List K)) :
    M (Status × Option (List K)) :=
  match checkData order m n x ldx gmean with
  | .success =>
    match x, gmean with
    | some x, some out => do
      let bad ← findNegative order m.toNat n.toNat x ldx.toNat
      if bad then .ok (.negativeData, gmean)
      else do
        let sums ← daSum thr e order axis m.toNat n.toNat (logSum log) x ldx.toNat
          (List.replicate out.length (⊥ : WithBot K)) none
        let out ← mapN (axisSize axis m.toNat n.toNat) (fun i _ => do
          let s ← rd sums i
          match s with
          | ⊥ => .ok 0
          | some s => do
            let q ← divM s ((divisor axis m.toNat n.toNat : Nat) : K)
            .ok (exp q)) out
        .ok (.success, some out)
    | _, _ => .error .freed
  | s => .ok (s, gmean)

/-- `harmonic_mean`, moment_statistics.cpp:561-595. -/
def harmonicMean (thr : Nat) (e : Env) (order : Order) (axis : Axis) (m n : Int)
    (x : Option (List K)) (ldx : Int) (hmean : Option (List K)) :
    M (Status × Option (List K)) :=
  match checkData order m n x ldx hmean with
  | .success =>
    match x, hmean with
    | some x, some out => do
      let out ← daSum thr e order axis m.toNat n.toNat inverseSum x ldx.toNat out none
      let out ← mapN (axisSize axis m.toNat n.toNat)
        (fun _ a => if a = 0 then .ok 0 else divM ((divisor axis m.toNat n.toNat : Nat) : K) a) out
      .ok (.success, some out)
    | _, _ => .error .freed
  | s => .ok (s, hmean)

/-- The scale factor of `variance`, moment_statistics.cpp:635-657. -/
def scaleFactor (dof : Int) (count : Nat) : Int :=
  if dof < 0 then count else if dof = 0 then count - 1 else dof

/-- `variance`, moment_statistics.cpp:597-669.  `env 0` and `env 1` are the environments of
the two sums. -/
def variance (thr : Nat) (env : Nat → Env) (order : Order) (axis : Axis) (m n : Int)
    (x : Option (List K)) (ldx : Int) (dof : Int) (amean var : Option (List K)) :
    M (Status × Option (List K) × Option (List K)) :=
  match checkData order m n x ldx amean with
  | .success =>
    match var with
    | none => .ok (.invalidPtr, amean, var)
    | some v => do
      match ← mean thr (env 0) order axis m n x ldx amean with
      | (.success, amean) =>
        match x, amean with
        | some x, some am =>
          let v ← daSum thr (env 1) order axis m.toNat n.toNat sumOfSquares x ldx.toNat v
            (some am)
          let sf := scaleFactor dof (divisor axis m.toNat n.toNat)
          let v ← if sf > 1 then
              mapN (axisSize axis m.toNat n.toNat) (fun _ a => divM a (sf : K)) v
            else .ok v
          .ok (.success, amean, some v)
        | _, _ => .error .freed
      | (s, amean) => .ok (s, amean, var)
  | s => .ok (s, amean, var)

/-- The common part of `skewness` (moment_statistics.cpp:671-713) and `kurtosis`
(moment_statistics.cpp:715-758): mean, sum of squares, sum of powers; `post` gives the
third result from the sum of squares and the sum of powers of a line. -/
def shape (thr : Nat) (env : Nat → Env) (order : Order) (axis : Axis) (m n : Int)
    (x : Option (List K)) (ldx : Int) (k : Nat) (post : Nat → K → K → M K)
    (amean var res : Option (List K)) :
    M (Status × Option (List K) × Option (List K) × Option (List K)) :=
  match checkData order m n x ldx amean with
  | .success =>
    match var, res with
    | some v, some r => do
      match ← mean thr (env 0) order axis m n x ldx amean with
      | (.success, amean) =>
        match x, amean with
        | some x, some am =>
          let v ← daSum thr (env 1) order axis m.toNat n.toNat sumOfSquares x ldx.toNat v
            (some am)
          let r ← daSum thr (env 2) order axis m.toNat n.toNat (sumOfPowers k) x ldx.toNat r
            (some am)
          let d := divisor axis m.toNat n.toNat
          let r ← mapN (axisSize axis m.toNat n.toNat) (fun i a => do
            let s ← rd v i
            post d s a) r
          let v ← mapN (axisSize axis m.toNat n.toNat) (fun _ a => divM a (d : K)) v
          .ok (.success, amean, some v, some r)
        | _, _ => .error .freed
      | (s, amean) => .ok (s, amean, var, res)
    | _, _ => .ok (.invalidPtr, amean, var, res)
  | s => .ok (s, amean, var, res)

/-- moment_statistics.cpp:696-710. -/
def skewPost (sqrt : K → K) (d : Nat) (s a : K) : M K :=
  if s = 0 then .ok 0
  else do
    let r ← sqrtM sqrt (d : K)
    let t ← sqrtM sqrt s
    divM (a * r) (s * t)

/-- moment_statistics.cpp:740-755. -/
def kurtPost (d : Nat) (s a : K) : M K :=
  if s = 0 then .ok (-3)
  else do
    let q ← divM (a * (d : K)) (s * s)
    .ok (q - 3)

def skewness (sqrt : K → K) (thr : Nat) (env : Nat → Env) (order : Order) (axis : Axis)
    (m n : Int) (x : Option (List K)) (ldx : Int) (amean var skew : Option (List K)) :
    M (Status × Option (List K) × Option (List K) × Option (List K)) :=
  shape thr env order axis m n x ldx 3 (skewPost sqrt) amean var skew

def kurtosis (thr : Nat) (env : Nat → Env) (order : Order) (axis : Axis)
    (m n : Int) (x : Option (List K)) (ldx : Int) (amean var kurt : Option (List K)) :
    M (Status × Option (List K) × Option (List K) × Option (List K)) :=
  shape thr env order axis m n x ldx 4 kurtPost amean var kurt

/-- `moment`, moment_statistics.cpp:760-821. -/
def moment (thr : Nat) (env : Nat → Env) (order : Order) (axis : Axis) (m n : Int)
    (x : Option (List K)) (ldx : Int) (k : Int) (usePrecomputed : Bool)
    (amean mom : Option (List K)) : M (Status × Option (List K) × Option (List K)) :=
  match checkData order m n x ldx amean with
  | .success =>
    if k < 0 then .ok (.invalidInput, amean, mom)
    else
      match mom with
      | none => .ok (.invalidPtr, amean, mom)
      | some v => do
        match ← (if usePrecomputed then .ok (.success, amean)
          else mean thr (env 0) order axis m n x ldx amean) with
        | (.success, amean) =>
          match x, amean with
          | some x, some am =>
            let S : Kern K K := if k = 2 then sumOfSquares else sumOfPowers k.toNat
            let v ← daSum thr (env 1) order axis m.toNat n.toNat S x ldx.toNat v (some am)
            let v ← mapN (axisSize axis m.toNat n.toNat)
              (fun _ a => divM a ((divisor axis m.toNat n.toNat : Nat) : K)) v
            .ok (.success, amean, some v)
          | _, _ => .error .freed
        | (s, amean) => .ok (s, amean, mom)
  | s => .ok (s, amean, mom)

/-- `row_to_col_major`, row_to_col_major.cpp:41-66: the axis, the number of rows and the
number of columns with which the caller continues in column-major order. -/
def rowToCol (order : Order) (axis : Axis) (n p ldx : Int) : Except Status (Axis × Int × Int) :=
  if n < 1 ∨ p < 1 then .error .invalidDim
  else if order = .col then
    if ldx < n then .error .invalidLd else .ok (axis, n, p)
  else
    if ldx < p then .error .invalidLd
    else .ok (match axis with
      | .row => .col
      | .col => .row
      | .all => .all, p, n)

/-- `is_zero`, statistical_utilities.cpp:41-50. -/
def isZero (arr : List K) (len : Nat) : M Bool :=
  forUp len (fun i z => if z then do
      let a ← rd arr i
      .ok (decide (a = 0))
    else .ok false) true

/-- `fill(arr, arr + length, v)` on an array of that length. -/
def filled (len : Nat) (v : K) : List K := List.replicate len v

/-- `scale[i] = sqrt(scale[i])` for all `i`. -/
def sqrtAll (sqrt : K → K) (len : Nat) (s : List K) : M (List K) :=
  mapN len (fun _ a => sqrtM sqrt a) s

/-- The result of the first part of `standardize`: the caller's two arrays, and the shifts
and scales to be used. -/
structure Prep (K : Type) where
  shift : Option (List K)
  scale : Option (List K)
  useShift : List K
  useScale : List K

/-- `standardize`, statistical_utilities.cpp:93-213: find the shifts and scales.
`junk` is what fresh memory holds.  The statistics that are called cannot fail here, since
their arguments have been checked; a failure would be a fault. -/
def prepare (sqrt : K → K) (thr : Nat) (env : Nat → Env) (axis : Axis) (n p : Int)
    (x : List K) (ldx : Int) (dof : Int) (length : Nat) (junk : List K)
    (shift scale : Option (List K)) : M (Prep K) :=
  let sf := scaleFactor dof length
  match shift, scale with
  | none, none => do
    match ← variance thr env .col axis n p (some x) ldx dof (some junk) (some junk) with
    | (.success, some am, some v) =>
      let v ← sqrtAll sqrt length v
      .ok ⟨none, none, am, v⟩
    | _ => .error .freed
  | none, some sc => do
    let z ← isZero sc length
    if z then
      match ← variance thr env .col axis n p (some x) ldx dof (some junk) (some sc) with
      | (.success, _, some v) =>
        let v ← sqrtAll sqrt length v
        .ok ⟨none, some v, filled length 0, v⟩
      | _ => .error .freed
    else .ok ⟨none, some sc, filled length 0, sc⟩
  | some sh, none => do
    let z ← isZero sh length
    if z then
      match ← mean thr (env 0) .col axis n p (some x) ldx (some sh) with
      | (.success, some am) => .ok ⟨some am, none, am, filled length 1⟩
      | _ => .error .freed
    else .ok ⟨some sh, none, sh, filled length 1⟩
  | some sh, some sc => do
    let z1 ← isZero sh length
    let z2 ← isZero sc length
    if z1 && z2 then
      match ← variance thr env .col axis n p (some x) ldx dof (some sh) (some sc) with
      | (.success, some am, some v) =>
        let v ← sqrtAll sqrt length v
        .ok ⟨some am, some v, am, v⟩
      | _ => .error .freed
    else if z1 then
      match ← mean thr (env 0) .col axis n p (some x) ldx (some sh) with
      | (.success, some am) => .ok ⟨some am, some sc, am, sc⟩
      | _ => .error .freed
    else if z2 then
      match ← moment thr env .col axis n p (some x) ldx 2 true (some sh) (some sc) with
      | (.success, _, some v) =>
        let v ← mapN length (fun _ a => do
          let q ← divM ((length : K) * a) (sf : K)
          sqrtM sqrt q) v
        .ok ⟨some sh, some v, sh, v⟩
      | _ => .error .freed
    else .ok ⟨some sh, some sc, sh, sc⟩

/-- `standardize`, statistical_utilities.cpp:215-266: change the entries. -/
def applyAll (axis : Axis) (n p ldx : Nat) (mode : Int) (sh sc : List K) (x : List K) :
    M (List K) :=
  forUp p (fun i x =>
    forUp n (fun j x => do
      let k := match axis with
        | .col => i
        | .row => j
        | .all => 0
      let s ← rd sc k
      let s := if s ≠ 0 then s else 1
      let h ← rd sh k
      let a ← rd x (i * ldx + j)
      let b ← if mode = 0 then divM (a - h) s else .ok (a * s + h)
      wr x (i * ldx + j) b) x) x

/-- `length` of `standardize`, statistical_utilities.cpp:77-91. -/
def stdLength (axis : Axis) (n p : Nat) : Nat :=
  match axis with
  | .col => p
  | .row => n
  | .all => 1

/-- `standardize`, statistical_utilities.cpp:52-276: the status and the three arrays. -/
def standardize (sqrt : K → K) (thr : Nat) (env : Nat → Env) (junk : List K) (order : Order)
    (axis : Axis) (n p : Int) (x : Option (List K)) (ldx : Int) (dof mode : Int)
    (shift scale : Option (List K)) :
    M (Status × Option (List K) × Option (List K) × Option (List K)) :=
  match rowToCol order axis n p ldx with
  | .error s => .ok (s, x, shift, scale)
  | .ok (axis, n, p) =>
    match x with
    | none => .ok (.invalidPtr, none, shift, scale)
    | some x =>
      if mode ≠ 0 ∧ mode ≠ 1 then .ok (.invalidInput, some x, shift, scale)
      else do
        let length := stdLength axis n.toNat p.toNat
        let q ← prepare sqrt thr env axis n p x ldx dof length
          (junk.take length ++ List.replicate (length - junk.length) 0) shift scale
        let x ← applyAll axis n.toNat p.toNat ldx.toNat mode q.useShift q.useScale x
        .ok (.success, some x, q.shift, q.scale)

end Verif.Moments
