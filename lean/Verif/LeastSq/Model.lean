import Verif.Logistic.Model

/-
Linear regression around the solvers (source/core/linear_model/linear_model.cpp): the scaling of
the data, of the penalty and of the coefficients, and the direct solvers.

Numbers are the elements of an ordered field and the square root is a parameter; rounding is not
modelled.  A division by zero, which gives an infinity or a NaN in the code, makes the result
`none`.  Arrays are functions of the flat index as in `Verif.Logistic.Model`.
-/
namespace Verif.LeastSq

open Verif.Logistic (loop upd fill entry)

/-- `scaling_t` without `automatic`, which `get_required_scaling` resolves. -/
inductive Scaling | none | centering | scaleOnly | standardize
  deriving DecidableEq

/-- `linmod_method` without `undefined`. -/
inductive Method | lbfgsb | qr | coord | svd | cholesky | cg
  deriving DecidableEq

variable {K : Type} [Field K] [LinearOrder K]

/-- A division, `none` for a division by zero. -/
def dv (a b : K) : Option K := if b = 0 then none else some (a / b)

/-- `loop` with a body that can fail. -/
def loopO {S : Type} : Nat → S → (Nat → S → Option S) → Option S
  | 0, s, _ => some s
  | n + 1, s, f => (loopO n s f).bind (f n)

/-! ### The scaling of the data -/

/-- `is_zero` (basic_statistics/statistical_utilities.cpp:40-49). -/
def isZero (p : Nat) (a : Nat → K) : Bool := (List.range p).all fun j => decide (a j = 0)

/-- `mean` of a column (the contract proved as C105). -/
def mean (n : Nat) (f : Nat → K) : K := (loop n 0 fun i s => s + f i) / (n : K)

/-- `variance` of a column with `dof = n` (the contract proved as C106). -/
def variance (n : Nat) (f : Nat → K) : K :=
  (loop n 0 fun i s => s + (f i - mean n f) * (f i - mean n f)) / (n : K)

/-- `da_basic_statistics::standardize` by columns with `mode = 0` and `dof = n`
(statistical_utilities.cpp:54-277; the branches and the arithmetic are those of C111).  The matrix
is given by its entries.  The branch for a given shift and a scale of zeros, which
`preprocess_data` never takes, is left out. -/
def standardize (sqrt : K → K) (n p : Nat) (X : Nat → Nat → K) (shift scale : Option (Nat → K)) :
    (Nat → Nat → K) × (Nat → K) × (Nat → K) :=
  let mu := fun j => mean n fun i => X i j
  let sd := fun j => sqrt (variance n fun i => X i j)
  let r : (Nat → K) × (Nat → K) :=
    match shift, scale with
    | .none, .none => (mu, sd)
    | .none, .some sc => (fun _ => 0, if isZero p sc then sd else sc)
    | .some sh, .none => (if isZero p sh then mu else sh, fun _ => 1)
    | .some sh, .some sc =>
      if isZero p sh then (mu, if isZero p sc then sd else sc) else (sh, sc)
  (fun i j => (X i j - r.1 j) / (if r.2 j = 0 then 1 else r.2 j), r.1, r.2)

/-- What `preprocess_data` leaves in the handle: the copies of `X` and `y`, `std_shifts`,
`std_scales` and `std_xv`. -/
structure Prep (K : Type) where
  X : Nat → Nat → K
  y : Nat → K
  shifts : Nat → K
  scales : Nat → K
  xv : Nat → K

/-- `<X[j], X[j]>`. -/
def colDot (n : Nat) (X : Nat → Nat → K) (j : Nat) : K := loop n 0 fun i s => s + X i j * X i j

/-- The work on feature `j` without an intercept (linear_model.cpp:2190-2222): the standard
deviation, and `std_xv[j]` if it is used. -/
def sdStep (sqrt : K → K) (coord : Bool) (n : Nat) (X : Nat → Nat → K) (j : Nat)
    (s : (Nat → K) × (Nat → K)) : Option ((Nat → K) × (Nat → K)) :=
  let sq := colDot n X j / (n : K)
  let xc := (loop n 0 fun i t => t + X i j) / (n : K)
  let xc := xc * xc
  let sc := upd s.1 j (sqrt (sq - xc))
  if coord then (dv sq (sq - xc)).map fun v => (sc, upd s.2 j v) else some (sc, s.2)

/-- `preprocess_data` (linear_model.cpp:2069-2335).  `X` and `y` are the data of the user, read
through the increments that `prep_matrix_x` sets (see `prepX`); `coord` is `use_xv`.  `standardize`
for a transposed copy is left out: `validate_options` (1756-1768) admits no call that reaches it. -/
def preprocess (sqrt : K → K) (scaling : Scaling) (icpt coord : Bool) (n p : Nat)
    (X : Nat → Nat → K) (y : Nat → K) : Option (Prep K) :=
  let z : Nat → K := fun _ => 0
  let rootN := sqrt (n : K)
  let Y : Nat → Nat → K := fun i _ => y i
  match scaling, icpt with
  | .none, _ => some ⟨X, y, z, z, if coord then colDot n X else z⟩
  | .centering, false => some ⟨X, y, z, fun _ => 1, if coord then colDot n X else z⟩
  | .centering, true =>
    let rX := standardize sqrt n p X (some z) none
    let rY := standardize sqrt n 1 Y (some z) none
    some ⟨rX.1, fun i => rY.1 i 0, upd rX.2.1 p (rY.2.1 0), fun _ => 1,
      if coord then colDot n rX.1 else z⟩
  | .standardize, true =>
    let rX := standardize sqrt n p X (some z) (some z)
    let rY := standardize sqrt n 1 Y (some z) (some z)
    some ⟨rX.1, fun i => rY.1 i 0, upd rX.2.1 p (rY.2.1 0), upd rX.2.2 p (rY.2.2 0),
      if coord then fun _ => 1 else z⟩
  | .standardize, false => do
    let s ← loopO p (z, z) (sdStep sqrt coord n X)
    let rX := standardize sqrt n p X none (some s.1)
    let sY := sqrt ((loop n 0 fun i t => t + y i * y i) / (n : K))
    let rY := standardize sqrt n 1 Y none (some fun _ => sY)
    some ⟨rX.1, fun i => rY.1 i 0, z, upd rX.2.2 p (rY.2.2 0), s.2⟩
  | .scaleOnly, true => do
    let sh := if coord then fun j => mean n fun i => X i j else z
    let xv := if coord then fun j => variance n fun i => X i j else z
    let rX := standardize sqrt n p X (some sh) (some fun _ => rootN)
    let sY := sqrt (variance n y)
    let mY := mean n y
    let y ← loopO n y fun j y => (dv (y j - mY) (sY * rootN)).map (upd y j)
    some ⟨rX.1, y, upd rX.2.1 p mY, upd (fun _ => 1) p sY, xv⟩
  | .scaleOnly, false => do
    let xv := if coord then fun j => colDot n X j / (n : K) else z
    let yn := sqrt (loop n 0 fun i t => t + y i * y i)
    let y ← loopO n y fun j y => (dv (y j) yn).map (upd y j)
    some ⟨fun i j => X i j / rootN, y, z, upd (fun _ => 1) p (yn / rootN), xv⟩

/-! ### The copy of the matrix -/

/-- The copy `X` that `prep_matrix_x` makes: its leading dimension, the increments between columns
and between rows and its storage order. -/
structure Copy (K : Type) where
  X : Nat → K
  ld : Nat
  cinc : Nat
  rinc : Nat
  row : Bool
  transposed : Bool

/-- `omatcopy` (BLAS): `rows × cols` by columns, transposed if `t`. -/
def omatcopy (t : Bool) (rows cols : Nat) (A : Nat → K) (lda : Nat) (B : Nat → K) (ldb : Nat) :
    Nat → K :=
  loop cols B fun j B => loop rows B fun i B =>
    upd B (if t then i * ldb + j else j * ldb + i) (A (j * lda + i))

/-- `requires_column_major` (linear_model.cpp:1855-1860). -/
def requiresCol (m : Method) (well : Bool) : Bool :=
  decide (m = .svd) || (decide (m = .qr) && well)

/-- `requires_transpose` (linear_model.cpp:1862-1867). -/
def requiresT (m : Method) (well row : Bool) : Bool := decide (m = .qr) && !well && !row

/-- `prep_matrix_x` (linear_model.cpp:1930-2018), the matrix.  `X0` is what the new array holds. -/
def prepX (m : Method) (well row : Bool) (n p : Nat) (XU : Nat → K) (ldU : Nat) (X0 : Nat → K) :
    Copy K :=
  let t := requiresT m well row
  let conv := requiresCol m well && row
  let trans := t || conv
  let ld := if row then (if conv then n else p) else (if t then p else n)
  let cinc := if row && !conv then 1 else ld
  let rinc := if row && !conv then ld else 1
  let memcopy := ((!row && decide (ldU = n)) || (row && decide (ldU = p))) && !conv && !t
  let X :=
    if memcopy then loop (n * p) X0 fun c X => upd X c (XU c)
    else if row then omatcopy trans p n XU ldU X0 ld
    else omatcopy trans n p XU ldU X0 ld
  ⟨X, ld, cinc, rinc, row && !conv, t⟩

/-! ### The scaling of the coefficients and of the penalty -/

/-- `revert_scaling` (linear_model.cpp:2351-2364). -/
def revert (scaling : Scaling) (icpt : Bool) (p : Nat) (shifts scales coef : Nat → K) :
    Option (Nat → K) :=
  if scaling = .none then some coef else do
    let s ← loopO p (coef, (0 : K)) fun k s => do
      let q ← dv (scales p) (scales k)
      let c := upd s.1 k (q * s.1 k)
      pure (c, s.2 + shifts k * c k)
    pure (if icpt then upd s.1 p (shifts p + scales p * s.1 p - s.2) else s.1)

/-- `scale_warmstart` (linear_model.cpp:2424-2434). -/
def warmstart (icpt : Bool) (p : Nat) (shifts scales coef : Nat → K) : Option (Nat → K) := do
  let s ← loopO p (coef, (0 : K)) fun k s => do
    let cum := s.2 + shifts k * s.1 k
    let v ← dv (scales k * s.1 k) (scales p)
    pure (upd s.1 k v, cum)
  if icpt then (dv (s.1 p - shifts p + s.2) (scales p)).map (upd s.1 p) else some s.1

/-- The penalty that a solver gets (linear_model.cpp:976-1004); `sY` is `std_scales[nfeat]`. -/
def scaleLambda (m : Method) (scaling : Scaling) (alpha lambda sY : K) (n : Nat) : Option K := do
  let lambda ←
    if alpha = 0 ∧ lambda ≠ 0 then do
      let l ←
        if scaling = .standardize then do
          let l ← dv lambda sY
          pure (if m ≠ .coord ∧ m ≠ .lbfgsb then l * (n : K) else l)
        else if scaling = .scaleOnly then dv lambda (n : K)
        else some lambda
      let l ← if m = .lbfgsb ∧ scaling ≠ .standardize then dv l (n : K) else some l
      if m = .coord ∧ scaling ≠ .standardize ∧ scaling ≠ .scaleOnly then dv l (n : K) else some l
    else some lambda
  if alpha ≠ 0 ∧ lambda ≠ 0 ∧ (scaling = .standardize ∨ scaling = .scaleOnly) then dv lambda sY
  else some lambda

/-! ### The direct solvers -/

/-- `da_syrk` with transposition, the upper triangle by columns or the lower triangle by rows,
which are the same cells: `A = X'X`. -/
def syrkT (row : Bool) (n k : Nat) (X : Nat → K) (ldX : Nat) (A : Nat → K) (ldA : Nat) : Nat → K :=
  loop n A fun j A => loop (j + 1) A fun i A =>
    upd A (j * ldA + i) (loop k 0 fun l s => s + entry row X ldX l i * entry row X ldX l j)

/-- `da_syrk` without transposition: `A = XX'`. -/
def syrkN (row : Bool) (n k : Nat) (X : Nat → K) (ldX : Nat) (A : Nat → K) (ldA : Nat) : Nat → K :=
  loop n A fun j A => loop (j + 1) A fun i A =>
    upd A (j * ldA + i) (loop k 0 fun l s => s + entry row X ldX i l * entry row X ldX j l)

/-- `gemv` with transposition, `alpha = 1`, `beta = 0`, into `v + vo`. -/
def gemvT (row : Bool) (m n : Nat) (X : Nat → K) (ldX : Nat) (u v : Nat → K) (vo : Nat) :
    Nat → K :=
  loop n v fun j v => upd v (vo + j) (loop m 0 fun i s => s + entry row X ldX i j * u i)

/-- `setup_xtx_xty` (linear_model.cpp:2371-2421), with the contents that `A` and `b` had before. -/
def setupXtx (well row icpt : Bool) (n p : Nat) (X : Nat → K) (ldX : Nat) (y : Nat → K)
    (lambda : K) (A b : Nat → K) : (Nat → K) × (Nat → K) :=
  let ncoef := if icpt then p + 1 else p
  let r :=
    if well then
      let A := syrkT row p n X ldX A ncoef
      let A :=
        if icpt then
          upd (gemvT row n p X ldX (fun _ => 1) A (ncoef * p)) (ncoef * ncoef - 1) (n : K)
        else A
      let b := gemvT row n p X ldX y b 0
      let b := if icpt then upd b p (loop n 0 fun i s => s + y i) else b
      (A, b)
    else
      (syrkN row n p X ldX A n, loop n b fun i b => upd b i (y i))
  let m := if well then p else n
  let ld := if well then ncoef else n
  (if 0 < lambda then loop m r.1 fun i A => upd A (i * ld + i) (A (i * ld + i) + lambda) else r.1,
    r.2)

/-- The coefficients from the solution `x` of the system (linear_model.cpp:1578-1590, 1687-1698);
`coef` is filled with zeros before. -/
def directCoef (well row icpt : Bool) (n p : Nat) (X : Nat → K) (ldX : Nat) (x coef : Nat → K) :
    Nat → K :=
  if well then loop (if icpt then p + 1 else p) coef fun i c => upd c i (x i)
  else gemvT row n p X ldX x coef 0

/-- The new diagonal in `fit_linreg_svd` (linear_model.cpp:1623-1638); `eps` is
`std::numeric_limits<T>::epsilon()`. -/
def svdDiag (eps lambda : K) (m : Nat) (S : Nat → K) : Nat → K :=
  if lambda ≠ 0 then loop m S fun i S => upd S i (S i / (S i * S i + lambda))
  else loop m S fun i S' =>
    upd S' i (if 100 * eps * max (S' 0) 1 < S' i then 1 / S' i else 0)

/-- `fit_linreg_svd` after `gesdd` (linear_model.cpp:1623-1652). -/
def svdCoef (eps lambda : K) (n p : Nat) (U S Vt y coef : Nat → K) : Nat → K :=
  let m := min n p
  let S := svdDiag eps lambda m S
  let temp := gemvT false n m U n y (fun _ => 0) 0
  let temp := loop m temp fun i t => upd t i (S i * t i)
  gemvT false m p Vt m temp coef 0

end Verif.LeastSq
