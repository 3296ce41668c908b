import Verif.PairDist.Model

/-
Kernel functions (source/core/kernel_functions): the linear, polynomial, sigmoid and RBF kernels
between the rows of two matrices.

Numbers are the elements of a field; `exp` and `tanh` are parameters, so rounding, NaN and
infinities are not modelled.  An array is a function of its flat index; `_Float16` and the failure
of an allocation are left out.
-/
namespace Verif.KernelFn

open Verif.Logistic (loop upd)
open Verif.PairDist (cell gemm syrk sqNorms gemmDistance Status)

/-- `exp` and `tanh`. -/
structure Ops (K : Type*) where
  exp : K → K
  tanh : K → K

/-- What a run depends on beside the arguments: the number of threads that `get_n_threads_loop`
(da_utils.cpp:135-140) has at its disposal (1 within a parallel region), the length of the vector
registers (`none` for the scalar functions), and the order in which the blocks are done. -/
structure Run where
  threads : Nat
  simd : Option Nat
  sched : List Nat

/-- `KERNEL_FUNCTIONS_MAX_BLOCK_SIZE` (kernel_functions_types.hpp:27). -/
def maxBlock : Nat := 256

/-- `SIMD_PADDING` (kernel_functions_types.hpp:28). -/
def pad : Nat := 16

/-- `n_blocks` of `blocking_scheme` (da_utils.cpp:93-100). -/
def blockCount (n bs : Nat) : Nat := if 0 < n % bs then n / bs + 1 else n / bs

/-- `current_block_size_X`, `current_block_size_Y` (kernel_functions.cpp:416-422, 453-459). -/
def blockLen (n bs i : Nat) : Nat :=
  if i = blockCount n bs - 1 ∧ 0 < n % bs then n % bs else bs

/-- Whether the work is divided into blocks (kernel_functions.cpp:378-381, 398-407). -/
def blocked (threads m n : Nat) : Bool :=
  let bx := min m maxBlock
  let bY := min n maxBlock
  decide (1 < min threads (blockCount m bx * blockCount n bY) ∧ pad ≤ min bx bY ∧ pad ≤ min m n)

section
variable {K : Type*}

/-- A function called with the pointer `D + off`. -/
def onPtr (off : Nat) (f : (Nat → K) → Nat → K) (D : Nat → K) : Nat → K :=
  let E := f fun c => D (off + c)
  fun c => if c < off then D c else E (c - off)

/-- The parallel loops over the blocks (kernel_functions.cpp:408-444 and 445-482, 581-609 and
610-639).  `collapse(2)` numbers the blocks, `L` is the order in which they are done; `body` gets
`m_in`, `n_in`, the offsets into `X` and `Y`, those into the norms, and the array from
`D_block_offset` on. -/
def overBlocks (row : Bool) (m n ldx ldy ldd : Nat) (L : List Nat)
    (body : Nat → Nat → Nat → Nat → Nat → Nat → (Nat → K) → Nat → K) (D : Nat → K) : Nat → K :=
  let bx := min m maxBlock
  let bY := min n maxBlock
  if row then
    L.foldl (fun D t =>
      let i := t / blockCount n bY
      let j := t % blockCount n bY
      onPtr (i * bx * ldd + j * bY)
        (body (blockLen m bx i) (blockLen n bY j) (i * bx * ldx) (j * bY * ldy) (i * bx) (j * bY))
        D) D
  else
    L.foldl (fun D t =>
      let i := t / blockCount m bx
      let j := t % blockCount m bx
      onPtr (i * bY * ldd + j * bx)
        (body (blockLen m bx j) (blockLen n bY i) (j * bx) (i * bY) (j * bx) (i * bY)) D) D

/-- The loops of `exp_kt`, `pow_kt` and `tanh_kt` (kernel_functions_simd.cpp:113-236): full
registers first, then the remaining elements of the column one by one.  `vec` is what happens to a
lane, `rest` what happens to a remaining element. -/
def simdLoops (w first second : Nat) (D : Nat → K) (ldd : Nat) (vec rest : Nat → Nat → K → K) :
    Nat → K :=
  let remainder := first % w
  let size := first - remainder
  loop second D fun i D =>
    let D := loop (size / w) D fun b D => loop w D fun lane D =>
      upd D (b * w + lane + i * ldd) (vec i (b * w + lane) (D (b * w + lane + i * ldd)))
    loop remainder D fun j D =>
      upd D (i * ldd + size + j) (rest i (j + size) (D (i * ldd + size + j)))

/-- The loops of the scalar functions (kernel_functions_simd.cpp:47-111). -/
def scalarLoops (first second : Nat) (D : Nat → K) (ldd : Nat) (f : Nat → Nat → K → K) : Nat → K :=
  loop second D fun i D => loop first D fun j D =>
    upd D (i * ldd + j) (f i j (D (i * ldd + j)))

/-- `fill_upper_triangular` (kernel_functions.cpp:353-364). -/
def fillUpper (row : Bool) (m : Nat) (D : Nat → K) (ldd : Nat) : Nat → K :=
  if !row then
    loop m D fun i D => loop (m - (i + 1)) D fun t D =>
      upd D (i + 1 + t + i * ldd) (D (i + (i + 1 + t) * ldd))
  else
    loop m D fun i D => loop (m - (i + 1)) D fun t D =>
      upd D ((i + 1 + t) * ldd + i) (D (i * ldd + (i + 1 + t)))

end

variable {K : Type*} [Field K] [LinearOrder K]

/-- `exp_kernel_scalar` (kernel_functions_simd.cpp:47-71), `exp_kt` (113-154). -/
def expKernel (o : Ops K) (simd : Option Nat) (first second : Nat) (D : Nat → K) (ldd : Nat)
    (multiplier : K) (FN SN : Nat → K) : Nat → K :=
  match simd with
  | none => scalarLoops first second D ldd fun i j v => o.exp (multiplier * (v + FN j + SN i))
  | some w => simdLoops w first second D ldd (fun i j v => o.exp ((v + FN j + SN i) * multiplier))
      fun i j v => o.exp (multiplier * (v + FN j + SN i))

/-- The integer power by repeated multiplication. -/
def ipow (degree : Nat) (base : K) : K := loop (degree - 1) base fun _ r => r * base

/-- `pow_kernel_scalar` (kernel_functions_simd.cpp:73-91), `pow_kt` (156-192). -/
def powKernel (simd : Option Nat) (first second : Nat) (D : Nat → K) (ldd : Nat) (coef0 : K)
    (degree : Nat) : Nat → K :=
  match simd with
  | none => scalarLoops first second D ldd fun _ _ v => ipow degree (v + coef0)
  | some w => simdLoops w first second D ldd (fun _ _ v => ipow degree (v + coef0))
      fun _ _ v => ipow degree (v + coef0)

/-- `tanh_kernel_scalar` (kernel_functions_simd.cpp:93-111), `tanh_kt` (194-236). -/
def tanhKernel (o : Ops K) (simd : Option Nat) (first second : Nat) (D : Nat → K) (ldd : Nat)
    (coef0 : K) : Nat → K :=
  match simd with
  | none => scalarLoops first second D ldd fun _ _ v => o.tanh (v + coef0)
  | some w => simdLoops w first second D ldd
      (fun _ _ v => 2 / (1 + o.exp ((v + coef0) * -2)) - 1)
      fun _ _ v => o.tanh (v + coef0)

/-- `math_type` with the arguments it needs. -/
inductive Math (K : Type*)
  | none
  | power (coef0 : K) (degree : Nat)
  | tanh (coef0 : K)

/-- `switch (math_func)` (kernel_functions.cpp:431-442 and the others). -/
def applyMath (o : Ops K) (simd : Option Nat) (f : Math K) (first second : Nat) (D : Nat → K)
    (ldd : Nat) : Nat → K :=
  match f with
  | .none => D
  | .power coef0 degree => powKernel simd first second D ldd coef0 degree
  | .tanh coef0 => tanhKernel o simd first second D ldd coef0

/-- `kernel_setup` (kernel_functions.cpp:366-509).  `X_is_Y` is true if and only if `Y` is null, as
all callers have it.  The blocks are computed from `Y` whether it is null or not: `none` stands
for the null pointer being dereferenced. -/
def kernelSetup (o : Ops K) (r : Run) (row : Bool) (m n k : Nat) (X : Nat → K) (ldx : Nat)
    (Y : Option (Nat → K)) (ldy : Nat) (D : Nat → K) (ldd : Nat) (gamma : K) (f : Math K) :
    Option (Nat → K) :=
  if blocked r.threads m n then
    match Y with
    | .none => .none
    | .some Y => .some (overBlocks row m n ldx ldy ldd r.sched (fun mIn nIn xo yo _ _ D =>
        let D := gemm row mIn nIn k gamma (fun c => X (xo + c)) ldx (fun c => Y (yo + c)) ldy D ldd
        if row then applyMath o r.simd f nIn mIn D ldd else applyMath o r.simd f mIn nIn D ldd) D)
  else
    let D := match Y with
      | .none => fillUpper row m (syrk row m k gamma X ldx D ldd) ldd
      | .some Y => gemm row m n k gamma X ldx Y ldy D ldd
    .some (applyMath o r.simd f (if !row then m else n) (if !row then n else m) D ldd)

/-- `rbf_kernel_internal` (kernel_functions.cpp:515-655) with `compute_X_norms` and
`compute_Y_norms` equal to 2, as `rbf_kernel` calls it, and `X_is_Y` true if and only if `Y` is
null.  `XN`, `YN` are the work arrays before.  Where `X` has blocks of different sizes and `Y` is
null, blocks overlap, and one after the other is only one of the possible outcomes. -/
def rbfInternal (o : Ops K) (r : Run) (row : Bool) (m n k : Nat) (X : Nat → K) (XN : Nat → K)
    (ldx : Nat) (Y : Option (Nat → K)) (YN : Nat → K) (ldy : Nat) (D : Nat → K) (ldd : Nat)
    (gamma : K) : Nat → K :=
  let multiplier := -gamma
  let XN := sqNorms row m k X ldx XN
  let YN := match Y with
    | .none => XN
    | .some Y => sqNorms row n k Y ldy YN
  let Y' := Y.getD fun _ => 0
  let D :=
    if blocked r.threads m n then
      overBlocks row m n ldx ldy ldd r.sched (fun mIn nIn xo yo xn yn D =>
        let D := gemmDistance (fun x => x) row mIn nIn k (fun c => X (xo + c)) ldx
          (fun c => Y' (yo + c)) ldy D ldd (fun _ => 0) 0 (fun _ => 0) 0 true Y.isNone
        if row then
          expKernel o r.simd nIn mIn D ldd multiplier (fun c => YN (yn + c)) fun c => XN (xn + c)
        else
          expKernel o r.simd mIn nIn D ldd multiplier (fun c => XN (xn + c)) fun c => YN (yn + c)) D
    else
      let D := gemmDistance (fun x => x) row m n k X ldx Y' ldy D ldd (fun _ => 0) 0 (fun _ => 0) 0
        true Y.isNone
      if row then expKernel o r.simd n m D ldd multiplier YN XN
      else expKernel o r.simd m n D ldd multiplier XN YN
  if Y.isNone then fillUpper row m D ldd else D

/-- The kernels with their parameters. -/
inductive Kind (K : Type*)
  | rbf (gamma : K)
  | linear
  | polynomial (gamma : K) (degree : Int) (coef0 : K)
  | sigmoid (gamma coef0 : K)

/-- `check_input` (kernel_functions.cpp:172-201). -/
def checkInput (row : Bool) (m n k : Int) (X : Option (Nat → K)) (ldx : Int)
    (Y : Option (Nat → K)) (ldy : Int) (D : Option (Nat → K)) (ldd : Int) : Option Status :=
  if m < 1 ∨ k < 1 then some .invalidDimension
  else if !row ∧ ldx < m then some .invalidLeading
  else if row ∧ ldx < k then some .invalidLeading
  else if X.isNone ∨ D.isNone then some .invalidPointer
  else if Y.isSome then
    if n < 1 then some .invalidDimension
    else if !row then (if ldy < n ∨ ldd < m then some .invalidLeading else none)
    else if ldy < k ∨ ldd < n then some .invalidLeading else none
  else if ldd < m then some .invalidLeading else none

/-- The checks of the parameters (kernel_functions.cpp:239-240, 292-293, 324-325). -/
def checkParams : Kind K → Option Status
  | .rbf gamma => if gamma < 0 then some .invalidInput else none
  | .linear => none
  | .polynomial gamma degree _ => if gamma < 0 ∨ degree < 1 then some .invalidInput else none
  | .sigmoid gamma _ => if gamma < 0 then some .invalidInput else none

/-- `rbf_kernel`, `linear_kernel`, `polynomial_kernel`, `sigmoid_kernel` (kernel_functions.cpp:232-343,
660-690), which the functions of the interface call.  The work arrays `x_work`, `y_work` are new
and hold zeros. -/
def kernelCall (o : Ops K) (r : Run) (row : Bool) (m n k : Int) (X : Option (Nat → K)) (ldx : Int)
    (Y : Option (Nat → K)) (ldy : Int) (D : Option (Nat → K)) (ldd : Int) (kind : Kind K) :
    Except Status (Option (Nat → K)) :=
  match checkInput row m n k X ldx Y ldy D ldd with
  | some s => .error s
  | none =>
    match checkParams kind with
    | some s => .error s
    | none =>
      let n := if Y.isNone then m.toNat else n.toNat
      let X := X.getD fun _ => 0
      let D := D.getD fun _ => 0
      let setup := kernelSetup o r row m.toNat n k.toNat X ldx.toNat Y ldy.toNat D ldd.toNat
      .ok (match kind with
      | .rbf gamma => some (rbfInternal o r row m.toNat n k.toNat X (fun _ => 0) ldx.toNat Y
          (fun _ => 0) ldy.toNat D ldd.toNat gamma)
      | .linear => setup 1 .none
      | .polynomial gamma degree coef0 => setup gamma (.power coef0 degree.toNat)
      | .sigmoid gamma coef0 => setup gamma (.tanh coef0))

end Verif.KernelFn
