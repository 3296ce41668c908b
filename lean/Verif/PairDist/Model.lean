import Verif.Logistic.Model

/-
Distances between the rows of two matrices (source/core/metrics): the packed loops that the
Euclidean, Manhattan, Minkowski and cosine distances share, their microkernels, and the
Euclidean distance by a matrix product.

Numbers are the elements of an ordered field; the square root and the power are parameters, so
rounding, NaN and infinities are not modelled.  An array is a function of its flat index and a
pointer is an array with an offset; natural numbers stand for `da_int`.  A vector register is a
function of the lane, and a fused multiply-add is a product and a sum.  Prefetching and the
failure of an allocation are left out.
-/
namespace Verif.PairDist

open Verif.Logistic (loop upd)

section
variable {S : Type*}

/-- `for (i = lo; i < hi; i += B) s = f i s`. -/
def stepFrom (lo hi B : Nat) (s : S) (f : Nat → S → S) : S :=
  loop ((hi - lo + B - 1) / B) s fun t => f (lo + t * B)

/-- The variables of the loops over `k` in a microkernel: `i`, `Atilde`, `Btilde` and what is
accumulated. -/
structure Cur (S : Type*) where
  i : Nat
  a : Nat
  b : Nat
  g : S

/-- `for (; (i + w) <= k; i += w)` of a microkernel (metrics_kernels.hpp:444-465 and the others):
`f` is the body, the pointers move on by `w` rows. -/
def ways (MR NR w k : Nat) (f : Nat → Nat → S → S) (s : Cur S) : Cur S :=
  loop ((k - s.i) / w) s fun _ s => ⟨s.i + w, s.a + w * MR, s.b + w * NR, f s.a s.b s.g⟩

end

/-- `BlockSizes` (partitioning_infrastructure.hpp:45-59), as arguments. -/
structure Sizes where
  MR : Nat
  NR : Nat
  MC : Nat
  NC : Nat
  KC : Nat

/-- The sizes in use: AVX-512 and AVX2, single and double precision. -/
def blockSizes (avx512 float : Bool) : Sizes :=
  if avx512 then
    ⟨if float then 16 else 8, if float then 8 else 8, if float then 256 else 128, 1024,
      if float then 256 else 512⟩
  else
    ⟨if float then 8 else 4, if float then 8 else 4, if float then 512 else 256, 1024,
      if float then 64 else 32⟩

variable {K : Type*} [Field K] [LinearOrder K]

/-! ### Packing -/

/-- `std::memcpy(T + tp, X + xo, len)`. -/
def memcpy (T : Nat → K) (tp : Nat) (X : Nat → K) (xo len : Nat) : Nat → K :=
  loop len T fun r T => upd T (tp + r) (X (xo + r))

/-- `std::memset(T + tp, 0, len)`. -/
def memzero (T : Nat → K) (tp len : Nat) : Nat → K :=
  loop len T fun r T => upd T (tp + r) 0

/-- `PackMicroPanel_BLOCKxKC` (partitioning_infrastructure.hpp:79-97). -/
def packPanel (B m k : Nat) (X : Nat → K) (xo ldx : Nat) (T : Nat → K) (tp : Nat) : Nat → K :=
  if m = B then
    loop k T fun p T => memcpy T (tp + p * B) X (xo + p * ldx) B
  else
    loop k T fun p T =>
      memzero (memcpy T (tp + p * B) X (xo + p * ldx) m) (tp + p * B + m) (B - m)

/-- `PackBlock_BLOCKxKC` (partitioning_infrastructure.hpp:102-109). -/
def packBlock (B m k : Nat) (X : Nat → K) (xo ldx : Nat) (T : Nat → K) : Nat → K :=
  (stepFrom 0 m B (T, 0) fun i s =>
    (packPanel B (min B (m - i)) k X (xo + i) ldx s.1 s.2, s.2 + B * k)).1

/-! ### Microkernels -/

/-- What a metric adds up over the features. -/
inductive Kern
  | sq
  | abs
  | dot
  | pow
deriving DecidableEq

/-- The summand (metrics_kernels.hpp:193-224, 309-337): squared difference, absolute difference,
product, power of the absolute difference.  `pw` is `std::pow(·, p)`. -/
def term (kd : Kern) (pw : K → K) (a b : K) : K :=
  match kd with
  | .sq => (a - b) * (a - b)
  | .abs => |a - b|
  | .dot => a * b
  | .pow => pw |a - b|

/-- `…_process_k_cols` with `w` rows (metrics_kernels.hpp:271-305, 342-353) on the registers
`gammas`, one for every column. -/
def procCols (MR NR w : Nat) (f : K → K → K) (A B : Nat → K) (ao bo : Nat)
    (g : Nat → Nat → K) : Nat → Nat → K :=
  fun c lane =>
    if c < NR then
      loop w (g c lane) fun q s => s + f (A (ao + q * MR + lane)) (B (bo + c + q * NR))
    else g c lane

/-- The accumulation over `k` for the squared Euclidean distance, with two sets of registers
(metrics_kernels.hpp:437-492, 529-576). -/
def accDual (MR NR k : Nat) (f : K → K → K) (A B : Nat → K) (ao bo : Nat) (g : Nat → Nat → K) :
    Nat → Nat → K :=
  let s := ways MR NR 4 k (fun a b (g : (Nat → Nat → K) × (Nat → Nat → K)) =>
    (procCols MR NR 2 f A B a b g.1,
      procCols MR NR 2 f A B (a + 2 * MR) (b + 2 * NR) g.2)) ⟨0, ao, bo, (g, fun _ _ => 0)⟩
  let g := fun c lane => if c < NR then s.g.1 c lane + s.g.2 c lane else s.g.1 c lane
  let s := ways MR NR 2 k (procCols MR NR 2 f A B) ⟨s.i, s.a, s.b, g⟩
  (ways MR NR 1 k (procCols MR NR 1 f A B) s).g

/-- The accumulation over `k` for the Manhattan and the cosine distance
(metrics_kernels.hpp:604-662, 687-745, 855-901, 932-978). -/
def accSingle (MR NR k : Nat) (f : K → K → K) (A B : Nat → K) (ao bo : Nat) (g : Nat → Nat → K) :
    Nat → Nat → K :=
  let s := ways MR NR 4 k (procCols MR NR 4 f A B) ⟨0, ao, bo, g⟩
  let s := ways MR NR 3 k (procCols MR NR 3 f A B) s
  let s := ways MR NR 2 k (procCols MR NR 2 f A B) s
  (ways MR NR 1 k (procCols MR NR 1 f A B) s).g

/-- `minkowski_process_k_cols_direct` with `w` rows (metrics_kernels.hpp:308-337): adds to the
array itself. -/
def minkCols (MR NR w : Nat) (f : K → K → K) (A B : Nat → K) (co ldc : Nat) (ao bo : Nat)
    (C : Nat → K) : Nat → K :=
  loop NR C fun c C => loop MR C fun lane C => loop w C fun q C =>
    upd C (co + c * ldc + lane)
      (C (co + c * ldc + lane) + f (A (ao + q * MR + lane)) (B (bo + c + q * NR)))

/-- The accumulation over `k` for the Minkowski distance (metrics_kernels.hpp:767-826,
1016-1066). -/
def accMink (MR NR k : Nat) (f : K → K → K) (A B : Nat → K) (ao bo : Nat) (C : Nat → K)
    (co ldc : Nat) : Nat → K :=
  let s := ways MR NR 4 k (minkCols MR NR 4 f A B co ldc) ⟨0, ao, bo, C⟩
  let s := ways MR NR 3 k (minkCols MR NR 3 f A B co ldc) s
  let s := ways MR NR 2 k (minkCols MR NR 2 f A B co ldc) s
  (ways MR NR 1 k (minkCols MR NR 1 f A B co ldc) s).g

/-- The microkernels `…_kernel_packed_impl` (metrics_kernels.hpp:418-496, 583-827): a full block.
`first` is `is_first_slice`. -/
def kernelFull (kd : Kern) (pw : K → K) (MR NR : Nat) (first : Bool) (k : Nat) (A : Nat → K)
    (ao : Nat) (B : Nat → K) (bo : Nat) (C : Nat → K) (co ldc : Nat) : Nat → K :=
  if kd = .pow then
    let C := if first then loop NR C fun j C => loop MR C fun i C => upd C (co + j * ldc + i) 0
      else C
    accMink MR NR k (term kd pw) A B ao bo C co ldc
  else
    let g := if first then fun _ _ => 0 else fun c lane => C (co + c * ldc + lane)
    let g := (if kd = .sq then accDual else accSingle) MR NR k (term kd pw) A B ao bo g
    loop NR C fun c C => loop MR C fun lane C => upd C (co + c * ldc + lane) (g c lane)

/-- The microkernels `…_kernel_packed_masked_impl` (metrics_kernels.hpp:498-581, 829-1073): a
block of `m` rows and `n` columns. -/
def kernelMasked (kd : Kern) (pw : K → K) (MR NR : Nat) (first : Bool) (m n k : Nat) (A : Nat → K)
    (ao : Nat) (B : Nat → K) (bo : Nat) (C : Nat → K) (co ldc : Nat) : Nat → K :=
  if kd = .pow then
    let C := if first then loop n C fun j C => loop m C fun i C => upd C (co + j * ldc + i) 0
      else C
    let L : Nat → K := fun _ => 0
    let L := if first then L
      else loop n L fun j L => loop m L fun i L => upd L (j * MR + i) (C (co + j * ldc + i))
    let L := accMink MR NR k (term kd pw) A B ao bo L 0 MR
    loop n C fun j C => loop m C fun i C => upd C (co + j * ldc + i) (L (j * MR + i))
  else
    let g := if first then fun _ _ => 0
      else fun c lane => if c < n ∧ lane < m then C (co + c * ldc + lane) else 0
    let g := (if kd = .sq then accDual else accSingle) MR NR k (term kd pw) A B ao bo g
    loop n C fun c C => loop m C fun lane C => upd C (co + c * ldc + lane) (g c lane)

/-- `…KernelFunctor_packed::operator()` (sqeuclidean_distance.cpp:36-60,
manhattan_distance.cpp:36-60, minkowski_distance.cpp:36-64, cosine_distance.cpp:37-63). -/
def kernelOp (kd : Kern) (pw : K → K) (MR NR : Nat) (first : Bool) (m n k : Nat) (A : Nat → K)
    (ao : Nat) (B : Nat → K) (bo : Nat) (C : Nat → K) (co ldc : Nat) : Nat → K :=
  if m = MR ∧ n = NR then kernelFull kd pw MR NR first k A ao B bo C co ldc
  else kernelMasked kd pw MR NR first m n k A ao B bo C co ldc

/-! ### The five loops -/

/-- `LoopOne_packed` (partitioning_infrastructure.hpp:111-128). -/
def loopOne (kd : Kern) (pw : K → K) (MR NR : Nat) (first : Bool) (m n k : Nat) (A B : Nat → K)
    (bo : Nat) (C : Nat → K) (co ldc : Nat) : Nat → K :=
  stepFrom 0 m MR C fun i C =>
    kernelOp kd pw MR NR first (min MR (m - i)) n k A (i * k) B bo C (co + i) ldc

/-- `LoopTwo_packed` (partitioning_infrastructure.hpp:130-148). -/
def loopTwo (kd : Kern) (pw : K → K) (MR NR : Nat) (first : Bool) (m n k : Nat) (A B : Nat → K)
    (C : Nat → K) (co ldc : Nat) : Nat → K :=
  stepFrom 0 n NR C fun j C =>
    loopOne kd pw MR NR first m (min NR (n - j)) k A B (j * k) C (co + j * ldc) ldc

/-- The blocks of rows of `LoopThree_packed`. -/
def rowBlocks (z : Sizes) (m : Nat) : Nat := (m + z.MC - 1) / z.MC

/-- `LoopThree_packed` (partitioning_infrastructure.hpp:150-171).  The threads take the blocks in
the order `sched`; blocks write different rows of `C` and read those only, so a schedule is an
order of whole blocks.  `buf t` is what the buffer of the thread holds before block `t`. -/
def loopThree (kd : Kern) (pw : K → K) (z : Sizes) (first : Bool) (sched : List Nat)
    (buf : Nat → Nat → K) (m n k : Nat) (A : Nat → K) (ao lda : Nat) (Bt : Nat → K)
    (C : Nat → K) (co ldc : Nat) : Nat → K :=
  sched.foldl (fun C t =>
    let i := t * z.MC
    let ib := min z.MC (m - i)
    loopTwo kd pw z.MR z.NR first ib n k (packBlock z.MR ib k A (ao + i) lda (buf t)) Bt C (co + i)
      ldc) C

/-- What the run does not decide: the order of the row blocks and what the buffers hold, for every
block of columns and every slice. -/
structure Env (K : Type*) where
  sched : Nat → Nat → List Nat
  abuf : Nat → Nat → Nat → Nat → K
  bbuf : Nat → Nat → Nat → K

/-- `LoopFour_packed` (partitioning_infrastructure.hpp:173-192), for the block of columns `jj`. -/
def loopFour (kd : Kern) (pw : K → K) (z : Sizes) (e : Env K) (jj m n k : Nat) (A : Nat → K)
    (lda : Nat) (B : Nat → K) (bo ldb : Nat) (C : Nat → K) (co ldc : Nat) : Nat → K :=
  let pb := min z.KC k
  let C := loopThree kd pw z true (e.sched jj 0) (e.abuf jj 0) m n pb A 0 lda
    (packBlock z.NR n pb B bo ldb (e.bbuf jj 0)) C co ldc
  stepFrom z.KC k z.KC C fun p C =>
    let pb := min z.KC (k - p)
    loopThree kd pw z false (e.sched jj p) (e.abuf jj p) m n pb A (p * lda) lda
      (packBlock z.NR n pb B (bo + p * ldb) ldb (e.bbuf jj p)) C co ldc

/-- A `postOp(m, n, C + co, ldc)`. -/
abbrev Post (K : Type*) := Nat → Nat → (Nat → K) → Nat → Nat → Nat → K

/-- No `postOp`, the overload of partitioning_infrastructure.hpp:242-286. -/
def noPost : Post K := fun _ _ C _ _ => C

/-- `LoopFive_packed` (partitioning_infrastructure.hpp:194-240). -/
def loopFive (kd : Kern) (pw : K → K) (z : Sizes) (e : Env K) (post : Post K) (m n k : Nat)
    (A : Nat → K) (lda : Nat) (B : Nat → K) (ldb : Nat) (C : Nat → K) (ldc : Nat) : Nat → K :=
  stepFrom 0 n z.NC C fun j C =>
    let jb := min z.NC (n - j)
    post m jb (loopFour kd pw z e j m jb k A lda B j ldb C (j * ldc) ldc) (j * ldc) ldc

/-- `copy_transpose_2D_array_row_to_column_major` (da_utils.cpp:142-159); the blocks are the
subject of C37. -/
def rowToCol (nRows nCols : Nat) (A : Nat → K) (lda : Nat) (B : Nat → K) (ldb : Nat) : Nat → K :=
  loop nRows B fun i B => loop nCols B fun j B => upd B (j * ldb + i) (A (i * lda + j))

/-- `copy_transpose_2D_array_column_to_row_major` (da_utils.cpp:161-178). -/
def colToRow (nRows nCols : Nat) (A : Nat → K) (lda : Nat) (B : Nat → K) (ldb : Nat) : Nat → K :=
  loop nCols B fun j B => loop nRows B fun i B => upd B (j + i * ldb) (A (i + j * lda))

/-- `dispatch_packed_distance` (partitioning_infrastructure.hpp:290-387), both overloads.
`Y = none` is the null pointer; `row` is row-major order. -/
def dispatch (kd : Kern) (pw : K → K) (z : Sizes) (e : Env K) (post : Post K) (row : Bool)
    (m n k : Nat) (X : Nat → K) (ldx : Nat) (Y : Option (Nat → K)) (ldy : Nat) (D : Nat → K)
    (ldd : Nat) : Nat → K :=
  let n := if Y.isNone then m else n
  let ldy := if Y.isNone then ldx else ldy
  let Y := Y.getD X
  if row then
    let Xc := rowToCol m k X ldx (fun _ => 0) m
    let Yc := rowToCol n k Y ldy (fun _ => 0) n
    let Dc := loopFive kd pw z e post m n k Xc m Yc n (fun _ => 0) m
    colToRow m n Dc m D ldd
  else loopFive kd pw z e post m n k X ldx Y ldy D ldd

/-! ### The metrics -/

/-- `sqrt_matrix` (da_simd_math.hpp:159-170). -/
def sqrtMatrix (sqrt : K → K) : Post K := fun m n C co ldc =>
  if m = ldc then loop (m * n) C fun i C => upd C (co + i) (sqrt (C (co + i)))
  else loop n C fun j C => loop m C fun i C => upd C (co + j * ldc + i) (sqrt (C (co + j * ldc + i)))

/-- `PowPostOp` (minkowski_distance.cpp:66-77). -/
def powPost (pow : K → K → K) (p : K) : Post K := fun m n C co ldc =>
  loop n C fun j C => loop m C fun i C =>
    upd C (co + j * ldc + i) (pow (C (co + j * ldc + i)) (1 / p))

/-- `CosinePostOp` (cosine_distance.cpp:65-88). -/
def cosPost (normX normY : Nat → K) (xIsY : Bool) : Post K := fun m n C co ldc =>
  if !xIsY then
    loop n C fun j C => loop m C fun i C =>
      upd C (co + j * ldc + i) (1 - C (co + j * ldc + i) / (normX i * normY j))
  else
    loop n C fun j C =>
      upd (loop m C fun i C =>
        upd C (co + j * ldc + i) (1 - C (co + j * ldc + i) / (normX i * normY j)))
        (co + j * ldc + j) 0

/-- The norms of the rows (cosine_distance.cpp:108-149): by columns the matrix is transposed
first; norms up to `eps` are replaced by 1. -/
def norms (sqrt : K → K) (eps : K) (row : Bool) (rows k : Nat) (X : Nat → K) (ldx i : Nat) : K :=
  let P := if row then (X, ldx) else (colToRow rows k X ldx (fun _ => 0) k, k)
  let v := sqrt (loop k 0 fun l s => s + P.1 (i * P.2 + l) * P.1 (i * P.2 + l))
  if v ≤ eps then 1 else v

/-- `cosine` (cosine_distance.cpp:90-161). -/
def cosine (sqrt : K → K) (eps : K) (z : Sizes) (e : Env K) (row : Bool) (m n k : Nat)
    (X : Nat → K) (ldx : Nat) (Y : Option (Nat → K)) (ldy : Nat) (D : Nat → K) (ldd : Nat) :
    Nat → K :=
  let n' := if Y.isNone then m else n
  let ldy' := if Y.isNone then ldx else ldy
  let Y' := Y.getD X
  dispatch .dot (fun x => x) z e
    (cosPost (norms sqrt eps row m k X ldx) (norms sqrt eps row n' k Y' ldy') Y.isNone) row m n' k X
    ldx (some Y') ldy' D ldd

/-- The position of entry `(i, j)`. -/
def cell (row : Bool) (ld i j : Nat) : Nat := if row then i * ld + j else j * ld + i

/-- `cblas_gemm` without and with transposition, `beta = 0`: `D = alpha X Yᵀ`. -/
def gemm (row : Bool) (m n k : Nat) (alpha : K) (X : Nat → K) (ldx : Nat) (Y : Nat → K)
    (ldy : Nat) (D : Nat → K) (ldd : Nat) : Nat → K :=
  loop n D fun j D => loop m D fun i D =>
    upd D (cell row ldd i j)
      (alpha * loop k 0 fun l s => s + X (cell row ldx i l) * Y (cell row ldy j l))

/-- `da_syrk`, upper triangle, `beta = 0`: `D = alpha X Xᵀ`. -/
def syrk (row : Bool) (m k : Nat) (alpha : K) (X : Nat → K) (ldx : Nat) (D : Nat → K)
    (ldd : Nat) : Nat → K :=
  loop m D fun j D => loop (j + 1) D fun i D =>
    upd D (cell row ldd i j)
      (alpha * loop k 0 fun l s => s + X (cell row ldx i l) * X (cell row ldx j l))

/-- The squared norms of the rows (euclidean_gemm_distance.cpp:67-104). -/
def sqNorms (row : Bool) (m k : Nat) (X : Nat → K) (ldx : Nat) (N : Nat → K) : Nat → K :=
  let N := loop m N fun i N => upd N i 0
  if !row then
    loop k N fun j N => loop m N fun i N =>
      upd N i (N i + X (i + j * ldx) * X (i + j * ldx))
  else
    loop m N fun i N => loop k N fun j N =>
      upd N i (N i + X (i * ldx + j) * X (i * ldx + j))

/-- `euclidean_gemm_distance` (euclidean_gemm_distance.cpp:59-230) for single and double
precision.  `cx`, `cy` are `compute_X_norms`, `compute_Y_norms`.  Where the code has a loop nest for
each storage order, here is one with the columns outside. -/
def gemmDistance (sqrt : K → K) (row : Bool) (m n k : Nat) (X : Nat → K) (ldx : Nat) (Y : Nat → K)
    (ldy : Nat) (D : Nat → K) (ldd : Nat) (XN : Nat → K) (cx : Nat) (YN : Nat → K) (cy : Nat)
    (square xIsY : Bool) : Nat → K :=
  let XN := if cx = 2 then sqNorms row m k X ldx XN else XN
  let YN := if cy = 2 ∧ !xIsY then sqNorms row n k Y ldy YN else YN
  if !xIsY then
    let D := gemm row m n k (-2) X ldx Y ldy D ldd
    let D :=
      if 0 < cx ∧ cy = 0 then
        loop n D fun j D => loop m D fun i D =>
          upd D (cell row ldd i j) (D (cell row ldd i j) + XN i)
      else if cx = 0 ∧ 0 < cy then
        loop n D fun j D => loop m D fun i D =>
          upd D (cell row ldd i j) (D (cell row ldd i j) + YN j)
      else if cx ≠ 0 ∧ cy ≠ 0 then
        loop n D fun j D => loop m D fun i D =>
          upd D (cell row ldd i j) (D (cell row ldd i j) + (XN i + YN j))
      else D
    if square then D
    else if !row then sqrtMatrix sqrt m n D 0 ldd
    else sqrtMatrix sqrt n m D 0 ldd
  else
    let D := syrk row m k (-2) X ldx D ldd
    if cx ≠ 0 then
      let D := loop m D fun j D => loop (j + 1) D fun i D =>
        upd D (cell row ldd i j) (D (cell row ldd i j) + (XN i + XN j))
      if !row then
        loop m D fun j D =>
          upd (if square then D else loop j D fun i D =>
            upd D (j * ldd + i) (sqrt (D (j * ldd + i)))) (j + j * ldd) 0
      else
        loop m D fun i D =>
          let len := m - i - 1
          upd (if 0 < len ∧ !square then loop len D fun t D =>
            upd D (i * ldd + (i + 1) + t) (sqrt (D (i * ldd + (i + 1) + t))) else D)
            (i * ldd + i) 0
    else D

/-- `euclidean_gemm` (euclidean_gemm_distance.cpp:260-303). -/
def euclideanGemm (sqrt : K → K) (square row : Bool) (m n k : Nat) (X : Nat → K) (ldx : Nat)
    (Y : Option (Nat → K)) (ldy : Nat) (D : Nat → K) (ldd : Nat) : Nat → K :=
  let D := gemmDistance sqrt row m n k X ldx (Y.getD fun _ => 0) ldy D ldd (fun _ => 0) 2
    (fun _ => 0) 2 square Y.isNone
  if Y.isNone then
    if !row then
      loop m D fun i D => loop m D fun j D =>
        if j < i then upd D (i + j * ldd) (D (j + i * ldd)) else D
    else
      loop m D fun i D => loop m D fun j D =>
        if j < i then upd D (j + i * ldd) (D (i + j * ldd)) else D
  else D

/-- `inner_product` (inner_product_distance.cpp:34-56). -/
def innerProduct (row : Bool) (m n k : Nat) (X : Nat → K) (ldx : Nat) (Y : Option (Nat → K))
    (ldy : Nat) (D : Nat → K) (ldd : Nat) : Nat → K :=
  let n' := if Y.isNone then m else n
  let ldy' := if Y.isNone then ldx else ldy
  gemm row m n' k 1 X ldx (Y.getD X) ldy' D ldd

/-- `da_metric`. -/
inductive Metric
  | euclidean
  | sqeuclidean
  | manhattan
  | cosine
  | minkowski
  | euclideanGemm
  | sqeuclideanGemm
  | innerProduct
deriving DecidableEq

/-- The functions of `std`, and the machine precision. -/
structure Ops (K : Type*) where
  sqrt : K → K
  pow : K → K → K
  eps : K

/-- `pairwise_distance_kernel` (pairwise_distances.cpp:36-76) with `euclidean`, `sqeuclidean`,
`manhattan` and `minkowski` (euclidean_distance.cpp:74-83, sqeuclidean_distance.cpp:62-70,
manhattan_distance.cpp:62-70, minkowski_distance.cpp:79-88). -/
def kernel (o : Ops K) (z : Sizes) (e : Env K) (row : Bool) (m n k : Nat) (X : Nat → K)
    (ldx : Nat) (Y : Option (Nat → K)) (ldy : Nat) (D : Nat → K) (ldd : Nat) (p : K)
    (metric : Metric) : Nat → K :=
  let euclidean := dispatch .sq (fun x => x) z e (sqrtMatrix o.sqrt) row m n k X ldx Y ldy D ldd
  let manhattan := dispatch .abs (fun x => x) z e noPost row m n k X ldx Y ldy D ldd
  match metric with
  | .euclidean => euclidean
  | .sqeuclidean => dispatch .sq (fun x => x) z e noPost row m n k X ldx Y ldy D ldd
  | .manhattan => manhattan
  | .cosine => cosine o.sqrt o.eps z e row m n k X ldx Y ldy D ldd
  | .minkowski =>
    if p = 2 then euclidean
    else if p = 1 then manhattan
    else dispatch .pow (fun x => o.pow x p) z e (powPost o.pow p) row m n k X ldx Y ldy D ldd
  | .euclideanGemm => euclideanGemm o.sqrt false row m n k X ldx Y ldy D ldd
  | .sqeuclideanGemm => euclideanGemm o.sqrt true row m n k X ldx Y ldy D ldd
  | .innerProduct => innerProduct row m n k X ldx Y ldy D ldd

/-- Status codes. -/
inductive Status
  | invalidDimension
  | invalidLeading
  | invalidPointer
  | invalidInput
deriving DecidableEq

/-- `pairwise_distance_error_check_kernel` (pairwise_distances.cpp:80-114), which
`da_pairwise_distances` calls. -/
def pairwise (o : Ops K) (z : Sizes) (e : Env K) (row : Bool) (m n k : Int) (X : Option (Nat → K))
    (ldx : Int) (Y : Option (Nat → K)) (ldy : Int) (D : Option (Nat → K)) (ldd : Int) (p : K)
    (metric : Metric) : Except Status (Nat → K) :=
  if m < 1 ∨ k < 1 then .error .invalidDimension
  else if !row ∧ ldx < m then .error .invalidLeading
  else if row ∧ ldx < k then .error .invalidLeading
  else match X, D with
  | some X, some D =>
    if Y.isSome ∧ n < 1 then .error .invalidDimension
    else if Y.isSome ∧ !row ∧ (ldy < n ∨ ldd < m) then .error .invalidLeading
    else if Y.isSome ∧ row ∧ (ldy < k ∨ ldd < n) then .error .invalidLeading
    else if Y.isNone ∧ ldd < m then .error .invalidLeading
    else if metric = .minkowski ∧ p ≤ 0 then .error .invalidInput
    else .ok (kernel o z e row m.toNat n.toNat k.toNat X ldx.toNat Y ldy.toNat D ldd.toNat p metric)
  | _, _ => .error .invalidPointer

end Verif.PairDist
