import Mathlib.Algebra.BigOperators.Group.Finset.Basic
import Mathlib.Algebra.BigOperators.Ring.Finset
import Mathlib.Algebra.Order.Field.Basic

/-!
Linear algebra for `_Float16`, fp16_helpers.hpp:279-780.  Arithmetic is exact: `R` is any commutative ring, and the conversions
between `_Float16` and `float` do nothing (C63 and C64 are about them).  Memory is a function from positions to `R`; a pointer
is a memory and an offset.
-/
namespace Verif.HalfBlas

/-- Position of element (i, j) of a matrix with leading dimension `ld`; `col`: `CblasColMajor`. -/
def addr (col : Bool) (ld i j : Nat) : Nat := if col then i + j * ld else j + i * ld

/-- `mem[p] = v`. -/
def put {R : Type} (mem : Nat → R) (p : Nat) (v : R) : Nat → R := fun q => if q = p then v else mem q

/-- `for (i = 0; i < n; ++i) body(i)`. -/
def forUp {S : Type} : Nat → (Nat → S → S) → S → S
  | 0, _, s => s
  | n + 1, body, s => body n (forUp n body s)

variable {R : Type} [CommRing R]

/-- `for (i…) for (j…) mem[idx(i, j)] = f(i, j, mem[idx(i, j)])`. -/
def loop (n m : Nat) (idx : Nat → Nat → Nat) (f : Nat → Nat → R → R) (mem : Nat → R) : Nat → R :=
  forUp n (fun i s => forUp m (fun j s => put s (idx i j) (f i j (s (idx i j)))) s) mem

/-- Contract of the external `cblas_ssyrk` (C at its own memory): the triangle `lower` of C becomes alpha op(A) op(A)^T + beta C. -/
def ssyrk (col lower noTrans : Bool) (n k : Nat) (alpha : R) (A : Nat → R) (lda : Nat) (beta : R) (C : Nat → R) (ldc : Nat) : Nat → R :=
  loop n n (fun i j => addr col ldc i j) (fun i j c =>
    if (if lower then j ≤ i else i ≤ j) then
      alpha * (∑ l ∈ Finset.range k, (if noTrans then A (addr col lda i l) * A (addr col lda j l) else A (addr col lda l i) * A (addr col lda l j))) + beta * c
    else c) C

/-- Contract of the external `aocl_gemm_f16f16f16of16`, called by `cblas_gemm` (fp16_helpers.hpp:286-305): the m by n matrix at `co`
becomes alpha op(A) op(B) + beta C.  The branch for Windows is not modelled. -/
def gemm (col noTransA noTransB : Bool) (m n k : Nat) (alpha : R) (A : Nat → R) (ao lda : Nat) (B : Nat → R) (bo ldb : Nat)
    (beta : R) (C : Nat → R) (co ldc : Nat) : Nat → R :=
  loop m n (fun i j => co + addr col ldc i j) (fun i j c =>
    alpha * (∑ l ∈ Finset.range k, A (ao + if noTransA then addr col lda i l else addr col lda l i) *
      B (bo + if noTransB then addr col ldb l j else addr col ldb j l)) + beta * c) C

/-- `cblas_syrk_fp16_leaf`, fp16_helpers.hpp:507-543.  The packed vectors are memories that begin with zeros. -/
def syrkLeaf (col lower noTrans : Bool) (n k : Nat) (alpha : R) (A : Nat → R) (ao lda : Nat) (beta : R) (C : Nat → R) (co ldc : Nat) : Nat → R :=
  let aRows := if noTrans then n else k
  let aCols := if noTrans then k else n
  let ldaf := if col then aRows else aCols
  let ldcf := n
  let Af := if col then loop aCols aRows (fun j i => i + j * ldaf) (fun j i _ => A (ao + (i + j * lda))) (fun _ => 0)
    else loop aRows aCols (fun i j => j + i * ldaf) (fun i j _ => A (ao + (j + i * lda))) (fun _ => 0)
  let Cf := if col then loop n n (fun j i => i + j * ldcf) (fun j i _ => C (co + (i + j * ldc))) (fun _ => 0)
    else loop n n (fun i j => j + i * ldcf) (fun i j _ => C (co + (j + i * ldc))) (fun _ => 0)
  let Cf := ssyrk col lower noTrans n k alpha Af ldaf beta Cf ldcf
  if col then loop n n (fun j i => co + (i + j * ldc)) (fun j i _ => Cf (i + j * ldcf)) C
  else loop n n (fun i j => co + (j + i * ldc)) (fun i j _ => Cf (j + i * ldcf)) C

/-- `SYRK_FP16_LEAF`, fp16_helpers.hpp:504. -/
def leafSize : Nat := 32

/-- `cblas_syrk`, fp16_helpers.hpp:570-623.  `fuel` bounds the depth of the recursion; `syrk` gives enough. -/
def syrkRec (col lower noTrans : Bool) : (fuel n k : Nat) → (alpha : R) → (A : Nat → R) → (ao lda : Nat) → (beta : R) → (C : Nat → R) → (co ldc : Nat) → Nat → R
  | 0, _, _, _, _, _, _, _, C, _, _ => C
  | fuel + 1, n, k, alpha, A, ao, lda, beta, C, co, ldc =>
    if n ≤ leafSize then syrkLeaf col lower noTrans n k alpha A ao lda beta C co ldc
    else
      let n1 := n / 2
      let n2 := n - n1
      let a2 := if col then (if noTrans then ao + n1 else ao + n1 * lda) else (if noTrans then ao + n1 * lda else ao + n1)
      let c22 := if col then co + n1 + n1 * ldc else co + n1 * ldc + n1
      let coff := if col then (if lower then co + n1 else co + n1 * ldc) else (if lower then co + n1 * ldc else co + n1)
      let C := syrkRec col lower noTrans fuel n1 k alpha A ao lda beta C co ldc
      let C := syrkRec col lower noTrans fuel n2 k alpha A a2 lda beta C c22 ldc
      let noTransB := if noTrans then false else true
      if lower then gemm col noTrans noTransB n2 n1 k alpha A a2 lda A ao lda beta C coff ldc
      else gemm col noTrans noTransB n1 n2 k alpha A ao lda A a2 lda beta C coff ldc

/-- `cblas_syrk`, fp16_helpers.hpp:570-623, called with the pointers at positions `ao` and `co`. -/
def syrk (col lower noTrans : Bool) (n k : Nat) (alpha : R) (A : Nat → R) (ao lda : Nat) (beta : R) (C : Nat → R) (co ldc : Nat) : Nat → R :=
  syrkRec col lower noTrans (n + 1) n k alpha A ao lda beta C co ldc

/-- `cblas_gemv`, fp16_helpers.hpp:450-494; vectors and the matrix begin at position 0, increments are not negative. -/
def gemv (col noTrans : Bool) (m n : Nat) (alpha : R) (A : Nat → R) (lda : Nat) (x : Nat → R) (incx : Nat) (beta : R) (y : Nat → R) (incy : Nat) : Nat → R :=
  if incx = 1 ∧ incy = 1 then
    let mOut := if noTrans then m else n
    let K := if noTrans then n else m
    let ldx := if col then K else 1
    let ldy := if col then mOut else 1
    gemm col noTrans true mOut 1 K alpha A 0 lda x 0 ldx beta y 0 ldy
  else if noTrans then
    forUp m (fun i y =>
      let acc := forUp n (fun j acc => acc + (if col then A (i + j * lda) else A (j + i * lda)) * x (j * incx)) 0
      put y (i * incy) (beta * y (i * incy) + alpha * acc)) y
  else
    forUp n (fun j y =>
      let acc := forUp m (fun i acc => acc + (if col then A (i + j * lda) else A (j + i * lda)) * x (i * incx)) 0
      put y (j * incy) (beta * y (j * incy) + alpha * acc)) y

/-- `for (; i + BLOCK <= n; i += BLOCK)` of `cblas_dot`, fp16_helpers.hpp:372-397, with the rest after it; `fuel` bounds the number of blocks. -/
def dotBlocks (block : Nat) : (fuel n : Nat) → (x : Nat → R) → (incx : Nat) → (y : Nat → R) → (incy i : Nat) → R → R
  | fuel, n, x, incx, y, incy, i, acc =>
    match fuel with
    | 0 => acc + forUp (n - i) (fun j t => t + x ((i + j) * incx) * y ((i + j) * incy)) 0
    | fuel + 1 =>
      if i + block ≤ n then
        dotBlocks block fuel n x incx y incy (i + block) (acc + forUp block (fun j b => b + x ((i + j) * incx) * y ((i + j) * incy)) 0)
      else acc + forUp (n - i) (fun j t => t + x ((i + j) * incx) * y ((i + j) * incy)) 0

/-- `cblas_dot`, fp16_helpers.hpp:366-400; both branches do the same in exact arithmetic. -/
def dot (n : Nat) (x : Nat → R) (incx : Nat) (y : Nat → R) (incy : Nat) : R :=
  dotBlocks 1024 n n x incx y incy 0 0

/-- `omatcopy`, fp16_helpers.hpp:651-667. -/
def omatcopy (transpose : Bool) (m n : Nat) (alpha : R) (A : Nat → R) (lda : Nat) (B : Nat → R) (ldb : Nat) : Nat → R :=
  if transpose = false then loop n m (fun j i => i + j * ldb) (fun j i _ => alpha * A (i + j * lda)) B
  else loop n m (fun j i => j + i * ldb) (fun j i _ => alpha * A (i + j * lda)) B

end Verif.HalfBlas
