/-
Matrix copies between storage orders, /repo/source/core/utilities/da_utils.cpp:143-176,
222-238 and 914-944.

A buffer is a list; an index outside it is `none`.  The blocked loops are represented by the
list of their element copies (destination index, source index); OpenMP threads may perform
them in any order, so a run is given by any permutation of that list.
-/
namespace Verif.Copies

variable {α β : Type}

/-- `for (ib = from; ib < n; ib += B)`: the values of the loop variable. -/
def blockStarts (n B : Nat) (start : Nat) : List Nat :=
  if _h : start < n ∧ 0 < B then start :: blockStarts n B (start + B) else []
termination_by n - start

/-- `for (i = lo; i < hi; ++i)`. -/
def upTo (lo hi : Nat) : List Nat := (List.range (hi - lo)).map (lo + ·)

/-- The four nested loops shared by the copies (da_utils.cpp:147-158, 166-176, 918-942): outer
blocks over `n1`, then over `n2`, then the elements. -/
def blockedPairs (n1 n2 B : Nat) : List (Nat × Nat) :=
  (blockStarts n1 B 0).flatMap fun b1 => (blockStarts n2 B 0).flatMap fun b2 =>
    (upTo b1 (min (b1 + B) n1)).flatMap fun x1 => (upTo b2 (min (b2 + B) n2)).map fun x2 => (x1, x2)

/-- TRANSPOSE_BLOCK_SIZE, da_utils.cpp:51. -/
def transposeBlock : Nat := 64
/-- COPY_BLOCK_SIZE, da_utils.cpp:916. -/
def copyBlock : Nat := 512

/-- `copy_transpose_2D_array_row_to_column_major`, da_utils.cpp:143-159. -/
def rowToColWrites (nRows nCols lda ldb : Nat) : List (Nat × Nat) :=
  (blockedPairs nRows nCols transposeBlock).map fun (i, j) => (j * ldb + i, i * lda + j)

/-- `copy_transpose_2D_array_column_to_row_major`, da_utils.cpp:161-177. -/
def colToRowWrites (nRows nCols lda ldb : Nat) : List (Nat × Nat) :=
  (blockedPairs nCols nRows transposeBlock).map fun (j, i) => (j + i * ldb, i + j * lda)

/-- `da_order`. -/
inductive Order | rowMajor | colMajor
deriving DecidableEq, Repr

/-- `copy_array_convert_precision`, da_utils.cpp:914-944. -/
def convertWrites (order : Order) (nRows nCols lda ldb : Nat) : List (Nat × Nat) :=
  match order with
  | .colMajor => (blockedPairs nCols nRows copyBlock).map fun (j, i) => (i + j * ldb, i + j * lda)
  | .rowMajor => (blockedPairs nRows nCols copyBlock).map fun (i, j) => (i * ldb + j, i * lda + j)

/-- Perform element copies in the given order, converting with `f`. -/
def exec (f : α → β) (A : List α) : List (Nat × Nat) → List β → Option (List β)
  | [], B => some B
  | (d, s) :: ws, B => do
    let x ← A[s]?
    if d < B.length then exec f A ws (B.set d (f x)) else none

/-- Status codes used here. -/
inductive Status | success | invalidArrayDimension | invalidPointer | invalidLeadingDimension
deriving DecidableEq, Repr

/-- `omatcopy('T', rows, cols, 1, A, lda, B, ldb)`: documented behaviour of the BLAS
extension in column-major storage: the rows × cols matrix A is stored transposed in B. -/
def omatcopyT (rows cols lda ldb : Nat) : List (Nat × Nat) :=
  (List.range rows).flatMap fun i => (List.range cols).map fun j => (j + i * ldb, i + j * lda)

/-- `switch_order_copy`, da_utils.cpp:221-238.  A null pointer is `none`.  The outer `Option`
is undefined behaviour; the pair is the status and the target buffer afterwards. -/
def switchOrderCopy (order : Order) (nRows nCols : Int) (X : Option (List α)) (ldx : Int)
    (Y : Option (List α)) (ldy : Int) : Option (Status × Option (List α)) :=
  if nRows < 1 ∨ nCols < 1 then some (.invalidArrayDimension, Y)
  else
    match X, Y with
    | some X, some Y =>
      match order with
      | .rowMajor =>
        if ldy < nRows ∨ ldx < nCols then some (.invalidLeadingDimension, some Y)
        else (exec id X (omatcopyT nCols.toNat nRows.toNat ldx.toNat ldy.toNat) Y).map
          fun Y' => (.success, some Y')
      | .colMajor =>
        if ldx < nRows ∨ ldy < nCols then some (.invalidLeadingDimension, some Y)
        else (exec id X (omatcopyT nRows.toNat nCols.toNat ldx.toNat ldy.toNat) Y).map
          fun Y' => (.success, some Y')
    | _, _ => some (.invalidPointer, Y)

end Verif.Copies
