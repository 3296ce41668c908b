/-
`train_test_split`, /repo/source/core/utilities/train_test_split.cpp:36-119 and its kernels,
/repo/source/core/utilities/train_test_split_internal.hpp:37-122.

The run is represented by its list of element copies; threads may perform them in any order.
X, X_train and X_test are distinct buffers (lists); an index outside a buffer is undefined
behaviour (`none`).
-/
import Verif.Copies.Model
namespace Verif.Split
open Verif.Copies (Order)

variable {α : Type}

inductive Status | success | invalidPointer | invalidArrayDimension | invalidLeadingDimension | invalidInput
deriving DecidableEq, Repr

/-- `validate_parameters_train_test_split`, train_test_split.cpp:36-68; `ptrs` says that no
data pointer is null. -/
def validate (order : Order) (ptrs : Bool) (m n ldx trainSize testSize ldTrain ldTest : Int) : Status :=
  if !ptrs then .invalidPointer
  else if m < 2 ∨ n < 1 then .invalidArrayDimension
  else if order = .rowMajor ∧ (ldx < n ∨ ldTrain < n ∨ ldTest < n) then .invalidLeadingDimension
  else if order = .colMajor ∧ (ldx < m ∨ ldTrain < trainSize ∨ ldTest < testSize) then .invalidLeadingDimension
  else if trainSize < 1 ∨ testSize < 1 then .invalidInput
  else if trainSize + testSize > m then .invalidInput
  else .success

/-- One element copy: target buffer, target index, source index (`none`: the index had to be
read outside the shuffle array). -/
structure Write where
  toTrain : Bool
  dst : Nat
  src : Option Nat
deriving DecidableEq, Repr

/-- `shuffle == nullptr ? i : shuffle[i]`. -/
def pick (shuffle : Option (List Nat)) (i : Nat) : Option Nat :=
  match shuffle with
  | none => some i
  | some l => l[i]?

/-- `split_column_data(size, X + xoff, split + soff, indices)`,
train_test_split_internal.hpp:39-53.  `indices = shuffle + ioff`; without a shuffle array the
caller moves the data pointer by `ioff` instead (train_test_split.cpp:98-101). -/
def columnKernel (toTrain : Bool) (size xoff soff ioff : Nat) (shuffle : Option (List Nat)) : List Write :=
  (List.range size).map fun i =>
    ⟨toTrain, soff + i, (match shuffle with
      | none => some (xoff + ioff + i)
      | some l => l[i + ioff]?.map (xoff + ·))⟩

/-- Column-major branch, train_test_split.cpp:95-112. -/
def columnWrites (n ldx trainSize testSize ldTrain ldTest : Nat) (shuffle : Option (List Nat)) : List Write :=
  (List.range n).flatMap fun i =>
    columnKernel true trainSize (ldx * i) (ldTrain * i) 0 shuffle ++
    columnKernel false testSize (ldx * i) (ldTest * i) trainSize shuffle

/-- Source index of element `j` of row `i` in the kernel below. -/
def rowSource (shuffle : Option (List Nat)) (ldx ioff i j : Nat) : Option Nat :=
  match shuffle with
  | none => some (ioff * ldx + i * ldx + j)
  | some l => l[i + ioff]?.map fun r => r * ldx + j

/-- `split_row_data_parallel`, train_test_split_internal.hpp:102-122, with the data pointer
moved by `ioff` rows when there is no shuffle array (train_test_split.cpp:83-90). -/
def rowKernel (toTrain : Bool) (n size ldx ldSplit ioff : Nat) (shuffle : Option (List Nat)) : List Write :=
  (List.range size).flatMap fun i => (List.range n).map fun j =>
    ⟨toTrain, ldSplit * i + j, rowSource shuffle ldx ioff i j⟩

/-- `split_row_data_serial`, train_test_split_internal.hpp:56-99. -/
def rowSerialWrites (n trainSize testSize ldx ldTrain ldTest : Nat) (shuffle : Option (List Nat)) : List Write :=
  let small := min trainSize testSize
  let big := max trainSize testSize
  let remTrain := decide (trainSize > testSize)
  let ldRem := if trainSize > testSize then ldTrain else ldTest
  let addon := if trainSize > testSize then 0 else trainSize
  ((List.range small).flatMap fun i => (List.range n).flatMap fun j =>
    [⟨true, i * ldTrain + j, (pick shuffle i).map fun r => r * ldx + j⟩,
     ⟨false, i * ldTest + j, (pick shuffle (i + trainSize)).map fun r => r * ldx + j⟩]) ++
  ((List.range (big - small)).flatMap fun k => (List.range n).map fun j =>
    ⟨remTrain, (small + k) * ldRem + j, (pick shuffle (small + k + addon)).map fun r => r * ldx + j⟩)

/-- `train_test_split`, train_test_split.cpp:70-119: the status and the element copies.
`threads` is omp_get_max_threads(). -/
def splitWrites (order : Order) (ptrs : Bool) (m n ldx trainSize testSize ldTrain ldTest : Int)
    (shuffle : Option (List Nat)) (threads : Nat) : Status × List Write :=
  match validate order ptrs m n ldx trainSize testSize ldTrain ldTest with
  | .success =>
    (.success, match order with
      | .rowMajor =>
        if threads > 1 then
          rowKernel true n.toNat trainSize.toNat ldx.toNat ldTrain.toNat 0 shuffle ++
          rowKernel false n.toNat testSize.toNat ldx.toNat ldTest.toNat trainSize.toNat shuffle
        else rowSerialWrites n.toNat trainSize.toNat testSize.toNat ldx.toNat ldTrain.toNat ldTest.toNat shuffle
      | .colMajor => columnWrites n.toNat ldx.toNat trainSize.toNat testSize.toNat ldTrain.toNat ldTest.toNat shuffle)
  | s => (s, [])

/-- Perform the copies. -/
def exec (X : List α) : List Write → List α × List α → Option (List α × List α)
  | [], s => some s
  | w :: ws, (tr, te) => do
    let k ← w.src
    let x ← X[k]?
    if w.toTrain then
      if w.dst < tr.length then exec X ws (tr.set w.dst x, te) else none
    else
      if w.dst < te.length then exec X ws (tr, te.set w.dst x) else none

end Verif.Split
