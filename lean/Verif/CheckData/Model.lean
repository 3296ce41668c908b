import Mathlib.Data.Rat.Defs
import Mathlib.Algebra.Order.Ring.Rat

/-
The checks of a data matrix (source/core/utilities/da_utils.cpp: check_data, check_1D_array, check_2D_array; basic_handle.cpp: store_2D_array).

A floating-point number is NaN, an infinity or a finite rational number; `rnd` is the rounding of a sum.  Sizes are da_int, here Int; their products do
not overflow here.  The texts of the error messages and failed allocations are left out.
-/
namespace Verif.CheckData

inductive Num
  | nan
  | inf (negative : Bool)
  | fin (x : ℚ)
deriving DecidableEq

inductive Status | success | invalidArrayDimension | invalidPointer | invalidLeadingDimension | invalidInput
deriving DecidableEq

/-- std::isnan(x) || x == x + (T)1, da_utils.cpp:195-196, 209-210; an infinity plus 1 is the infinity. -/
def suspicious (rnd : ℚ → ℚ) : Num → Bool
  | .nan => true
  | .inf _ => true
  | .fin x => decide (x = rnd (x + 1))

/-- check_data for a floating-point type, da_utils.cpp:178-218; `none` is the null pointer. -/
def checkData (rnd : ℚ → ℚ) (row : Bool) (n m : Int) (X : Option (Nat → Num)) (ld : Int) : Status :=
  if n < 1 ∨ m < 1 then .invalidArrayDimension
  else match X with
    | none => .invalidPointer
    | some X =>
      if row then
        if ld < m then .invalidLeadingDimension
        else if (List.range n.toNat).any fun i => (List.range m.toNat).any fun j => suspicious rnd (X (i * ld.toNat + j)) then .invalidInput
        else .success
      else
        if ld < n then .invalidLeadingDimension
        else if (List.range m.toNat).any fun j => (List.range n.toNat).any fun i => suspicious rnd (X (i + j * ld.toNat)) then .invalidInput
        else .success

/-- check_1D_array, da_utils.cpp:540-563. -/
def check1D (rnd : ℚ → ℚ) (check : Bool) (n : Int) (X : Option (Nat → Num)) (nMin : Int) : Status :=
  if X.isNone then .invalidPointer
  else if n < nMin then .invalidArrayDimension
  else if check = true ∧ checkData rnd false n 1 X n = .invalidInput then .invalidInput
  else .success

/-- check_2D_array, da_utils.cpp:571-638. -/
def check2D (rnd : ℚ → ℚ) (check row : Bool) (n m : Int) (X : Option (Nat → Num)) (ld nMin mMin : Int) : Status :=
  if n < nMin then .invalidArrayDimension
  else if m < mMin then .invalidArrayDimension
  else if X.isNone then .invalidPointer
  else if check = true ∧ checkData rnd row n m X ld = .invalidInput then .invalidInput
  else if row then (if ld < m then .invalidLeadingDimension else .success)
  else if ld < n then .invalidLeadingDimension else .success

/-- What store_2D_array leaves: the array with its leading dimension, if it assigns them. -/
structure Stored where
  status : Status
  array : Option ((Nat → Num) × Int)

/-- The transposed copy, copy_transpose_2D_array_row_to_column_major by its contract (C37). -/
def transposed (n : Int) (X : Nat → Num) (ld : Int) (c : Nat) : Num := X (c % n.toNat * ld.toNat + c / n.toNat)

/-- store_2D_array, basic_handle.cpp:110-233, for a handle with options; `garbage` is what new memory holds. -/
def store2D (rnd : ℚ → ℚ) (mode : Nat) (check row : Bool) (n m : Int) (X : Option (Nat → Num)) (ld nMin mMin : Int) (garbage : Nat → Num) :
    Stored :=
  if mode = 2 then ⟨.success, X.map fun X => (X, ld)⟩
  else if n < nMin then ⟨.invalidArrayDimension, none⟩
  else if m < mMin then ⟨.invalidArrayDimension, none⟩
  else match X with
    | none => ⟨.invalidPointer, none⟩
    | some X =>
      if (mode = 0 ∨ mode = 3) ∧ check = true ∧ checkData rnd row n m (some X) ld = .invalidInput then ⟨.invalidInput, none⟩
      else if ld < (if row then m else n) then ⟨.invalidLeadingDimension, none⟩
      else if mode = 3 then ⟨.success, none⟩
      else if row = false then ⟨.success, some (X, ld)⟩
      else ⟨.success, some (if mode = 0 then transposed n X ld else garbage, n)⟩

end Verif.CheckData
