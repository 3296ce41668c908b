/-
`check_categorical_data`, /repo/source/core/utilities/da_utils.cpp:647-663.

Floating-point values are rationals (every finite double is one) or NaN/infinity (`none`);
`(T)val - data[i]` is taken as exact.
-/
import Mathlib.Data.Rat.Floor
namespace Verif.Categorical

/-- `std::round`: nearest integer, halves away from zero. -/
def roundAway (x : ℚ) : Int := if 0 ≤ x then ⌊x + 1 / 2⌋ else ⌈x - 1 / 2⌉

/-- The assignment `da_int val = std::round(x)`: undefined for NaN, infinities and values
outside the integer type (64 bits). -/
def toDaInt (x : Option ℚ) : Option Int := do
  let q ← x
  let r := roundAway q
  if -(2 ^ 63) ≤ r ∧ r < 2 ^ 63 then some r else none

inductive Status | success | invalidArrayDimension
deriving DecidableEq, Repr

/-- The loop, da_utils.cpp:653-660.  `val + 1` overflows when `val` is the largest integer,
but then the data is read as not categorical only after the undefined addition. -/
def loop (max : Int) (tol : ℚ) : List (Option ℚ) → Int → Option Int
  | [], n => some n
  | x :: xs, n => do
    let q ← x
    let val ← toDaInt x
    if |(val : ℚ) - q| > tol ∨ val < 0 then some (-1)
    else if val = 2 ^ 63 - 1 then none
    else if val + 1 > max then some (-1)
    else if val + 1 > n then loop max tol xs (val + 1)
    else loop max tol xs n

/-- The whole function; `data = none` is a null pointer. Result: status and the value left in
`n_categories` (`none` if it is not assigned). -/
def checkCategorical (data : Option (List (Option ℚ))) (max : Int) (tol : ℚ) :
    Option (Status × Option Int) :=
  match data with
  | none => some (.invalidArrayDimension, none)
  | some l =>
    if l.length < 1 then some (.invalidArrayDimension, none)
    else (loop max tol l (-1)).map fun n => (.success, some n)

end Verif.Categorical
