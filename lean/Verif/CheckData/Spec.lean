import Verif.CheckData.Model
import Mathlib.Algebra.Order.Field.Basic
import Mathlib.Algebra.Order.Ring.Abs

/-
What the properties of the checks say; of the model only the data types are used.
-/
namespace Verif.CheckData

/-- Entry (i, j) of a matrix. -/
def entry (row : Bool) (X : Nat → Num) (ld : Int) (i j : Nat) : Num := if row then X (i * ld.toNat + j) else X (i + j * ld.toNat)

/-- The numbers of a binary format with `prec` digits and smallest exponent `emin`. -/
def Rep (prec : Nat) (emin : Int) (x : ℚ) : Prop := ∃ m e : Int, |m| < 2 ^ prec ∧ emin ≤ e ∧ x = m * 2 ^ e

/-- `r` is a number of the format nearest to `x`. -/
def Nearest (prec : Nat) (emin : Int) (x r : ℚ) : Prop := Rep prec emin r ∧ ∀ y, Rep prec emin y → |r - x| ≤ |y - x|

/-- The rounding serves the entries of a matrix: they are numbers of the format, and adding 1 is rounded to nearest. -/
def Serves (prec : Nat) (emin : Int) (rnd : ℚ → ℚ) (row : Bool) (n m : Int) (X : Nat → Num) (ld : Int) : Prop :=
  ∀ i j : Nat, i < n.toNat → j < m.toNat → ∀ x, entry row X ld i j = .fin x → Rep prec emin x ∧ Nearest prec emin (x + 1) (rnd (x + 1))

end Verif.CheckData
