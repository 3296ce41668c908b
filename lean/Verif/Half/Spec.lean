import Mathlib.Algebra.Order.Field.Rat
import Mathlib.Algebra.Order.AbsoluteValue.Basic
import Mathlib.Data.Nat.Bitwise

/-!
IEEE 754 binary32 and binary16, as far as bit patterns, values and rounding are concerned.
-/
namespace Verif.Half

/-- A binary format: number of bits of the exponent and of the fraction. -/
structure Format where
  expBits : Nat
  fracBits : Nat

def binary32 : Format := ⟨8, 23⟩
def binary16 : Format := ⟨5, 10⟩

namespace Format
variable (F : Format)

def fraction (b : Nat) : Nat := b % 2 ^ F.fracBits
def exponent (b : Nat) : Nat := b / 2 ^ F.fracBits % 2 ^ F.expBits
def negative (b : Nat) : Bool := b / 2 ^ (F.fracBits + F.expBits) % 2 == 1
def bias : Int := 2 ^ (F.expBits - 1) - 1

/-- Patterns of the format. -/
def Pattern (b : Nat) : Prop := b < 2 ^ (1 + F.expBits + F.fracBits)
def Finite (b : Nat) : Prop := F.exponent b ≠ 2 ^ F.expBits - 1
def Infinite (b : Nat) : Prop := F.exponent b = 2 ^ F.expBits - 1 ∧ F.fraction b = 0
def NaN (b : Nat) : Prop := F.exponent b = 2 ^ F.expBits - 1 ∧ F.fraction b ≠ 0

/-- The value of a finite number. -/
def value (b : Nat) : ℚ :=
  (if F.negative b then -1 else 1) *
    (if F.exponent b = 0 then (F.fraction b : ℚ) * 2 ^ (1 - F.bias - F.fracBits)
     else ((2 ^ F.fracBits + F.fraction b : ℕ) : ℚ) * 2 ^ ((F.exponent b : Int) - F.bias - F.fracBits))

/-- `b` is a number nearest to `v`, and the even one of two. -/
def Nearest (v : ℚ) (b : Nat) : Prop :=
  F.Pattern b ∧ F.Finite b ∧ ∀ c, F.Pattern c → F.Finite c →
    |v - F.value b| ≤ |v - F.value c| ∧ (|v - F.value b| = |v - F.value c| → F.value b ≠ F.value c → b % 2 = 0)

end Format

example : binary16.value 0x3C00 = 1 ∧ binary16.value 0xC500 = -5 ∧ binary16.value 0x7BFF = 65504 ∧ binary16.value 1 = 1 / 2 ^ 24 ∧ binary32.value 0x40490000 = 3.140625 := by
  decide +kernel

end Verif.Half
