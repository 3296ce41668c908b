import Mathlib.Data.Nat.Digits.Defs
import Mathlib.Algebra.Order.Ring.Rat
import Mathlib.Algebra.GroupWithZero.Basic

/-
What a cell of text denotes, written without the reader.
-/
namespace Verif.Parse

/-- ASCII digits and blanks. -/
def Digit (c : Nat) : Prop := 48 ≤ c ∧ c ≤ 57
def Blank (c : Nat) : Prop := c = 32 ∨ (9 ≤ c ∧ c ≤ 13)

instance (c : Nat) : Decidable (Digit c) := by unfold Digit; infer_instance
instance (c : Nat) : Decidable (Blank c) := by unfold Blank; infer_instance

/-- The number written by a list of digit characters, most significant first. -/
def digitsValue (ds : List Nat) : Nat := Nat.ofDigits 10 (ds.reverse.map (· - 48))

/-- The text is an integer with value `v`: blanks, an optional sign, a digit followed
by digits and (when `tsep` is not NUL) separators, blanks. -/
def IntCell (tsep : Nat) (s : List Nat) (v : Int) : Prop :=
  ∃ ws sg body ws' : List Nat,
    s = ws ++ sg ++ body ++ ws' ∧
    (∀ c ∈ ws, Blank c) ∧ (∀ c ∈ ws', Blank c) ∧
    (sg = [] ∨ sg = [43] ∨ sg = [45]) ∧
    (∃ d b, body = d :: b ∧ Digit d) ∧
    (∀ c ∈ body, Digit c ∨ (tsep ≠ 0 ∧ c = tsep)) ∧
    v = (if sg = [45] then -1 else 1) *
      (digitsValue (if tsep = 0 then body else body.filter (· ≠ tsep)) : Int)

/-- Digits `ds` written as text, where every digit may be followed by one thousands
separator. -/
inductive Grouped (tsep : Nat) : List Nat → List Nat → Prop
  | nil : Grouped tsep [] []
  | digit {d t ds} : Digit d → Grouped tsep t ds → Grouped tsep (d :: t) (d :: ds)
  | sep {d t ds} : Digit d → tsep ≠ 0 → Grouped tsep t ds → Grouped tsep (d :: tsep :: t) (d :: ds)

/-- The same letter up to ASCII case. -/
def SameLetter (a b : Nat) : Prop := a = b ∨ (97 ≤ a ∧ a ≤ 122 ∧ a = b + 32) ∨ (97 ≤ b ∧ b ≤ 122 ∧ b = a + 32)

/-- The exponent field: absent, or the letter, an optional sign and at least one
digit; `n` is the number of digits. -/
def ExpField (sci : Nat) (t : List Nat) (e : Int) (n : Nat) : Prop :=
  (t = [] ∧ e = 0 ∧ n = 0) ∨
  ∃ l sg ds, t = l :: (sg ++ ds) ∧ SameLetter l sci ∧ (sg = [] ∨ sg = [43] ∨ sg = [45]) ∧
    ds ≠ [] ∧ (∀ c ∈ ds, Digit c) ∧ n = ds.length ∧
    e = (if sg = [45] then -1 else 1) * (digitsValue ds : Int)

/-- The text is a decimal number with value `v`: blanks, an optional sign, digits
with an optional decimal point (at least one digit), an optional exponent, blanks.
`ni` significant digits are written, `ne` exponent digits, and `e` is the power of ten by
which the digit string is multiplied. -/
def FloatCell (decimal sci tsep : Nat) (s : List Nat) (v : Rat) (ni ne : Nat) (e : Int) : Prop :=
  ∃ ws sg ip ids fp fds ep ex ws',
    s = ws ++ (sg ++ (ip ++ (fp ++ (ep ++ ws')))) ∧
    (∀ c ∈ ws, Blank c) ∧ (∀ c ∈ ws', Blank c) ∧
    (sg = [] ∨ sg = [43] ∨ sg = [45]) ∧
    Grouped tsep ip ids ∧
    ((fp = [] ∧ fds = []) ∨ fp = decimal :: fds) ∧ (∀ c ∈ fds, Digit c) ∧
    ids.length + fds.length ≠ 0 ∧
    ExpField sci ep ex ne ∧
    ni = ids.length + fds.length ∧ e = ex - fds.length ∧
    v = (if sg = [45] then -1 else 1) * (digitsValue (ids ++ fds) : Rat) * (10 : Rat) ^ e

end Verif.Parse
