import Mathlib.Data.Rat.Defs
import Mathlib.Algebra.Order.Ring.Rat
import Mathlib.Tactic.NormNum

/-
Model of the cell readers of the CSV parser (`source/core/csv/char_to_num.hpp`,
macros from `source/core/csv/portable.h` 43-46).

A C string is the list of its bytes without the terminating NUL; a pointer into
it is the remaining suffix.
-/
namespace Verif.Parse

/-- `*p`: the terminator is 0. -/
def cur (p : List Nat) : Nat := p.headD 0

/-- `isdigit_ascii` (portable.h 43). -/
def isDigit (c : Nat) : Bool := decide (48 ≤ c ∧ c < 58)

/-- `isspace_ascii` (portable.h 45): blank or one of the codes 9..13. -/
def isSpace (c : Nat) : Bool := decide (c = 32 ∨ (9 ≤ c ∧ c < 14))

/-- `toupper_ascii` (portable.h 46). -/
def toUpper (c : Nat) : Nat := if 97 ≤ c ∧ c < 123 then c - 32 else c

/-- `while (isspace_ascii(*p)) ++p;` -/
def skipSpace : List Nat → List Nat
  | [] => []
  | c :: p => if isSpace c then skipSpace p else c :: p

/-- Outcome of a reader: the value stored and where reading stopped, a parsing
error, or undefined behaviour (signed overflow, array index out of range). -/
inductive Res (α : Type) where
  | ok (v : α) (rest : List Nat)
  | err
  | ub
deriving DecidableEq, Repr

/-- The range of the integer type. -/
structure Range where
  lo : Int
  hi : Int

/-- `int64_t` (tokenizer.c 124-125) and `int32_t` (char_to_num.hpp 528-529). -/
def int64 : Range := ⟨-9223372036854775808, 9223372036854775807⟩
def int32 : Range := ⟨-2147483648, 2147483647⟩

/-- Is the value representable? -/
def Range.fits (r : Range) (v : Int) : Bool := decide (r.lo ≤ v ∧ v ≤ r.hi)

/-- The optional sign: returns `isneg` and the new position. -/
def readSign (p : List Nat) : Bool × List Nat :=
  match p with
  | [] => (false, [])
  | c :: q => if c = 45 then (true, q) else if c = 43 then (false, q) else (false, c :: q)

/-- The digit loops for negative numbers (char_to_num.hpp 437-466; 32 bit 567-596):
`tsep = 0` means no thousands separator.  `n` is `*number`.  The product and the
difference are checked for overflow. -/
def negLoop (r : Range) (tsep : Nat) : List Nat → Int → Res Int
  | [], n => .ok n []
  | d :: p, n =>
    if tsep ≠ 0 ∧ d = tsep then negLoop r tsep p n
    else if isDigit d then
      if n > r.lo.tdiv 10 ∨ (n = r.lo.tdiv 10 ∧ ((d : Int) - 48) ≤ -(r.lo.tmod 10)) then
        if r.fits (n * 10) && r.fits (n * 10 - ((d : Int) - 48)) then
          negLoop r tsep p (n * 10 - ((d : Int) - 48))
        else .ub
      else .err
    else .ok n (d :: p)

/-- The digit loops for non-negative numbers (char_to_num.hpp 473-504; 32 bit
603-634). -/
def posLoop (r : Range) (tsep : Nat) : List Nat → Int → Res Int
  | [], n => .ok n []
  | d :: p, n =>
    if tsep ≠ 0 ∧ d = tsep then posLoop r tsep p n
    else if isDigit d then
      if n < r.hi.tdiv 10 ∨ (n = r.hi.tdiv 10 ∧ ((d : Int) - 48) ≤ r.hi.tmod 10) then
        if r.fits (n * 10) && r.fits (n * 10 + ((d : Int) - 48)) then
          posLoop r tsep p (n * 10 + ((d : Int) - 48))
        else .ub
      else .err
    else .ok n (d :: p)

/-- `char_to_num` for `int64_t` (char_to_num.hpp 396-523) and `int32_t` (525-653).
The partial value left in `*number` on an error is not modelled: the callers
discard it. -/
def parseInt (r : Range) (tsep : Nat) (str : List Nat) : Res Int :=
  let p := skipSpace str
  let (isneg, p) := readSign p
  if !isDigit (cur p) then .err
  else
    match (if isneg then negLoop r tsep p 0 else posLoop r tsep p 0) with
    | .ub => .ub
    | .err => .err
    | .ok n p =>
      let p := skipSpace p
      if cur p ≠ 0 then .err else .ok n p

/-- Parser members used by the real-valued readers, and the constants that differ
between `double` (`max_digits` 17, `e[0..308]`) and `float` (9, `e[0..38]`). -/
structure FloatCfg where
  decimal : Nat
  sci : Nat
  tsep : Nat
  skipTrailing : Bool
  maxDigits : Nat
  maxExp : Int

/-- Integer part (char_to_num.hpp 133-144): `(number, num_digits, exponent)`. -/
def intPart (c : FloatCfg) : List Nat → Nat → Nat → Int → Nat × Nat × Int × List Nat
  | [], num, nd, ex => (num, nd, ex, [])
  | d :: p, num, nd, ex =>
    if isDigit d then
      let num' := if nd < c.maxDigits then num * 10 + (d - 48) else num
      let nd' := if nd < c.maxDigits then nd + 1 else nd
      let ex' := if nd < c.maxDigits then ex else ex + 1
      match p with
      | [] => (num', nd', ex', [])
      | s :: q =>
        if c.tsep ≠ 0 ∧ s = c.tsep then intPart c q num' nd' ex' else intPart c (s :: q) num' nd' ex'
    else (num, nd, ex, d :: p)

/-- Decimal digits (char_to_num.hpp 152-157): `(number, num_digits, num_decimals)`. -/
def fracPart (c : FloatCfg) : List Nat → Nat → Nat → Nat → Nat × Nat × Nat × List Nat
  | [], num, nd, dec => (num, nd, dec, [])
  | d :: p, num, nd, dec =>
    if nd < c.maxDigits ∧ isDigit d then fracPart c p (num * 10 + (d - 48)) (nd + 1) (dec + 1)
    else (num, nd, dec, d :: p)

/-- `while (isdigit_ascii(*p)) ++p;` (char_to_num.hpp 160-161). -/
def skipDigits : List Nat → List Nat
  | [] => []
  | d :: p => if isDigit d then skipDigits p else d :: p

/-- Exponent digits (char_to_num.hpp 192-198): `n` is an `int`; `none` is its
overflow. -/
def expDigits (c : FloatCfg) : List Nat → Int → Nat → Option (Int × Nat × List Nat)
  | [], n, nd => some (n, nd, [])
  | d :: p, n, nd =>
    if nd < c.maxDigits ∧ isDigit d then
      if int32.fits (n * 10) && int32.fits (n * 10 + ((d : Int) - 48)) then
        expDigits c p (n * 10 + ((d : Int) - 48)) (nd + 1)
      else none
    else some (n, nd, d :: p)

/-- Scaling (char_to_num.hpp 210-226) in exact arithmetic; `none` is the overflow
exit.  The final test for infinity (228-229) can only fire through rounding or
overflow of the floating-point type and is not modelled. -/
def scale (c : FloatCfg) (num : Rat) (ex : Int) : Option Rat :=
  if ex > c.maxExp then none
  else if ex > 0 then some (num * 10 ^ ex.toNat)
  else if ex < -c.maxExp then
    if ex < -(2 * c.maxExp) then some 0
    else some (num / 10 ^ (-c.maxExp - ex).toNat / 10 ^ c.maxExp.toNat)
  else some (num / 10 ^ (-ex).toNat)

/-- `char_to_num` for `double` (char_to_num.hpp 64-240) and `float` (242-394) with
exact rational arithmetic in place of floating point.  The `exponent` counter is an
`int`; the digit count that would overflow it (a cell of 2^31 digits) is not
modelled, the addition of the written exponent is. -/
def parseFloat (c : FloatCfg) (str : List Nat) : Res Rat :=
  let p := skipSpace str
  let (neg, p) := readSign p
  let (num, nd, ex, p) := intPart c p 0 0 0
  -- an empty `decimal` option makes the terminator look like a decimal point and the
  -- reader continues behind the end of the string
  if cur p = c.decimal ∧ p = [] then .ub else
  let (num, nd, ex, p) :=
    if cur p = c.decimal then
      let (num, nd, dec, p) := fracPart c (p.drop 1) num nd 0
      let p := if nd ≥ c.maxDigits then skipDigits p else p
      (num, nd, ex - dec, p)
    else (num, nd, ex, p)
  if nd = 0 then .err
  else
    let v : Rat := if neg then -(num : Rat) else num
    let fin (ex : Int) (p : List Nat) : Res Rat :=
      match scale c v ex with
      | none => .err
      | some v => .ok v (if c.skipTrailing then skipSpace p else p)
    if toUpper (cur p) = toUpper c.sci then
      -- the same for an empty `scientific notation character`
      if p = [] then .ub else
      let (eneg, q) := readSign (p.drop 1)
      match expDigits c q 0 0 with
      | none => .ub
      | some (n, end_, q') =>
        let ex' := if eneg then ex - n else ex + n
        if int32.fits ex' then
          -- "un-consume": `p--` when there were no digits
          fin ex' (if end_ = 0 then p.drop (p.length - q.length - 1) else q')
        else .ub
    else fin ex p

/-- `double` with the default options (decimal point, `E`, no separator). -/
def doubleCfg : FloatCfg :=
  { decimal := 46, sci := 69, tsep := 0, skipTrailing := true, maxDigits := 17, maxExp := 308 }

def floatCfg : FloatCfg := { doubleCfg with maxDigits := 9, maxExp := 38 }

/-- Case-insensitive comparison of the first characters with an upper-case word
(`strncasecmp(p, word, n) == 0`). -/
def prefixNoCase : List Nat → List Nat → Bool
  | [], _ => true
  | _ :: _, [] => false
  | w :: ws, c :: cs => toUpper c == w && prefixNoCase ws cs

/-- `char_to_num` for `uint8_t` (char_to_num.hpp 670-707). -/
def parseBool (str : List Nat) : Res Nat :=
  let p := skipSpace str
  if prefixNoCase [84, 82, 85, 69] p then
    if p.length > 4 ∧ !isSpace (cur (p.drop 4)) then .err else .ok 1 p
  else if prefixNoCase [70, 65, 76, 83, 69] p then
    if p.length > 5 ∧ !isSpace (cur (p.drop 5)) then .err else .ok 0 p
  else .err

end Verif.Parse
