/-!
Conversions between binary32 and binary16, fp16_helpers.hpp:117-183.  A number is its bit pattern, a natural number
below 2^32 or 2^16.
-/
namespace Verif.Half

/-- `f32_to_f16_bits`, fp16_helpers.hpp:118-153.  `uint16_t` and `uint32_t` values are natural numbers; no operation leaves
their range (the shift of line 145 is between 14 and 23). -/
def toHalf (fbits : Nat) : Nat :=
  let sign := (fbits >>> 16) &&& 0x8000
  let exponent : Int := (((fbits >>> 23) &&& 0xFF : Nat) : Int) - 127
  let mantissa := fbits &&& 0x7FFFFF
  if exponent = 128 then sign ||| 0x7C00 ||| (if mantissa ≠ 0 then 0x0200 else 0)
  else if exponent > 15 then sign ||| 0x7C00
  else if exponent > -15 then
    let hmant := mantissa >>> 13
    let rem := mantissa &&& 0x1FFF
    if rem > 0x1000 ∨ (rem = 0x1000 ∧ hmant &&& 1 ≠ 0) then
      let hmant := hmant + 1
      let next : Nat × Int := if hmant = 0x0400 then (0, exponent + 1) else (hmant, exponent)
      if next.2 > 15 then sign ||| 0x7C00
      else sign ||| ((next.2 + 15).toNat <<< 10) ||| next.1
    else sign ||| ((exponent + 15).toNat <<< 10) ||| hmant
  else if exponent ≥ -24 then
    let mantissa := mantissa ||| 0x800000
    let shift := (13 - (exponent + 14)).toNat
    let hmant := mantissa >>> shift
    let rem := mantissa &&& ((1 <<< shift) - 1)
    let halfway := 1 <<< (shift - 1)
    if rem > halfway ∨ (rem = halfway ∧ hmant &&& 1 ≠ 0) then sign ||| (hmant + 1) else sign ||| hmant
  else sign

/-- `while (!(mantissa & 0x400u))`, fp16_helpers.hpp:166-169; `none` when it takes more than `fuel` turns. -/
def normalise : Nat → Nat → Int → Option (Nat × Int)
  | 0, _, _ => none
  | fuel + 1, mantissa, exponent => if mantissa &&& 0x400 ≠ 0 then some (mantissa, exponent) else normalise fuel (mantissa <<< 1) (exponent - 1)

/-- `f16_bits_to_f32`, fp16_helpers.hpp:156-183; `none`: the loop does not end. -/
def toFloat (a : Nat) : Option Nat :=
  let sign := (a &&& 0x8000) <<< 16
  let exponent := (a >>> 10) &&& 0x1F
  let mantissa := a &&& 0x3FF
  if exponent = 0 then
    if mantissa = 0 then some sign
    else
      match normalise 11 mantissa 1 with
      | none => none
      | some (mantissa, exponent) => some (sign ||| ((exponent + 127 - 15).toNat <<< 23) ||| ((mantissa &&& 0x3FF) <<< 13))
  else if exponent = 31 then some (sign ||| 0x7F800000 ||| (mantissa <<< 13))
  else some (sign ||| (((exponent : Int) + 127 - 15).toNat <<< 23) ||| (mantissa <<< 13))

end Verif.Half
