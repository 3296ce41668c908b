import Verif.HalfBlas.Model
import Mathlib.Algebra.Order.Group.Abs

/-!
`lange` and `cblas_iamax` for `_Float16`, fp16_helpers.hpp:680-780.  A number is `some` element of an ordered field, with exact arithmetic, or
`none`, NaN.  Infinities are not modelled: nothing overflows and the only divisions are by numbers that are not zero.
-/
namespace Verif.HalfBlas

variable {K : Type} [Field K] [LinearOrder K]

/-- `x < y`, false when one is NaN. -/
def less : Option K → Option K → Bool
  | some x, some y => decide (x < y)
  | _, _ => false

/-- An operation on numbers; NaN if an operand is NaN. -/
def op2 (f : K → K → K) : Option K → Option K → Option K
  | some x, some y => some (f x y)
  | _, _ => none

/-- `if (temp < zero) temp = -temp;`. -/
def absolute (x : Option K) : Option K := if less x (some 0) then x.map (fun a => -a) else x

/-- `if (value < temp || temp != temp) value = temp;`. -/
def larger (value temp : Option K) : Option K := if less value temp || temp.isNone then temp else value

/-- The four norms of `lange`. -/
inductive Kind | max | one | inf | fro
  deriving DecidableEq

/-- The choice of the norm by the first character, fp16_helpers.hpp:712-716, 727, 740, 757; `none`: the value is 0. -/
def kindOf (norm : Char) : Option Kind :=
  let c := if 'a' ≤ norm ∧ norm ≤ 'z' then Char.ofNat (norm.toNat - 32) else norm
  if c = 'M' then some .max else if c = 'O' ∨ norm = '1' then some .one else if c = 'I' then some .inf
  else if c = 'F' ∨ c = 'E' then some .fro else none

/-- One turn of the loop of the Frobenius norm, fp16_helpers.hpp:763-773; state (scale, sum). -/
def froStep (a : Option K) (s : Option K × Option K) : Option K × Option K :=
  let temp := absolute a
  if less s.1 temp then
    let ratio := op2 (· / ·) s.1 temp
    (temp, op2 (· + ·) (some 1) (op2 (· * ·) (op2 (· * ·) s.2 ratio) ratio))
  else if less (some 0) temp then
    let ratio := op2 (· / ·) temp s.1
    (s.1, op2 (· + ·) s.2 (op2 (· * ·) ratio ratio))
  else s

/-- `lange`, fp16_helpers.hpp:702-780; `A` is the memory of the matrix, `work` the memory of the work array, `sqrt` the square root. -/
def lange (sqrt : K → K) (kind : Option Kind) (m n : Nat) (A : Nat → Option K) (lda : Nat) (work : Nat → Option K) : Option K :=
  if m = 0 ∨ n = 0 then some 0
  else match kind with
  | none => some 0
  | some .max => forUp n (fun j value => forUp m (fun i value => larger value (absolute (A (i + j * lda)))) value) (some 0)
  | some .one => forUp n (fun j value =>
      let sum := forUp m (fun i sum => op2 (· + ·) sum (absolute (A (i + j * lda)))) (some 0)
      larger value sum) (some 0)
  | some .inf =>
      let work := forUp m (fun i w => put w i (some 0)) work
      let work := forUp n (fun j w => forUp m (fun i w => put w i (op2 (· + ·) (w i) (absolute (A (i + j * lda))))) w) work
      forUp m (fun i value => larger value (work i)) (some 0)
  | some .fro =>
      let s := forUp n (fun j s => forUp m (fun i s => froStep (A (i + j * lda)) s) s) (some 0, some 1)
      op2 (· * ·) s.1 (s.2.map sqrt)

/-- `cblas_iamax`, fp16_helpers.hpp:680-693; state (imax, vmax). -/
def iamax (n : Nat) (x : Nat → Option K) (incx : Nat) : Nat :=
  if n = 0 then 0
  else (forUp (n - 1) (fun t s =>
    let v := absolute (x ((t + 1) * incx))
    if less s.2 v then (t + 1, v) else s) (0, absolute (x 0))).1

end Verif.HalfBlas
