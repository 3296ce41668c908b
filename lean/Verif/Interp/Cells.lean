import Mathlib.Algebra.Order.Field.Basic
import Mathlib.Algebra.Order.Floor.Ring
import Mathlib.Data.Rat.Floor
import Mathlib.Algebra.Order.Field.Rat

/-
Model of the interpolation sites (`source/core/interpolation/interpolation_generic.hpp`):
`set_sites_1d` (lines 114-192), `set_sites_uniform_1d` (195-239) and `search_cells`
(322-365).

Every floating-point operation is followed by `rd`: the identity for exact arithmetic,
rounding to 24 or 53 bits for the instantiated types.

Simplified: arrays are functions of an index; NaN and infinite values do not occur; the
conversion of a floating-point value to `da_int` is undefined (`none`) outside the range
of the type.
-/
namespace Verif.Interp

variable {F : Type} [Field F] [LinearOrder F] [FloorRing F]

/-- Truncation towards zero. -/
def trunc (x : F) : Int := if 0 ≤ x then ⌊x⌋ else ⌈x⌉

/-- Conversion to `da_int`, whose largest value is `M`. -/
def toInt (M : Int) (x : F) : Option Int :=
  if -M - 1 ≤ trunc x ∧ trunc x ≤ M then some (trunc x) else none

/-- `std::clamp`. -/
def clamp (v lo hi : Int) : Int := if v < lo then lo else if hi < v then hi else v

omit [Field F] [FloorRing F] in
/-- The bisection loops (lines 172-178 and 352-359); the first argument limits the number
of passes. -/
def bisect (x : Nat → F) (v : F) : Nat → Nat → Nat → Nat × Nat
  | 0, left, right => (left, right)
  | k + 1, left, right =>
    if 1 < right - left then
      let mid := (left + right) / 2
      if v < x mid then bisect x v k left mid else bisect x v k mid right
    else (left, right)

/-- `x_target`, `interval_index_lo`, `interval_index_up`. -/
structure Index (F : Type) where
  target : F
  lo : Nat → Nat
  up : Nat → Nat

def upd (a : Nat → Nat) (i v : Nat) : Nat → Nat := fun k => if k = i then v else a k

omit [FloorRing F] in
/-- One pass of the loop that builds the index (lines 168-181). -/
def indexStep (rd : F → F) (n : Nat) (x : Nat → F) (dxIndex : F) (s : Index F) (i : Nat) : Index F :=
  let target := rd (s.target + dxIndex)
  let (left, right) := bisect x target n (s.lo (i - 1)) (n - 1)
  { target := target, lo := upd s.lo i left, up := upd s.up (i - 1) right }

omit [FloorRing F] in
/-- The index (lines 163-187); `index_size = n + 1`. -/
def buildIndex (rd : F → F) (n : Nat) (x : Nat → F) : Index F :=
  let range := rd (x (n - 1) - x 0)
  let dxIndex := rd (range / ((n - 1 : Nat) : F))
  let s := (List.range' 1 (n - 1)).foldl (indexStep rd n x dxIndex)
    { target := x 0, lo := fun _ => 0, up := fun _ => 0 }
  { s with
    lo := upd (upd s.lo (n - 1) (n - 2)) n (n - 2)
    up := upd (upd s.up (n - 1) (n - 1)) n (n - 1) }

omit [FloorRing F] in
/-- Checks of `set_sites_1d`: `none` is an error (lines 120-122 and 152-160). -/
def setSites (rd : F → F) (n : Nat) (x : Nat → F) : Option (Index F) :=
  if n < 2 then none
  else if (List.range (n - 1)).all fun i => !decide (rd (x (i + 1) - x i) ≤ 0) then some (buildIndex rd n x)
  else none

/-- One point of `search_cells`, sites given (lines 344-361). -/
def searchSites (M : Int) (rd : F → F) (n : Nat) (x : Nat → F) (ix : Index F) (v : F) : Option Nat :=
  let range := rd (x (n - 1) - x 0)
  let inv := rd (((n - 1 : Nat) : F) / range)
  match toInt M (rd (rd (v - x 0) * inv)) with
  | none => none
  | some t =>
    let idx := (clamp t 0 ((n - 1 : Nat) : Int)).toNat
    some (bisect x v n (ix.lo idx) (ix.up idx)).1

/-- One point of `search_cells`, uniform sites (lines 337-342); `dx0` is `dx[0]`. -/
def searchUniform (M : Int) (rd : F → F) (n : Nat) (start dx0 v : F) : Option Nat :=
  match toInt M (rd (rd (v - start) / dx0)) with
  | none => none
  | some t => some (clamp t 0 ((n - 2 : Nat) : Int)).toNat

omit [LinearOrder F] [FloorRing F] in
/-- Uniform sites (lines 216, 227-229). -/
def uniformSite (rd : F → F) (n : Nat) (start stop : F) (i : Nat) : F :=
  rd (start + rd ((i : F) * rd (rd (stop - start) / ((n - 1 : Nat) : F))))

/-- Rounding to `p` significant bits, ties to even, unbounded exponent. -/
def round (p : Nat) (q : ℚ) : ℚ :=
  if q = 0 then 0
  else
    let a := |q|
    let e0 : Int := (Nat.log2 q.num.natAbs : Int) - (Nat.log2 q.den : Int)
    let e := if (2 : ℚ) ^ e0 ≤ a then e0 else e0 - 1
    let s := a * (2 : ℚ) ^ ((p : Int) - 1 - e)
    let m := ⌊s⌋
    let r := s - m
    let m' := if r < 1 / 2 then m else if 1 / 2 < r then m + 1 else if m % 2 = 0 then m else m + 1
    (if q < 0 then -1 else 1) * (m' : ℚ) * (2 : ℚ) ^ (e - ((p : Int) - 1))

end Verif.Interp
