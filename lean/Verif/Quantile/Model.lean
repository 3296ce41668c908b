/-
`da_quantile_*`, /repo/source/core/basic_statistics/order_statistics.cpp:42-330.

Values are exact elements of an ordered field with floor.  `denoise_cast` (lines 98-107) is the
identity for `double`; its `float` variant, rounding and NaN are not modelled.  Memory exhaustion
is not modelled.  `std::nth_element` is a parameter `nth` and the index order produced by
`std::sort` is a parameter `order`; the theorems assume no more of them than the C++ standard says.
Reading outside a buffer is undefined behaviour (`none`).
-/
import Verif.Copies.Model
import Mathlib.Algebra.Order.Floor.Ring
namespace Verif.Quantile
open Verif.Copies (Order)

variable {K : Type} [Field K] [LinearOrder K] [FloorRing K]

inductive Status
  | success | invalidPointer | invalidArrayDimension | invalidInput | invalidLeadingDimension | internalError
deriving DecidableEq, Repr

/-- `da_axis`. -/
inductive Axis | col | row | all
deriving DecidableEq, Repr

/-- `da_quantile_type`, /repo/source/include/aoclda_basic_statistics.h:64-74. -/
inductive QType | t1 | t2 | t3 | t4 | t5 | t6 | t7 | t8 | t9
deriving DecidableEq, Repr

/-- `*std::max_element`. -/
def maxElement : List K → Option K
  | [] => none
  | a :: l => some (l.foldl (fun m x => if m < x then x else m) a)

/-- `*std::min_element`. -/
def minElement : List K → Option K
  | [] => none
  | a :: l => some (l.foldl (fun m x => if x < m then x else m) a)

/-- `quick_selection`, lines 47-74; the new contents of `x` and `(val1, val2)`.  The inner `none`
is `da_status_internal_error`. -/
def quickSelection (nth : List K → Nat → List K) (x : List K) (i1 i2 : Nat) : Option (Option (List K × K × K)) :=
  let idx1 := if i1 > i2 then i2 else i1
  let idx2 := if i1 > i2 then i1 else i2
  if idx2 - idx1 ≠ 0 ∧ idx2 - idx1 ≠ 1 then some none
  else if idx1 = idx2 then
    let x' := nth x idx1
    match x'[idx1]? with
    | some v => some (some (x', v, v))
    | none => none
  else if (idx1 : Int) < x.length - 1 - idx2 then
    let x' := nth x idx2
    match x'[idx2]?, maxElement (x'.take idx2) with
    | some v2, some v1 => some (some (x', v1, v2))
    | _, _ => none
  else
    let x' := nth x idx1
    match x'[idx1]?, minElement (x'.drop idx2) with
    | some v1, some v2 => some (some (x', v1, v2))
    | _, _ => none

/-- `validate_quantile_parameters`, lines 77-97; `ptrs` says that no pointer is null. -/
def validate (ptrs : Bool) (order : Order) (n p ldx nq : Int) : Status :=
  if !ptrs then .invalidPointer
  else if n < 1 ∨ p < 1 then .invalidArrayDimension
  else if nq < 1 then .invalidInput
  else if order = .colMajor ∧ n > ldx then .invalidLeadingDimension
  else if order = .rowMajor ∧ p > ldx then .invalidLeadingDimension
  else .success

/-- `h[i]` of `get_quantile_indices`, lines 118-158. -/
def quantileIndex (t : QType) (length : K) (q : K) : K :=
  (match t with
  | .t1 => length * q
  | .t2 => length * q + 1 / 2
  | .t3 => length * q - 1 / 2
  | .t4 => length * q
  | .t5 => length * q + 1 / 2
  | .t6 => (length + 1) * q
  | .t7 => (length - 1) * q + 1
  | .t8 => (length + 1 / 3) * q + 1 / 3
  | .t9 => (length + 1 / 4) * q + 3 / 8) - 1

/-- `std::nearbyint` in the default rounding mode. -/
def nearbyint (x : K) : Int :=
  if x - ⌊x⌋ < 1 / 2 then ⌊x⌋
  else if 1 / 2 < x - ⌊x⌋ then ⌊x⌋ + 1
  else if ⌊x⌋ % 2 = 0 then ⌊x⌋ else ⌊x⌋ + 1

/-- `std::clamp((da_int)v, 0, length - 1)`. -/
def clamp (v : Int) (length : Nat) : Nat := (if v < 0 then 0 else if (length : Int) - 1 < v then (length : Int) - 1 else v).toNat

/-- `(h1, h2)`, lines 274-298. -/
def ranks (t : QType) (h : K) (length : Nat) : Nat × Nat :=
  match t with
  | .t1 => (clamp ⌈h⌉ length, clamp ⌈h⌉ length)
  | .t2 => (clamp ⌈h - 1 / 2⌉ length, clamp ⌊h + 1 / 2⌋ length)
  | .t3 => (clamp (nearbyint h) length, clamp (nearbyint h) length)
  | _ => (clamp ⌊h⌋ length, clamp ⌈h⌉ length)

/-- The value stored, lines 310-318; `none` when the code stores nothing. -/
def combine (t : QType) (h : K) (h1 h2 : Nat) (v1 v2 : K) : Option K :=
  if h1 = h2 then some v1
  else if t = .t2 then some (1 / 2 * (v1 + v2))
  else if t ≠ .t1 ∧ t ≠ .t3 then some (v1 + (h - h1) * (v2 - v1))
  else none

/-- State of the loop over the quantiles of one statistic. -/
structure Loop (K : Type) where
  work : List K
  lastFloor : Nat
  lastCeil : Nat
  tmp1 : K
  tmp2 : K

/-- One iteration of the loop of lines 268-322: the new state and the stored value.  Inner `none`:
an error status. -/
def loopStep (nth : List K → Nat → List K) (t : QType) (length : Nat) (first : Bool) (st : Loop K) (h : K) :
    Option (Option (Loop K × Option K)) :=
  let h1 := (ranks t h length).1
  let h2 := (ranks t h length).2
  if first ∨ h1 ≠ st.lastFloor ∨ h2 ≠ st.lastCeil then
    if h1 < st.lastCeil ∨ h2 < st.lastCeil then none   -- negative subscript
    else
      match quickSelection nth (st.work.drop st.lastCeil) (h1 - st.lastCeil) (h2 - st.lastCeil) with
      | none => none
      | some none => some none
      | some (some (x', v1, v2)) =>
        some (some (⟨st.work.take st.lastCeil ++ x', h1, h2, v1, v2⟩, combine t h h1 h2 v1 v2))
  else some (some ({ st with lastFloor := h1, lastCeil := h2 }, combine t h h1 h2 st.tmp1 st.tmp2))

/-- The loop over the sorted indices: list of `(orig_h_idx, value)`. -/
def loop (nth : List K → Nat → List K) (t : QType) (length : Nat) (h : List K) :
    Bool → Loop K → List Nat → Option (Option (List (Nat × Option K)))
  | _, _, [] => some (some [])
  | first, st, o :: rest =>
    match h[o]? with
    | none => none
    | some ho =>
      match loopStep nth t length first st ho with
      | none => none
      | some none => some none
      | some (some (st', v)) =>
        match loop nth t length h false st' rest with
        | none => none
        | some none => some none
        | some (some l) => some (some ((o, v) :: l))

/-- `(num_stats, length)`, lines 179-197. -/
def extents (axis : Axis) (n p : Nat) : Nat × Nat :=
  match axis with
  | .col => (p, n)
  | .row => (n, p)
  | .all => (1, n * p)

/-- `transpose_x`, lines 218-219. -/
def transposed (order : Order) (axis : Axis) : Bool :=
  (order = .colMajor ∧ axis = .row) ∨ (order = .rowMajor ∧ axis = .col)

/-- Subscripts of `x` copied to `work` for statistic `i`, lines 240-264. -/
def gather (order : Order) (axis : Axis) (n p ldx i : Nat) : List Nat :=
  match axis with
  | .all =>
    let dim1 := if order = .colMajor then n else p
    let dim2 := if order = .colMajor then p else n
    (List.range dim2).flatMap fun a => (List.range dim1).map fun b => a * ldx + b
  | axis =>
    let length := (extents axis n p).2
    if transposed order axis then (List.range length).map fun j => i + j * ldx
    else (List.range length).map fun j => i * ldx + j

/-- Output subscript of quantile `j` of statistic `i`, lines 226 and 308-309. -/
def outIndex (order : Order) (numStats nq i j : Nat) : Nat :=
  if order = .rowMajor then j * numStats + i else i * nq + j

/-- The stores of one statistic. -/
def statWrites (nth : List K → Nat → List K) (sorted : List Nat) (t : QType) (order : Order) (axis : Axis)
    (n p ldx : Nat) (x : List K) (h : List K) (i : Nat) : Option (Option (List (Nat × Option K))) :=
  match (gather order axis n p ldx i).mapM fun a => x[a]? with
  | none => none
  | some work =>
    match loop nth t (extents axis n p).2 h true ⟨work, 0, 0, 0, 0⟩ sorted with
    | none => none
    | some none => some none
    | some (some l) => some (some (l.map fun w => (outIndex order (extents axis n p).1 h.length i w.1, w.2)))

/-- The early exit for `length == 1`, lines 222-231. -/
def singleWrites (order : Order) (axis : Axis) (numStats ldx : Nat) (x : List K) (nq : Nat) :
    Option (List (Nat × Option K)) :=
  ((List.range numStats).flatMap fun i => (List.range nq).map fun j => (i, j)).mapM fun ij =>
    (x[ij.1 * (if transposed order axis then 1 else ldx)]?).map fun v => (outIndex order numStats nq ij.1 ij.2, some v)

/-- All statistics, lines 251-323. -/
def allWrites (nth : List K → Nat → List K) (sorted : List Nat) (t : QType) (order : Order) (axis : Axis)
    (n p ldx : Nat) (x : List K) (h : List K) : List Nat → Option (Option (List (Nat × Option K)))
  | [] => some (some [])
  | i :: is =>
    match statWrites nth sorted t order axis n p ldx x h i with
    | none => none
    | some none => some none
    | some (some l) =>
      match allWrites nth sorted t order axis n p ldx x h is with
      | none => none
      | some none => some none
      | some (some l') => some (some (l ++ l'))

/-- `quantile`, lines 164-326: status and the stores to `quantiles` (subscript, value).
`sortIdx` is what `std::sort` makes of the indices `0 .. n_q-1` (lines 211-215). -/
def quantile (nth : List K → Nat → List K) (sortIdx : List K → List Nat) (ptrs : Bool) (order : Order) (axis : Axis)
    (n p : Int) (x : List K) (ldx : Int) (q : List K) (t : QType) : Option (Status × List (Nat × Option K)) :=
  let s := validate ptrs order n p ldx q.length
  if s ≠ .success then some (s, [])
  else if q.any fun v => decide (v < 0 ∨ v > 1) then some (.invalidInput, [])
  else
    let e := extents axis n.toNat p.toNat
    let h := q.map (quantileIndex t (e.2 : K))
    if e.2 = 1 then (singleWrites order axis e.1 ldx.toNat x q.length).map fun w => (.success, w)
    else
      match allWrites nth (sortIdx h) t order axis n.toNat p.toNat ldx.toNat x h (List.range e.1) with
      | none => none
      | some none => some (.internalError, [])
      | some (some w) => some (.success, w)

end Verif.Quantile
