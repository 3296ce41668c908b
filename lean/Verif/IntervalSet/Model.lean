/-
Model of `da_interval::interval` and `da_interval::interval_set`
  /repo/source/core/data_management/interval.hpp:35-56
  /repo/source/core/data_management/interval_set.hpp:36-103
  /repo/source/core/data_management/interval_set.cpp:34-171

Simplifications common to the whole file:
* `da_int` is a mathematical integer (`lb - 1`, `ub + 1` cannot overflow); the
  callers in data_store.hpp only pass `0 <= lb`, `ub < n_rows`/`n_cols`.
* `std::set<interval, comp_interval_set>` is the list of its elements in
  increasing comparator order.  An iterator is `none` for `end()` and
  `some x` for an iterator to the (unique) element `x`.
-/
namespace Verif.IntervalSet

/-- `struct interval`, interval.hpp:35-36. -/
structure Ivl where
  lower : Int
  upper : Int
deriving DecidableEq, Repr

/-- `interval::contains`, interval.hpp:43. -/
def Ivl.contains (i : Ivl) (v : Int) : Bool := decide (v ≥ i.lower) && decide (v ≤ i.upper)

/-- `interval::is_valid_idx`, interval.hpp:49-55. -/
def Ivl.isValidIdx (i : Ivl) (maxVal : Int) : Bool :=
  if i.lower > i.upper then false
  else if i.lower < 0 ∨ i.upper ≥ maxVal then false
  else true

/-- `comp_interval_set::operator()`, interval_set.hpp:38-45. -/
def Ivl.lt (p1 p2 : Ivl) : Bool :=
  if p1.lower = p2.lower then decide (p1.upper < p2.upper) else decide (p1.lower < p2.lower)

/-- The statuses returned by the functions of this file. -/
inductive Status | success | invalidInput
deriving DecidableEq, Repr

/-- An iterator of the set: `none` is `end()`. -/
abbrev It := Option Ivl

/-- `std::set::insert(value)`: no effect when an equivalent element is present. -/
def setInsert (x : Ivl) : List Ivl → List Ivl
  | [] => [x]
  | y :: ys => if x.lt y then x :: y :: ys else if y.lt x then y :: setInsert x ys else y :: ys

/-- The loop of interval_set.cpp:42-46 (same text at 123-127).  The list argument
is the part of the set from `it_upper` on; returns `(it_upper, it_lower)`. -/
def scanLoop (lb ub : Int) : List Ivl → It → It × It
  | [], itLower => (none, itLower)
  | x :: xs, itLower =>
    if x.upper < ub then
      let itLower' := match xs with
        | y :: _ => if y.lower ≤ lb then some y else itLower
        | [] => itLower
      scanLoop lb ub xs itLower'
    else (some x, itLower)

/-- Lines 40-48 (same text at 121-129): `it_upper` and `it_lower` after the scan. -/
def scan (lb ub : Int) (s : List Ivl) : It × It :=
  let r := scanLoop lb ub s s.head?
  let itLower := match r.2 with
    | some a => if a.lower > lb then none else some a
    | none => none
  (r.1, itLower)

/-- The loop `while (it != end && it != it_upper) it = iset.erase(it);`, lines 61-63
and 139-141; the list is the part of the set from `it` on. -/
def eraseUntil (itUpper : It) : List Ivl → List Ivl
  | [] => []
  | x :: xs => if some x = itUpper then x :: xs else eraseUntil itUpper xs

/-- Lines 56-63 (same text at 134-141): `it` starts after `it_lower`, or at `begin()`
when `it_lower` is `end()`; everything up to `it_upper` is erased. -/
def eraseBetween (itLower itUpper : It) : List Ivl → List Ivl
  | [] => []
  | x :: xs => match itLower with
    | none => eraseUntil itUpper (x :: xs)
    | some a => if x = a then x :: eraseUntil itUpper xs else x :: eraseBetween (some a) itUpper xs

/-- `interval_set::insert`, interval_set.cpp:34-77. -/
def insert (bounds : Ivl) (s : List Ivl) : Status × List Ivl :=
  let lb := bounds.lower
  let ub := bounds.upper
  if ub < lb then (.invalidInput, s) else
  let (itUpper, itLower) := scan lb ub s
  -- lines 51-53
  let inside : It → Bool := fun it => match it with
    | some a => decide (a.lower ≤ lb) && decide (a.upper ≥ ub)
    | none => false
  if inside itLower || inside itUpper then (.success, s) else
  -- lines 56-63
  let s1 := eraseBetween itLower itUpper s
  -- lines 66-69
  let (lb1, s2) := match itLower with
    | some a => if a.upper ≥ lb - 1 then (a.lower, s1.erase a) else (lb, s1)
    | none => (lb, s1)
  -- lines 70-73
  let (ub1, s3) := match itUpper with
    | some b => if b.lower ≤ ub + 1 then (b.upper, s2.erase b) else (ub, s2)
    | none => (ub, s2)
  (.success, setInsert ⟨lb1, ub1⟩ s3)

/-- Lines 147-155 (and, with the guard on the other end, 158-166): take the interval
`a` out of the set and put back what lies below `lb` and above `ub`. -/
def trim (lb ub : Int) (a : Ivl) (s : List Ivl) : List Ivl :=
  let s1 := s.erase a
  let s2 := if lb ≥ a.lower + 1 then setInsert ⟨a.lower, lb - 1⟩ s1 else s1
  if ub ≤ a.upper - 1 then setInsert ⟨ub + 1, a.upper⟩ s2 else s2

/-- `interval_set::erase`, interval_set.cpp:115-169. -/
def erase (bounds : Ivl) (s : List Ivl) : Status × List Ivl :=
  let lb := bounds.lower
  let ub := bounds.upper
  if ub < lb then (.invalidInput, s) else
  let (itUpper, itLower) := scan lb ub s
  -- lines 132-142
  let isIncluded := decide (itLower = itUpper)
  let s1 := if isIncluded then s else eraseBetween itLower itUpper s
  -- lines 146-156
  let s2 := match itLower with
    | some a => if a.upper ≥ lb then trim lb ub a s1 else s1
    | none => s1
  -- lines 157-167
  let s3 := if isIncluded then s2 else match itUpper with
    | some b => if b.lower ≤ ub then trim lb ub b s2 else s2
    | none => s2
  (.success, s3)

/-- `interval_set::clear`, interval_set.cpp:171. -/
def clear (_ : List Ivl) : List Ivl := []

/-- `interval_set::find(key)`, interval_set.cpp:98-113 (and 79-96, same logic).
`none` is undefined behaviour (decrementing `begin()` or dereferencing `end()`),
`some none` is "not found".  `before`/`after` are the elements before / from
`upper_bound({key,key})`. -/
def find (key : Int) (s : List Ivl) : Option (Option Ivl) :=
  if s.isEmpty then some none else
  let before := s.takeWhile (fun e => !(Ivl.lt ⟨key, key⟩ e))
  let after := s.dropWhile (fun e => !(Ivl.lt ⟨key, key⟩ e))
  match after with
  | [] =>
    -- it_ub == end(): it_ub--
    match before.getLast? with
    | none => none
    | some e => some (if e.contains key then some e else none)
  | u :: _ =>
    if u.contains key then some (some u)
    else if u.lower > key ∧ before ≠ [] then
      -- it_ub != begin(): it_ub--
      match before.getLast? with
      | none => none
      | some e => some (if e.contains key then some e else none)
    else some (if u.contains key then some u else none)

/-- A call changing a selection. -/
inductive Op
  | insert (lb ub : Int)
  | erase (lb ub : Int)
  | clear
deriving DecidableEq, Repr

/-- Effect of one call. -/
def step (s : List Ivl) : Op → List Ivl
  | .insert lb ub => (insert ⟨lb, ub⟩ s).2
  | .erase lb ub => (erase ⟨lb, ub⟩ s).2
  | .clear => clear s

/-- The selection after a history of calls starting from a fresh (empty) set. -/
def run (ops : List Op) : List Ivl := ops.foldl step []

end Verif.IntervalSet
