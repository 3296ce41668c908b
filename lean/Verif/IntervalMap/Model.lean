/-
Model of `interval_map` (`source/core/data_management/interval_map.hpp` 47-200), the map from
column ranges to blocks of a data store.  The `std::map` is the list of its entries in
key order.
-/
namespace Verif.IntervalMap

structure Entry (T : Type) where
  lo : Int
  hi : Int
  val : T
deriving DecidableEq

variable {T : Type}

/-- `comp_interval_map` (interval_map.hpp 49-57). -/
def less (l1 h1 l2 h2 : Int) : Bool := if l1 = l2 then decide (h1 > h2) else decide (l1 < l2)

/-- The entries before `lower_bound((key,key))`. -/
def before (m : List (Entry T)) (lo hi : Int) : List (Entry T) :=
  m.takeWhile (fun e => less e.lo e.hi lo hi)

/-- The entries from `lower_bound((lo,hi))` on. -/
def after (m : List (Entry T)) (lo hi : Int) : List (Entry T) :=
  m.dropWhile (fun e => less e.lo e.hi lo hi)

/-- Result of an operation that may decrement `begin()`: `none` is that undefined
behaviour. -/
abbrev Res (α : Type) := Option α

/-- `find(key)` (interval_map.hpp 146-158; 128-145 does the same).  `some none` is
`end()`.  `wraps` chooses between undefined behaviour of `--begin()` and the behaviour of
libstdc++, where it yields `end()`. -/
def find (wraps : Bool) (m : List (Entry T)) (key : Int) : Res (Option (Entry T)) :=
  if m.isEmpty then some none
  else
    match (after m key key).head? with
    | some e =>
      if e.lo = key ∧ e.hi = key then some (some e)
      else
        match (before m key key).getLast? with
        | none => if wraps then some none else none
        | some e => if key < e.lo ∨ key > e.hi then some none else some (some e)
    | none =>
      match (before m key key).getLast? with
      | none => if wraps then some none else none
      | some e => if key < e.lo ∨ key > e.hi then some none else some (some e)

/-- `insert` (interval_map.hpp 111-122); the Boolean is "success".  The standard map keeps
an existing entry with an equal key. -/
def insert (wraps : Bool) (m : List (Entry T)) (lo hi : Int) (val : T) : Res (Bool × List (Entry T)) :=
  if hi < lo then some (false, m)
  else
    match find wraps m lo with
    | none => none
    | some (some _) => some (false, m)
    | some none =>
      match find wraps m hi with
      | none => none
      | some (some _) => some (false, m)
      | some none =>
        match (after m lo hi).head? with
        | some e =>
          if e.lo = lo ∧ e.hi = hi then some (true, m)
          else some (true, before m lo hi ++ ⟨lo, hi, val⟩ :: after m lo hi)
        | none => some (true, before m lo hi ++ ⟨lo, hi, val⟩ :: after m lo hi)

/-- `erase(key)` (interval_map.hpp 178-183): removes the entry found. -/
def erase (wraps : Bool) (m : List (Entry T)) (key : Int) : Res (List (Entry T)) :=
  match find wraps m key with
  | none => none
  | some none => some m
  | some (some e) => some (m.filter (fun x => !(x.lo == e.lo && x.hi == e.hi)))

/-- A call made by a user of the map. -/
inductive Op (T : Type)
  | insert (lo hi : Int) (val : T)
  | erase (key : Int)

def step (wraps : Bool) (m : List (Entry T)) : Op T → Res (List (Entry T))
  | .insert lo hi v => (insert wraps m lo hi v).map Prod.snd
  | .erase k => erase wraps m k

/-- The map after a history of calls. -/
def run (wraps : Bool) (ops : List (Op T)) : Res (List (Entry T)) :=
  ops.foldlM (step wraps) []

end Verif.IntervalMap
