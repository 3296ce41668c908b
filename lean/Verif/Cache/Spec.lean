import Verif.Cache.Model

/-
What a trace of cache events (newest event first) says about the cache, without
reference to the cache's own data structures.
-/
namespace Verif.Cache

variable {R : Type}

/-- The key whose entry occupies `slot`: the key of the last entry stored there,
unless that entry was evicted since. -/
def owner (slot : Nat) : List (Event R) → Option Int
  | [] => none
  | .stored k s _ :: t => if s = slot then some k else owner slot t
  | .evict _ s :: t => if s = slot then none else owner slot t
  | _ :: t => owner slot t

/-- Slot and data of the most recent store under `key`. -/
def lastStored (key : Int) : List (Event R) → Option (Nat × R)
  | [] => none
  | .stored k s r :: t => if k = key then some (s, r) else lastStored key t
  | _ :: t => lastStored key t

/-- The time (position in the trace) at which the entry in `slot` was last stored
or returned; 0 if never. -/
def lastUse (slot : Nat) : List (Event R) → Nat
  | [] => 0
  | .stored _ s _ :: t => if s = slot then t.length + 1 else lastUse slot t
  | .hit _ s _ :: t => if s = slot then t.length + 1 else lastUse slot t
  | _ :: t => lastUse slot t

/-- Number of occupied slots. -/
def liveCount (capacity : Nat) (t : List (Event R)) : Nat :=
  ((List.range capacity).filter fun s => (owner s t).isSome).length

/-- What is required of event `e` after the earlier events `t`. -/
def EventOk (capacity : Nat) (t : List (Event R)) : Event R → Prop
  -- a hit returns the data most recently stored for the key, from a slot that
  -- belongs to this key
  | .hit k s r => lastStored k t = some (s, r) ∧ owner s t = some k
  | .miss _ => True
  -- an entry is only stored in a slot of the cache that no other entry occupies
  | .stored _ s _ => s < capacity ∧ owner s t = none
  -- the evicted entry is present and every other entry was used after it
  | .evict k s => owner s t = some k ∧
      ∀ s', s' ≠ s → owner s' t ≠ none → lastUse s t < lastUse s' t
  | .failed => True

/-- All events of a trace satisfy `EventOk`. -/
def TraceOk (capacity : Nat) (tr : List (Event R)) : Prop :=
  ∀ post e pre, tr = post ++ e :: pre → EventOk capacity pre e

/-- In this trace a key is only stored while no entry of the same key is in the
cache. -/
def FreshStores (tr : List (Event R)) : Prop :=
  ∀ post k s r pre, tr = post ++ .stored k s r :: pre → ∀ s', owner s' pre ≠ some k

end Verif.Cache
