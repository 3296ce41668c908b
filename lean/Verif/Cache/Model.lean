/-
Model of the LRU cache of kernel columns
(`source/core/utilities/da_cache.hpp`).

`put` takes its lock twice (112-126 and 150-156) and copies the columns between
the two critical sections without holding it; `nusvm::initialise_gradient`
(`source/core/svm/nu_svm.cpp` 412-490) calls it from several threads.  The model
therefore splits a `put` of thread `t` into the first critical section
(`acquire`), the copies of single columns (`copy`) and the second critical
section together with the error exit (`publish`).  A history is any interleaving
of such steps and `get`s.
-/
namespace Verif.Cache

variable {R : Type}

/-- One list node of `items_` (da_cache.hpp 54).  `id` stands for the address of
the node, i.e. for the iterators stored in `cache_`; `slot` is the column of
`data_` the pointer refers to (`&data_[slot * len_]`). -/
structure Node where
  id : Nat
  key : Int
  slot : Nat
deriving DecidableEq, Repr

/-- Members of `LRUCache` (da_cache.hpp 46-71).  `map` is `cache_`, `mem` the
contents of the columns of `data_` (`none` = never written).  A column is a
single value of type `R`.  `nextId` numbers the allocated nodes. -/
structure Cache (R : Type) where
  capacity : Nat
  items : List Node
  map : Int → Option Nat
  nFree : Nat
  freeIdx : Nat
  mem : Nat → Option R
  nextId : Nat

/-- `set_size` (da_cache.hpp 165-180) on a newly constructed cache, allocation
succeeding.  A second `set_size` on the same object is not modelled. -/
def init (capacity : Nat) : Cache R :=
  { capacity, items := [], map := fun _ => none, nFree := capacity, freeIdx := 0,
    mem := fun _ => none, nextId := 0 }

/-- Observable events, emitted by the steps below. -/
inductive Event (R : Type) where
  /-- `get key` returned the pointer to `slot`, which holds `row`. -/
  | hit (key : Int) (slot : Nat) (row : R)
  /-- `get key` returned `nullptr`. -/
  | miss (key : Int)
  /-- `put` entered `key` into the cache with its data in `slot`. -/
  | stored (key : Int) (slot : Nat) (row : R)
  /-- `put` removed the entry of `key` in `slot`. -/
  | evict (key : Int) (slot : Nat)
  /-- `put` returned `da_status_invalid_pointer`. -/
  | failed
deriving DecidableEq, Repr

/-- `get` (da_cache.hpp 89-98).  A map entry whose node is gone, or a slot that
was never written, is undefined behaviour (`none`). -/
def get (c : Cache R) (key : Int) : Option (Cache R × Event R) :=
  match c.map key with
  | none => some (c, .miss key)
  | some id =>
    match c.items.find? (fun n => n.id == id) with
    | none => none
    | some n =>
      match c.mem n.slot with
      | none => none
      | some r =>
        some ({ c with items := n :: c.items.filter (fun m => m.id != id) },
          .hit key n.slot r)

/-- First loop of `put` (da_cache.hpp 113-118): `acc` is `free_pointers`, the
two numbers are `n_cols_free` and `free_col_idx`. -/
def takeFree (target : Nat) : List Nat → Nat → Nat → List Nat × Nat × Nat
  | acc, 0, fi => (acc, 0, fi)
  | acc, nf + 1, fi =>
    if acc.length < target then takeFree target (acc ++ [fi]) nf (fi + 1)
    else (acc, nf + 1, fi)

/-- `cache_.erase(key)`. -/
def eraseKey (m : Int → Option Nat) (key : Int) : Int → Option Nat :=
  fun k => if k = key then none else m k

/-- State of the second loop of `put`. -/
structure Ev where
  acc : List Nat
  items : List Node
  map : Int → Option Nat
  out : List Node

/-- Second loop of `put` (da_cache.hpp 119-125): evict from the back of the list.
`out` collects the evicted nodes, in order. -/
def evictLoop (target : Nat) (e : Ev) : Ev :=
  if e.acc.length < target then
    match _h : e.items.getLast? with
    | none => e
    | some n =>
      evictLoop target
        { acc := e.acc ++ [n.slot]
          map := eraseKey e.map n.key
          items := e.items.dropLast
          out := e.out ++ [n] }
  else e
termination_by e.items.length
decreasing_by
  have : e.items ≠ [] := by rintro h0; simp_all
  have := List.length_pos_iff.2 this
  simp; omega

/-- First critical section of `put` (da_cache.hpp 107-127); returns
`free_pointers` and the evicted nodes. -/
def acquire (c : Cache R) (n : Nat) : Cache R × List Nat × List Node :=
  let target := min n c.capacity
  let (acc, nf, fi) := takeFree target [] c.nFree c.freeIdx
  let e := evictLoop target { acc := acc, items := c.items, map := c.map, out := [] }
  ({ c with items := e.items, map := e.map, nFree := nf, freeIdx := fi }, e.acc, e.out)

/-- One iteration of the copy loop (da_cache.hpp 140-143). -/
def writeSlot (c : Cache R) (slot : Nat) (r : R) : Cache R :=
  { c with mem := fun s => if s = slot then some r else c.mem s }

/-- The loop of the second critical section (da_cache.hpp 151-155), over the pairs
`(key[i], free_pointers[i])`, `i < actual`. -/
def publish : List (Int × Nat) → Cache R → Cache R
  | [], c => c
  | (k, s) :: rest, c =>
    publish rest
      { c with
        items := { id := c.nextId, key := k, slot := s } :: c.items
        map := fun k' => if k' = k then some c.nextId else c.map k'
        nextId := c.nextId + 1 }

/-- A `put` in progress: the arguments (`data = none` is the null pointer, column
`i` of the data is `d i`), the acquired slots and which columns are already
copied. -/
structure Pend (R : Type) where
  keys : List Int
  data : Option (Nat → R)
  slots : List Nat
  done : Nat → Bool

/-- The shared cache and the `put` each thread is executing. -/
structure Sys (R : Type) where
  cache : Cache R
  pend : Nat → Option (Pend R)

/-- Steps of the threads.  A step that is not possible in the current state
leaves the state unchanged. -/
inductive Op (R : Type) where
  | get (key : Int)
  | acquire (t : Nat) (keys : List Int) (data : Option (Nat → R))
  | copy (t i : Nat)
  | publish (t : Nat)

/-- The events of a successful publication: entry `i` holds column `i` of the
data. -/
def storedEvents (keys : List Int) (d : Nat → R) (slots : List Nat) : List (Event R) :=
  (keys.zip slots).zipIdx.map fun p => .stored p.1.1 p.1.2 (d p.2)

/-- One step; the events are in the order of their occurrence. -/
def step (s : Sys R) : Op R → Option (Sys R × List (Event R))
  | .get k =>
    match get s.cache k with
    | none => none
    | some (c, e) => some ({ s with cache := c }, [e])
  | .acquire t keys data =>
    match s.pend t with
    | some _ => some (s, [])
    | none =>
      let (c, slots, out) := acquire s.cache keys.length
      some ({ cache := c
              pend := fun t' => if t' = t then
                some { keys, data, slots, done := fun _ => false } else s.pend t' },
            out.map fun n => .evict n.key n.slot)
  | .copy t i =>
    match s.pend t with
    | none => some (s, [])
    | some p =>
      match p.data, p.slots[i]? with
      | some d, some sl =>
        if p.done i then some (s, []) else
        some ({ cache := writeSlot s.cache sl (d i)
                pend := fun t' => if t' = t then
                  some { p with done := fun j => if j = i then true else p.done j }
                  else s.pend t' }, [])
      | _, _ => some (s, [])
  | .publish t =>
    match s.pend t with
    | none => some (s, [])
    | some p =>
      let idle : Nat → Option (Pend R) := fun t' => if t' = t then none else s.pend t'
      match p.data with
      | none =>
        -- `n_failed = actual` (136-139): error exit if there was any column
        if p.slots.length = 0 then some ({ s with pend := idle }, [])
        else some ({ s with pend := idle }, [.failed])
      | some d =>
        -- the parallel loop has ended: all columns are copied
        if (List.range p.slots.length).all p.done then
          some ({ cache := publish (p.keys.zip p.slots) s.cache, pend := idle },
            storedEvents p.keys d p.slots)
        else some (s, [])

/-- Runs a history; the trace is returned newest event first. -/
def run (s : Sys R) (tr : List (Event R)) : List (Op R) → Option (Sys R × List (Event R))
  | [] => some (s, tr)
  | o :: os =>
    match step s o with
    | none => none
    | some (s', es) => run s' (es.reverse ++ tr) os

/-- The initial system: a fresh cache, no `put` in progress. -/
def start (capacity : Nat) : Sys R := { cache := init capacity, pend := fun _ => none }

/-- A whole `put` call of one thread, undisturbed by others. -/
def putOps (t : Nat) (keys : List Int) (data : Option (Nat → R)) : List (Op R) :=
  .acquire t keys data :: (List.range keys.length).map (.copy t) ++ [.publish t]

/-- The copy loop (da_cache.hpp 135-144) run to its end: column `i` goes to slot
`slots[i]`. -/
def writeAll (slots : List Nat) (d : Nat → R) (c : Cache R) : Cache R :=
  slots.zipIdx.foldl (fun c p => writeSlot c p.1 (d p.2)) c

/-- A whole successful `put` (da_cache.hpp 106-158) as one function, for
sequential callers; `putOps` is the same call as a sequence of steps. -/
def put (c : Cache R) (keys : List Int) (d : Nat → R) : Cache R × List (Event R) :=
  let (c1, slots, out) := acquire c keys.length
  (publish (keys.zip slots) (writeAll slots d c1),
    out.map (fun n => .evict n.key n.slot) ++ storedEvents keys d slots)

end Verif.Cache
