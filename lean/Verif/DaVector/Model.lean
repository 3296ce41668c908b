/-
Model of `da_vector::da_vector<T>`, /repo/source/core/utilities/da_vector.hpp:56-245.

The heap block is a list of cells, `none` being a cell that was never written.  A null
pointer is a block with no cells.  Undefined behaviour (access outside the block) and an
endless capacity loop are the outcome `none`.

Simplified: `malloc` always succeeds (std::bad_alloc is not modelled) and `size_t` is
unbounded.
-/
namespace Verif.DaVector

variable {α : Type}

/-- `INIT_CAPACITY`, da_vector.hpp:42. -/
def initCapacity : Nat := 64

/-- The three members, da_vector.hpp:241-244. -/
structure Vec (α : Type) where
  data : List (Option α)
  size : Nat
  cap : Nat
deriving DecidableEq, Repr

/-- `malloc(n * sizeof(T))`: `n` cells with unspecified contents. -/
def malloc (n : Nat) : List (Option α) := List.replicate n none

/-- `memcpy(dst + off, src, n * sizeof(T))`; outside either block is undefined. -/
def memcpy (dst : List (Option α)) (off : Nat) (src : List (Option α)) (n : Nat) :
    Option (List (Option α)) :=
  if off + n ≤ dst.length ∧ n ≤ src.length then
    some (dst.take off ++ src.take n ++ dst.drop (off + n))
  else none

/-- `while (cap < n) cap <<= 1`, da_vector.hpp:80-81, 170-171, 186-187, 202-203, 224-225.
With capacity zero the loop never ends. -/
def growTo (cap n : Nat) : Option Nat :=
  if cap < n then
    if 0 < cap then growTo (cap * 2) n else none
  else some cap
termination_by n - cap

/-- Default constructor, da_vector.hpp:70-75. -/
def Vec.new : Vec α := ⟨malloc initCapacity, 0, initCapacity⟩

/-- Sized constructor, da_vector.hpp:77-84: elements are uninitialised. -/
def Vec.sized (n : Nat) : Option (Vec α) := do
  let c ← growTo initCapacity n
  pure ⟨malloc c, n, c⟩

/-- `clear`, da_vector.hpp:132-143. -/
def Vec.clear (_ : Vec α) : Vec α := ⟨malloc initCapacity, 0, initCapacity⟩

/-- The write `_data[i] = val`. -/
def store (d : List (Option α)) (i : Nat) (x : Option α) : Option (List (Option α)) :=
  if i < d.length then some (d.set i x) else none

/-- `operator[]` as a write, da_vector.hpp:67. -/
def Vec.setAt (v : Vec α) (i : Nat) (x : α) : Option (Vec α) := do
  let d ← store v.data i (some x)
  pure { v with data := d }

/-- `push_back`, da_vector.hpp:145-157, for an argument that is not an element of the
vector itself. -/
def Vec.pushBack (v : Vec α) (x : α) : Option (Vec α) := do
  let v1 ← if v.size = v.cap then do
      let c := v.cap * 2
      let d ← memcpy (malloc c) 0 v.data v.size
      pure { v with data := d, cap := c }
    else pure v
  let d ← store v1.data v1.size (some x)
  pure { v1 with data := d, size := v1.size + 1 }

/-- `v.push_back(v[i])`: the argument is a reference into the block, which is freed before
the element is read when the vector grows (da_vector.hpp:153-156). -/
def Vec.pushBackOwn (v : Vec α) (i : Nat) : Option (Vec α) :=
  if v.size = v.cap then none  -- read of freed memory
  else if i < v.data.length then do
    let d ← store v.data v.size (v.data.getD i none)
    pure { v with data := d, size := v.size + 1 }
  else none

/-- `append`, da_vector.hpp:160-174 and 176-190; `src` is the block of the argument and `n`
its size.  The argument is another object. -/
def Vec.append (v : Vec α) (src : List (Option α)) (n : Nat) : Option (Vec α) := do
  let v1 ← if v.size + n > v.cap then do
      let c ← growTo v.cap (v.size + n)
      let d ← memcpy (malloc c) 0 v.data v.size
      pure { v with data := d, cap := c }
    else pure v
  let d ← memcpy v1.data v1.size src n
  pure { v1 with data := d, size := v1.size + n }

/-- `v.append(v)`: the block and the size of the argument are read after the growth step
(da_vector.hpp:160-174), so the source is the new block. -/
def Vec.appendSelf (v : Vec α) : Option (Vec α) := do
  let v1 ← if v.size + v.size > v.cap then do
      let c ← growTo v.cap (v.size + v.size)
      let d ← memcpy (malloc c) 0 v.data v.size
      pure { v with data := d, cap := c }
    else pure v
  let d ← memcpy v1.data v1.size v1.data v1.size
  pure { v1 with data := d, size := v1.size + v1.size }

/-- The growth step shared by `resize` and `reserve`, da_vector.hpp:193-207 and 215-230. -/
def Vec.growCap (v : Vec α) (n : Nat) : Option (Vec α) :=
  if n > v.cap then do
    let c ← growTo v.cap n
    let d ← if v.size > 0 then memcpy (malloc c) 0 v.data v.size else pure (malloc c)
    pure { v with data := d, cap := c }
  else pure v

/-- `resize`, da_vector.hpp:192-212. -/
def Vec.resize (v : Vec α) (n : Nat) : Option (Vec α) := do
  let v1 ← v.growCap n
  pure { v1 with size := n }

/-- `reserve`, da_vector.hpp:215-232. -/
def Vec.reserve (v : Vec α) (n : Nat) : Option (Vec α) := v.growCap n

/-- Copy assignment from another object, da_vector.hpp:108-128. -/
def Vec.assign (_ : Vec α) (other : Vec α) : Option (Vec α) :=
  if other.cap > 0 then do
    let d ← memcpy (malloc other.cap) 0 other.data other.size
    pure ⟨d, other.size, other.cap⟩
  else pure ⟨[], other.size, other.cap⟩

/-- What a moved-from object is left with, da_vector.hpp:87-105. -/
def Vec.movedFrom : Vec α := ⟨[], 0, 0⟩

/-- One call on a vector. -/
inductive Op (α : Type)
  | pushBack (x : α)
  | append (xs : List α)
  | appendSelf
  | resize (n : Nat)
  | reserve (n : Nat)
  | clear
  | setAt (i : Nat) (x : α)
deriving Repr

def step (v : Vec α) : Op α → Option (Vec α)
  | .pushBack x => v.pushBack x
  | .append xs => v.append (xs.map some) xs.length
  | .appendSelf => v.appendSelf
  | .resize n => v.resize n
  | .reserve n => v.reserve n
  | .clear => some v.clear
  | .setAt i x => v.setAt i x

/-- Run a history of calls. -/
def run : Vec α → List (Op α) → Option (Vec α)
  | v, [] => some v
  | v, op :: h => do
    let v' ← step v op
    run v' h

/-- What a reader sees: the first `size` cells (`none` = never written). -/
def Vec.contents (v : Vec α) : List (Option α) := v.data.take v.size

end Verif.DaVector
