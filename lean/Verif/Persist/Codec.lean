import Verif.Persist.Proof
/-
What the `serialize(buffer)` member functions of the handles do.  One function serves three
modes (`dispatch_buffer_io`, model_persistence.cpp 360-372): computing the size, writing and
reading.  A codec bundles the three; the combinators below mirror the shapes of code found in
the handles.
-/
namespace Verif.Persist

structure Codec (α : Type) where
  /-- reserve mode: the size counted so far becomes the new size -/
  size : α → Nat → St × Nat
  /-- serialize mode: the first argument is the reserved size -/
  ser : Nat → α → List Byte → St × List Byte
  /-- deserialize mode: bytes, object before, offset -/
  des : List Byte → α → Nat → St × α × Nat

/-- `dispatch_buffer_io(data)` for data of type `t`. -/
def field (bits : Nat) (t : Ty) : Codec t.denote where
  size a n := addSize bits n (getSize t a)
  ser size a buf := ser size t a buf
  des bytes init off := des bits bytes t init off

/-- One part after the other, stopping at the first failure (the `io_dispatch` lambda of the
handles skips everything once the status is not success). -/
def seq {α β : Type} (c : Codec α) (d : Codec β) : Codec (α × β) where
  size := fun (a, b) n =>
    match c.size a n with
    | (.ok, n') => d.size b n'
    | (s, n') => (s, n')
  ser := fun size (a, b) buf =>
    match c.ser size a buf with
    | (.ok, buf') => d.ser size b buf'
    | (s, buf') => (s, buf')
  des := fun bytes (a, b) off =>
    match c.des bytes a off with
    | (.ok, a', o) =>
      match d.des bytes b o with
      | (s, b', o') => (s, (a', b'), o')
    | (s, a', o) => (s, (a', b), o)

/-- Nothing. -/
def nothing : Codec Unit where
  size _ n := (.ok, n)
  ser _ _ buf := (.ok, buf)
  des _ _ off := (.ok, (), off)

/-- Values of a list of types. -/
abbrev Vals : List Ty → Type
  | [] => Unit
  | t :: ts => t.denote × Vals ts

/-- A run of `io_dispatch` calls. -/
def fields (bits : Nat) : (ts : List Ty) → Codec (Vals ts)
  | [] => nothing
  | t :: ts => seq (field bits t) (fields bits ts)

/-- A check made after reading. -/
def guarded {α : Type} (c : Codec α) (check : α → St) : Codec α where
  size := c.size
  ser := c.ser
  des bytes a off :=
    match c.des bytes a off with
    | (.ok, a', o) => (check a', a', o)
    | r => r

/-- A header followed by a number of items given in the header: `decision_tree`,
`decision_forest`, `svm`.  `lim` is `max_size()` of the vector of items: `resize` beyond it throws
`std::length_error`, which nothing catches (only `std::bad_alloc` is caught); `alloc` says
whether an allocation succeeds. -/
structure Items (α β : Type) where
  count : α → Int
  /-- check before the vector is resized (reading) -/
  pre : α → St
  /-- check after the vector is resized (reading) -/
  post : α → St
  lim : Nat
  alloc : Nat → Bool
  /-- contents of the vector after resizing -/
  fresh : List β → Nat → List β

def items {α β : Type} (c : Codec α) (d : Codec β) (it : Items α β) : Codec (α × List β) where
  size := fun (a, l) n =>
    match c.size a n with
    | (.ok, n') =>
      if l.length < (it.count a).toNat then (.ub, n')
      else serLoop d.size (l.take (it.count a).toNat) n'
    | (s, n') => (s, n')
  ser := fun size (a, l) buf =>
    match c.ser size a buf with
    | (.ok, buf') =>
      if l.length < (it.count a).toNat then (.ub, buf')
      else serLoop (d.ser size) (l.take (it.count a).toNat) buf'
    | (s, buf') => (s, buf')
  des := fun bytes (a, l) off =>
    match c.des bytes a off with
    | (.ok, a', o) =>
      if it.pre a' ≠ .ok then (it.pre a', (a', l), o)
      else if it.count a' < 0 ∨ (it.count a').toNat > it.lim then (.exc, (a', l), o)
      else if it.alloc (it.count a').toNat = false then (.memory, (a', l), o)
      else if it.post a' ≠ .ok then (it.post a', (a', it.fresh l (it.count a').toNat), o)
      else
        match desLoop (d.des bytes) (it.fresh l (it.count a').toNat) o with
        | (s, l', o') => (s, (a', l'), o')
    | (s, a', o) => (s, (a', l), o)

/-! ### Neighbour trees -/

/-- The nodes of a k-d or ball tree; `ofs` is `node->indices - indices.data()`. -/
inductive BT (ν : Type)
  | nil
  | node (ofs : Int) (data : ν) (left right : BT ν)

variable {ν : Type}

def BT.left : BT ν → BT ν
  | .nil => .nil
  | .node _ _ l _ => l

def BT.right : BT ν → BT ν
  | .nil => .nil
  | .node _ _ _ r => r

def BT.exists : BT ν → Bool
  | .nil => false
  | .node .. => true

def BT.data (d : ν) : BT ν → ν
  | .nil => d
  | .node _ v _ _ => v

/-- The two scalars in front of a node, in reserve mode. -/
def btHeadSize (bits n : Nat) : St × Nat :=
  match addSize bits n 1 with
  | (.ok, n1) => addSize bits n1 8
  | r => r

/-- `tree_serialization` (binary_tree.cpp 500-553) in reserve mode.  As in the code a failure to
count the two scalars in front is overwritten by the status of the node. -/
def btSize (bits : Nat) (c : Codec ν) : BT ν → Nat → St × Nat
  | .nil, n => addSize bits n 1
  | .node _ v l r, n =>
    match c.size v (btHeadSize bits n).2 with
    | (.ok, n2) =>
      match btSize bits c l n2 with
      | (.ok, n3) => btSize bits c r n3
      | r => r
    | r => r

/-- The two scalars in front of a node, in serialize mode. -/
def btHead (size : Nat) (ofs : Int) (buf : List Byte) : St × List Byte :=
  match put size (leBytes 1 1) buf with
  | (.ok, b1) => put size (i64Bytes ofs) b1
  | r => r

/-- `tree_serialization` in serialize mode. -/
def btSer (size : Nat) (c : Codec ν) : BT ν → List Byte → St × List Byte
  | .nil, buf => put size (leBytes 1 0) buf
  | .node ofs v l r, buf =>
    match c.ser size v (btHead size ofs buf).2 with
    | (.ok, b2) =>
      match btSer size c l b2 with
      | (.ok, b3) => btSer size c r b3
      | r => r
    | r => r

/-- `tree_serialization` in deserialize mode; `nidx` is `indices.size()`, `dv` a default
constructed node.  The recursion is bounded by `fuel`, which never runs out when started with more
than the number of bytes (every call but the last ones reads at least one byte). -/
def btDes (bits : Nat) (c : Codec ν) (dv : ν) (nidx : Nat) (bytes : List Byte) :
    Nat → BT ν → Nat → St × BT ν × Nat
  | 0, t, off => (.ub, t, off)
  | fuel + 1, t, off =>
    match des bits bytes (.sc .bool) t.exists off with
    | (s1, false, o1) => (s1, .nil, o1)
    | (s1, true, o1) =>
      match (if s1 = .ok then des bits bytes (.sc .int) (0 : Int) o1 else (s1, (0 : Int), o1)) with
      | (_, ofs, o2) =>
        if ofs < 0 ∨ ofs.toNat ≥ nidx then (.invalidFile, t, o2)
        else
          match c.des bytes (t.data dv) o2 with
          | (.ok, v, o3) =>
            match btDes bits c dv nidx bytes fuel t.left o3 with
            | (.ok, l, o4) =>
              match btDes bits c dv nidx bytes fuel t.right o4 with
              | (s, r, o5) => (s, .node ofs v l r, o5)
            | (s, l, o4) => (s, .node ofs v l t.right, o4)
          | (s, v, o3) => (s, .node ofs v t.left t.right, o3)

/-- `binary_tree::serialize` (binary_tree.cpp 555-580): header, then the nodes.  The status of
the header is overwritten by that of the nodes.  `nidx` gives `indices.size()`. -/
def btree {α : Type} (bits : Nat) (h : Codec α) (c : Codec ν) (dv : ν) (nidx : α → Nat) : Codec (α × BT ν) where
  size := fun (a, t) n => btSize bits c t (h.size a n).2
  ser := fun size (a, t) buf => btSer size c t (h.ser size a buf).2
  des := fun bytes (a, t) off =>
    match h.des bytes a off with
    | (_, a', o) =>
      match btDes bits c dv (nidx a') bytes (bytes.length + 2) t o with
      | (s, t', o') => (s, (a', t'), o')

/-! ### User data -/

/-- The elements of an `m` by `n` matrix stored at `X` with leading dimension `ld` in the order in
which they are stored, without padding. -/
def packed {δ : Type} (X : Nat → δ) (colMajor : Bool) (m n ld : Nat) : List δ :=
  if colMajor then (List.range n).flatMap fun i => (List.range m).map fun j => X (i * ld + j)
  else (List.range m).flatMap fun i => (List.range n).map fun j => X (i * ld + j)

/-- `serialize_user_data_impl` (model_persistence.cpp 375-398): `k` consecutive elements, written
one by one for `da_int` and in one piece otherwise. -/
def userPart (size : Nat) (s : Sc) (X : Nat → s.denote) (start k : Nat) (buf : List Byte) : St × List Byte :=
  if s = .int then serLoop (fun j b => put size (s.encode (X (start + j))) b) (List.range k) buf
  else if buf.length > size ∨ size - buf.length < k * s.size then (.internal, buf)
  else (.ok, buf ++ (List.range k).flatMap fun j => s.encode (X (start + j)))

/-- `serialize_user_data` (model_persistence.cpp 400-444) in serialize mode; `X = none` is a null
pointer. -/
def userSer (size : Nat) (s : Sc) (X : Option (Nat → s.denote)) (colMajor : Bool) (m n ld : Nat)
    (buf : List Byte) : St × List Byte :=
  let col := if n = 1 then true else colMajor
  match X with
  | none => put size (i64Bytes 0) buf
  | some X =>
    match put size (i64Bytes ((m * n : Nat) : Int)) buf with
    | (.ok, b1) =>
      if col then serLoop (fun i b => userPart size s X (i * ld) m b) (List.range n) b1
      else serLoop (fun i b => userPart size s X (i * ld) n b) (List.range m) b1
    | r => r

/-- `serialize_user_data` in reserve mode. -/
def userSize (bits : Nat) (s : Sc) (X : Option (Nat → s.denote)) (m n : Nat) (total : Nat) : St × Nat :=
  match addSize bits total 8 with
  | (.ok, t1) => if X.isNone then (.ok, t1) else addSize bits t1 (m * n * s.size)
  | r => r

end Verif.Persist
