/-
Model of the model files written and read by `da_handle_save_model` / `da_handle_load_model`:
`source/core/utilities/model_persistence.hpp` and `model_persistence.cpp`.

A file is the list of its bytes.  Numbers are written by copying their object representation
on a little-endian machine.  Reals are represented by their bit patterns, so nothing about
floating point arithmetic is assumed.
-/
namespace Verif.Persist

abbrev Byte := Fin 256

/-- The `k` low bytes of `n`, lowest first. -/
def leBytes : Nat → Nat → List Byte
  | 0, _ => []
  | k + 1, n => ⟨n % 256, Nat.mod_lt _ (by decide)⟩ :: leBytes k (n / 256)

def leNat : List Byte → Nat
  | [] => 0
  | b :: bs => b.val + 256 * leNat bs

/-- The bytes of an `int64_t`. -/
def i64Bytes (v : Int) : List Byte := leBytes 8 (v % 2 ^ 64).toNat

/-- The `int64_t` with the given bytes. -/
def i64Of (bs : List Byte) : Int :=
  if leNat bs < 2 ^ 63 then (leNat bs : Int) else (leNat bs : Int) - 2 ^ 64

/-- Statuses.  `ub` is undefined behaviour (a read beyond the buffer or an overflowing
loop counter) and `exc` an exception that no function of the library catches. -/
inductive St
  | ok | invalidFile | invalidInput | invalidOption | internal | memory | version | unknownQuery | notImplemented | ub | exc
deriving DecidableEq, Repr

/-- The scalar types that are saved (`is_valid_scalar`, model_persistence.hpp 64-70).  `int` is
`da_int`.  `_Float16` is left out: no function is instantiated with it. -/
inductive Sc
  | bool | int | enum | char | f32 | f64
deriving DecidableEq

/-- `sizeof(save_type_t<T>)` (model_persistence.hpp 54-62). -/
def Sc.size : Sc → Nat
  | .bool => 1
  | .int => 8
  | .enum => 8
  | .char => 1
  | .f32 => 4
  | .f64 => 8

/-- Values of a scalar type; reals are bit patterns. -/
abbrev Sc.denote : Sc → Type
  | .bool => Bool
  | .int => Int
  | .enum => Int
  | .char => Byte
  | .f32 => Fin (2 ^ 32)
  | .f64 => Fin (2 ^ 64)

def Sc.default : (s : Sc) → s.denote
  | .bool => false
  | .int => (0 : Int)
  | .enum => (0 : Int)
  | .char => (0 : Byte)
  | .f32 => (0 : Fin (2 ^ 32))
  | .f64 => (0 : Fin (2 ^ 64))

/-- The bytes of `static_cast<save_type_t<T>>(data)`. -/
def Sc.encode : (s : Sc) → s.denote → List Byte
  | .bool, v => leBytes 1 (if v then 1 else 0)
  | .int, v => i64Bytes v
  | .enum, v => i64Bytes v
  | .char, v => [v]
  | .f32, v => leBytes 4 v.val
  | .f64, v => leBytes 8 v.val

/-- `static_cast<T>(val)` of the value with the given bytes.  `bits` is the width of `da_int`
(32 or 64); narrowing an `int64_t` keeps the low bits.  A number that is no enumerator is kept
as it is (formally undefined for an enumeration without fixed underlying type). -/
def Sc.decode (bits : Nat) : (s : Sc) → List Byte → s.denote
  | .bool, bs => decide (leNat bs ≠ 0)
  | .int, bs => Int.bmod (i64Of bs) (2 ^ bits)
  | .enum, bs => i64Of bs
  | .char, bs => bs.headD 0
  | .f32, bs => ⟨leNat bs % 2 ^ 32, Nat.mod_lt _ (by decide)⟩
  | .f64, bs => ⟨leNat bs % 2 ^ 64, Nat.mod_lt _ (by decide)⟩

/-- Types that are saved: scalars, vectors and strings of scalars, and vectors of these. -/
inductive Ty
  | sc (s : Sc)
  | vec (t : Ty)
deriving DecidableEq

/-- `std::string` is a vector of characters. -/
abbrev Ty.str : Ty := .vec (.sc .char)

abbrev Ty.denote : Ty → Type
  | .sc s => s.denote
  | .vec t => List t.denote

def Ty.default : (t : Ty) → t.denote
  | .sc s => s.default
  | .vec _ => []

/-! ### Size -/

/-- `get_type_size`, `get_container_size` (model_persistence.hpp 84-112). -/
def getSize : (t : Ty) → t.denote → Nat
  | .sc s, _ => s.size
  | .vec (.sc s), l => 8 + l.length * s.size
  | .vec (.vec t), l => l.foldl (fun (total : Nat) item => total + getSize (.vec t) item) 8

/-- Largest value of a `da_int`. -/
def imax (bits : Nat) : Nat := 2 ^ (bits - 1) - 1

/-- `add_size` (model_persistence.cpp 74-82) in reserve mode.  The sum is taken without
wrap-around of `size_t`. -/
def addSize (bits : Nat) (size value : Nat) : St × Nat :=
  if size + value > imax bits then (.invalidInput, size) else (.ok, size + value)

/-! ### Writing -/

/-- `insert_data_in_buffer` (model_persistence.cpp 245-258): `size` is the size computed
beforehand, `buf` what was written so far. -/
def put (size : Nat) (bs buf : List Byte) : St × List Byte :=
  if buf.length > size ∨ size - buf.length < bs.length then (.internal, buf) else (.ok, buf ++ bs)

/-- A loop over elements that stops at the first failure. -/
def serLoop {α σ : Type} (f : α → σ → St × σ) : List α → σ → St × σ
  | [], buf => (.ok, buf)
  | x :: xs, buf =>
    match f x buf with
    | (.ok, buf') => serLoop f xs buf'
    | (s, buf') => (s, buf')

/-- `serialize_data`, `serialize_container_impl` (model_persistence.cpp 261-296). -/
def ser (size : Nat) : (t : Ty) → t.denote → List Byte → St × List Byte
  | .sc s, v, buf => put size (s.encode v) buf
  | .vec t, l, buf =>
    match put size (i64Bytes l.length) buf with
    | (.ok, buf') => serLoop (fun x b => ser size t x b) l buf'
    | (s, buf') => (s, buf')

/-! ### Reading -/

/-- `memcpy(&val, read_ptr + offset, k)`: `none` if it reads beyond the buffer. -/
def readAt (bytes : List Byte) (off k : Nat) : Option (List Byte) :=
  if off + k ≤ bytes.length then some ((bytes.drop off).take k) else none

/-- `std::vector::resize`: keeps the first elements and appends default ones. -/
def resize {α : Type} (d : α) (l : List α) (n : Nat) : List α :=
  l.take n ++ List.replicate (n - l.length) d

/-- The loop of `deserialize_container_impl` over the elements. -/
def desLoop {α : Type} (f : α → Nat → St × α × Nat) : List α → Nat → St × List α × Nat
  | [], off => (.ok, [], off)
  | x :: xs, off =>
    match f x off with
    | (.ok, v, off') =>
      match desLoop f xs off' with
      | (s, vs, off'') => (s, v :: vs, off'')
    | (s, v, off') => (s, v :: xs, off')

/-- `deserialize_data`, `deserialize_container_impl` (model_persistence.cpp 301-357).  Gives the
status, the data afterwards (`init` is its value before) and the new offset.  The element loop
counts with a `da_int`, which overflows if there are more than `imax bits` elements. -/
def des (bits : Nat) (bytes : List Byte) : (t : Ty) → t.denote → Nat → St × t.denote × Nat
  | .sc s, init, off =>
    if off + s.size > bytes.length then (.invalidFile, init, off)
    else
      match readAt bytes off s.size with
      | none => (.ub, init, off)
      | some bs => (.ok, s.decode bits bs, off + s.size)
  | .vec t, init, off =>
    if off + 8 > bytes.length then (.invalidFile, init, off)
    else
      match readAt bytes off 8 with
      | none => (.ub, init, off)
      | some bs =>
        if i64Of bs < 0 ∨ (i64Of bs).toNat > bytes.length - (off + 8) then (.invalidFile, init, off + 8)
        else
          let data := resize t.default init (i64Of bs).toNat
          match desLoop (fun x o => des bits bytes t x o) (data.take (imax bits + 1)) (off + 8) with
          | (.ok, vs, off') =>
            (if data.length > imax bits then .ub else .ok, vs ++ data.drop (imax bits + 1), off')
          | (s, vs, off') => (s, vs ++ data.drop (imax bits + 1), off')

end Verif.Persist
