import Verif.Persist.Trees
/-
The handles that can be saved, the option registry, and the files themselves.

Members holding user data (`X_train`, `A_ptr`, …) are written with `serialize_user_data` and read
as a vector; they appear here as that vector.  `Trees.lean` shows that writing the user data is
writing the vector `saved …`.
-/
namespace Verif.Persist

/-! ### Members of the handles

`f` is the type of reals of the handle (`f32` or `f64`). -/

abbrev tb : Ty := .sc .bool
abbrev ti : Ty := .sc .int
abbrev te : Ty := .sc .enum

/-- `kmeans<T>::serialize` (clustering/kmeans/kmeans.cpp 1882-1912). -/
def kmeansTys (f : Sc) : List Ty :=
  [tb, te, ti, ti, ti, ti, .sc f, ti, ti, .sc f, ti, ti, .vec ti, .vec (.sc f), .vec (.sc f), tb, tb]

/-- `pca<T>::serialize` (factorization/pca/pca.cpp 1053-1089). -/
def pcaTys (f : Sc) : List Ty :=
  [tb, te, ti, ti, ti, tb, tb, ti, ti, ti, .sc f, ti, .vec (.sc f), .vec (.sc f), .vec (.sc f), ti, ti, ti, ti,
   .vec (.sc f), .vec (.sc f), .vec (.sc f), .sc f]

/-- `linear_model<T>::serialize` (linear_model/linear_model.cpp 2436-2467). -/
def linmodTys (f : Sc) : List Ty :=
  [te, te, te, te, tb, tb, ti, ti, ti, tb, .sc f, ti, ti, ti, .vec (.sc f), .vec (.sc f), .sc f, .sc f]

/-- `kernel_pca<T>::serialize` (factorization/kernel_pca/kernel_pca.cpp 1039-1087); the last one
is `A_copy`. -/
def kpcaTys (f : Sc) : List Ty :=
  [tb, te, ti, ti, ti, tb, .vec (.sc f), .sc f, .vec (.sc f), .vec (.sc f), .vec (.sc f), tb, tb, ti, ti, ti,
   .sc f, .sc f, .sc f, tb, tb, .vec (.sc f)]

/-- `approximate_neighbors<T>::serialize` (approximate_neighbors/approximate_neighbors.cpp
1346-1399); the last one is `X_int`. -/
def annTys (f : Sc) : List Ty :=
  [tb, tb, tb, ti, ti, ti, te, te, ti, ti, ti, te, ti, ti, .sc f, ti, ti, ti, ti, ti, .sc f, .vec (.sc f), ti, ti,
   .vec (.vec (.sc f)), .vec (.vec ti), .vec ti, .vec ti, .vec (.vec (.sc f)), .vec (.sc f), .vec (.sc f)]

/-- `base_svm<T>::serialize` (svm/base_svm.cpp 1021-1053). -/
def baseSvmTys (f : Sc) : List Ty :=
  [ti, ti, ti, .sc f, ti, .sc f, te, ti, .vec ti, .vec ti, .vec (.sc f), .sc f, .vec (.sc f)]

/-- `svm<T>::serialize` (svm/svm.cpp 1529-1565). -/
def svmTys (f : Sc) : List Ty :=
  [te, ti, ti, .vec ti, ti, ti, ti, ti, tb, tb, ti, te, .vec ti, ti, .vec (.sc f), .vec (.sc f), .vec (.sc f),
   .vec (.sc f), .vec (.sc f), .vec ti, .vec ti, .vec ti]

/-- `node<T>::serialize` (decision_forest/tree/decision_tree_handle_utilities.hpp 259-288). -/
def dtNodeTys (f : Sc) : List Ty :=
  [ti, ti, ti, tb, ti, .sc f, te, ti, ti, .sc f, ti, ti, ti, ti, ti, ti]

/-- `decision_tree<T>::serialize` (decision_tree_handle_utilities.hpp 315-361). -/
def dtTys (f : Sc) : List Ty :=
  [tb, ti, ti, ti, ti, ti, ti, ti, ti, ti, .vec (.sc f), .vec ti, ti, ti, ti, ti, ti, ti, .sc f, .sc f, .sc f, tb,
   ti, ti, ti, ti, .sc f, ti]

/-- `decision_forest<T>::serialize` (decision_forest/forest/decision_forest.cpp 65-96). -/
def forestTys : List Ty := [tb, ti, ti, ti, ti, ti, ti, ti, ti, ti, ti]

/-- `neighbors<T>::serialize` (nearest_neighbors/nearest_neighbors.cpp 2329-2408) up to the trees; the
last three are `X_int`, `y_train_class_int`, `y_train_reg_int`. -/
def nnTys (f : Sc) : List Ty :=
  [te, ti, ti, tb, tb, tb, tb, .vec ti, tb, tb, tb, ti, ti, ti, ti, te, ti, tb, .sc f, ti, ti, ti, .sc f, .vec ti,
   .vec (.vec ti), .vec (.vec (.sc f)), tb, tb, ti, tb, ti, ti, tb, .sc f, .sc f, .vec (.sc f), .vec ti, .vec (.sc f)]

/-- `binary_tree::serialize` (nearest_neighbors/binary_tree.cpp 555-580): the header. -/
def btTys (f : Sc) : List Ty := [ti, .vec ti, te, te, .sc f, .sc f, .vec (.sc f), ti, ti]

/-- `kd_node<T>::serialize` (binary_tree.cpp 107-127). -/
def kdNodeTys (f : Sc) : List Ty := [ti, ti, tb, ti, ti, .vec (.sc f), .vec (.sc f)]

/-- `ball_node<T>::serialize` (binary_tree.cpp 75-93). -/
def ballNodeTys (f : Sc) : List Ty := [ti, ti, tb, .vec (.sc f), .sc f]

/-- The value as an integer. -/
def asInt : (t : Ty) → t.denote → Int
  | .sc .int, v => v
  | .sc .enum, v => v
  | _, _ => 0

/-- Number of elements. -/
def asLen : (t : Ty) → t.denote → Nat
  | .vec _, l => l.length
  | .sc _, _ => 0

/-- Member number `i` as an integer. -/
def vint : (ts : List Ty) → Vals ts → Nat → Int
  | [], _, _ => 0
  | t :: _, v, 0 => asInt t v.1
  | _ :: ts, v, i + 1 => vint ts v.2 i

/-- Number of elements of member number `i`. -/
def vlen : (ts : List Ty) → Vals ts → Nat → Nat
  | [], _, _ => 0
  | t :: _, v, 0 => asLen t v.1
  | _ :: ts, v, i + 1 => vlen ts v.2 i

/-- Default values.  (The members of a new handle have other defaults; nothing below depends on
them.) -/
def vdef : (ts : List Ty) → Vals ts
  | [] => ()
  | t :: ts => (t.default, vdef ts)

/-! ### The handles -/

/-- What a machine does: largest size of a vector of nodes, trees or classifiers, and whether an
allocation succeeds. -/
structure Mach where
  lim : Nat
  alloc : Nat → Bool

/-- `tree_serialization` (decision_tree_handle_utilities.hpp 290-313). -/
def dtItems (f : Sc) (m : Mach) : Items (Vals (dtTys f)) (Vals (dtNodeTys f)) where
  count a := vint (dtTys f) a 8
  pre a := if vint (dtTys f) a 8 ≤ 0 then .invalidFile else .ok
  post _ := .ok
  lim := m.lim
  alloc := m.alloc
  fresh l n := resize (vdef (dtNodeTys f)) l n

abbrev DT (f : Sc) : Type := Vals (dtTys f) × List (Vals (dtNodeTys f))

def dtCodec (bits : Nat) (f : Sc) (m : Mach) : Codec (DT f) :=
  items (fields bits (dtTys f)) (fields bits (dtNodeTys f)) (dtItems f m)

/-- `forest_serialization` (decision_forest.cpp 40-63). -/
def forestItems (f : Sc) (m : Mach) : Items (Vals forestTys) (DT f) where
  count a := vint forestTys a 5
  pre _ := .ok
  post _ := .ok
  lim := m.lim
  alloc := m.alloc
  fresh _ n := List.replicate n (vdef (dtTys f), [])

def forestCodec (bits : Nat) (f : Sc) (m : Mach) : Codec (Vals forestTys × List (DT f)) :=
  items (fields bits forestTys) (dtCodec bits f m) (forestItems f m)

/-- `deserialize_kernel_f` (base_svm.cpp 999-1019): kernels 0 to 3 (rbf, linear, polynomial,
sigmoid). -/
def kernelCheck (f : Sc) (a : Vals (baseSvmTys f)) : St :=
  if 0 ≤ vint (baseSvmTys f) a 2 ∧ vint (baseSvmTys f) a 2 ≤ 3 then .ok else .invalidFile

/-- `serialize_classifiers` (svm.cpp 1487-1527): the model must be one of svc, nusvc, svr, nusvr
(1 to 4), which is looked at once there is a classifier to create. -/
def svmItems (f : Sc) (m : Mach) : Items (Vals (svmTys f)) (Vals (baseSvmTys f)) where
  count a := vint (svmTys f) a 2
  pre _ := .ok
  post a := if 0 < vint (svmTys f) a 2 ∧ ¬ (1 ≤ vint (svmTys f) a 11 ∧ vint (svmTys f) a 11 ≤ 4) then .unknownQuery else .ok
  lim := m.lim
  alloc := m.alloc
  fresh _ n := List.replicate n (vdef (baseSvmTys f))

def svmCodec (bits : Nat) (f : Sc) (m : Mach) : Codec (Vals (svmTys f) × List (Vals (baseSvmTys f))) :=
  items (fields bits (svmTys f)) (guarded (fields bits (baseSvmTys f)) (kernelCheck f)) (svmItems f m)

abbrev KdTree (f : Sc) : Type := Vals (btTys f) × BT (Vals (kdNodeTys f))
abbrev BallTree (f : Sc) : Type := Vals (btTys f) × BT (Vals (ballNodeTys f))

def kdCodec (bits : Nat) (f : Sc) : Codec (KdTree f) :=
  btree bits (fields bits (btTys f)) (fields bits (kdNodeTys f)) (vdef _) (fun a => vlen (btTys f) a 1)

def ballCodec (bits : Nat) (f : Sc) : Codec (BallTree f) :=
  btree bits (fields bits (btTys f)) (fields bits (ballNodeTys f)) (vdef _) (fun a => vlen (btTys f) a 1)

/-- The trees of a nearest neighbours handle. -/
inductive NNTree (f : Sc)
  | none
  | kd (t : KdTree f)
  | ball (t : BallTree f)

/-- The end of `neighbors<T>::serialize` (nearest_neighbors.cpp 2409-2440).  `algo` is
`working_algo`: 1 is k-d tree, 2 is ball tree.  A missing tree is a null pointer. -/
def nnTreeCodec (bits : Nat) (f : Sc) (algo : Int) : Codec (NNTree f) where
  size t n :=
    if algo = 1 then match t with | .kd x => (kdCodec bits f).size x n | _ => (.ub, n)
    else if algo = 2 then match t with | .ball x => (ballCodec bits f).size x n | _ => (.ub, n)
    else (.ok, n)
  ser size t buf :=
    if algo = 1 then match t with | .kd x => (kdCodec bits f).ser size x buf | _ => (.ub, buf)
    else if algo = 2 then match t with | .ball x => (ballCodec bits f).ser size x buf | _ => (.ub, buf)
    else (.ok, buf)
  des bytes t off :=
    if algo = 1 then
      match (kdCodec bits f).des bytes (vdef _, .nil) off with
      | (s, x, o) => (s, .kd x, o)
    else if algo = 2 then
      match (ballCodec bits f).des bytes (vdef _, .nil) off with
      | (s, x, o) => (s, .ball x, o)
    else (.ok, t, off)

/-- Second part depending on the first. -/
def dep {α β : Type} (c : Codec α) (d : α → Codec β) : Codec (α × β) where
  size := fun (a, b) n =>
    match c.size a n with
    | (.ok, n') => (d a).size b n'
    | (s, n') => (s, n')
  ser := fun size (a, b) buf =>
    match c.ser size a buf with
    | (.ok, buf') => (d a).ser size b buf'
    | (s, buf') => (s, buf')
  des := fun bytes (a, b) off =>
    match c.des bytes a off with
    | (.ok, a', o) =>
      match (d a').des bytes b o with
      | (s, b', o') => (s, (a', b'), o')
    | (s, a', o) => (s, (a', b), o)

def nnCodec (bits : Nat) (f : Sc) : Codec (Vals (nnTys f) × NNTree f) :=
  dep (fields bits (nnTys f)) (fun a => nnTreeCodec bits f (vint (nnTys f) a 13))

/-- `basic_handle<T>::serialize` (basic_handle.hpp 88-91) of the handles that cannot be saved. -/
def noCodec : Codec Unit where
  size _ n := (.notImplemented, n)
  ser _ _ buf := (.notImplemented, buf)
  des _ _ off := (.notImplemented, (), off)

/-! ### Options -/

/-- An option value with its type: integer, real, boolean or string. -/
abbrev Val : Type := (t : Ty) × t.denote

/-- The options of a handle, in the order in which the hash table is traversed. -/
abbrev Reg : Type := List (List Byte × Val)

def Reg.get (r : Reg) (key : List Byte) : Option Val :=
  (r.find? fun p => p.1 = key).map (·.2)

def Reg.set (r : Reg) (key : List Byte) (v : Val) : Reg :=
  r.map fun p => if p.1 = key then (p.1, v) else p

/-- `compute_serialized_size` (options.hpp 1012-1023). -/
def regSize (r : Reg) : Nat :=
  r.foldl (fun (n : Nat) p => n + getSize .str p.1 + getSize p.2.1 p.2.2) 8

def regSer1 (size : Nat) (p : List Byte × Val) (buf : List Byte) : St × List Byte :=
  match ser size .str p.1 buf with
  | (.ok, b) => ser size p.2.1 p.2.2 b
  | r => r

/-- `save_registry` (options.hpp 956-975). -/
def regSer (size : Nat) (r : Reg) (buf : List Byte) : St × List Byte :=
  match ser size ti (r.length : Int) buf with
  | (.ok, b) => serLoop (regSer1 size) r b
  | r => r

def regLoop (bits : Nat) (bytes : List Byte) : Nat → Reg → Nat → St × Reg × Nat
  | 0, r, off => (.ok, r, off)
  | k + 1, r, off =>
    match des bits bytes .str [] off with
    | (.ok, key, o) =>
      match r.get key with
      | none => (.invalidFile, r, o)
      | some v =>
        match des bits bytes v.1 v.2 o with
        | (.ok, v', o') => regLoop bits bytes k (r.set key ⟨v.1, v'⟩) o'
        | (s, v', o') => (s, r.set key ⟨v.1, v'⟩, o')
    | (s, _, o) => (s, r, o)

/-- `load_registry` (options.hpp 977-1009). -/
def regDes (bits : Nat) (bytes : List Byte) (r : Reg) (off : Nat) : St × Reg × Nat :=
  match des bits bytes ti (0 : Int) off with
  | (.ok, n, o) =>
    if n > (r.length : Int) ∨ n < 0 then (.invalidFile, r, o)
    else regLoop bits bytes n.toNat r o
  | (s, _, o) => (s, r, o)

/-! ### Files -/

/-- `header_keyword`: "AOCLDA_STORED_MODEL" (model_persistence.hpp 53). -/
def keyword : List Byte := [65, 79, 67, 76, 68, 65, 95, 83, 84, 79, 82, 69, 68, 95, 77, 79, 68, 69, 76]

/-- `model_persistence_min_version` (model_persistence.hpp 51), also the version of every handle
(basic_handle.cpp 45-56). -/
def minVersion : Int := 50301

/-- The members of the metadata behind the keyword: integer size, version, handle type, precision,
library version. -/
def metaTys : List Ty := [ti, ti, te, ti, .str]

structure Meta where
  typ : Int
  prec : Int
  aocl : List Byte

def metaVals (bits : Nat) (m : Meta) : Vals metaTys := (((bits / 8 : Nat) : Int), minVersion, m.typ, m.prec, m.aocl, ())

/-- `add_metadata_size` (model_persistence.hpp 167-182). -/
def metaSize (m : Meta) : Nat := 8 + keyword.length + 8 + 8 + 8 + 8 + 8 + m.aocl.length

/-- `serialize_metadata` (model_persistence.cpp 107-132). -/
def metaSer (bits size : Nat) (m : Meta) (buf : List Byte) : St × List Byte :=
  match ser size .str keyword buf with
  | (.ok, b) => (fields bits metaTys).ser size (metaVals bits m) b
  | r => r

/-- `deserialize_metadata` (model_persistence.cpp 134-168). -/
def metaDes (bits : Nat) (bytes : List Byte) (off : Nat) : St × (Int × Meta) × Nat :=
  match des bits bytes .str [] off with
  | (s, kw, o) =>
    if kw ≠ keyword then (.invalidFile, (0, ⟨0, 0, []⟩), o)
    else if s ≠ .ok then (s, (0, ⟨0, 0, []⟩), o)
    else
      match (fields bits metaTys).des bytes (vdef _) o with
      | (.ok, (isz, ver, typ, prec, aocl, ()), o') =>
        (if @LT.lt Int _ ver minVersion then .version
         else if ((bits / 8 : Nat) : Int) ≠ isz ∧ isz ≠ (4 : Int) then .invalidFile
         else if prec ≠ (4 : Int) ∧ prec ≠ (8 : Int) then .invalidFile
         else .ok, (ver, ⟨typ, prec, aocl⟩), o')
      | (s, _, o') => (s, (0, ⟨0, 0, []⟩), o')

/-- `save_model`, `preallocate_buffer` (basic_handle.cpp 253-303) called by `save_handle`
(da_handle.cpp 63-79).  As in the code, a failure to count the size of the options is overwritten
by the status of `reserve`.  Also gives the size that was reserved. -/
def saveFile (bits : Nat) {α : Type} (c : Codec α) (m : Meta) (r : Reg) (a : α) : St × List Byte × Nat :=
  match c.size a (metaSize m) with
  | (.ok, n1) =>
    let n2 := (addSize bits n1 (regSize r)).2
    match metaSer bits n2 m [] with
    | (.ok, b1) =>
      match regSer n2 r b1 with
      | (.ok, b2) =>
        match c.ser n2 a b2 with
        | (s, b3) => (s, b3, n2)
      | (s, b2) => (s, b2, n2)
    | (s, b1) => (s, b1, n2)
  | (s, n1) => (s, [], n1)

/-- The kinds of handles; `other` are those that cannot be saved. -/
inductive Kind
  | linmod | pca | kmeans | tree | forest | nn | svm | ann | kpca | other
  deriving DecidableEq

/-- What is saved of a handle. -/
def Obj : Kind → Sc → Type
  | .linmod, f => Vals (linmodTys f)
  | .pca, f => Vals (pcaTys f)
  | .kmeans, f => Vals (kmeansTys f)
  | .tree, f => DT f
  | .forest, f => Vals forestTys × List (DT f)
  | .nn, f => Vals (nnTys f) × NNTree f
  | .svm, f => Vals (svmTys f) × List (Vals (baseSvmTys f))
  | .ann, f => Vals (annTys f)
  | .kpca, f => Vals (kpcaTys f)
  | .other, _ => Unit

def codec (bits : Nat) (m : Mach) : (k : Kind) → (f : Sc) → Codec (Obj k f)
  | .linmod, f => fields bits (linmodTys f)
  | .pca, f => fields bits (pcaTys f)
  | .kmeans, f => fields bits (kmeansTys f)
  | .tree, f => dtCodec bits f m
  | .forest, f => forestCodec bits f m
  | .nn, f => nnCodec bits f
  | .svm, f => svmCodec bits f m
  | .ann, f => fields bits (annTys f)
  | .kpca, f => fields bits (kpcaTys f)
  | .other, _ => noCodec

/-- A new handle has no trees, classifiers or nodes. -/
def freshObj : (k : Kind) → (f : Sc) → Obj k f
  | .linmod, f => vdef (linmodTys f)
  | .pca, f => vdef (pcaTys f)
  | .kmeans, f => vdef (kmeansTys f)
  | .tree, f => (vdef (dtTys f), [])
  | .forest, _ => (vdef forestTys, [])
  | .nn, f => (vdef (nnTys f), .none)
  | .svm, f => (vdef (svmTys f), [])
  | .ann, f => vdef (annTys f)
  | .kpca, f => vdef (kpcaTys f)
  | .other, _ => ()

/-- `da_handle_init` (da_handle_public.cpp 34-193): the handle types are numbered as in
aoclda_handle.h 45-82; the types 4, 7, 10 and 13 (DBSCAN, nonlinear least squares, interpolation,
t-SNE) cannot be saved. -/
def kindOf (typ : Int) : Option Kind :=
  if typ = 1 then some .linmod
  else if typ = 2 then some .pca
  else if typ = 3 then some .kmeans
  else if typ = 5 then some .tree
  else if typ = 6 then some .forest
  else if typ = 8 then some .nn
  else if typ = 9 then some .svm
  else if typ = 11 then some .ann
  else if typ = 12 then some .kpca
  else if typ = 4 ∨ typ = 7 ∨ typ = 10 ∨ typ = 13 then some .other
  else none

/-- Type of reals by precision (bytes). -/
def realOf (prec : Int) : Sc := if prec = 4 then .f32 else .f64

/-- A loaded handle. -/
structure Loaded where
  k : Kind
  f : Sc
  opts : Reg
  obj : Obj k f

/-- `load_handle` (da_handle.cpp 105-141) and `basic_handle<T>::load_model` (basic_handle.cpp
305-325).  `regs` gives the options of a new handle of the given type and precision.  For a number
that is no handle type `da_handle_init` succeeds without creating a handle, and the member function
of a null pointer is called. -/
def loadFile (bits : Nat) (mach : Mach) (regs : Int → Int → Reg) (bytes : List Byte) : St × Option Loaded :=
  if bytes = [] then (.invalidInput, none)
  else
    match metaDes bits bytes 0 with
    | (.ok, (ver, m), o) =>
      match kindOf m.typ with
      | none => (.ub, none)
      | some k =>
        if ver ≠ minVersion then (.version, some ⟨k, realOf m.prec, regs m.typ m.prec, freshObj _ _⟩)
        else
          match regDes bits bytes (regs m.typ m.prec) o with
          | (.ok, r, o1) =>
            match (codec bits mach k (realOf m.prec)).des bytes (freshObj _ _) o1 with
            | (s, a, _) => (s, some ⟨k, realOf m.prec, r, a⟩)
          | (s, r, _) => (s, some ⟨k, realOf m.prec, r, freshObj _ _⟩)
    | (s, _, _) => (s, none)

end Verif.Persist
