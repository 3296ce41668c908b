import Verif.Moments.Model
import Verif.Blocking.Model

/-
The inverted-file index of the approximate nearest neighbours, building it:
/repo/source/core/approximate_neighbors/approximate_neighbors.cpp:152-842.

Memory is modelled as in Verif/Moments/Model.lean: an access outside an array is the fault
`oob`, integer division by zero the fault `divZero`.  Data are exact numbers of an ordered
field.  A `da_int` is a natural number and never wraps.  Running out of memory is not
modelled.  The clustering (k-means) is an arbitrary function that returns `n_list` centroids.
For the cosine metric the rows are normalised first (lines 577-598); here the array handed to
`add` is the one after that step.
-/
namespace Verif.ApproxNn

open Moments (M Fault rd wr forUp)

variable {K : Type} [Field K] [LinearOrder K]

/-- Position of entry (i, j) of a matrix with leading dimension `ld`. -/
def pos (row : Bool) (ld i j : Nat) : Nat := if row then i * ld + j else i + j * ld

/-- `for (l = 0; l < F; l++) s += a(l) * b(l)`: an entry of the product computed by `gemm`, or
a squared norm, euclidean_gemm_distance.cpp:67-104. -/
def dotM (F : Nat) (a b : Nat → M K) : M K :=
  forUp F (fun l s => do
    let x ← a l
    let y ← b l
    .ok (s + x * y)) 0

/-- One entry of the block of distances.  Euclidean: `euclidean_gemm_distance` with `square`
and without `X_is_Y` (euclidean_gemm_distance.cpp:60-157): minus twice the product plus the
two norms, the second of which may be given.  Otherwise `cblas_gemm` with factor -1.  The
arrays of norms are not materialised. -/
def entry (eu : Bool) (F : Nat) (x y : Nat → M K) (yn : Option (M K)) : M K := do
  let d ← dotM F x y
  if eu then do
    let a ← dotM F x x
    let b ← yn.getD (dotM F y y)
    .ok (-2 * d + (a + b))
  else .ok (-1 * d)

/-- The block of distances between `m` rows and `n` rows; row `i` of it starts at `i * n`.
In `add_ivfflat` the column-major call (lines 699-705 and 716-723) writes the transpose with
the roles exchanged, which is the same layout. -/
def distBlock (eu : Bool) (F m n : Nat) (x y : Nat → Nat → M K) (yn : Option (Nat → M K))
    (D : List K) : M (List K) :=
  forUp m (fun i D => forUp n (fun j D => do
    let v ← entry eu F (x i) (y j) (yn.map fun f => f j)
    wr D (i * n + j) v) D) D

/-- `std::distance(row, std::min_element(row, row + n))`, lines 735-739: the first smallest. -/
def argmin (n : Nat) (D : List K) (o : Nat) : M Nat :=
  forUp n (fun c best => do
    let a ← rd D (o + c)
    let b ← rd D (o + best)
    if a < b then .ok c else .ok best) 0

/-- One block of phase 1, lines 689-740.  The buffer of distances belongs to the thread; what
earlier blocks left in it is `D`. -/
def assignBlock (row eu : Bool) (F nlist : Nat) (cent : List K) (ldc : Nat) (X : List K)
    (ldx start size : Nat) (D : List K) (near : List Nat) : M (List K × List Nat) := do
  let D ← distBlock eu F size nlist (fun i l => rd X (pos row ldx (start + i) l))
    (fun c l => rd cent (pos row ldc c l)) none D
  let near ← forUp size (fun i near => do
    let c ← argmin nlist D (i * nlist)
    wr near (start + i) c) near
  .ok (D, near)

/-- Phase 1, lines 629-742: the blocks are done in an arbitrary order `ob`.  One buffer serves
all blocks; every block writes the part it reads, so it does not matter whose it is. -/
def assignAll (row eu : Bool) (F nlist : Nat) (cent : List K) (ldc : Nat) (X : List K)
    (ldx n blk : Nat) (ob : List Nat) : M (List Nat) := do
  match Blocking.blockingScheme n blk with
  | none => .error .divZero
  | some (nb, rem) =>
    let r ← ob.foldlM (fun r b =>
      let size := if b = nb - 1 ∧ rem > 0 then rem else blk
      assignBlock row eu F nlist cent ldc X ldx (b * blk) size r.1 r.2)
      (List.replicate (nlist * blk) 0, List.replicate n 0)
    .ok r.2

/-- What the index consists of, approximate_neighbors.hpp: `list_sizes`, `old_list_sizes`,
`indexed_vectors`, `list_norms`, `global_indices`, `n_index`, `data_is_added`. -/
structure Index (K : Type) where
  sizes : List Nat
  old : List Nat
  vecs : List (List K)
  norms : List (List K)
  glob : List (List Nat)
  nIndex : Nat
  added : Bool
  deriving DecidableEq

/-- `l[c].push_back(a)`. -/
def pushAt {A : Type} (l : List (List A)) (c : Nat) (a : A) : M (List (List A)) := do
  let r ← rd l c
  wr l c (r ++ [a])

/-- Phase 2, lines 748-754: the local indices and the new index. -/
def collect (n : Nat) (near : List Nat) (loc : List (List Nat)) (s : Index K) :
    M (List (List Nat) × Index K) :=
  forUp n (fun i r => do
    let c ← rd near i
    let loc ← pushAt r.1 c i
    let glob ← pushAt r.2.glob c (i + r.2.nIndex)
    let z ← rd r.2.sizes c
    let sizes ← wr r.2.sizes c (z + 1)
    .ok (loc, { r.2 with glob := glob, sizes := sizes })) (loc, s)

/-- `std::vector::resize`. -/
def resize (l : List K) (n : Nat) : List K := l.take n ++ List.replicate (n - l.length) 0

/-- The loop that makes room, lines 766-772. -/
def makeRoom (eu : Bool) (F nlist : Nat) (s : Index K) : M (Index K) :=
  forUp nlist (fun i s => do
    let z ← rd s.sizes i
    let v ← rd s.vecs i
    let vecs ← wr s.vecs i (resize v (z * F))
    if eu then do
      let w ← rd s.norms i
      let norms ← wr s.norms i (resize w z)
      .ok { s with vecs := vecs, norms := norms }
    else .ok { s with vecs := vecs }) s

/-- Copying one row into a list, with its norm, lines 794-804 and 806-815 (Euclidean), 819-825
and 827-834 (otherwise, where no norm is kept). -/
def copyRow (row : Bool) (F : Nat) (X : List K) (ldx src dst : Nat) (v : List K) :
    M (List K × K) :=
  forUp F (fun j r => do
    let a ← rd X (pos row ldx src j)
    let v ← wr r.1 (dst * F + j) a
    .ok (v, r.2 + a * a)) (v, 0)

/-- One list of phase 3, lines 784-836: the rows `indices_to_add` go to the rows from
`old_size` on. -/
def copyList (row eu : Bool) (F : Nat) (X : List K) (ldx old new : Nat) (loc : List Nat)
    (v w : List K) : M (List K × List K) :=
  forUp (new - old) (fun t r => do
    let src ← rd loc t
    let q ← copyRow row F X ldx src (old + t) r.1
    if eu then do
      let w ← wr r.2 (old + t) q.2
      .ok (q.1, w)
    else .ok (q.1, r.2)) (v, w)

/-- Phase 3, lines 778-837: the lists are done in an arbitrary order `ol`. -/
def copyAll (row eu : Bool) (F : Nat) (X : List K) (ldx : Nat) (ol : List Nat)
    (loc : List (List Nat)) (s : Index K) : M (Index K) :=
  ol.foldlM (fun s c => do
    let o ← rd s.old c
    let z ← rd s.sizes c
    let l ← rd loc c
    let v ← rd s.vecs c
    let w ← rd s.norms c
    let q ← copyList row eu F X ldx o z l v w
    let vecs ← wr s.vecs c q.1
    let norms ← wr s.norms c q.2
    .ok { s with vecs := vecs, norms := norms }) s

/-- `add_ivfflat`, lines 564-842.  `reserve` does nothing, except that line 654 divides by
`n_list`. -/
def addIvf (row eu : Bool) (F nlist : Nat) (cent : List K) (ldc : Nat) (X : List K)
    (ldx n blk : Nat) (ob ol : List Nat) (s : Index K) : M (Index K) := do
  if nlist = 0 then .error .divZero
  else do
    let s := if s.added then { s with old := s.sizes } else s
    let near ← assignAll row eu F nlist cent ldc X ldx n blk ob
    let r ← collect n near (List.replicate nlist []) s
    let s ← makeRoom eu F nlist r.2
    let s ← copyAll row eu F X ldx ol r.1 s
    .ok { s with nIndex := s.nIndex + n, added := true }

/-! The handle. -/

/-- The options that can be set and the members they are copied to. -/
structure Handle (K : Type) where
  optList : Nat
  optRow : Bool
  optEu : Bool
  dataSet : Bool
  trained : Bool
  row : Bool
  eu : Bool
  nList : Nat
  F : Nat
  n : Nat
  X : List K
  ldx : Nat
  ldc : Nat
  cent : List K
  ix : Index K

/-- A new handle: the defaults of the options (approximate_neighbors_options.hpp:52-110) and of
the members (approximate_neighbors.hpp). -/
def Handle.fresh : Handle K :=
  ⟨1, false, true, false, false, false, true, 1, 0, 0, [], 0, 0, [], ⟨[], [], [], [], [], 0, false⟩⟩

inductive Call (K : Type)
  | setList (k : Nat)
  | setRow (b : Bool)
  | setMetric (b : Bool)
  | setData (n F : Nat) (X : List K) (ldx : Nat)
  | train
  | add (n F : Nat) (X : List K) (ldx blk : Nat) (ob ol : List Nat)

/-- What `check_2D_array` accepts (basic_handle.hpp). -/
def arrayOk (row : Bool) (n F ldx : Nat) : Bool :=
  1 ≤ n && 1 ≤ F && (if row then F ≤ ldx else n ≤ ldx)

/-- `set_training_data`, lines 187-231; the flag says whether the call succeeded. -/
def setData (n F : Nat) (X : List K) (ldx : Nat) (h : Handle K) : M (Handle K × Bool) :=
  let h := { h with dataSet := false, trained := false, row := h.optRow,
                    ix := { h.ix with added := false, nIndex := 0 } }
  if arrayOk h.row n F ldx then
    .ok ({ h with X := X, ldx := ldx, F := F, n := n, dataSet := true }, true)
  else .ok (h, false)

/-- Reading the training matrix, as k-means does (and lines 389-416 for cosine); `train
fraction` is one. -/
def readTrain (row : Bool) (n F : Nat) (X : List K) (ldx : Nat) : M (List (List K)) :=
  (List.range n).mapM fun i => (List.range F).mapM fun j => rd X (pos row ldx i j)

/-- `train`, lines 492-523, with `read_training_options` (233-274) and `train_ivfflat`
(333-490).  `km` is the clustering, with the storage order, `n_list` and the data. -/
def train (km : Bool → Nat → List (List K) → List K) (h : Handle K) : M (Handle K × Bool) :=
  if h.dataSet then
    let h := { h with nList := h.optList }
    if h.nList > h.n then .ok (h, false)
    else do
      let h := { h with row := h.optRow, eu := h.optEu,
                        ldc := if h.optRow then h.F else h.nList }
      let A ← readTrain h.row h.n h.F h.X h.ldx
      let z := List.replicate h.nList 0
      .ok ({ h with trained := true, cent := km h.row h.nList A,
                    ix := { h.ix with sizes := z, old := z, vecs := List.replicate h.nList [],
                                      norms := List.replicate h.nList [],
                                      glob := List.replicate h.nList [] } }, true)
  else .ok (h, false)

/-- `add`, lines 525-562, with `check_options_update` (152-185). -/
def add (n F : Nat) (X : List K) (ldx blk : Nat) (ob ol : List Nat) (h : Handle K) :
    M (Handle K × Bool) :=
  if !h.trained then .ok (h, false)
  else if h.optList ≠ h.nList ∨ h.optEu ≠ h.eu then .ok (h, false)
  else if !arrayOk h.row n F ldx then .ok (h, false)
  else if F ≠ h.F then .ok (h, false)
  else do
    let ix ← addIvf h.row h.eu h.F h.nList h.cent h.ldc X ldx n blk ob ol h.ix
    .ok ({ h with ix := ix }, true)

def step (km : Bool → Nat → List (List K) → List K) (h : Handle K) : Call K → M (Handle K × Bool)
  | .setList k => if 1 ≤ k then .ok ({ h with optList := k }, true) else .ok (h, false)
  | .setRow b => .ok ({ h with optRow := b }, true)
  | .setMetric b => .ok ({ h with optEu := b }, true)
  | .setData n F X ldx => setData n F X ldx h
  | .train => train km h
  | .add n F X ldx blk ob ol => add n F X ldx blk ob ol h

/-- A sequence of calls. -/
def run (km : Bool → Nat → List (List K) → List K) (cs : List (Call K)) (h : Handle K) :
    M (Handle K) :=
  cs.foldlM (fun h c => do
    let r ← step km h c
    .ok r.1) h

end Verif.ApproxNn
