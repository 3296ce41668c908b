import Verif.ApproxNn.Model
import Verif.Heap.Model
import Mathlib.Data.List.Sort

/-
The inverted-file index of the approximate nearest neighbours, searching it:
/repo/source/core/approximate_neighbors/approximate_neighbors.cpp:944-1246 and
nearest_neighbors/nearest_neighbors_utils.hpp:72-101.

As in Verif/ApproxNn/Model.lean.  Centroids and queries are row-major here (lines 1255-1277 transpose
column-major ones) and normalised if the metric is cosine (lines 1069-1082).  `top` is
`std::numeric_limits<T>::max()` and `inf` stands for infinity.  Neighbour indices are `da_int`s from -1 on; the
number `v` is represented by `v + 1`, so that -1 is 0.  The override of the block sizes for testing is not
modelled.
-/
namespace Verif.ApproxNn

open Moments (M Fault rd wr forUp)
open Heap (MaxHeap create getMaxDist insert)

variable {K : Type} [Field K] [LinearOrder K]

/-- The scan of `n` distances, lines 951-958 and 1109-1117: those below the current maximum are
inserted.  `ix` gives the index of a candidate. -/
def scan (top : K) (n : Nat) (ix : Nat → M Nat) (d : Nat → M K) (h : MaxHeap K) : M (MaxHeap K) := do
  let r ← forUp n (fun v (r : MaxHeap K × K) => do
    let x ← d v
    if x < r.2 then do
      let i ← ix v
      let h := insert r.1 i x
      .ok (h, getMaxDist top h)
    else .ok r) (h, getMaxDist top h)
  .ok r.1

/-- The work arrays of a thread that are not reset for a block, lines 1007-1025: coarse and fine distances, the
gathered queries, the queries of each centroid and the indices of the heap of centroids. -/
structure Bufs (K : Type) where
  coarse : List K
  fine : List K
  queries : List K
  qpc : List Nat
  cent : Nat → Nat

/-- Recording the centroids a query probes, lines 1118-1122. -/
def record (qb nprobe q : Nat) (cent : Nat → Nat) (qpc cnt : List Nat) : M (List Nat × List Nat) :=
  forUp nprobe (fun p (r : List Nat × List Nat) => do
    let n ← rd r.2 (cent p)
    let qpc ← wr r.1 (cent p * qb + n) q
    let cnt ← wr r.2 (cent p) (n + 1)
    .ok (qpc, cnt)) (qpc, cnt)

/-- The probes of the queries of a block, lines 1102-1123; the result are the work arrays and the number of
queries of each centroid. -/
def probes (top : K) (nlist nprobe qb start size : Nat) (b : Bufs K) : M (Bufs K × List Nat) :=
  forUp size (fun q (r : Bufs K × List Nat) => do
    let h ← scan top nlist (fun c => .ok c) (fun c => rd b.coarse (q * nlist + c))
      (create nprobe r.1.cent fun _ => top)
    let w ← record qb nprobe (start + q) h.indices r.1.qpc r.2
    .ok ({ r.1 with qpc := w.1, cent := h.indices }, w.2)) (b, List.replicate nlist 0)

/-- Gathering the queries that probe a list, lines 1135-1145. -/
def gather (F qcount : Nat) (qof : Nat → M Nat) (X : List K) (ldx : Nat) (queries : List K) : M (List K) :=
  forUp qcount (fun k w => do
    let q ← qof k
    forUp F (fun l w => do
      let a ← rd X (q * ldx + l)
      wr w (k * F + l) a) w) queries

/-- `update_heaps_from_list_blk`, lines 944-960. -/
def updateHeaps (top : K) (size qcount : Nat) (gidx : Nat → M Nat) (fine : List K) (start : Nat)
    (qof : Nat → M Nat) (heaps : List (MaxHeap K)) : M (List (MaxHeap K)) :=
  forUp qcount (fun q hs => do
    let i ← qof q
    let h ← rd hs (i - start)
    let h ← scan top size gidx (fun v => rd fine (q * size + v)) h
    wr hs (i - start) h) heaps

/-- The blocks of one list, lines 1147-1168. -/
def listBlocks (eu : Bool) (top : K) (F lb size qcount start : Nat) (vec norm : List K) (glob : List Nat)
    (qof : Nat → M Nat) (queries : List K) (fine : List K) (heaps : List (MaxHeap K)) :
    M (List K × List (MaxHeap K)) :=
  if lb = 0 then .error .stuck
  else forUp ((size + lb - 1) / lb) (fun r (s : List K × List (MaxHeap K)) => do
    let t := r * lb
    let this := min lb (size - t)
    let fine ← distBlock eu F qcount this (fun k l => rd queries (k * F + l))
      (fun v l => rd vec (t * F + (v * F + l))) (some fun v => rd norm (t + v)) s.1
    let hs ← updateHeaps top this qcount (fun v => do
      let g ← rd glob (t + v)
      .ok (g + 1)) fine start qof s.2
    .ok (fine, hs)) (fine, heaps)

/-- The loop over the lists, lines 1125-1170. -/
def searchLists (eu : Bool) (top : K) (F nlist qb lb start : Nat) (X : List K) (ldx : Nat) (s : Index K)
    (cnt : List Nat) (b : Bufs K) (heaps : List (MaxHeap K)) : M (Bufs K × List (MaxHeap K)) :=
  forUp nlist (fun j (r : Bufs K × List (MaxHeap K)) => do
    let size ← rd s.sizes j
    let vec ← rd s.vecs j
    let norm ← rd s.norms j
    let glob ← rd s.glob j
    let qcount ← rd cnt j
    let qof := fun k => rd r.1.qpc (j * qb + k)
    if size > 0 ∧ qcount > 0 then do
      let queries ← gather F qcount qof X ldx r.1.queries
      let w ← listBlocks eu top F lb size qcount start vec norm glob qof queries r.1.fine r.2
      .ok ({ r.1 with queries := queries, fine := w.1 }, w.2)
    else .ok r) (b, heaps)

/-- `sorted_n_dist_n_ind`, nearest_neighbors_utils.hpp:72-101, with `ascending` and without `get_squares`, at
the position `o` of the results. -/
def writeSorted (k : Nat) (h : MaxHeap K) (o : Nat) (ind : List Nat) (dst : List K) :
    M (List Nat × List K) :=
  let perm := (List.range k).insertionSort fun i j => h.distances i ≤ h.distances j
  forUp k (fun i (r : List Nat × List K) => do
    let p ← rd perm i
    let ind ← wr r.1 (o + i) (h.indices p)
    let dst ← wr r.2 (o + i) (h.distances p)
    .ok (ind, dst)) (ind, dst)

/-- One block of queries, lines 1048-1182.  `size` is `this_query_blk_sz`; `block_end - block_start` is the
same number.  Every query of the block has its own piece of the two arrays behind the heaps, so each heap here
owns its memory. -/
def searchBlock (eu : Bool) (top inf : K) (F k nlist nprobe qb lb : Nat) (cent : List K) (ldc : Nat)
    (cnorm : List K) (X : List K) (ldx : Nat) (s : Index K) (start size : Nat)
    (r : Bufs K × List Nat × List K) : M (Bufs K × List Nat × List K) := do
  let heaps := List.replicate qb (create k (fun _ => 0) fun _ => inf)
  let coarse ← distBlock eu F size nlist (fun i l => rd X ((start + i) * ldx + l))
    (fun c l => rd cent (c * ldc + l)) (some fun c => rd cnorm c) r.1.coarse
  let p ← probes top nlist nprobe qb start size { r.1 with coarse := coarse }
  let w ← searchLists eu top F nlist qb lb start X ldx s p.2 p.1 heaps
  let out ← forUp size (fun ii (o : List Nat × List K) => do
    let h ← rd w.2 ii
    writeSorted k h ((start + ii) * k) o.1 o.2) (r.2.1, r.2.2)
  .ok (w.1, out.1, out.2)

/-- `ivfflat_search_query_parallel`, lines 962-1190: the blocks are done in an arbitrary order `ob`.  The blocks
share one set of work arrays, initially `b`; in the code every thread has its own. -/
def search (eu : Bool) (top inf : K) (F k nlist nprobe qb lb : Nat) (cent : List K) (ldc : Nat)
    (cnorm : List K) (X : List K) (ldx nq : Nat) (s : Index K) (ob : List Nat) (b : Bufs K) (ind : List Nat)
    (dst : List K) : M (List Nat × List K) := do
  match Blocking.blockingScheme nq qb with
  | none => .error .divZero
  | some (nb, rem) =>
    let r ← ob.foldlM (fun r i =>
      let size := if i = nb - 1 ∧ rem > 0 then rem else qb
      searchBlock eu top inf F k nlist nprobe qb lb cent ldc cnorm X ldx s (i * qb) size r) (b, ind, dst)
    .ok r.2

/-- What `ivf_search` decides about the sizes of the blocks, lines 1207-1228: an overflow of the product of
line 1209, or the number of queries and of vectors per block. -/
inductive Sizes
  | overflow
  | sizes (query list : Int)
  deriving DecidableEq, Repr

/-- Lines 1198-1228.  `imax` is the largest `da_int`, `budget` is `(8 << 20) / sizeof(T)`, `maxList` is
`max_list_size`.  The square root is exact; the conversion to `da_int` drops the fraction.  Other products and
sums are not checked for overflow. -/
def blockSizes (imax budget f nq threads maxList : Nat) : Sizes :=
  if f * f + budget > imax then .overflow
  else
    let s : Int := -(f : Int) + Nat.sqrt (f * f + budget)
    let queryUb : Int := max 1 ((nq / threads : Nat) : Int)
    let query := min s queryUb
    let list := min s (maxList : Int)
    let list := if query < s then
      min (max 1 (((budget : Int) - query * f).tdiv (query + f))) (maxList : Int) else list
    let query := if list < s then
      min (max 1 (((budget : Int) - list * f).tdiv (list + f))) queryUb else query
    .sizes query list

/-- The block size of `add_ivfflat`, lines 607-617; `budget` is `(64 << 20) / sizeof(T)`. -/
def addBlockSize (budget n threads nlist : Nat) : Nat :=
  min (max 1 (n / threads)) (max 1 (budget / (threads * max 1 nlist)))

end Verif.ApproxNn
