/-
k-d tree and ball tree: construction and searches,
/repo/source/core/nearest_neighbors/binary_tree.cpp:198-493, kd_tree.cpp:118-619, ball_tree.cpp:40-618.

Numbers are exact elements of an ordered field; the square root and the power function are
parameters.  The data matrix is a function of sample and feature (`A[i + j * lda]`).  `da_int` is
unbounded, memory exhaustion is not modelled, and the distance kernels are represented by the
function they compute (so `compute_distance` always succeeds).
The tasks of the construction work on disjoint parts of `indices` and on their own nodes; they are
executed one after the other here.  Dereferencing a null node and reading outside an array give `none`.
-/
import Verif.Heap.Model
import Verif.Blocking.Model
import Mathlib.Algebra.Order.Field.Basic
namespace Verif.NnTree

/-- `da_metric`, as far as the trees meet it (/repo/source/include/aoclda_metrics.h:44-56). -/
inductive Metric | euclidean | manhattan | minkowski | euclideanGemm | sqeuclideanGemm
deriving DecidableEq, Repr

/-- `std::sqrt`, `std::pow` and `std::numeric_limits<T>::max()`. -/
structure Fns (K : Type) where
  sqrt : K → K
  pow : K → K → K
  top : K

variable {K : Type} [Field K] [LinearOrder K]

/-- A loop `for j = 0, …, d - 1: s += f(j)` from zero. -/
def sumTo (d : Nat) (f : Nat → K) : K := (List.range d).foldl (fun s j => s + f j) 0

/-- The members set by `store_data`. -/
structure Tree (K : Type) where
  fns : Fns K
  n : Nat
  d : Nat
  A : Nat → Nat → K
  leafSize : Nat
  metric : Metric
  p : K
  pInv : K

/-- `store_data`, binary_tree.cpp:223-250.  (`A_norms`, lines 252-281, is the function `norm` below.) -/
def storeData (fns : Fns K) (n d : Nat) (A : Nat → Nat → K) (leafSize : Nat) (metric : Metric) (p : K) : Tree K :=
  let metric' := if metric = .minkowski ∧ p = 2 then .euclidean else metric
  { fns, n, d, A, leafSize, metric := metric',
    p := if metric' = .manhattan then 1 else p,
    pInv := if metric' = .manhattan then 1 else 1 / p }

/-- Squared norm of a row: an entry of `A_norms`, binary_tree.cpp:270-276, and `X_norm`, lines 353-357. -/
def norm (d : Nat) (x : Nat → K) : K := sumTo d fun j => x j * x j

/-- `minkowski` distance kernel with its special cases, /repo/source/core/metrics/pairwise_distances.cpp:54-63. -/
def minkowskiKernel (fns : Fns K) (p : K) (d : Nat) (x a : Nat → K) : K :=
  if p = 2 then fns.sqrt (sumTo d fun j => (x j - a j) * (x j - a j))
  else if p = 1 then sumTo d fun j => |x j - a j|
  else fns.pow (sumTo d fun j => fns.pow |x j - a j| p) (1 / p)

/-- `compute_distance`, binary_tree.cpp:198-221; for `da_euclidean` the internal metric is the squared distance. -/
def computeDistance (t : Tree K) (i : Nat) (x : Nat → K) (xNorm : K) : K :=
  match t.metric with
  | .euclideanGemm => xNorm + norm t.d (t.A i) - 2 * sumTo t.d fun j => x j * t.A i j
  | .euclidean => sumTo t.d fun j => (x j - t.A i j) * (x j - t.A i j)
  | .sqeuclideanGemm => sumTo t.d fun j => (x j - t.A i j) * (x j - t.A i j)
  | .manhattan => sumTo t.d fun j => |x j - t.A i j|
  | .minkowski => minkowskiKernel t.fns t.p t.d x (t.A i)

def Tree.isEuclid (t : Tree K) : Bool := t.metric == .euclidean || t.metric == .euclideanGemm

/-- `nn_check_region`. -/
inductive Region | outside | within | inside
deriving DecidableEq, Repr

/-! ### k-d tree -/

/-- `tmp_min_dist` and `tmp_max_dist` before any power, kd_tree.cpp:560-570 and 582-592. -/
def boxGap (x lo hi : K) : K × K :=
  if x < lo then (lo - x, hi - x)
  else if hi < x then (x - hi, x - lo)
  else (0, max (hi - x) (x - lo))

/-- The loops of `check_bounding_box` over the features, kd_tree.cpp:558-607; `none` is the quick return. -/
def boxLoop (t : Tree K) (x : Nat → K) (eps : K) (lo hi : Nat → K) : List Nat → K → K → Option (K × K)
  | [], minDist, maxDist => some (minDist, maxDist)
  | i :: is, minDist, maxDist =>
    let g := boxGap (x i) (lo i) (hi i)
    if t.isEuclid then
      if eps < g.1 * g.1 then none
      else boxLoop t x eps lo hi is (minDist + g.1 * g.1) (maxDist + g.2 * g.2)
    else if eps < g.1 then none
    else if t.metric = .manhattan then boxLoop t x eps lo hi is (minDist + g.1) (maxDist + g.2)
    else boxLoop t x eps lo hi is (minDist + t.fns.pow g.1 t.p) (maxDist + t.fns.pow g.2 t.p)

/-- `check_bounding_box`, kd_tree.cpp:539-619. -/
def checkBox (t : Tree K) (x : Nat → K) (eps : K) (lo hi : Nat → K) : Region :=
  match boxLoop t x eps lo hi (List.range t.d) 0 0 with
  | none => .outside
  | some (minDist, maxDist) =>
    let rooted := !t.isEuclid && t.metric ≠ .manhattan
    let minDist := if rooted then t.fns.pow minDist t.pInv else minDist
    let maxDist := if rooted then t.fns.pow maxDist t.pInv else maxDist
    if maxDist ≤ eps then .inside
    else if minDist ≤ eps then .within
    else .outside

/-- `kd_node`, binary_tree.hpp:38-88; `off` is the offset of its `indices` pointer, `null` is `nullptr`. -/
inductive Kd (K : Type)
  | null
  | node (isLeaf : Bool) (dim point off n : Nat) (lo hi : Nat → K) (left right : Kd K)

/-- Bounding box of some samples, kd_tree.cpp:263-275. -/
def nodeLo (t : Tree K) (idx : List Nat) (j : Nat) : K := idx.foldl (fun m i => min m (t.A i j)) t.fns.top
def nodeHi (t : Tree K) (idx : List Nat) (j : Nat) : K := idx.foldl (fun m i => max m (t.A i j)) (-t.fns.top)

/-- `single_pass_variance`, kd_tree.cpp:226-239. -/
def variance (t : Tree K) (idx : List Nat) (dim : Nat) : K :=
  let r := idx.foldl (fun (s : Nat × K × K) k =>
    let value := t.A k dim
    let delta := value - s.2.1
    let mean := s.2.1 + delta / ((s.1 + 1 : Nat) : K)
    (s.1 + 1, mean, s.2.2 + delta * (value - mean))) (0, 0, 0)
  r.2.2 / (idx.length : K)

/-- Choice of the dimension below the root, kd_tree.cpp:286-297. -/
def bestDim (t : Tree K) (idx : List Nat) : Nat :=
  ((List.range t.d).foldl (fun (s : K × Nat) i =>
    let v := variance t idx i
    if s.1 < v then (v, i) else s) (0, 0)).2

/-- `build_tree`, kd_tree.cpp:243-333.  `nth` is `std::nth_element`: comparison, position, range.
`rootDim` comes from `cblas_iamax` of the variances and is not modelled further; `box` is given for the root only.
Returns the node and the final contents of its part of `indices`. -/
def kdBuild (t : Tree K) (nth : (Nat → Nat → Bool) → Nat → List Nat → List Nat) (rootDim : Nat) :
    Nat → Nat → Nat → List Nat → Option ((Nat → K) × (Nat → K)) → Kd K × List Nat
  | 0, _, _, idx, _ => (.null, idx)
  | fuel + 1, depth, off, idx, box =>
    if idx.length = 0 then (.null, idx)
    else
      let lo := (box.getD (nodeLo t idx, nodeHi t idx)).1
      let hi := (box.getD (nodeLo t idx, nodeHi t idx)).2
      if idx.length < 2 * t.leafSize ∨ idx.length = 2 then (.node true 0 0 off idx.length lo hi .null .null, idx)
      else
        let dim := if depth = 0 then rootDim else bestDim t idx
        let mid := (idx.length - 1) / 2
        let ys := nth (fun x y => decide (t.A x dim < t.A y dim)) mid idx
        let point := ys.getD mid 0
        let l := kdBuild t nth rootDim fuel (depth + 1) off (ys.take mid) none
        let r := kdBuild t nth rootDim fuel (depth + 1) (off + mid + 1) (ys.drop (mid + 1)) none
        (.node false dim point off idx.length lo hi l.1 r.1, l.2 ++ point :: r.2)

/-- Private bounds of one thread over the blocks `ks`, kd_tree.cpp:158-178. -/
def threadLo (t : Tree K) (blocks : Nat → List Nat) (ks : List Nat) (j : Nat) : K :=
  ks.foldl (fun m k => (blocks k).foldl (fun m i => min m (t.A i j)) m) t.fns.top
def threadHi (t : Tree K) (blocks : Nat → List Nat) (ks : List Nat) (j : Nat) : K :=
  ks.foldl (fun m k => (blocks k).foldl (fun m i => max m (t.A i j)) m) (-t.fns.top)

/-- Samples of block `k`, kd_tree.cpp:160-165. -/
def blockSamples (n mbs nBlocks rem k : Nat) : List Nat :=
  if k = nBlocks - 1 ∧ rem > 0 then List.range' (n - rem) rem else List.range' (k * mbs) mbs

/-- `kd_tree` constructor, kd_tree.cpp:118-217.  `threads`: the blocks of every thread; the threads enter the two
critical sections in the orders `orderLo` and `orderHi`. -/
def kdCreate (t : Tree K) (nth : (Nat → Nat → Bool) → Nat → List Nat → List Nat) (rootDim : Nat)
    (orderLo orderHi : List (List Nat)) : Option (Kd K × List Nat) :=
  let mbs := min 256 t.n
  match Blocking.blockingScheme t.n mbs with
  | none => none
  | some (nBlocks, rem) =>
    let blocks := blockSamples t.n mbs nBlocks rem
    let lo : Nat → K := fun j => orderLo.foldl (fun m ks => min m (threadLo t blocks ks j)) t.fns.top
    let hi : Nat → K := fun j => orderHi.foldl (fun m ks => max m (threadHi t blocks ks j)) (-t.fns.top)
    some (kdBuild t nth rootDim (t.n + 1) 0 0 (List.range t.n) (some (lo, hi)))

/-- Number of blocks of the constructor, kd_tree.cpp:137-138. -/
def kdBlocks (n : Nat) : Nat := ((Blocking.blockingScheme n (min 256 n)).map (·.1)).getD 0

/-- The entries of a node's `indices`. -/
def readIdx (idx : List Nat) (off n : Nat) : Option (List Nat) :=
  if off + n ≤ idx.length then some ((idx.drop off).take n) else none

/-- `neighbors.push_back`, and `distances.push_back` when asked. -/
def push (ret : Bool) (acc : List Nat × List K) (i : Nat) (dist : K) : List Nat × List K :=
  (acc.1 ++ [i], if ret then acc.2 ++ [dist] else acc.2)

/-- What a search knows about its query: the row, its norm, whether it is a sample of the tree and which. -/
structure Query (K : Type) where
  x : Nat → K
  xNorm : K
  isA : Bool
  index : Nat

/-- The loop over all points of a node that lies within the radius, kd_tree.cpp:360-376, ball_tree.cpp:462-479. -/
def addAll (t : Tree K) (q : Query K) (ret : Bool) (is : List Nat) (acc : List Nat × List K) : List Nat × List K :=
  is.foldl (fun acc i => if q.isA && i == q.index then acc else push ret acc i (computeDistance t i q.x q.xNorm)) acc

/-- The loop over the points of a leaf, kd_tree.cpp:382-404, ball_tree.cpp:484-506. -/
def addClose (t : Tree K) (q : Query K) (epsI : K) (ret : Bool) (is : List Nat) (acc : List Nat × List K) :
    List Nat × List K :=
  is.foldl (fun acc i => if q.isA && i == q.index then acc
    else
      let dist := computeDistance t i q.x q.xNorm
      if dist ≤ epsI then push ret acc i dist else acc) acc

/-- `radius_neighbors_recursive`, kd_tree.cpp:336-440. -/
def kdRadius (t : Tree K) (idx : List Nat) (q : Query K) (eps epsI : K) (ret : Bool) :
    Kd K → List Nat × List K → Option (List Nat × List K)
  | .null, _ => none
  | .node isLeaf dim point off n lo hi left right, acc =>
    match checkBox t q.x epsI lo hi with
    | .outside => some acc
    | .inside => (readIdx idx off n).map fun is => addAll t q ret is acc
    | .within =>
      if isLeaf then (readIdx idx off n).map fun is => addClose t q epsI ret is acc
      else
        let acc := if !(q.isA && point == q.index) then
            let dist := computeDistance t point q.x q.xNorm
            if dist ≤ epsI then push ret acc point dist else acc
          else acc
        let diff := q.x dim - t.A point dim
        match (if diff ≤ eps then kdRadius t idx q eps epsI ret left acc else some acc) with
        | none => none
        | some acc => if -eps ≤ diff then kdRadius t idx q eps epsI ret right acc else some acc

/-- The loop over the points of a leaf in the k-nearest searches, kd_tree.cpp:465-484, ball_tree.cpp:551-570. -/
def insertLeaf (t : Tree K) (q : Query K) (is : List Nat) (h : Heap.MaxHeap K) : Heap.MaxHeap K :=
  is.foldl (fun h i => if q.isA && i == q.index then h else Heap.insert h i (computeDistance t i q.x q.xNorm)) h

/-- `k_neighbors_recursive`, kd_tree.cpp:443-532. -/
def kdNearest (t : Tree K) (idx : List Nat) (q : Query K) (k : Nat) :
    Kd K → Heap.MaxHeap K → Option (Heap.MaxHeap K)
  | .null, _ => none
  | .node isLeaf dim point off n lo hi left right, h =>
    let proximity := if h.size < k then .within else checkBox t q.x (Heap.getMaxDist t.fns.top h) lo hi
    if proximity = .outside then some h
    else if isLeaf then (readIdx idx off n).map fun is => insertLeaf t q is h
    else
      let h := if !(q.isA && point == q.index) then Heap.insert h point (computeDistance t point q.x q.xNorm) else h
      let diff := q.x dim - t.A point dim
      let diffTmp := if t.isEuclid then diff * |diff| else diff
      if diff < 0 then
        match kdNearest t idx q k left h with
        | none => none
        | some h => if -Heap.getMaxDist t.fns.top h ≤ diffTmp then kdNearest t idx q k right h else some h
      else
        match kdNearest t idx q k right h with
        | none => none
        | some h => if diffTmp ≤ Heap.getMaxDist t.fns.top h then kdNearest t idx q k left h else some h

/-! ### Queries -/

/-- Rows of `X` (all of them samples of the tree if `X_in` is null), their norms and the radius.
binary_tree.cpp:287-312, 347-363, 449-465.  The norm of sample `i` is read from `A_norms` even for rows of `X` that
are no samples, lines 351 and 453: with more rows than samples this is a read outside the array. -/
def makeQuery (t : Tree K) (X : Option (Nat → Nat → K)) (i : Nat) : Option (Query K) :=
  let row := (X.getD t.A) i
  if t.metric = .euclideanGemm then
    if i < t.n then some ⟨row, if X.isSome then norm t.d row else norm t.d (t.A i), X.isNone, i⟩ else none
  else some ⟨row, 0, X.isNone, i⟩

/-- `eps_internal`, binary_tree.cpp:404-407. -/
def epsInternal (t : Tree K) (eps : K) : K := if t.isEuclid then eps * eps else eps

/-- One iteration of `radius_neighbors_loop`, binary_tree.cpp:438-493, from empty `neighbors[i]`, `distances[i]`. -/
def kdRadiusRow (t : Tree K) (tree : Kd K × List Nat) (X : Option (Nat → Nat → K)) (eps : K) (ret : Bool) (i : Nat) :
    Option (List Nat × List K) :=
  (makeQuery t X i).bind fun q => kdRadius t tree.2 q eps (epsInternal t eps) ret tree.1 ([], [])

/-- One iteration of `k_neighbors`, binary_tree.cpp:347-376, on row `i` of `k_ind` and `k_dist`. -/
def kdNearestRow (t : Tree K) (tree : Kd K × List Nat) (X : Option (Nat → Nat → K)) (k : Nat)
    (kInd : Nat → Nat) (kDist : Nat → K) (i : Nat) : Option (Heap.MaxHeap K) :=
  (makeQuery t X i).bind fun q => kdNearest t tree.2 q k tree.1 (Heap.create k kInd kDist)

end Verif.NnTree
