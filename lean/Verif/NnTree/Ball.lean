/-
Ball tree: construction and searches, /repo/source/core/nearest_neighbors/ball_tree.cpp:40-618.
-/
import Verif.NnTree.Model
namespace Verif.NnTree

variable {K : Type} [Field K] [LinearOrder K]

/-- `pairwise_distance_kernel`, /repo/source/core/metrics/pairwise_distances.cpp:37-75, for one sample and one point. -/
def pairwise (fns : Fns K) (metric : Metric) (p : K) (d : Nat) (a x : Nat → K) : K :=
  match metric with
  | .euclidean => fns.sqrt (sumTo d fun j => (a j - x j) * (a j - x j))
  | .euclideanGemm => fns.sqrt (sumTo d fun j => (a j - x j) * (a j - x j))
  | .sqeuclideanGemm => sumTo d fun j => (a j - x j) * (a j - x j)
  | .manhattan => sumTo d fun j => |a j - x j|
  | .minkowski => minkowskiKernel fns p d a x

/-- The entry that `cblas_iamax` points to: the first of largest absolute value. -/
def amax : List K → K
  | [] => 0
  | x :: xs => xs.foldl (fun m y => if |m| < |y| then y else m) x

/-- `ball_node`, binary_tree.hpp:92-111. -/
inductive Ball (K : Type)
  | null
  | node (isLeaf : Bool) (off n : Nat) (centroid : Nat → K) (radius : K) (left right : Ball K)

/-- `n_blocks`, ball_tree.cpp:46-47, for `threads = omp_get_max_threads()`. -/
def rootBlocks (threads n : Nat) : Nat := min threads (max (n / 256) 1)

/-- Samples of block `b`: first sample and number of samples, ball_tree.cpp:48-50 and 75-77. -/
def rootBlock (threads n b : Nat) : List Nat :=
  let blockSize := n / rootBlocks threads n
  let blockRem := blockSize + n % blockSize
  List.range' (b * blockSize) (if b = rootBlocks threads n - 1 then blockRem else blockSize)

/-- `parallel_centroid_radius`, centroid, ball_tree.cpp:73-102: scaled means of the blocks, summed and divided. -/
def rootCentroid (t : Tree K) (threads : Nat) (j : Nat) : K :=
  ((List.range (rootBlocks threads t.n)).foldl (fun s b =>
    let is := rootBlock threads t.n b
    s + is.foldl (fun m i => m + t.A i j) 0 / (is.length : K) * (is.length : K)) 0) / (t.n : K)

/-- `parallel_centroid_radius`, radius, ball_tree.cpp:104-147. -/
def rootRadius (t : Tree K) (threads : Nat) : K :=
  amax ((List.range (rootBlocks threads t.n)).map fun b =>
    amax ((rootBlock threads t.n b).map fun i => pairwise t.fns t.metric t.p t.d (t.A i) (rootCentroid t threads)))

/-- `node_centroid_radius`, centroid, ball_tree.cpp:199-209. -/
def nodeCentroid (t : Tree K) (idx : List Nat) (j : Nat) : K :=
  idx.foldl (fun s i => s + t.A i j) 0 / (idx.length : K)

/-- `node_centroid_radius`, radius, ball_tree.cpp:205-226. -/
def nodeRadius (t : Tree K) (idx : List Nat) : K :=
  let c := nodeCentroid t idx
  let xNorm := if t.metric = .euclideanGemm then norm t.d c else 0
  let radius := idx.foldl (fun m i => max m (computeDistance t i c xNorm)) 0
  if t.isEuclid then t.fns.sqrt radius else radius

/-- `furthest_point`, ball_tree.cpp:230-262: position in `idx`. -/
def furthestPoint (t : Tree K) (idx : List Nat) (index : Nat) : Nat :=
  let a := idx.getD index 0
  let norm := if t.metric = .euclideanGemm then norm t.d (t.A a) else 0
  ((List.range idx.length).foldl (fun (s : K × Nat) i =>
    if i ≠ index then
      let dist := computeDistance t (idx.getD i 0) (t.A a) norm
      if s.1 < dist then (dist, i) else s
    else s) (0, index)).2

/-- `choose_centroid`, ball_tree.cpp:266-293. -/
def chooseCentroid (t : Tree K) (c1 c2 i : Nat) : Bool :=
  if c1 = i then true
  else if c2 = i then false
  else
    let n1 := if t.metric = .euclideanGemm then norm t.d (t.A c1) else 0
    let n2 := if t.metric = .euclideanGemm then norm t.d (t.A c2) else 0
    decide (computeDistance t i (t.A c1) n1 < computeDistance t i (t.A c2) n2)

/-- `std::swap` of two entries. -/
def swapAt (l : List Nat) (i j : Nat) : List Nat := (l.set i (l.getD j 0)).set j (l.getD i 0)

/-- The partition loop, ball_tree.cpp:357-366: `indices` and `mid` after it. -/
def partition (choose : Nat → Bool) (idx : List Nat) : List Nat × Nat :=
  (List.range idx.length).foldl (fun (s : List Nat × Nat) i =>
    if choose (s.1.getD i 0) then (swapAt s.1 i s.2, s.2 + 1) else s) (idx, 0)

/-- `build_tree`, ball_tree.cpp:295-391.  `ball` is given for the root only. -/
def ballBuild (t : Tree K) : Nat → Nat → List Nat → Option ((Nat → K) × K) → Ball K × List Nat
  | 0, _, idx, _ => (.null, idx)
  | fuel + 1, off, idx, ball =>
    if idx.length = 0 then (.null, idx)
    else
      let centroid := (ball.getD (nodeCentroid t idx, nodeRadius t idx)).1
      let radius := (ball.getD (nodeCentroid t idx, nodeRadius t idx)).2
      if idx.length ≤ t.leafSize then (.node true off idx.length centroid radius .null .null, idx)
      else
        let c1 := furthestPoint t idx 0
        let c2 := furthestPoint t idx c1
        let s := partition (chooseCentroid t (idx.getD c1 0) (idx.getD c2 0)) idx
        let mid := s.2
        if mid < t.leafSize ∨ idx.length - mid < t.leafSize then
          (.node true off idx.length centroid radius .null .null, s.1)
        else
          let l := ballBuild t fuel off (s.1.take mid) none
          let r := ballBuild t fuel (off + mid) (s.1.drop mid) none
          (.node false off idx.length centroid radius l.1 r.1, l.2 ++ r.2)

/-- `ball_tree` constructor, ball_tree.cpp:150-187. -/
def ballCreate (t : Tree K) (threads : Nat) : Ball K × List Nat :=
  ballBuild t (t.n + 1) 0 (List.range t.n) (some (rootCentroid t threads, rootRadius t threads))

/-- `check_ball`, ball_tree.cpp:393-437: the region and `dist`. -/
def checkBall (t : Tree K) (x : Nat → K) (eps : K) (c : Nat → K) (radius : K) : Region × K :=
  let dist :=
    if t.isEuclid then t.fns.sqrt (sumTo t.d fun i => (x i - c i) * (x i - c i))
    else if t.metric = .manhattan then sumTo t.d fun i => |x i - c i|
    else t.fns.pow (sumTo t.d fun i => t.fns.pow |x i - c i| t.p) t.pInv
  (if dist + radius ≤ eps then .inside
   else if dist - radius ≤ eps then .within
   else .outside, dist)

/-- `radius_neighbors_recursive`, ball_tree.cpp:439-519. -/
def ballRadius (t : Tree K) (idx : List Nat) (q : Query K) (eps epsI : K) (ret : Bool) :
    Ball K → List Nat × List K → Option (List Nat × List K)
  | .null, _ => none
  | .node isLeaf off n c radius left right, acc =>
    match (checkBall t q.x eps c radius).1 with
    | .outside => some acc
    | .inside => (readIdx idx off n).map fun is => addAll t q ret is acc
    | .within =>
      if isLeaf then (readIdx idx off n).map fun is => addClose t q epsI ret is acc
      else
        match ballRadius t idx q eps epsI ret left acc with
        | none => none
        | some acc => ballRadius t idx q eps epsI ret right acc

/-- `heap_max_dist`, ball_tree.cpp:537-540, 576-579, 594-597 and 610-613. -/
def heapMax (t : Tree K) (h : Heap.MaxHeap K) : K :=
  if t.isEuclid then t.fns.sqrt (Heap.getMaxDist t.fns.top h) else Heap.getMaxDist t.fns.top h

/-- `centroid` and `radius` of a child. -/
def Ball.sphere : Ball K → Option ((Nat → K) × K)
  | .null => none
  | .node _ _ _ c radius _ _ => some (c, radius)

/-- `k_neighbors_recursive`, ball_tree.cpp:521-618. -/
def ballNearest (t : Tree K) (idx : List Nat) (q : Query K) (k : Nat) :
    Ball K → Heap.MaxHeap K → Option (Heap.MaxHeap K)
  | .null, _ => none
  | .node isLeaf off n c radius left right, h =>
    let ball := if h.size < k then .within else (checkBall t q.x (heapMax t h) c radius).1
    if ball = .outside then some h
    else if isLeaf then (readIdx idx off n).map fun is => insertLeaf t q is h
    else
      match left.sphere, right.sphere with
      | some sl, some sr =>
        let cl := checkBall t q.x (heapMax t h) sl.1 sl.2
        let cr := checkBall t q.x (heapMax t h) sr.1 sr.2
        if cl.2 < cr.2 then
          match (if cl.1 ≠ .outside then ballNearest t idx q k left h else some h) with
          | none => none
          | some h => if cr.1 ≠ .outside ∧ cr.2 - sr.2 ≤ heapMax t h then ballNearest t idx q k right h else some h
        else
          match (if cr.1 ≠ .outside then ballNearest t idx q k right h else some h) with
          | none => none
          | some h => if cl.1 ≠ .outside ∧ cl.2 - sl.2 ≤ heapMax t h then ballNearest t idx q k left h else some h
      | _, _ => none

/-- One iteration of `radius_neighbors_loop`, binary_tree.cpp:438-493. -/
def ballRadiusRow (t : Tree K) (tree : Ball K × List Nat) (X : Option (Nat → Nat → K)) (eps : K) (ret : Bool)
    (i : Nat) : Option (List Nat × List K) :=
  (makeQuery t X i).bind fun q => ballRadius t tree.2 q eps (epsInternal t eps) ret tree.1 ([], [])

/-- One iteration of `k_neighbors`, binary_tree.cpp:347-376. -/
def ballNearestRow (t : Tree K) (tree : Ball K × List Nat) (X : Option (Nat → Nat → K)) (k : Nat)
    (kInd : Nat → Nat) (kDist : Nat → K) (i : Nat) : Option (Heap.MaxHeap K) :=
  (makeQuery t X i).bind fun q => ballNearest t tree.2 q k tree.1 (Heap.create k kInd kDist)

end Verif.NnTree
