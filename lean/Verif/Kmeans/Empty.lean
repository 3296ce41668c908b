import Verif.Kmeans.Macqueen

/-
handle_empty_clusters, /repo/source/core/clustering/kmeans/kmeans.cpp:1120-1330, before the cleanup for each algorithm.

Numbers are those of an ordered field, so every distance is finite and the call of `isfinite` (1208) is left out.
-/
namespace Verif.Kmeans

open Verif.HalfBlas (put forUp)

variable {K : Type} [Field K] [LinearOrder K] [IsStrictOrderedRing K]

/-- The members used: centres, labels, `work_int1`, `works1`, `cluster_count`, and whether the loop has been left. -/
structure ESt (K : Type) where
  cur : Nat → K
  lab : Nat → Nat
  wi : Nat → Int
  dist : Nat → K
  count : Nat → Int
  stop : Bool

/-- Where feature `f` of centre `a` is stored: by rows for Elkan's method, by columns otherwise, kmeans.cpp:1157-1164. -/
def ecPos (c : LCfg K) (byRows : Bool) (a f : Nat) : Nat := a * (if byRows then c.nf else 1) + f * (if byRows then 1 else c.k)

/-- The distance of sample `i` to centre `a`, kmeans.cpp:1168-1195 and 1285-1310. -/
def ecDist (c : LCfg K) (byRows : Bool) (cur : Nat → K) (i a : Nat) : K :=
  if c.spherical then
    let dot := sumTo c.nf fun f => elem c 0 i f * cur (ecPos c byRows a f)
    1 - (if c.normalize then dot * c.inv i else dot)
  else sumTo c.nf fun f => (elem c 0 i f - cur (ecPos c byRows a f)) * (elem c 0 i f - cur (ecPos c byRows a f))

/-- The counts of the labels, kmeans.cpp:1130-1132. -/
def ecCount (n : Nat) (lab : Nat → Nat) : Nat → Int := forUp n (fun i m => put m (lab i) (m (lab i) + 1)) fun _ => 0

/-- `n_empty`, kmeans.cpp:1134-1139. -/
def ecEmpty (k : Nat) (wi : Nat → Int) : Nat := forUp k (fun a m => if wi a = 0 then m + 1 else m) 0

/-- `best_idx`, kmeans.cpp:1203-1213. -/
def ecPick (n : Nat) (lab : Nat → Nat) (wi : Nat → Int) (dist : Nat → K) : Option Nat × K :=
  forUp n (fun i r => if wi (lab i) > 1 ∧ dist i > r.2 then (some i, dist i) else r) (none, -1)

/-- Scale centre `a` to length one unless it is zero, kmeans.cpp:1245-1270. -/
def ecUnit (c : LCfg K) (byRows : Bool) (a : Nat) (m : Nat → K) : Nat → K :=
  let q := sumTo c.nf fun f => m (ecPos c byRows a f) * m (ecPos c byRows a f)
  if q > 0 then forUp c.nf (fun f m => put m (ecPos c byRows a f) (m (ecPos c byRows a f) * (1 / c.sqrt q))) m else m

/-- Sample `p` becomes the empty cluster `a`, kmeans.cpp:1219-1313; `many` is `n_empty > 1`. -/
def ecMove (c : LCfg K) (byRows many : Bool) (a p : Nat) (s : ESt K) : ESt K :=
  let old := s.lab p
  let m := s.wi old
  let cur := forUp c.nf (fun f r => put r (ecPos c byRows old f) ((r (ecPos c byRows old f) * (m : K) - elem c 0 p f * mqScale c p) / ((m : K) - 1))) s.cur
  let cur := forUp c.nf (fun f r => put r (ecPos c byRows a f) (elem c 0 p f * mqScale c p)) cur
  let cur := if c.spherical then ecUnit c byRows a (ecUnit c byRows old cur) else cur
  let lab := put s.lab p a
  let dist := put s.dist p 0
  { s with
    cur := cur
    lab := lab
    wi := put (put s.wi old (m - 1)) a 1
    dist := if many then forUp c.n (fun i d => if lab i = old then put d i (ecDist c byRows cur i old) else d) dist else dist }

/-- One cluster of the loop, kmeans.cpp:1198-1313. -/
def ecCluster (c : LCfg K) (byRows many : Bool) (a : Nat) (s : ESt K) : ESt K :=
  if s.stop = true ∨ s.wi a ≠ 0 then s
  else match (ecPick c.n s.lab s.wi s.dist).1 with
    | none => { s with stop := true }
    | some p => ecMove c byRows many a p s

/-- What handle_empty_clusters returns. -/
inductive Handled (K : Type)
  | ok (s : ESt K) (split : Bool)
  | emptyClusters

/-- handle_empty_clusters, kmeans.cpp:1124-1316; `err` is `empty_cluster_handling == error`. -/
def handleEmpty (c : LCfg K) (byRows err : Bool) (s : ESt K) : Handled K :=
  let wi := ecCount c.n s.lab
  if ecEmpty c.k wi = 0 then .ok { s with wi := wi } false
  else if err then .emptyClusters
  else
    let dist := forUp c.n (fun i d => put d i (ecDist c byRows s.cur i (s.lab i))) s.dist
    let r := forUp c.k (fun a s => ecCluster c byRows (decide (ecEmpty c.k wi > 1)) a s) { s with wi := wi, dist := dist, stop := false }
    .ok { r with count := forUp c.k (fun a m => put m a (r.wi a)) r.count } true

end Verif.Kmeans
