import Verif.Kmeans.Lloyd

/-
MacQueen's method, /repo/source/core/clustering/kmeans/kmeans_macqueen.hpp.

The fixed data are those of `LCfg` (`lanes` and `many` are not used; `ldworkcs1` is `k + pad`).  Numbers are those of an
ordered field, so every distance is finite and the calls of `isfinite` are left out.  `cluster_count` is an integer that
may become negative.
-/
namespace Verif.Kmeans

open Verif.HalfBlas (put forUp)

variable {K : Type} [Field K] [LinearOrder K] [IsStrictOrderedRing K]

/-- The members that change: the two buffers of centres (by columns) and of labels, `workc1`, `cluster_count` and
`workcs1`. -/
structure MSt (K : Type) where
  prev : Nat → K
  cur : Nat → K
  prevLab : Nat → Nat
  curLab : Nat → Nat
  norms : Nat → K
  count : Nat → Int
  work : Nat → K

/-- `data_inv_norms[i]` or one, kmeans_macqueen.hpp:152, 240-241. -/
def mqScale (c : LCfg K) (i : Nat) : K := if c.spherical && c.normalize then c.inv i else 1

/-- Add sample `x` to the centre `a`, kmeans_macqueen.hpp:153-164 and 242-246. -/
def mqAdd (c : LCfg K) (x a : Nat) (m : Nat → K) : Nat → K :=
  forUp c.nf (fun f m => put m (a + f * c.k) (m (a + f * c.k) + elem c 0 x f * mqScale c x)) m

/-- The label of sample `i` of a block, kmeans_macqueen.hpp:137-146.  The first distance is read at `i`, not at
`i * ldworkcs1`. -/
def mqInitLabel (c : LCfg K) (norms work : Nat → K) (i : Nat) : Nat :=
  (forUp (c.k - 1) (fun j0 (r : Nat × K) =>
    let d := work (i * (c.k + c.pad) + (j0 + 1)) + norms (j0 + 1)
    if d < r.2 then (j0 + 1, d) else r) (0, work i + norms 0)).1

/-- One sample in init_macqueen_block, kmeans_macqueen.hpp:136-165. -/
def mqInitSample (c : LCfg K) (off i : Nat) (s : MSt K) : MSt K :=
  let label := mqInitLabel c s.norms s.work i
  { s with curLab := put s.curLab (off + i) label, count := put s.count label (s.count label + 1), cur := mqAdd c (off + i) label s.cur }

/-- init_macqueen_block, kmeans_macqueen.hpp:116-166. -/
def mqInitBlock (c : LCfg K) (off size : Nat) (s : MSt K) : MSt K :=
  forUp size (fun i s => mqInitSample c off i s) { s with work := gemmBlock c s.prev off size s.work }

/-- The start and the size of block `b`, kmeans_macqueen.hpp:88-94. -/
def mqBlock (c : LCfg K) (b : Nat) : Nat × Nat :=
  if b = nBlocks c.n c.bs - 1 ∧ c.n % c.bs > 0 then (c.n - c.n % c.bs, c.n % c.bs) else (b * c.bs, c.bs)

/-- The end of init_macqueen, kmeans_macqueen.hpp:96-109; normalize_rows_inplace by columns is da_utils.cpp:816-853. -/
def mqInitScale (c : LCfg K) (s : MSt K) : MSt K :=
  if c.spherical then
    let w := forUp c.nf (fun f m => forUp c.k (fun i m => put m i (m i + s.cur (i + f * c.k) * s.cur (i + f * c.k))) m) s.norms
    let w := forUp c.k (fun i m => put m i (if c.sqrt (m i) = 0 then 1 else 1 / c.sqrt (m i))) w
    { s with norms := w, cur := forUp c.nf (fun f m => forUp c.k (fun i m => put m (i + f * c.k) (m (i + f * c.k) * w i)) m) s.cur }
  else { s with cur := forUp c.nf (fun f m => forUp c.k (fun i m => put m (i + f * c.k) (if s.count i > 0 then m (i + f * c.k) / (s.count i : K) else m (i + f * c.k))) m) s.cur }

/-- init_macqueen, kmeans_macqueen.hpp:51-114.  The copy, the clearing and the norms of 68-86 are written as passes of
their own. -/
def mqInit (c : LCfg K) (s : MSt K) : MSt K :=
  let C := s.cur
  let zero : Nat → K := forUp c.k (fun i m => put m i 0) s.norms
  let s := { s with
    count := forUp c.k (fun i m => put m i 0) s.count
    prev := forUp (c.k * c.nf) (fun i m => put m i (C i)) s.prev
    norms := if c.spherical then zero else forUp c.nf (fun f m => forUp c.k (fun i m => put m i (m i + C (i + f * c.k) * C (i + f * c.k))) m) zero
    cur := forUp c.nf (fun f m => forUp c.k (fun i m => put m (i + f * c.k) 0) m) s.cur }
  let s := forUp (nBlocks c.n c.bs) (fun b s => mqInitBlock c (mqBlock c b).1 (mqBlock c b).2 s) s
  let s := mqInitScale c s
  { s with prev := forUp (c.k * c.nf) (fun i m => put m i 0) s.prev }

/-- The entry of `workc2` for sample `i` and centre `j`, kmeans_macqueen.hpp:188-209: euclidean_gemm_distance is called
with the norms of the centres given (euclidean_gemm_distance.cpp:107-137) and without those of the sample. -/
def mqDist (c : LCfg K) (cur norms : Nat → K) (i j : Nat) : K :=
  let dot := sumTo c.nf fun f => elem c 0 i f * cur (j + f * c.k)
  if c.spherical then 1 - (if c.normalize then dot * c.inv i else dot) else -2 * dot + norms j

/-- `closest_centre`, kmeans_macqueen.hpp:211-220. -/
def mqClosest (k : Nat) (d : Nat → K) : Nat :=
  (forUp (k - 1) (fun j0 (r : Nat × K) => if d (j0 + 1) < r.2 then (j0 + 1, d (j0 + 1)) else r) (0, d 0)).1

/-- Scale centre `a` to length one unless it is zero, kmeans_macqueen.hpp:279-302. -/
def mqUnit (c : LCfg K) (a : Nat) (m : Nat → K) : Nat → K :=
  let q := sumTo c.nf fun f => m (a + f * c.k) * m (a + f * c.k)
  if q > 0 then forUp c.nf (fun f m => put m (a + f * c.k) (m (a + f * c.k) * (1 / c.sqrt q))) m else m

/-- Divide feature `f` of centre `a` and add to its norm, kmeans_macqueen.hpp:306-312. -/
def mqDivide (c : LCfg K) (count : Nat → Int) (a f : Nat) (r : (Nat → K) × (Nat → K)) : (Nat → K) × (Nat → K) :=
  if count a > 0 then
    let v := r.1 (a + f * c.k) / (count a : K)
    (put r.1 (a + f * c.k) v, put r.2 a (r.2 a + v * v))
  else r

/-- Sample `i` gets the new label `b` and the two centres are computed afresh, kmeans_macqueen.hpp:223-321. -/
def mqMove (c : LCfg K) (i b : Nat) (s : MSt K) : MSt K :=
  let a := s.curLab i
  let lab := put s.curLab i b
  let count := put s.count b (s.count b + 1)
  let count := put count a (count a - 1)
  let norms := put (put s.norms a 0) b 0
  let cur := forUp c.nf (fun f m => put (put m (a + f * c.k) 0) (b + f * c.k) 0) s.cur
  let cur := forUp c.n (fun x m => if lab x = b then mqAdd c x b m else if lab x = a then mqAdd c x a m else m) cur
  if c.spherical then { s with curLab := lab, count := count, norms := norms, cur := mqUnit c b (mqUnit c a cur) }
  else
    let r := forUp c.nf (fun f r => mqDivide c count b f (mqDivide c count a f r)) (cur, norms)
    { s with curLab := lab, count := count, norms := r.2, cur := r.1 }

/-- One sample of macqueen_iteration, kmeans_macqueen.hpp:180-324. -/
def mqSample (c : LCfg K) (up : Bool) (i : Nat) (s : MSt K) : MSt K :=
  let b := mqClosest c.k (mqDist c s.cur s.norms i)
  if s.curLab i ≠ b then
    if up then mqMove c i b s else { s with curLab := put s.curLab i b }
  else s

/-- The copies at the start of an iteration, kmeans_macqueen.hpp:173-178. -/
def mqCopy (c : LCfg K) (s : MSt K) : MSt K :=
  { s with cur := forUp (c.k * c.nf) (fun i m => put m i (s.prev i)) s.cur, curLab := forUp c.n (fun i m => put m i (s.prevLab i)) s.curLab }

/-- macqueen_iteration, kmeans_macqueen.hpp:168-330, with compute_centre_shift, kmeans.cpp:1334-1355. -/
def mqIteration (c : LCfg K) (up : Bool) (s : MSt K) : MSt K :=
  let s := forUp c.n (fun i s => mqSample c up i s) (mqCopy c s)
  if up then { s with prev := forUp (c.k * c.nf) (fun i m => put m i (m i - s.cur i)) s.prev } else s

/-- The swaps before an iteration, kmeans.cpp:1014-1015. -/
def swapM (s : MSt K) : MSt K := { s with prev := s.cur, cur := s.prev, prevLab := s.curLab, curLab := s.prevLab }

/-- The last labelling, kmeans.cpp:1035-1045. -/
def mqFinal (c : LCfg K) (s : MSt K) : MSt K :=
  let s := mqIteration c false (swapM s)
  { s with prev := s.cur, cur := s.prev }

/-- convergence_test, kmeans.cpp:1359-1397, as in `convergenceTest`. -/
def mqConv (c : LCfg K) (bound : K) (it : Nat) (s : MSt K) : Nat :=
  if it > 1 ∧ (List.range c.n).all (fun i => s.curLab i == s.prevLab i) = true then 2
  else if c.sqrt (sumTo (c.k * c.nf) fun p => s.prev p * s.prev p) < bound then 1 else 0

/-- The loop of perform_kmeans, kmeans.cpp:1012-1034, without the handling of empty clusters. -/
def mqLoop (c : LCfg K) (bound : K) : Nat → Nat → MSt K → MSt K × Nat × Nat
  | 0, it, s => (s, 0, it)
  | fuel + 1, it, s =>
    let s' := mqIteration c true (swapM s)
    let cv := mqConv c bound it s'
    if cv > 0 then (s', cv, it) else mqLoop c bound fuel (it + 1) s'

/-- perform_kmeans for MacQueen's method, kmeans.cpp:1003-1045, from centres in `cur`. -/
def mqPerform (c : LCfg K) (maxIter : Nat) (bound : K) (s : MSt K) : MSt K × Nat × Nat :=
  let r := mqLoop c bound maxIter 0 (mqInit c s)
  if r.2.1 = 1 ∨ r.2.2 = maxIter then (mqFinal c r.1, r.2) else r

end Verif.Kmeans
