import Verif.Kmeans.Elkan

/-
Lloyd's method, /repo/source/core/clustering/kmeans/kmeans_lloyd.hpp, with its kernels in kmeans_kernels.cpp.

As in `Elkan`, numbers are those of an ordered field, arrays are functions and `workc1` holds `none` where the
code stores infinity.  Cluster centres are stored by columns here, centre `a` and feature `f` at `a + f * k`.
NaN and overflow are not modelled.
-/
namespace Verif.Kmeans

open Verif.HalfBlas (put forUp)

variable {K : Type} [Field K] [LinearOrder K] [IsStrictOrderedRing K]

/-- What stays fixed during a run.  `many` says whether `n_clusters >= KMEANS_LLOYD_BLOCK_SIZE`, `lanes` is the
number of lanes of the kernel (`none` for the scalar one), `pad` the padding of the work arrays
(assign_lloyd_kernel, kmeans_lloyd.hpp:85-102, get_padding, da_kernel_utils.hpp:415-439). -/
structure LCfg (K : Type) where
  n : Nat
  k : Nat
  nf : Nat
  lda : Nat
  bs : Nat
  pad : Nat
  spherical : Bool
  normalize : Bool
  colMajor : Bool
  many : Bool
  lanes : Option Nat
  sqrt : K → K
  A : Nat → K
  inv : Nat → K

/-- The members that change; `work` is the part of `workcs1` of each thread (kmeans_lloyd.hpp:173). -/
structure LSt (K : Type) where
  prev : Nat → K
  cur : Nat → K
  prevLab : Nat → Nat
  curLab : Nat → Nat
  workc1 : Nat → Option K
  count : Nat → Nat
  thdCount : Nat → Nat → Nat
  thdSums : Nat → Nat → K
  work : Nat → Nat → K

/-- Feature `f` of sample `i` of the block starting at `off`: `&A[A_index]`, kmeans_lloyd.hpp:183-184. -/
def elem (c : LCfg K) (off i f : Nat) : K := if c.colMajor then c.A (off + i + f * c.lda) else c.A (off * c.lda + i * c.lda + f)

/-- The norms of the centres, kmeans_lloyd.hpp:126-136, with compute_squared_row_norms by columns,
da_utils.cpp:775-787. -/
def lloydNorms (c : LCfg K) (C : Nat → K) (w : Nat → Option K) : Nat → Option K :=
  let w := forUp c.k (fun i m => put m i (some 0)) w
  if c.spherical then w
  else forUp c.nf (fun f m => forUp c.k (fun i m => put m i ((m i).map fun v => v + C (i + f * c.k) * C (i + f * c.k))) m) w

/-- The product with the data, kmeans_lloyd.hpp:189-193 (gemm is external: every entry of its result is the sum). -/
def gemmBlock (c : LCfg K) (C : Nat → K) (off size : Nat) (m : Nat → K) : Nat → K :=
  forUp size (fun i m => forUp c.k (fun j m => put m (i * (c.k + c.pad) + j)
    ((if c.spherical then -1 else -2) * sumTo c.nf fun f => C (j + f * c.k) * elem c off i f)) m) m

/-- `x < y` where `none` is infinity. -/
def ltInf (x y : Option K) : Bool := match x, y with | none, _ => false | some _, none => true | some a, some b => decide (a < b)

/-- `work[ind + j] + centre_norms[j]`. -/
def entry (norms : Nat → Option K) (work : Nat → K) (base j : Nat) : Option K := (norms j).map fun v => work (base + j) + v

/-- The label in lloyd_iteration_kernel_scalar, kmeans_kernels.cpp:219-229. -/
def scalarLabel (k : Nat) (dist : Nat → Option K) : Nat :=
  (forUp (k - 1) (fun j0 (r : Nat × Option K) => if ltInf (dist (j0 + 1)) r.2 then (j0 + 1, dist (j0 + 1)) else r) (0, dist 0)).1

/-- The vector loop of the kernels with `w` lanes, for instance kmeans_kernels.cpp:264-279, 308-347, 399-415,
451-494, 552-593, 646-662, 702-728, 759-796, 845-902: the labels and smallest distances of the lanes.
`min_pd(a, b)` is `a < b ? a : b`. -/
def lanesLoop (w k : Nat) (dist : Nat → Option K) : (Nat → Nat) × (Nat → Option K) :=
  forUp ((k + w - 1) / w - 1) (fun b0 (r : (Nat → Nat) × (Nat → Option K)) =>
    let j := (b0 + 1) * w
    (fun i => if ltInf (dist (j + i)) (r.2 i) then j + i else r.1 i,
     fun i => if ltInf (r.2 i) (dist (j + i)) then r.2 i else dist (j + i))) (fun i => i, fun i => dist i)

/-- The label of the kernels with `w` lanes: the smallest over the lanes, for instance kmeans_kernels.cpp:281-285,
349-379, 417-427.  The last lane does not store its distance. -/
def lanesLabel (w k : Nat) (dist : Nat → Option K) : Nat :=
  let v := lanesLoop w k dist
  let r := forUp (w - 2) (fun j0 (r : Nat × Option K) => if ltInf (v.2 (j0 + 1)) r.2 then (v.1 (j0 + 1), v.2 (j0 + 1)) else r) (v.1 0, v.2 0)
  if ltInf (v.2 (w - 1)) r.2 then v.1 (w - 1) else r.1

/-- The label the chosen kernel gives. -/
def kernelLabel (c : LCfg K) (dist : Nat → Option K) : Nat := match c.lanes with | none => scalarLabel c.k dist | some w => lanesLabel w c.k dist

/-- lloyd_kernel on a block: labels and counts, kmeans_kernels.cpp:218-233. -/
def kernelBlock (c : LCfg K) (up : Bool) (off size : Nat) (norms : Nat → Option K) (work : Nat → K) (r : (Nat → Nat) × (Nat → Nat)) : (Nat → Nat) × (Nat → Nat) :=
  forUp size (fun i r =>
    let l := kernelLabel c fun j => entry norms work (i * (c.k + c.pad)) j
    (put r.1 (off + i) l, if up then put r.2 l (r.2 l + 1) else r.2)) r

/-- Four accumulators at a time, kmeans_lloyd.hpp:320-348: feature `f`. -/
def fourSums (c : LCfg K) (off size : Nat) (lab : Nat → Nat) (f : Nat) (m : Nat → K) : Nat → K :=
  let zero : Nat → K := fun _ => 0
  let r := forUp (size / 4) (fun q (r : (Nat → K) × (Nat → K) × (Nat → K) × (Nat → K)) =>
    let i := 4 * q
    (put r.1 (lab (off + i)) (r.1 (lab (off + i)) + elem c off i f),
     put r.2.1 (lab (off + (i + 1))) (r.2.1 (lab (off + (i + 1))) + elem c off (i + 1) f),
     put r.2.2.1 (lab (off + (i + 2))) (r.2.2.1 (lab (off + (i + 2))) + elem c off (i + 2) f),
     put r.2.2.2 (lab (off + (i + 3))) (r.2.2.2 (lab (off + (i + 3))) + elem c off (i + 3) f))) (zero, zero, zero, zero)
  let w1 := forUp (size - 4 * (size / 4)) (fun i0 w =>
    let i := 4 * (size / 4) + i0
    put w (lab (off + i)) (w (lab (off + i)) + elem c off i f)) r.1
  forUp c.k (fun a m => put m (a + f * c.k) (m (a + f * c.k) + (w1 a + r.2.1 a + r.2.2.1 a + r.2.2.2 a))) m

/-- lloyd_iteration_update_centres, kmeans_lloyd.hpp:273-361. -/
def updateCentres (c : LCfg K) (off size : Nat) (lab : Nat → Nat) (m : Nat → K) : Nat → K :=
  let add (scale : Nat → K) (i f : Nat) (m : Nat → K) : Nat → K := put m (lab (off + i) + f * c.k) (m (lab (off + i) + f * c.k) + elem c off i f * scale i)
  if c.spherical && c.normalize then
    if c.colMajor then forUp c.nf (fun f m => forUp size (fun i m => add (fun i => c.inv (off + i)) i f m) m) m
    else forUp size (fun i m => forUp c.nf (fun f m => add (fun i => c.inv (off + i)) i f m) m) m
  else if c.colMajor then
    if c.many then forUp c.nf (fun f m => forUp size (fun i m => add (fun _ => 1) i f m) m) m
    else forUp c.nf (fun f m => fourSums c off size lab f m) m
  else forUp size (fun i m => forUp c.nf (fun f m => add (fun _ => 1) i f m) m) m

/-- What the blocks write. -/
structure LWork (K : Type) where
  lab : Nat → Nat
  count : Nat → Nat → Nat
  sums : Nat → Nat → K
  work : Nat → Nat → K

/-- One block on thread `t`, kmeans_lloyd.hpp:183-205. -/
def lloydBlock (c : LCfg K) (up : Bool) (C : Nat → K) (norms : Nat → Option K) (t off size : Nat) (w : LWork K) : LWork K :=
  let wk := gemmBlock c C off size (w.work t)
  let r := kernelBlock c up off size norms wk (w.lab, w.count t)
  { lab := r.1, count := put w.count t r.2, sums := if up then put w.sums t (updateCentres c off size r.1 (w.sums t)) else w.sums, work := put w.work t wk }

/-- The start and the size of block `b`, kmeans_lloyd.hpp:176-182; `size` is the value of `block_size` before for the
loop of one thread, which does not set it again, 235-240. -/
def lloydBlockOf (c : LCfg K) (nb rem b size : Nat) : Nat × Nat := if b = nb - 1 ∧ rem > 0 then (c.n - rem, rem) else (b * c.bs, size)

/-- scale_current_cluster_centres, kmeans_lloyd.hpp:363-405, with centres by columns; normalize_rows_inplace by
columns is da_utils.cpp:816-853 and adds to what `workc1` holds. -/
def scaleColumns (c : LCfg K) (count : Nat → Nat) (workc1 : Nat → Option K) (cur : Nat → K) : (Nat → Nat) × (Nat → Option K) × (Nat → K) :=
  let count : Nat → Nat := forUp c.k (fun i m => if m i = 0 then put m i 1 else m) count
  if c.spherical then
    let w := forUp c.nf (fun f m => forUp c.k (fun i m => put m i ((m i).map fun v => v + cur (i + f * c.k) * cur (i + f * c.k))) m) workc1
    let w := forUp c.k (fun i m => put m i ((m i).map fun v => if c.sqrt v = 0 then 1 else 1 / c.sqrt v)) w
    (count, w, forUp c.nf (fun f m => forUp c.k (fun i m => put m (i + f * c.k) (m (i + f * c.k) * (w i).getD 0)) m) cur)
  else (count, workc1, forUp c.nf (fun f m => forUp c.k (fun i m => put m (i + f * c.k) (m (i + f * c.k) / (count i : K))) m) cur)

/-- lloyd_iteration, kmeans_lloyd.hpp:104-271; the threads add their counts and sums in the orders of `sch`. -/
def lloydIteration (c : LCfg K) (nThreads : Nat) (sch : Sched) (up : Bool) (s : LSt K) : LSt K :=
  let s := if up then { s with count := fun _ => 0, cur := fun _ => 0 } else s
  let s := if up ∧ nThreads > 1 then { s with thdCount := fun _ _ => 0, thdSums := fun _ _ => 0 } else s
  let norms := lloydNorms c s.prev s.workc1
  let nb := nBlocks c.n c.bs
  let rem := c.n % c.bs
  let s :=
    if nThreads > 1 then
      let w := sch.assign.foldl (fun w e => lloydBlock c up s.prev norms e.1 (lloydBlockOf c nb rem e.2 c.bs).1 (lloydBlockOf c nb rem e.2 c.bs).2 w)
        ⟨s.curLab, s.thdCount, s.thdSums, s.work⟩
      { s with curLab := w.lab, thdCount := w.count, thdSums := w.sums, work := w.work, workc1 := norms,
               count := sch.counts.foldl (fun m t => forUp c.k (fun i m => put m i (m i + w.count t i)) m) s.count,
               cur := sch.sums.foldl (fun m t => forUp (c.k * c.nf) (fun i m => put m i (m i + w.sums t i)) m) s.cur }
    else
      let r := forUp nb (fun b (r : Nat × LWork K) =>
        let x := lloydBlockOf c nb rem b r.1
        (x.2, lloydBlock c up s.prev norms 0 x.1 x.2 r.2)) (c.bs, ⟨s.curLab, fun _ => s.count, fun _ => s.cur, s.work⟩)
      { s with curLab := r.2.lab, count := r.2.count 0, cur := r.2.sums 0, work := r.2.work, workc1 := norms }
  if up then
    let r := scaleColumns c s.count s.workc1 s.cur
    { s with count := r.1, workc1 := r.2.1, cur := r.2.2, prev := forUp (c.k * c.nf) (fun i m => put m i (m i - r.2.2 i)) s.prev }
  else s

/-- The swaps before an iteration, kmeans.cpp:1014-1015. -/
def swapL (s : LSt K) : LSt K := { s with prev := s.cur, cur := s.prev, prevLab := s.curLab, curLab := s.prevLab }

/-- The Lloyd part of perform_kmeans, kmeans.cpp:1003-1034, without the handling of empty clusters. -/
def lloydRun (c : LCfg K) (nThreads : Nat) (s : LSt K) (scheds : List Sched) : LSt K :=
  scheds.foldl (fun s sch => lloydIteration c nThreads sch true (swapL s)) s

/-- The last labelling, kmeans.cpp:1035-1045. -/
def lloydFinal (c : LCfg K) (nThreads : Nat) (sch : Sched) (s : LSt K) : LSt K :=
  let s := lloydIteration c nThreads sch false (swapL s)
  { s with prev := s.cur, cur := s.prev }

/-- convergence_test, kmeans.cpp:1359-1397: 2 when the labels are those before, 1 when the centres moved by less than
`bound` (`tol * normc`); `it` counts iterations from zero.  The norm of LAPACK is the root of the sum of squares. -/
def convergenceTest (c : LCfg K) (bound : K) (it : Nat) (s : LSt K) : Nat :=
  if it > 1 ∧ (List.range c.n).all (fun i => s.curLab i == s.prevLab i) = true then 2
  else if c.sqrt (sumTo (c.k * c.nf) fun p => s.prev p * s.prev p) < bound then 1 else 0

/-- The loop of perform_kmeans, kmeans.cpp:1012-1034, without the handling of empty clusters: the state, `converged`
and `current_n_iter`. -/
def lloydLoop (c : LCfg K) (nThreads : Nat) (sched : Nat → Sched) (bound : K) : Nat → Nat → LSt K → LSt K × Nat × Nat
  | 0, it, s => (s, 0, it)
  | fuel + 1, it, s =>
    let s' := lloydIteration c nThreads (sched it) true (swapL s)
    let cv := convergenceTest c bound it s'
    if cv > 0 then (s', cv, it) else lloydLoop c nThreads sched bound fuel (it + 1) s'

/-- perform_kmeans for Lloyd's method, kmeans.cpp:1003-1045. -/
def lloydPerform (c : LCfg K) (nThreads maxIter : Nat) (sched : Nat → Sched) (last : Sched) (bound : K) (s : LSt K) : LSt K × Nat × Nat :=
  let r := lloydLoop c nThreads sched bound maxIter 0 s
  if r.2.1 = 1 ∨ r.2.2 = maxIter then (lloydFinal c nThreads last r.1, r.2) else r

end Verif.Kmeans
