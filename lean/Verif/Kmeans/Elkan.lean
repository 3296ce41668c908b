import Verif.HalfBlas.Model
import Verif.Blocking.Model
import Mathlib.Algebra.Order.Field.Basic
import Mathlib.Algebra.Order.Group.MinMax

/-
Elkan's method, /repo/source/core/clustering/kmeans/kmeans_elkan.hpp, and the kernels it calls in
kmeans_kernels.cpp and kmeans_lloyd.hpp.

Numbers are those of an ordered field `K`; `sqrt` and `acos` are parameters.  An array is a function from
positions to values, so an access past the end of an array is not an event of this model (the arrays are
sized at kmeans.cpp:567-632).  `workc1` holds `none` where the code stores infinity.

OpenMP: the two parallel loops over blocks are given by the order in which the blocks run and the thread that
runs each of them, `List (thread × block)`.  Blocks of different threads touch different samples, so running
them one after the other loses nothing; the private copies of `block_size` and the local sums of a thread are
modelled, and so is the order in which the threads take each of the two locks.
-/
namespace Verif.Kmeans

open Verif.HalfBlas (put forUp)

variable {K : Type} [Field K] [LinearOrder K] [IsStrictOrderedRing K]

/-- What stays fixed during a run: `n_samples`, `n_clusters`, `n_features`, `lda`, `ldworkcs1`,
`max_block_size`, `do_spherical`, `normalize_data`, the data (row-major, kmeans.cpp:464-479) and
`data_inv_norms`.  `lanes` is the number of lanes of the chosen update kernel, `none` for the scalar one
(assign_elkan_kernels, kmeans_elkan.hpp:119-141). -/
structure Cfg (K : Type) where
  n : Nat
  k : Nat
  nf : Nat
  lda : Nat
  ld : Nat
  bs : Nat
  spherical : Bool
  normalize : Bool
  lanes : Option Nat
  sqrt : K → K
  acos : K → K
  A : Nat → K
  inv : Nat → K

/-- The members that change: the two buffers of centres (row-major here), the two buffers of labels, the upper
bounds `works1`, the lower bounds `workcs1`, the half distances `workcc1`, `workc1`, `cluster_count` and the
counts and sums of the threads, `thd_work_int` and `thd_cluster_centres`. -/
structure St (K : Type) where
  prev : Nat → K
  cur : Nat → K
  prevLab : Nat → Nat
  curLab : Nat → Nat
  u : Nat → K
  l : Nat → K
  half : Nat → K
  workc1 : Nat → Option K
  count : Nat → Nat
  thdCount : Nat → Nat → Nat
  thdSums : Nat → Nat → K

/-- A sum accumulated from zero. -/
def sumTo (m : Nat) (f : Nat → K) : K := forUp m (fun j acc => acc + f j) 0

/-- `std::max(-1, std::min(1, x))`. -/
def clampCos (x : K) : K := max (-1) (min 1 x)

/-- The scalar reduction, kmeans_kernels.cpp:46-56 (elkan_reduction_kernel_scalar). -/
def reduceScalar (m : Nat) (x y : Nat → K) : K := sumTo m fun f => (x f - y f) * (x f - y f)

/-- elkan_reduction_kt, kmeans_kernels.cpp:67-99, with `w` lanes: lane `i` adds the entries `i`, `w + i`, …;
the lanes are summed and the rest is added one by one. -/
def reduceKt (w m : Nat) (x y : Nat → K) : K :=
  let full := m - m % w
  let vsum : Nat → K := forUp (full / w) (fun b v => fun i => (x (b * w + i) - y (b * w + i)) * (x (b * w + i) - y (b * w + i)) + v i) fun _ => 0
  forUp (m - full) (fun r acc => acc + (x (full + r) - y (full + r)) * (x (full + r) - y (full + r))) (sumTo w vsum)

/-- The distance of the sample whose row starts at `a` (index `i` in the block starting at `ix`) to the centre
`j`: the lambda of kmeans_elkan.hpp:440-460, and the same expressions in init_elkan, 173-199 and 208-235. -/
def sampleDist (c : Cfg K) (centres : Nat → K) (ix i j : Nat) : K :=
  if c.spherical then
    let dot := sumTo c.nf fun f => c.A (ix * c.lda + i * c.lda + f) * centres (j * c.nf + f)
    let cos := if c.normalize then dot * c.inv (ix + i) else dot
    c.acos (clampCos cos)
  else c.sqrt (reduceScalar c.nf (fun f => c.A (ix * c.lda + i * c.lda + f)) (fun f => centres (j * c.nf + f)))

/-- The distance of two centres, from `euclidean_gemm_distance` or from the products of
kmeans_elkan.hpp:523-543. -/
def centreDist (c : Cfg K) (centres : Nat → K) (a b : Nat) : K :=
  if c.spherical then
    if a ≠ b then c.acos (clampCos (sumTo c.nf fun f => centres (a * c.nf + f) * centres (b * c.nf + f))) else 0
  else c.sqrt (reduceScalar c.nf (fun f => centres (a * c.nf + f)) (fun f => centres (b * c.nf + f)))

/-- `if (tmp < workc1[i]) workc1[i] = tmp`. -/
def lowerTo (w : Nat → Option K) (i : Nat) (tmp : K) : Nat → Option K :=
  if (match w i with | none => true | some v => decide (tmp < v)) then put w i (some tmp) else w

/-- compute_centre_half_distances, kmeans_elkan.hpp:517-566.  The matrix of distances is external; its upper
triangle (row `i`, column `j > i`) is what the loop reads, the rest is `rest`. -/
def halfDistances (c : Cfg K) (rest : Nat → K) (s : St K) : St K :=
  let cc : Nat → K := forUp c.k (fun j m => forUp (j + 1) (fun i m => put m (i * c.k + j) (centreDist c s.cur i j)) m) rest
  let w : Nat → Option K := fun i => if i < c.k then none else s.workc1 i
  let r := forUp c.k (fun j r => forUp j (fun i (r : (Nat → K) × (Nat → Option K)) =>
    let tmp := r.1 (j + i * c.k) / 2
    let m := put (put r.1 (j + i * c.k) tmp) (i + j * c.k) tmp
    (m, lowerTo (lowerTo r.2 i tmp) j tmp)) r) (cc, w)
  { s with half := r.1, workc1 := r.2 }

/-- The inner loop over the centres in init_elkan for sample `i`, kmeans_elkan.hpp:202-243; the state is the
label, the smallest distance and the lower bounds. -/
def initLoop (c : Cfg K) (s : St K) (i : Nat) (r : Nat × K × (Nat → K)) : Nat × K × (Nat → K) :=
  forUp (c.k - 1) (fun j0 (r : Nat × K × (Nat → K)) =>
    let j := j0 + 1
    let l := put r.2.2 (i * c.ld + j) 0
    if r.2.1 > s.half (r.1 * c.k + j) then
      let d := sampleDist c s.cur 0 i j
      let l := put l (i * c.ld + j) d
      if d < r.2.1 then (j, d, l) else (r.1, r.2.1, l)
    else (r.1, r.2.1, l)) r

/-- One sample of init_elkan, kmeans_elkan.hpp:168-247. -/
def initSample (c : Cfg K) (i : Nat) (s : St K) : St K :=
  let d := sampleDist c s.cur 0 i 0
  let r := initLoop c s i (0, d, put s.l (i * c.ld) d)
  { s with curLab := put s.curLab i r.1, u := put s.u i r.2.1, l := r.2.2 }

/-- init_elkan, kmeans_elkan.hpp:143-248, from centres `C` stored by columns.  `order` is the order in which
the threads of the static loop run the samples. -/
def initElkan (c : Cfg K) (C : Nat → K) (rest : Nat → K) (order : List Nat) (s : St K) : St K :=
  let s := { s with prev := (fun _ => 0), cur := forUp c.k (fun a m => forUp c.nf (fun f m => put m (a * c.nf + f) (C (a + f * c.k))) m) s.prev }
  let s := halfDistances c rest s
  order.foldl (fun s i => initSample c i s) s

/-- The state of the loop over the centres for one sample. -/
structure Inner (K : Type) where
  label : Nat
  u : K
  tight : Bool
  l : Nat → K

/-- One centre in the loop of elkan_iteration_assign_block, kmeans_elkan.hpp:465-493; `base` is the start of the
row of lower bounds and `dist` gives the distance to a centre. -/
def assignCentre (c : Cfg K) (half : Nat → K) (base : Nat) (dist : Nat → K) (j : Nat) (s : Inner K) : Inner K :=
  let lb := s.l (base + j)
  let h := half (s.label * c.k + j)
  if j ≠ s.label ∧ s.u > lb ∧ s.u > h then
    let s := if s.tight = false then { s with u := dist s.label, l := put s.l (base + s.label) (dist s.label), tight := true } else s
    if s.u > lb ∨ s.u > h then
      let d := dist j
      let s := { s with l := put s.l (base + j) d }
      if d < s.u then { s with u := d, label := j } else s
    else s
  else s

/-- What the blocks of one iteration write: the shared arrays and, for every thread, its copy of `block_size`,
its counts and its sums of samples. -/
structure Work (K : Type) where
  u : Nat → K
  l : Nat → K
  lab : Nat → Nat
  size : Nat → Nat
  count : Nat → Nat → Nat
  sums : Nat → Nat → K

/-- The value of feature `f` of a sample as it is added to a centre, kmeans_elkan.hpp:502-511. -/
def addend (c : Cfg K) (ix i f : Nat) : K :=
  if c.spherical && c.normalize then c.A (ix * c.lda + i * c.lda + f) * c.inv (ix + i) else c.A (ix * c.lda + i * c.lda + f)

/-- One sample of elkan_iteration_assign_block, kmeans_elkan.hpp:426-514: `ix` is the start of the block, `i` the
sample in the block, `t` the thread. -/
def assignSample (c : Cfg K) (s : St K) (update : Bool) (t ix i : Nat) (w : Work K) : Work K :=
  let label := s.prevLab (ix + i)
  let base := ix * c.ld + i * c.ld
  let r0 : Inner K := ⟨label, w.u (ix + i), false, w.l⟩
  let go := match s.workc1 label with | none => false | some v => decide (r0.u > v)
  let r := if go then forUp c.k (assignCentre c s.half base (sampleDist c s.prev ix i)) r0 else r0
  { w with
    u := put w.u (ix + i) r.u, l := r.l, lab := put w.lab (ix + i) r.label,
    count := if update then put w.count t (put (w.count t) r.label (w.count t r.label + 1)) else w.count,
    sums := if update then put w.sums t (forUp c.nf (fun f m => put m (r.label * c.nf + f) (m (r.label * c.nf + f) + addend c ix i f)) (w.sums t)) else w.sums }

/-- The start of block `b` and its size, given the value of the private `block_size` before,
kmeans_elkan.hpp:295-300: `block_size` is only ever assigned for the last block. -/
def blockOf (c : Cfg K) (nb rem size b : Nat) : Nat × Nat :=
  if b = nb - 1 ∧ rem > 0 then (c.n - rem, rem) else (b * c.bs, size)

/-- One block run by thread `t`, kmeans_elkan.hpp:294-308 (337-351 with one thread). -/
def assignBlock (c : Cfg K) (s : St K) (update : Bool) (nb rem : Nat) (e : Nat × Nat) (w : Work K) : Work K :=
  let b := blockOf c nb rem (w.size e.1) e.2
  forUp b.2 (fun i w => assignSample c s update e.1 b.1 i w) { w with size := put w.size e.1 b.2 }

/-- The threads add their counts and sums under the two locks, in the orders `o1` and `o2`,
kmeans_elkan.hpp:309-331. -/
def reduceThreads (c : Cfg K) (w : Work K) (o1 o2 : List Nat) (count0 : Nat → Nat) (cur0 : Nat → K) : (Nat → Nat) × (Nat → K) :=
  (o1.foldl (fun m t => forUp c.k (fun i m => put m i (m i + w.count t i)) m) count0,
   o2.foldl (fun m t => forUp (c.k * c.nf) (fun i m => put m i (m i + w.sums t i)) m) cur0)

/-- scale_current_cluster_centres, kmeans_lloyd.hpp:363-405, with centres by rows; normalize_rows_inplace by rows
is da_utils.cpp:809-815. -/
def scaleCentres (c : Cfg K) (count : Nat → Nat) (cur : Nat → K) : (Nat → Nat) × (Nat → K) :=
  let count : Nat → Nat := forUp c.k (fun i m => if m i = 0 then put m i 1 else m) count
  if c.spherical then
    (count, forUp c.k (fun i m =>
      let norm := c.sqrt (sumTo c.nf fun f => m (i * c.nf + f) * m (i * c.nf + f))
      let inv := if norm = 0 then 1 else 1 / norm
      forUp c.nf (fun f m => put m (i * c.nf + f) (m (i * c.nf + f) * inv)) m) cur)
  else (count, forUp c.k (fun i m => forUp c.nf (fun f m => put m (i * c.nf + f) (m (i * c.nf + f) / (count i : K))) m) cur)

/-- The shift of the centres, kmeans_elkan.hpp:359-387, and compute_centre_shift, kmeans.cpp:1334-1355: the new
`workc1` and the differences left in `previous_cluster_centres`. -/
def shiftCentres (c : Cfg K) (prev cur : Nat → K) (workc1 : Nat → Option K) : (Nat → K) × (Nat → Option K) :=
  let diff : Nat → K := forUp (c.k * c.nf) (fun i m => put m i (m i - cur i)) prev
  if c.spherical then
    (diff, forUp c.k (fun i m => put m i (some (c.acos (clampCos (sumTo c.nf fun f => prev (i * c.nf + f) * cur (i * c.nf + f)))))) workc1)
  else (diff, forUp c.k (fun i m => put m i (some (c.sqrt (sumTo c.nf fun f => diff (i * c.nf + f) * diff (i * c.nf + f))))) workc1)

/-- A lower bound minus a shift, at least zero; with an infinite shift zero. -/
def lowered (l : K) (shift : Option K) : K := match shift with | none => 0 | some d => if l - d < 0 then 0 else l - d

/-- An upper bound plus a shift. The shift of a label is never infinite; the model gives back the bound. -/
def raised (u : K) (shift : Option K) : K := match shift with | none => u | some d => u + d

/-- elkan_iteration_kernel_scalar, kmeans_kernels.cpp:117-135, on the samples `ix, …, ix + size - 1`. -/
def updateScalar (c : Cfg K) (workc1 : Nat → Option K) (lab : Nat → Nat) (ix size : Nat) (b : (Nat → K) × (Nat → K)) : (Nat → K) × (Nat → K) :=
  forUp size (fun i b =>
    (put b.1 (ix + i) (raised (b.1 (ix + i)) (workc1 (lab (ix + i)))),
     forUp c.k (fun j m => put m (ix * c.ld + i * c.ld + j) (lowered (m (ix * c.ld + i * c.ld + j)) (workc1 j))) b.2)) b

/-- One load, subtraction, maximum and store of `w` lanes at position `p`, with the shifts from position `q`. -/
def lowerLanes (workc1 : Nat → Option K) (w p q : Nat) (m : Nat → K) : Nat → K :=
  fun x => if p ≤ x ∧ x < p + w then lowered (m x) (workc1 (q + (x - p))) else m x

/-- elkan_iteration_kt, kmeans_kernels.cpp:153-187: first all lower bounds, `w` centres at a time and past
`n_clusters` in the last step, then the upper bounds `w` samples at a time and the rest. -/
def updateKt (c : Cfg K) (w : Nat) (workc1 : Nat → Option K) (lab : Nat → Nat) (ix size : Nat) (b : (Nat → K) × (Nat → K)) : (Nat → K) × (Nat → K) :=
  let l := forUp size (fun i m => forUp ((c.k + w - 1) / w) (fun s m => lowerLanes workc1 w (ix * c.ld + (i * c.ld + s * w)) (s * w) m) m) b.2
  let full := size - size % w
  let u : Nat → K := forUp (full / w) (fun s m => fun x => if ix + s * w ≤ x ∧ x < ix + s * w + w then raised (m x) (workc1 (lab x)) else m x) b.1
  let u := forUp (size - full) (fun r m => put m (ix + (full + r)) (raised (m (ix + (full + r))) (workc1 (lab (ix + (full + r)))))) u
  (u, l)

/-- The chosen update kernel. -/
def updateKernel (c : Cfg K) : (Nat → Option K) → (Nat → Nat) → Nat → Nat → (Nat → K) × (Nat → K) → (Nat → K) × (Nat → K) :=
  match c.lanes with | none => updateScalar c | some w => updateKt c w

/-- The second parallel loop, kmeans_elkan.hpp:389-404: every thread again with its own `block_size`. -/
def updateBlocks (c : Cfg K) (workc1 : Nat → Option K) (lab : Nat → Nat) (nb rem : Nat) (sched : List (Nat × Nat)) (b : (Nat → K) × (Nat → K)) :
    (Nat → K) × (Nat → K) :=
  (sched.foldl (fun (r : (Nat → Nat) × ((Nat → K) × (Nat → K))) e =>
    let x := blockOf c nb rem (r.1 e.1) e.2
    (put r.1 e.1 x.2, updateKernel c workc1 lab x.1 x.2 r.2)) ((fun _ => c.bs), b)).2

/-- What the OpenMP runtime decides in one iteration: the two schedules and the two lock orders. -/
structure Sched where
  assign : List (Nat × Nat)
  counts : List Nat
  sums : List Nat
  update : List (Nat × Nat)

/-- Number of blocks (`blocking_scheme`, called at kmeans.cpp:1003). -/
def nBlocks (n bs : Nat) : Nat := if n % bs > 0 then n / bs + 1 else n / bs

/-- The first part of elkan_iteration, kmeans_elkan.hpp:254-352.  Without `update` the counts and sums of the
threads are those of the iteration before, and they are added again. -/
def assignPhase (c : Cfg K) (nThreads : Nat) (sch : Sched) (update : Bool) (s : St K) : St K :=
  let s := if update then { s with count := fun _ => 0, cur := fun _ => 0 } else s
  let s := if update ∧ nThreads > 1 then { s with thdCount := fun _ _ => 0, thdSums := fun _ _ => 0 } else s
  if nThreads > 1 then
    let w := sch.assign.foldl (fun w e => assignBlock c s update (nBlocks c.n c.bs) (c.n % c.bs) e w) ⟨s.u, s.l, s.curLab, fun _ => c.bs, s.thdCount, s.thdSums⟩
    let r := reduceThreads c w sch.counts sch.sums s.count s.cur
    { s with u := w.u, l := w.l, curLab := w.lab, count := r.1, cur := r.2, thdCount := w.count, thdSums := w.sums }
  else
    let w := ((List.range (nBlocks c.n c.bs)).map fun b => (0, b)).foldl (fun w e => assignBlock c s update (nBlocks c.n c.bs) (c.n % c.bs) e w)
      ⟨s.u, s.l, s.curLab, fun _ => c.bs, fun _ => s.count, fun _ => s.cur⟩
    { s with u := w.u, l := w.l, curLab := w.lab, count := w.count 0, cur := w.sums 0 }

/-- The second part, kmeans_elkan.hpp:354-409: the new centres, their shifts and the new bounds. -/
def movePhase (c : Cfg K) (nThreads : Nat) (sch : Sched) (s : St K) : St K :=
  let r := scaleCentres c s.count s.cur
  let h := shiftCentres c s.prev r.2 s.workc1
  let b := if nThreads > 1 then updateBlocks c h.2 s.curLab (nBlocks c.n c.bs) (c.n % c.bs) sch.update (s.u, s.l) else updateKernel c h.2 s.curLab 0 c.n (s.u, s.l)
  { s with count := r.1, cur := r.2, prev := h.1, workc1 := h.2, u := b.1, l := b.2 }

/-- elkan_iteration, kmeans_elkan.hpp:250-412. -/
def elkanIteration (c : Cfg K) (nThreads : Nat) (sch : Sched) (rest : Nat → K) (update : Bool) (s : St K) : St K :=
  let s := assignPhase c nThreads sch update s
  let s := if update then movePhase c nThreads sch s else s
  halfDistances c rest s

/-- The swaps before an iteration, kmeans.cpp:1014-1015. -/
def swapSt (s : St K) : St K := { s with prev := s.cur, cur := s.prev, prevLab := s.curLab, curLab := s.prevLab }

/-- The Elkan part of perform_kmeans, kmeans.cpp:1003-1034, without the handling of empty clusters: the
initialization and one iteration for every entry of `scheds`. -/
def elkanRun (c : Cfg K) (C : Nat → K) (nThreads : Nat) (rest : Nat → K) (order : List Nat) (s : St K) (scheds : List Sched) : St K :=
  scheds.foldl (fun s sch => elkanIteration c nThreads sch rest true (swapSt s)) (initElkan c C rest order s)

/-- The last labelling, kmeans.cpp:1035-1045, when the tolerance or the number of iterations was reached: the
labels are found again with the last centres, which come back to `cur` afterwards. -/
def elkanFinal (c : Cfg K) (nThreads : Nat) (sch : Sched) (rest : Nat → K) (s : St K) : St K :=
  let s := elkanIteration c nThreads sch rest false (swapSt s)
  { s with prev := s.cur, cur := s.prev }

end Verif.Kmeans
