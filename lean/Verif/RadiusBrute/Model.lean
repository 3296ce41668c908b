/-
Brute-force radius neighbours, /repo/source/core/nearest_neighbors/radius_neighbors.cpp:42-208.

Distances are exact elements of an ordered field.  The distance kernels are represented by the
function they compute (`Kernels`); their floating-point evaluation is not modelled.  Memory
exhaustion is not modelled, and all `n_threads` requested threads are taken to be granted.
-/
import Verif.Blocking.Model
import Mathlib.Algebra.Field.Defs
import Mathlib.Algebra.Order.Ring.Defs
import Mathlib.Data.Nat.Sqrt
namespace Verif.RadiusBrute

/-- `da_metric`, /repo/source/include/aoclda_metrics.h:44-56 (aliases merged). -/
inductive Metric
  | euclidean | sqeuclidean | minkowski | manhattan | cosine | euclideanGemm | sqeuclideanGemm | innerProduct
deriving DecidableEq, Repr

/-- The functions of two sample numbers that the distance kernels evaluate. -/
structure Kernels (K : Type) where
  euclid : Nat → Nat → K
  minkowski : K → Nat → Nat → K
  other : Metric → Nat → Nat → K

variable {K : Type} [Field K] [LinearOrder K]

/-- `metric_internal`, lines 68-71. -/
def metricInternal (metric : Metric) (p : K) : Metric :=
  if metric = .euclideanGemm ∨ (metric = .minkowski ∧ p = 2) then .sqeuclideanGemm else metric

/-- `eps_internal`, line 66. -/
def epsInternal (metric : Metric) (eps : K) : K := if metric = .euclideanGemm then eps * eps else eps

/-- Entry of the block of distances, lines 137-156: `euclidean_gemm_distance(..., square = true, ...)` or
`pairwise_distance_kernel` for the internal metric. -/
def entry (d : Kernels K) (m : Metric) (p : K) (i j : Nat) : K :=
  match m with
  | .sqeuclideanGemm => d.euclid i j ^ 2
  | .sqeuclidean => d.euclid i j ^ 2
  | .euclidean => d.euclid i j
  | .euclideanGemm => d.euclid i j
  | .minkowski => d.minkowski p i j
  | m => d.other m i j

/-- Block coordinates of loop index `k`, lines 122-123; the square root is exact here. -/
def blockOf (k : Nat) : Nat × Nat :=
  let bj := (Nat.sqrt (8 * k + 1) - 1) / 2
  (k - bj * (bj + 1) / 2, bj)

/-- The pairs `(i, j)` visited for loop index `k`, lines 127-135 and 158-164. -/
def visited (mbs nBlocks rem k : Nat) : List (Nat × Nat) :=
  let bi := (blockOf k).1
  let bj := (blockOf k).2
  let size1 := if bi = nBlocks - 1 ∧ rem > 0 then rem else mbs
  let size2 := if bj = nBlocks - 1 ∧ rem > 0 then rem else mbs
  (List.range size2).flatMap fun jj =>
    (List.range (if bi = bj then jj + 1 else size1)).map fun ii => (bi * mbs + ii, bj * mbs + jj)

/-- The `push_back` calls for loop index `k`, lines 165-173: `(i, j)` means `neighbors[i].push_back(j)`. -/
def pushes (d : Kernels K) (metric : Metric) (p eps : K) (mbs nBlocks rem k : Nat) : List (Nat × Nat) :=
  (visited mbs nBlocks rem k).flatMap fun x =>
    if entry d (metricInternal metric p) p x.1 x.2 ≤ epsInternal metric eps ∧ x.1 ≠ x.2 then [(x.1, x.2), (x.2, x.1)]
    else []

/-- The whole routine.  `threads` gives for every thread the loop indices it executes, in its
order; the list of thread `t` for sample `i` is appended after those of the threads before it
(lines 193-197; thread 0 writes to the result directly).  `none`: division by zero for an empty
data set, or a store outside the table. -/
def brute (d : Kernels K) (n : Nat) (metric : Metric) (p eps : K) (threads : List (List Nat)) :
    Option (List (List Nat)) :=
  let mbs := min 256 n
  match Blocking.blockingScheme n mbs with
  | none => none
  | some (nBlocks, rem) =>
    let all := threads.map fun ks => ks.flatMap (pushes d metric p eps mbs nBlocks rem)
    if all.all (fun l => l.all fun x => decide (x.1 < n)) then
      some ((List.range n).map fun i => all.flatMap fun l => l.filterMap fun x => if x.1 = i then some x.2 else none)
    else none

/-- Number of loop iterations, line 119. -/
def iterations (n : Nat) : Nat :=
  match Blocking.blockingScheme n (min 256 n) with
  | none => 0
  | some (nBlocks, _) => nBlocks * (nBlocks + 1) / 2

end Verif.RadiusBrute
