import Verif.Blocking.Model
import Verif.Moments.Stats

/-
The blocked product `alpha * op(A) op(A)' + beta * C`:
/repo/source/core/utilities/da_syrk.hpp:69-244.

Memory and faults are those of `Moments`.  Values are taken from a commutative ring, so
additions are exact.  `da_int` does not wrap.
-/
namespace Verif.Cov

open Moments (M Fault rd wr forUp Order)

variable {K : Type} [CommRing K] [DecidableEq K]

inductive Uplo | upper | lower
  deriving DecidableEq, Repr

inductive Trans | no | yes
  deriving DecidableEq, Repr

/-- The position of entry (i, j) of a stored matrix. -/
def cell (order : Order) (ld i j : Nat) : Nat :=
  match order with
  | .col => i + ld * j
  | .row => j + ld * i

/-- The position of entry (i, l) of `op(A)`. -/
def opCell (order : Order) (trans : Trans) (ld i l : Nat) : Nat :=
  match trans with
  | .no => cell order ld i l
  | .yes => cell order ld l i

/-- The entries of the triangle. -/
def triangle (uplo : Uplo) (n : Nat) : List (Nat × Nat) :=
  ((List.range n).flatMap fun i => (List.range n).map fun j => (i, j)).filter fun c =>
    match uplo with
    | .upper => c.1 ≤ c.2
    | .lower => c.2 ≤ c.1

/-- The product of rows `i` and `j` of `op(A)`, where `A` begins at `offA`. -/
def rowDot (order : Order) (trans : Trans) (k : Nat) (A : List K) (offA ldA i j : Nat) : M K :=
  forUp k (fun l s => do
    let a ← rd A (offA + opCell order trans ldA i l)
    let b ← rd A (offA + opCell order trans ldA j l)
    .ok (s + a * b)) 0

/-- `cblas_syrk`, by its contract: every entry of the triangle becomes
`alpha * (op(A) op(A)') + beta * C`; the other entries are not touched.  (A `beta` of zero
means that `C` is not read, which in a ring gives the same value.) -/
def blasSyrk (order : Order) (uplo : Uplo) (trans : Trans) (n k : Nat) (alpha : K) (A : List K)
    (offA ldA : Nat) (beta : K) (C : List K) (offC ldC : Nat) : M (List K) :=
  (triangle uplo n).foldlM (fun C c => do
    let s ← rowDot order trans k A offA ldA c.1 c.2
    let v ← rd C (offC + cell order ldC c.1 c.2)
    wr C (offC + cell order ldC c.1 c.2) (alpha * s + beta * v)) C

/-- What the run-time system decides. -/
structure SyrkEnv where
  /-- `omp_get_max_threads()` -/
  maxThreads : Nat
  /-- `omp_get_max_active_levels() == omp_get_level()` -/
  nested : Bool
  /-- the hidden setting `syrk.block_size_override` -/
  override : Option Nat
  /-- the allocation of the temporary blocks succeeds -/
  alloc : Bool
  /-- the thread that runs a block, for each number of threads and of blocks -/
  owner : Nat → Nat → Nat → Nat
  /-- the order in which the blocks are run, for each number of threads and of blocks -/
  seq : Nat → Nat → List Nat

/-- `max_blocks`, da_syrk.hpp:89-105. -/
def syrkMax (e : SyrkEnv) (n k : Nat) : Nat :=
  match e.override with
  | some _ => 512
  | none => max (min ((k + 2 * n - 1) / (2 * n)) 512) 1

/-- The number of blocks, their size and the size of the last: da_syrk.hpp:77-122.  For `n = 0`
the code converts an infinite quotient to an integer, which is taken as a division by zero. -/
def syrkPlan (e : SyrkEnv) (n k : Nat) : M (Nat × Nat × Nat) :=
  if n = 0 then .error .divZero
  else
    let threads := if e.nested then 1 else e.maxThreads
    let minBlock := e.override.getD 2048
    let maxBlocks := syrkMax e n k
    if k ≤ n ∨ maxBlocks = 1 then .ok (1, max k n, max k n)
    else match Blocking.tallSkinny k minBlock maxBlocks n with
      | none => .error .divZero
      | some (nb, bs, fin) =>
        if (nb < threads - 1 ∨ nb = 1) ∧ e.override = none then .ok (1, k, k)
        else .ok (nb, bs, fin)

/-- The variables of the parallel loop: `C`, the temporary blocks, and for each thread its
counter, `this_block_size` and `this_block_ldC`. -/
structure SyrkSt (K : Type) where
  C : List K
  tmp : List K
  count : Nat → Nat
  size : Nat → Nat
  ld : Nat → Nat

/-- `A_block_offset`, da_syrk.hpp:153-159. -/
def blockOffset (order : Order) (trans : Trans) (ldA bs : Nat) : Nat :=
  match trans, order with
  | .no, .col => ldA * bs
  | .no, .row => bs
  | .yes, .col => bs
  | .yes, .row => ldA * bs

/-- One iteration of the parallel loop, by thread `t`: da_syrk.hpp:172-195. -/
def syrkStep (order : Order) (uplo : Uplo) (trans : Trans) (n : Nat) (alpha : K) (A : List K)
    (ldA : Nat) (beta : K) (ldC nb fin off : Nat) (t i : Nat) (s : SyrkSt K) : M (SyrkSt K) :=
  let size := if i = nb - 1 then Function.update s.size t fin else s.size
  let count := Function.update s.count t (s.count t + 1)
  if t = 0 then do
    let b := if s.count t = 0 then beta else 1
    let ld := Function.update s.ld t ldC
    let C ← blasSyrk order uplo trans n (size t) alpha A (i * off) ldA b s.C 0 (ld t)
    .ok ⟨C, s.tmp, count, size, ld⟩
  else do
    let b := if s.count t = 0 then 0 else 1
    let tmp ← blasSyrk order uplo trans n (size t) alpha A (i * off) ldA b s.tmp
      ((t - 1) * n * n) (s.ld t)
    .ok ⟨s.C, tmp, count, size, s.ld⟩

/-- The bounds of the inner loop of the accumulation, da_syrk.hpp:197-242: up to the outer
index for the upper triangle by columns and the lower by rows, else from it on. -/
def innerRange (order : Order) (uplo : Uplo) (n o : Nat) : List Nat :=
  match uplo, order with
  | .upper, .col => List.range (o + 1)
  | .upper, .row => List.range' o (n - o)
  | .lower, .col => List.range' o (n - o)
  | .lower, .row => List.range (o + 1)

/-- Accumulation of the temporary blocks, da_syrk.hpp:197-242.  In all four versions the
inner index is the position within a stored line and the outer index is the line. -/
def accumulate (order : Order) (uplo : Uplo) (n nTmp : Nat) (tmp : List K) (C : List K)
    (ldC : Nat) : M (List K) :=
  forUp nTmp (fun ii C =>
    forUp n (fun o C =>
      (innerRange order uplo n o).foldlM (fun C q => do
        let a ← rd C (q + ldC * o)
        let b ← rd tmp (ii * n * n + q + n * o)
        wr C (q + ldC * o) (a + b)) C) C) C

/-- `da_syrk`, da_syrk.hpp:69-244: false is `da_status_memory_error`. -/
def daSyrk (e : SyrkEnv) (order : Order) (uplo : Uplo) (trans : Trans) (n k : Nat) (alpha : K)
    (A : List K) (ldA : Nat) (beta : K) (C : List K) (ldC : Nat) : M (Bool × List K) :=
  if alpha = 0 ∧ beta = 1 then .ok (true, C)
  else do
    let (nb, bs, fin) ← syrkPlan e n k
    if nb = 1 then do
      let C ← blasSyrk order uplo trans n k alpha A 0 ldA beta C 0 ldC
      .ok (true, C)
    else if e.alloc then do
      let nt := min (if e.nested then 1 else e.maxThreads) nb
      let s ← (e.seq nt nb).foldlM (fun s i =>
        syrkStep order uplo trans n alpha A ldA beta ldC nb fin (blockOffset order trans ldA bs)
          (e.owner nt nb i) i s)
        ⟨C, List.replicate ((nt - 1) * n * n) 0, fun _ => 0, fun _ => bs, fun _ => n⟩
      let C ← accumulate order uplo n (nt - 1) s.tmp s.C ldC
      .ok (true, C)
    else .ok (false, C)

end Verif.Cov
