import Verif.PairDist.Model
import Verif.KernelFn.Model
import Verif.Blocking.Model

/-
The blocked routines for tall, skinny matrices: `da_syrk` (source/core/utilities/da_syrk.hpp) and
the division into blocks of `da_qr` (source/core/utilities/da_qr.hpp).

Numbers are the elements of a field, an array is a function of its flat index and `da_int` is a
natural number, so rounding and overflow are not modelled.  `cblas_syrk` is a contract.  The block
sizes come from `tallSkinny` of `Verif.Blocking`.
-/
namespace Verif.TallSkinny

open Verif.Logistic Verif.PairDist Verif.KernelFn Verif.Blocking

variable {K : Type*} [Field K] [DecidableEq K]

/-- The entry `(i, l)` of `op(A)` in `cblas_syrk`: `A` has `n` rows without and `n` columns with
transposition. -/
def opA (row trans : Bool) (A : Nat → K) (lda i l : Nat) : K :=
  if trans then A (cell row lda l i) else A (cell row lda i l)

/-- `cblas_syrk`: the chosen triangle of `C` becomes that of `alpha op(A) op(A)ᵀ + beta C`; with
`beta = 0` the old contents are not read. -/
def syrkTri (row upper trans : Bool) (n k : Nat) (alpha : K) (A : Nat → K) (lda : Nat) (beta : K)
    (C : Nat → K) (ldc : Nat) : Nat → K :=
  loop n C fun j C => loop n C fun i C =>
    if (if upper then i ≤ j else j ≤ i) then
      upd C (cell row ldc i j)
        (alpha * (loop k 0 fun l s => s + opA row trans A lda i l * opA row trans A lda j l) +
          if beta = 0 then 0 else beta * C (cell row ldc i j))
    else C

/-- `C`, `C_tmp` and for each thread its private `this_block_size` and `this_thread_counter`
(da_syrk.hpp:144-171). -/
structure SyrkState (K : Type*) where
  C : Nat → K
  tmp : Nat → K
  size : Nat → Nat
  count : Nat → Nat

/-- One iteration of the parallel loop (da_syrk.hpp:153-195): block `i` on thread `t`.
`this_block_ldC` is `ldC` on thread 0 and `n` elsewhere. -/
def syrkBlock (row upper trans : Bool) (n : Nat) (alpha : K) (A : Nat → K) (lda : Nat) (beta : K)
    (ldc nb bs fin : Nat) (i t : Nat) (s : SyrkState K) : SyrkState K :=
  let off := if !trans then (if !row then lda * bs else bs) else (if !row then bs else lda * bs)
  let size := if i = nb - 1 then fin else s.size t
  let Ai := fun c => A (i * off + c)
  let s' := if t = 0 then
      { s with C := syrkTri row upper trans n size alpha Ai lda (if s.count t = 0 then beta else 1)
                      s.C ldc }
    else
      { s with tmp := onPtr ((t - 1) * n * n) (fun D => syrkTri row upper trans n size alpha Ai lda
                      (if s.count t = 0 then 0 else 1) D n) s.tmp }
  { s' with size := fun u => if u = t then size else s'.size u
            count := fun u => if u = t then s'.count u + 1 else s'.count u }

/-- The accumulation of the buffers into `C` (da_syrk.hpp:197-242). -/
def accumulate (row upper : Bool) (n ldc nTmp : Nat) (tmp C : Nat → K) : Nat → K :=
  if upper then
    if !row then
      loop nTmp C fun ii C => loop n C fun j C => loop (j + 1) C fun i C =>
        upd C (i + ldc * j) (C (i + ldc * j) + tmp (ii * n * n + i + n * j))
    else
      loop nTmp C fun ii C => loop n C fun i C => loop (n - i) C fun t C =>
        upd C (i + t + ldc * i) (C (i + t + ldc * i) + tmp (ii * n * n + (i + t) + n * i))
  else
    if !row then
      loop nTmp C fun ii C => loop n C fun j C => loop (n - j) C fun t C =>
        upd C (j + t + ldc * j) (C (j + t + ldc * j) + tmp (ii * n * n + (j + t) + n * j))
    else
      loop nTmp C fun ii C => loop n C fun i C => loop (i + 1) C fun j C =>
        upd C (j + ldc * i) (C (j + ldc * i) + tmp (ii * n * n + j + n * i))

/-- The blocks of `da_syrk` (da_syrk.hpp:77-121): (n_blocks, block_size, final_block_size).
`threads` is what `omp_get_max_threads` gives, or 1 in a nested region; `ov` the hidden setting
`syrk.block_size_override`.  The quotient `ceil((double)k / (2 * n))` is exact here.  `none` is a
division by zero. -/
def syrkPlan (threads n k : Nat) (ov : Option Nat) : Option (Nat × Nat × Nat) :=
  let maxBlocks := max (min ((k + 2 * n - 1) / (2 * n)) 512) 1
  let minBlock := ov.getD 2048
  let maxBlocks := if ov.isSome then 512 else maxBlocks
  if k ≤ n ∨ maxBlocks = 1 then some (1, max k n, max k n)
  else
    match tallSkinny k minBlock maxBlocks n with
    | none => none
    | some (nb, bs, fin) =>
      if (nb + 1 < threads ∨ nb = 1) ∧ ov.isNone then some (1, k, k) else some (nb, bs, fin)

/-- `da_syrk` (da_syrk.hpp:68-244).  `team nb t` is what happened in the parallel loop over `nb`
blocks with up to `t` threads: the blocks, each with its thread, in the order of execution. -/
def daSyrk (row upper trans : Bool) (n k : Nat) (alpha : K) (A : Nat → K) (lda : Nat) (beta : K)
    (C : Nat → K) (ldc : Nat) (threads : Nat) (ov : Option Nat)
    (team : Nat → Nat → List (Nat × Nat)) : Option (Nat → K) :=
  if alpha = 0 ∧ beta = 1 then some C
  else
    match syrkPlan threads n k ov with
    | none => none
    | some (nb, bs, fin) =>
      if nb = 1 then some (syrkTri row upper trans n k alpha A lda beta C ldc)
      else
        let t := min threads nb
        let s := (team nb t).foldl (fun s b =>
          syrkBlock row upper trans n alpha A lda beta ldc nb bs fin b.1 b.2 s)
          ⟨C, fun _ => 0, fun _ => bs, fun _ => 0⟩
        some (accumulate row upper n ldc (t - 1) s.tmp s.C)

/-- The blocks of `da_qr` (da_qr.hpp:113-157) for an `m` by `n` matrix, `ov` being the hidden
setting `pca.qr_block_size_override`. -/
def qrPlan (threads m n : Nat) (ov : Option Nat) : Option (Nat × Nat × Nat) :=
  let maxBlocks := max (min 256 (3 * (threads - 1) * m / ((3 * threads - 1) * n))) 1
  let maxBlocks := min maxBlocks threads
  let minBlock := ov.getD 1024
  let maxBlocks := if ov.isSome then 256 else maxBlocks
  if maxBlocks = 1 then some (1, m, m) else tallSkinny m minBlock maxBlocks n

/-- `tau_size` (da_qr.hpp:172). -/
def tauSize (n nb bs fin : Nat) : Nat := (nb - 1) * min bs n + min fin n

/-- The row of `A` at which block `i` starts (da_qr.hpp:253 and 256). -/
def start (bs i : Nat) : Nat := i * bs

/-- `this_block_size` in iteration `i` (da_qr.hpp:249-250). -/
def height (nb bs fin i : Nat) : Nat := if i = nb - 1 then fin else bs

/-- The cells of `tau` that `geqrf` writes for block `i` (da_qr.hpp:253): it gets `&tau[i * n]` and
there are as many reflectors as the smaller dimension of the block. -/
def tauCell (n i r : Nat) : Nat := i * n + r

/-- The row of `A` from which row `k` of the triangle of block `i` is copied
(da_qr.hpp:265-269). -/
def rRow (bs i k : Nat) : Nat := i * bs + k

end Verif.TallSkinny
