/-
Brute-force k-nearest-neighbour search:
/repo/source/core/nearest_neighbors/nearest_neighbors_utils.hpp:72-115, 185-297 (selection and sorting) and
/repo/source/core/nearest_neighbors/nearest_neighbors.cpp:566-820 (`kneighbors_compute_brute_force`).

Distances are elements of a linear order; the distance kernel is the function `d query sample`.
The `smaller_*` functions and their mirror images `larger_*` for the inner product are one
definition with a flag `inner`, which turns every comparison round.  Memory exhaustion and NaN
are not modelled; all requested threads are taken to be granted.
-/
import Verif.Blocking.Model
import Mathlib.Data.List.Sort
namespace Verif.KSelect

variable {K : Type} [LinearOrder K]

/-- `a <= b` (`a >= b` for the inner product). -/
def le (inner : Bool) (a b : K) : Prop := if inner then b ≤ a else a ≤ b
instance (inner : Bool) (a b : K) : Decidable (le inner a b) := by unfold le; infer_instance

/-- `inline_iamax` / `inline_iamin`, nearest_neighbors_utils.hpp:106-129, loop part: `idx`, `maxval`
so far, `i` is the position of the head of the list. -/
def iaLoop (inner : Bool) (idx : Nat) (maxval : K) (i : Nat) : List K → Nat
  | [] => idx
  | x :: xs => if ¬ le inner x maxval then iaLoop inner i x (i + 1) xs else iaLoop inner idx maxval (i + 1) xs

/-- `inline_iamax` / `inline_iamin`; reading `x[0]` of an empty array is undefined behaviour. -/
def iamax (inner : Bool) : List K → Option Nat
  | [] => none
  | x :: xs => some (iaLoop inner 0 x 1 xs)

/-- The buffers `k_ind`, `k_dist` (as pairs) with `max_index` and `max_val`. -/
structure Top (K : Type) where
  buf : List (Nat × K)
  maxIndex : Nat
  maxVal : K
deriving DecidableEq, Repr

/-- Recomputing `max_index` and `max_val`. -/
def Top.of (inner : Bool) (buf : List (Nat × K)) : Option (Top K) :=
  match iamax inner (buf.map (·.2)) with
  | none => none
  | some m => (buf[m]?).map fun x => ⟨buf, m, x.2⟩

/-- The test and replacement shared by all loops (nearest_neighbors_utils.hpp:205-210, 216-221;
nearest_neighbors.cpp:760-766). -/
def offer (inner : Bool) (s : Top K) (c : Nat × K) : Option (Top K) :=
  if le inner c.2 s.maxVal then Top.of inner (s.buf.set s.maxIndex c) else some s

/-- The loops of `smaller_values_and_indices_vectorized_kernel`, nearest_neighbors_utils.hpp:197-222, with vector width `V`.  The
candidates are `(i + global_offset, D[i])`.  The mask is computed with the maximum at the start of
the chunk; its set lanes are visited in increasing order. -/
def vecLoop (inner : Bool) (V : Nat) (s : Top K) (cs : List (Nat × K)) : Option (Top K) :=
  if _h : 0 < V ∧ V ≤ cs.length then
    match ((cs.take V).filter fun c => decide (le inner c.2 s.maxVal)).foldlM (offer inner) s with
    | none => none
    | some s' => vecLoop inner V s' (cs.drop V)
  else cs.foldlM (offer inner) s
termination_by cs.length
decreasing_by rw [List.length_drop]; omega

/-- `smaller_values_and_indices_vectorized` / `larger_...`. -/
def vecKernel (inner : Bool) (V : Nat) (buf cs : List (Nat × K)) : Option (List (Nat × K)) :=
  match Top.of inner buf with
  | none => none
  | some s => (vecLoop inner V s cs).map (·.buf)

/-- Update of the list of one query with one block, nearest_neighbors.cpp:674-700.  The list holds
the `count` entries filled so far. -/
def blockUpdate (inner : Bool) (V k : Nat) (buf cs : List (Nat × K)) : Option (List (Nat × K)) :=
  let fill := k - buf.length
  let buf' := buf ++ cs.take fill
  if fill < cs.length then vecKernel inner V buf' (cs.drop fill) else some buf'

/-- Merge of the list of another thread, nearest_neighbors.cpp:737-783. -/
def merge (inner : Bool) (k : Nat) (buf other : List (Nat × K)) : Option (List (Nat × K)) :=
  if other.length = 0 then some buf
  else
    let fill := k - buf.length
    let buf' := buf ++ other.take fill
    if fill < other.length ∧ k ≤ buf'.length then
      match Top.of inner buf' with
      | none => none
      | some s => ((other.drop fill).foldlM (offer inner) s).map (·.buf)
    else some buf'

/-- Size of block `i`, nearest_neighbors.cpp:637-642. -/
def blockSize (bs nBlocks rem i : Nat) : Nat := if i = nBlocks - 1 ∧ rem > 0 then rem else bs

/-- The candidates of training block `i` for query `q`, nearest_neighbors.cpp:645-651 and 680-694. -/
def candidates (d : Nat → Nat → K) (q bs nBlocks rem i : Nat) : List (Nat × K) :=
  (List.range (blockSize bs nBlocks rem i)).map fun ii => (ii + i * bs, d q (ii + i * bs))

/-- Parameters of the two blocking schemes, nearest_neighbors.cpp:573-593. -/
structure Plan where
  testBs : Nat
  testNb : Nat
  testRem : Nat
  trainBs : Nat
  trainNb : Nat
  trainRem : Nat

/-- `trainMax` is KNN_BLOCK_FLOAT = 512 or KNN_BLOCK_DOUBLE = 256; the test block limit is 1024. -/
def plan (trainMax nQueries nSamples : Nat) : Option Plan :=
  let tb := min 1024 nQueries
  let rb := min trainMax nSamples
  match Blocking.blockingScheme nQueries tb, Blocking.blockingScheme nSamples rb with
  | some (tn, tr), some (rn, rr) => some ⟨tb, tn, tr, rb, rn, rr⟩
  | _, _ => none

/-- One iteration `(j, i)` of the parallel loop, nearest_neighbors.cpp:632-703; the state is the
list of each query in the buffers of this thread. -/
def pairStep (inner : Bool) (V k : Nat) (d : Nat → Nat → K) (pl : Plan) (st : List (List (Nat × K))) (ji : Nat × Nat) :
    Option (List (List (Nat × K))) :=
  (List.range (blockSize pl.testBs pl.testNb pl.testRem ji.1)).foldlM (fun st jj =>
    let q := jj + ji.1 * pl.testBs
    match st[q]? with
    | none => none
    | some buf =>
      (blockUpdate inner V k buf (candidates d q pl.trainBs pl.trainNb pl.trainRem ji.2)).map (st.set q ·)) st

/-- All iterations executed by one thread. -/
def threadRun (inner : Bool) (V k : Nat) (d : Nat → Nat → K) (pl : Plan) (nQueries : Nat) (work : List (Nat × Nat)) :
    Option (List (List (Nat × K))) :=
  work.foldlM (pairStep inner V k d pl) (List.replicate nQueries [])

/-- `sorted_n_dist_n_ind`, nearest_neighbors_utils.hpp:72-101: a stable sort by distance.  Entries
never filled are the zeros put there by `resize`. -/
def sortBuf (inner : Bool) (k : Nat) (zero : K) (buf : List (Nat × K)) : List (Nat × K) :=
  (buf ++ List.replicate (k - buf.length) (0, zero)).insertionSort fun a b => le inner a.2 b.2

/-- `kneighbors_compute_brute_force`.  `threads` gives the iterations `(j, i)` each thread
executes, in its order.  The result lists for every query the pairs `(n_ind, distance)` stored
from position `q * n_neigh` on. -/
def brute (inner : Bool) (V trainMax k : Nat) (zero : K) (d : Nat → Nat → K) (nQueries nSamples : Nat)
    (threads : List (List (Nat × Nat))) : Option (List (List (Nat × K))) :=
  match plan trainMax nQueries nSamples with
  | none => none
  | some pl =>
    match threads.mapM (threadRun inner V k d pl nQueries) with
    | none => none
    | some [] => none
    | some (t0 :: rest) =>
      (List.range nQueries).mapM fun q =>
        match t0[q]?, rest.mapM (·[q]?) with
        | some b0, some others => (others.foldlM (merge inner k) b0).map (sortBuf inner k zero)
        | _, _ => none

end Verif.KSelect
