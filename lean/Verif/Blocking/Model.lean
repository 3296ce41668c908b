/-
Blocking schemes of /repo/source/core/utilities/da_utils.cpp:93-132 and of the tree builders.

`da_int` is a natural number here (all arguments are counts); C++ division by zero is `none`.
-/
namespace Verif.Blocking

/-- `blocking_scheme`, da_utils.cpp:93-100: (n_blocks, block_rem). -/
def blockingScheme (n bs : Nat) : Option (Nat × Nat) :=
  if bs = 0 then none
  else
    let nb := n / bs
    let rem := n % bs
    some (if rem > 0 then nb + 1 else nb, rem)

/-- The loop all callers write around it (e.g. nearest_neighbors/binary_tree.cpp:266-272):
block `k` as (first sample, number of samples). -/
def schemeBlock (n bs nb rem k : Nat) : Nat × Nat :=
  if k = nb - 1 ∧ rem > 0 then (n - rem, rem) else (k * bs, bs)

def schemeBlocks (n bs : Nat) : Option (List (Nat × Nat)) := do
  let (nb, rem) ← blockingScheme n bs
  pure ((List.range nb).map (schemeBlock n bs nb rem))

/-- `tall_skinny_blocking_scheme`, da_utils.cpp:109-132: (n_blocks, block_size,
final_block_size). -/
def tallSkinny (n minBlock maxBlocks minFinal : Nat) : Option (Nat × Nat × Nat) :=
  let bs0 := min minBlock n
  if bs0 = 0 then none
  else
    let bs? : Option Nat :=
      if n / bs0 > maxBlocks then
        if maxBlocks = 0 then none
        else some (min (((n / maxBlocks + 255) >>> 8) <<< 8) n)
      else some bs0
    match bs? with
    | none => none
    | some bs =>
      if bs = 0 then none
      else
        let nb := n / bs
        let fin := n % bs
        if fin ≥ minFinal then some (nb + 1, bs, fin)
        else
          let fin := fin + bs
          some (nb, if nb = 1 then fin else bs, fin)

/-- The loops of da_qr.hpp and da_syrk.hpp: block `k` starts at `k * block_size` and the
last one has `final_block_size` samples. -/
def tallBlocks (nb bs fin : Nat) : List (Nat × Nat) :=
  (List.range nb).map fun k => (k * bs, if k = nb - 1 then fin else bs)

/-- Block split of `parallel_centroid_radius` (nearest_neighbors/ball_tree.cpp:47-51, 72-76)
and `parallel_variance` (nearest_neighbors/kd_tree.cpp:44-48, 74-77); `unit` is
BALL_TREE_BLOCK_SIZE = KD_TREE_BLOCK_SIZE = 256 and `threads` is omp_get_max_threads(). -/
def treeBlocks (n threads unit : Nat) : Option (List (Nat × Nat)) :=
  if unit = 0 then none
  else
    let nb := min threads (max (n / unit) 1)
    if nb = 0 then none
    else
      let bs := n / nb
      if bs = 0 then none
      else
        let rem := bs + n % bs
        some ((List.range nb).map fun i => (i * bs, if i = nb - 1 then rem else bs))

/-- `compute_thread_distribution`,
decision_forest/forest/decision_forest_training.hpp:40-63: (n_forest_threads,
n_tree_threads).  `maxTree` is `max_tree_threads`, 0 meaning no limit. -/
def threadDistribution (nTree total maxTree : Nat) : Option (Nat × List Nat) :=
  let forest := min nTree total
  let remaining := total - forest
  if remaining = 0 then some (forest, List.replicate nTree 1)
  else if nTree = 0 then none
  else
    let per := remaining / nTree + 1
    if maxTree > 0 ∧ per ≥ maxTree then some (forest, List.replicate nTree maxTree)
    else some (forest, (List.range nTree).map fun i => if i < remaining % nTree then per + 1 else per)

end Verif.Blocking
