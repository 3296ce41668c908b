/-!
# Model of the partition of the samples of a tree node

`source/core/decision_forest/tree/decision_tree_training_partition.hpp`.  The four functions are one
loop with two tests on a sample: `goesLeft` (line 59, 81, 105, 129) and `staysRight` (line 61, 83, 107,
131).  For raw continuous data these are `<=` and `>`, which are not opposite on a NaN.
`samples_idx` is a function of the position; positions are natural numbers.
-/

namespace Verif.Partition

/-- `std::swap(samples_idx[i], samples_idx[j])`. -/
def swapAt (f : Nat → Nat) (i j : Nat) : Nat → Nat :=
  fun k => if k = i then f j else if k = j then f i else f k

/-- The loop (decision_tree_training_partition.hpp 54-66, 78-87, 100-111, 124-135).  `none`: the
fuel ran out. -/
def loop (goesLeft staysRight : Nat → Bool) : Nat → (Nat → Nat) → Nat → Nat →
    Option ((Nat → Nat) × Nat)
  | 0, _, _, _ => none
  | fuel + 1, samp, head, tail =>
    if head < tail then
      if goesLeft (samp head) then loop goesLeft staysRight fuel samp (head + 1) tail
      else if staysRight (samp tail) then loop goesLeft staysRight fuel samp head (tail - 1)
      else loop goesLeft staysRight fuel (swapAt samp head tail) head tail
    else some (samp, head)

/-- A partition function: the new `samples_idx` and the returned `head_idx - 1`. -/
def partition (goesLeft staysRight : Nat → Bool) (fuel : Nat) (samp : Nat → Nat) (start end_ : Nat) :
    Option ((Nat → Nat) × Int) :=
  (loop goesLeft staysRight fuel samp start end_).map fun r => (r.1, (r.2 : Int) - 1)

/-- The fitted data a tree works on: the column-major matrix with its leading dimension (`X`, `ldx`),
and the table of bins (`X_binned->binned_data`). -/
structure Data (α : Type) where
  x : Nat → α
  ldx : Nat
  nSamples : Nat
  binned : Nat → Nat

/-- `partition_samples_raw_continuous` (decision_tree_training_partition.hpp 47-68).  `le` and `lt`
are the two comparisons of floating-point values. -/
def rawContinuous {α} (le lt : α → α → Bool) (d : Data α) (feature : Nat) (thr : α) :=
  partition (fun s => le (d.x (d.ldx * feature + s)) thr) (fun s => lt thr (d.x (d.ldx * feature + s)))

/-- `partition_samples_raw_categorical` (decision_tree_training_partition.hpp 70-89).  `isCat v c` is
`std::round(v) == c`, and `!=` is its negation also for a NaN. -/
def rawCategorical {α} (isCat : α → Int → Bool) (d : Data α) (feature : Nat) (category : Int) :=
  partition (fun s => isCat (d.x (d.ldx * feature + s)) category)
    (fun s => !isCat (d.x (d.ldx * feature + s)) category)

/-- `partition_samples_hist_ordered` (decision_tree_training_partition.hpp 91-113).  The table is read
with the leading dimension of the data. -/
def histOrdered {α} (d : Data α) (feature : Nat) (category : Nat) :=
  partition (fun s => decide (d.binned (d.ldx * feature + s) ≤ category))
    (fun s => decide (category < d.binned (d.ldx * feature + s)))

/-- `partition_samples_hist_onevall` (decision_tree_training_partition.hpp 115-137). -/
def histOnevall {α} (d : Data α) (feature : Nat) (category : Nat) :=
  partition (fun s => decide (d.binned (d.ldx * feature + s) = category))
    (fun s => decide (d.binned (d.ldx * feature + s) ≠ category))

/-- The bin of a sample: `compute_histograms` stores the table with `n_samples` rows
(histogram.cpp 160), and the search for a split reads it that way
(decision_tree_training_split.hpp 158, 167). -/
def binOf {α} (d : Data α) (feature s : Nat) : Nat := d.binned (feature * d.nSamples + s)

end Verif.Partition
