/-
What a DBSCAN clustering is, written without reference to the code: `within i j` says that
samples `i` and `j` are at most eps apart.
-/
import Mathlib.Logic.Relation
namespace Verif.Dbscan

/-- Sample `i` is a core sample: it has at least `minSamples` samples, itself included, in its
neighbourhood. -/
def Core (n : Nat) (within : Nat → Nat → Bool) (minSamples : Int) (i : Nat) : Prop :=
  i < n ∧ minSamples ≤ (((List.range n).filter fun j => j == i || within i j).length : Int)

/-- Two core samples at most eps apart. -/
def CoreEdge (n : Nat) (within : Nat → Nat → Bool) (minSamples : Int) (i j : Nat) : Prop :=
  Core n within minSamples i ∧ Core n within minSamples j ∧ within i j = true

/-- Chain of core samples. -/
def Linked (n : Nat) (within : Nat → Nat → Bool) (minSamples : Int) : Nat → Nat → Prop :=
  Relation.ReflTransGen (CoreEdge n within minSamples)

/-- `L` labels the samples by density-connected clusters `0 .. k-1`. -/
structure IsClustering (n : Nat) (within : Nat → Nat → Bool) (minSamples : Int) (L : Nat → Int)
    (k : Nat) : Prop where
  /-- core samples belong to a cluster -/
  core_label : ∀ i, Core n within minSamples i → 0 ≤ L i ∧ L i < k
  /-- same label exactly when density connected -/
  same : ∀ i j, Core n within minSamples i → Core n within minSamples j →
    (L i = L j ↔ Linked n within minSamples i j)
  /-- a border sample carries the label of a core sample near it -/
  border : ∀ i, i < n → ¬ Core n within minSamples i →
    (∃ j, Core n within minSamples j ∧ within j i = true) →
    ∃ j, Core n within minSamples j ∧ within j i = true ∧ L i = L j
  /-- all other samples are noise -/
  outlier : ∀ i, i < n → ¬ Core n within minSamples i →
    (¬ ∃ j, Core n within minSamples j ∧ within j i = true) → L i = -1
  /-- every cluster has a core sample -/
  used : ∀ c : Nat, c < k → ∃ i, Core n within minSamples i ∧ L i = c

/-- The table handed to the clustering lists for every sample the other samples within eps. -/
structure IsTable (n : Nat) (within : Nat → Nat → Bool) (nb : List (List Nat)) : Prop where
  size : nb.length = n
  mem : ∀ (i : Nat) (l : List Nat), nb[i]? = some l → ∀ j, j ∈ l ↔ j < n ∧ j ≠ i ∧ within i j = true
  once : ∀ (i : Nat) (l : List Nat), nb[i]? = some l → l.Nodup

end Verif.Dbscan
