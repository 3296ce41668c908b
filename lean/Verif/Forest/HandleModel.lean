import Verif.Forest.Model

/-!
# Model of the handle of a forest

`source/core/decision_forest/forest/decision_forest_handle_utilities.hpp`,
`decision_forest_training.hpp` and `decision_forest_inference.hpp`.  Only the members that decide
whether `predict` is allowed are kept.  `refresh` is the empty one of `basic_handle`
(utilities/basic_handle.cpp 66): `decision_forest` does not override it.
-/

namespace Verif.Forest

/-- A fitted tree: the sizes that its own handle holds, and its prediction for each point. -/
structure FTree where
  nFeat : Nat
  nClass : Nat
  vote : Nat → Nat

/-- A forest handle; `none` in `trees` is an empty `unique_ptr`. -/
structure Handle where
  trained : Bool
  initDone : Bool
  nFeat : Nat
  nClass : Nat
  trees : List (Option FTree)

/-- A new handle (decision_forest.hpp 60-92). -/
def Handle.new : Handle := { trained := false, initDone := false, nFeat := 0, nClass := 0, trees := [] }

/-- `set_training_data` (decision_forest_handle_utilities.hpp 104-138) with valid arguments; `nClass` is the
argument, or the largest label plus 1. -/
def Handle.setData (h : Handle) (nFeat nClass : Nat) : Handle :=
  { h with nFeat := nFeat, nClass := nClass, initDone := true }

/-- `fit` (decision_forest_training.hpp 65-229) when it succeeds, with the trees it makes. -/
def Handle.fit (h : Handle) (trees : List FTree) : Handle :=
  if h.initDone then { h with trees := trees.map some, trained := true } else h

/-- `fit` when the histograms cannot be made (decision_forest_training.hpp 112-130): the vector of
trees has its new size. -/
def Handle.fitBins (h : Handle) (nTree : Nat) : Handle :=
  if h.initDone then
    { h with trees := h.trees.take nTree ++ List.replicate (nTree - h.trees.length) none }
  else h

inductive Outcome where
  | refused
  | ub
  | done (y : Nat → Int)

/-- The prediction of tree `k`. -/
def voteOf (trees : List (Option FTree)) (k i : Nat) : Nat :=
  match trees[k]? with
  | some (some f) => f.vote i
  | _ => 0

/-- Whether `tree->predict` gets past its test of the number of features
(decision_tree_inference.hpp 49-54). -/
def usableIn (trees : List (Option FTree)) (nFeat k : Nat) : Bool :=
  match trees[k]? with
  | some (some f) => f.nFeat == nFeat
  | _ => false

/-- `predict` (decision_forest_inference.hpp 66-137), with `nThreads` threads, a block size and a schedule
`s` for these sizes. -/
def Handle.predict (h : Handle) (nfeat nsamp nThreads blockSize : Nat) (s : List (Nat × Op Nat Nat)) :
    Outcome :=
  if nfeat ≠ h.nFeat then .refused
  else if h.trained = false then .refused
  else if h.trees.any fun t => t.isNone then .ub
  else
    match Forest.predict { nThreads := nThreads, blockSize := blockSize, nsamp := nsamp, nClass := h.nClass,
                           nTree := h.trees.length } s fun _ => 0 with
    | none => .ub
    | some y => .done y

/-- The handles that the calls can lead to; a fit makes trees for the data of the handle. -/
inductive Reachable : Handle → Prop where
  | new : Reachable .new
  | setData (h : Handle) (nFeat nClass : Nat) : Reachable h → 1 ≤ nClass → Reachable (h.setData nFeat nClass)
  | fit (h : Handle) (trees : List FTree) : Reachable h →
      (∀ f ∈ trees, f.nFeat = h.nFeat ∧ f.nClass = h.nClass ∧ ∀ i, f.vote i < h.nClass) →
      Reachable (h.fit trees)
  | fitBins (h : Handle) (nTree : Nat) : Reachable h → Reachable (h.fitBins nTree)

end Verif.Forest
