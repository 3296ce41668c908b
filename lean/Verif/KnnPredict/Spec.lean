import Mathlib.Algebra.BigOperators.Group.Finset.Basic
import Mathlib.Algebra.Order.Field.Basic

/-
What the predictions should be, stated without the model.
-/
namespace Verif.KnnPredict

open Finset (range)

variable {K : Type*} [Field K] [LinearOrder K]

/-- The total weight of the neighbours with the label `c`. -/
def votes (nn : Nat) (lab : Nat → Int) (w : Nat → K) (c : Int) : K :=
  ∑ k ∈ (range nn).filter (fun k => lab k = c), w k

/-- The share of the label `c` in the total weight. -/
def share (nn : Nat) (lab : Nat → Int) (w : Nat → K) (c : Int) : K :=
  votes nn lab w c / ∑ k ∈ range nn, w k

/-- `c` has the most votes, and among the labels with that many votes it is the smallest. -/
def Wins (nn : Nat) (lab : Nat → Int) (w : Nat → K) (c : Int) : Prop :=
  0 < votes nn lab w c ∧
    ∀ d, votes nn lab w d < votes nn lab w c ∨ (votes nn lab w d = votes nn lab w c ∧ c ≤ d)

/-- How many of the `n` training labels are `c`. -/
def occurrences (n : Nat) (y : Nat → Int) (c : Int) : Nat := ((range n).filter fun i => y i = c).card

/-- `c` is the smallest of the most frequent training labels. -/
def MostCommon (n : Nat) (y : Nat → Int) (c : Int) : Prop :=
  (∃ i < n, y i = c) ∧ ∀ i < n, occurrences n y (y i) < occurrences n y c ∨
    (occurrences n y (y i) = occurrences n y c ∧ c ≤ y i)

/-- The mean of the targets of the neighbours with weights. -/
def weightedMean (nn : Nat) (t w : Nat → K) : K :=
  (∑ k ∈ range nn, t k * w k) / ∑ k ∈ range nn, w k

end Verif.KnnPredict
