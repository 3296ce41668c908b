/-
What the user sees of a selection: a set of integers.
-/
import Verif.IntervalSet.Model
namespace Verif.IntervalSet

/-- Index `k` belongs to the selection stored as the list of closed intervals `s`. -/
def Holds (s : List Ivl) (k : Int) : Prop := ∃ i ∈ s, i.lower ≤ k ∧ k ≤ i.upper

/-- `k` is one of `lb, lb+1, ..., ub`. -/
def InRange (lb ub k : Int) : Prop := lb ≤ k ∧ k ≤ ub

/-- Canonical stored form: intervals are non-empty, and every interval ends at least
two below the start of each later one (so they are sorted, disjoint, not touching). -/
def Canonical (s : List Ivl) : Prop :=
  (∀ i ∈ s, i.lower ≤ i.upper) ∧ s.Pairwise (fun a b => a.upper + 1 < b.lower)

end Verif.IntervalSet
