/-
Properties C01, C02, C03: named selections of a data store.
-/
import Verif.IntervalSet.Proof4
namespace Verif.IntervalSet

/-! ### C01  selecting is set union -/

/-- C01.  Whatever calls were made before, adding a range succeeds and the selection then
holds exactly what it held before plus the range. -/
theorem C01_select_is_union (history : List Op) (lb ub : Int) (h : lb ≤ ub) :
    (insert ⟨lb, ub⟩ (run history)).1 = .success ∧
    ∀ k, Holds (insert ⟨lb, ub⟩ (run history)).2 k ↔ Holds (run history) k ∨ InRange lb ub k :=
  let r := insert_correct h (run_canonical history)
  ⟨r.1, r.2.2⟩

/-- C01.  An empty range is refused and nothing changes. -/
theorem C01_empty_range_refused (history : List Op) (lb ub : Int) (h : ub < lb) :
    insert ⟨lb, ub⟩ (run history) = (.invalidInput, run history) := by
  simp [insert, h]

-- {3..5, 9..9} plus 6..8 becomes the single interval 3..9
example : insert ⟨6, 8⟩ (run [.insert 3 5, .insert 9 9]) = (.success, [⟨3, 9⟩]) := by decide
-- overlapping several stored intervals
example : run [.insert 1 2, .insert 4 5, .insert 9 12, .insert 5 10] = [⟨1, 2⟩, ⟨4, 12⟩] := by decide
example : insert ⟨4, 3⟩ (run [.insert 3 5]) = (.invalidInput, [⟨3, 5⟩]) := by decide

/-! ### C02  removing is set difference -/

/-- The property C02 as stated: every successful removal is set difference. -/
def C02_statement : Prop :=
  ∀ (history : List Op) (lb ub : Int), lb ≤ ub →
    (erase ⟨lb, ub⟩ (run history)).1 = .success →
    ∀ k, Holds (erase ⟨lb, ub⟩ (run history)).2 k ↔ Holds (run history) k ∧ ¬ InRange lb ub k

/-- C02 does not hold of the code: after selecting 2..3, removing 1..5 reports success and
leaves 2..3 selected (interval_set.cpp:132, both iterators are `end()`). -/
theorem C02_remove_violated : ¬ C02_statement := by
  intro h
  have h1 := (h [.insert 2 3] 1 5 (by decide) (by decide) 2).1 (by
    exact ⟨⟨2, 3⟩, by decide, by decide, by decide⟩)
  exact h1.2 ⟨by decide, by decide⟩

/-- C02, exact extent of the failure: whenever the removed range strictly encloses every
selected index, the call reports success and removes nothing. -/
theorem C02_remove_enclosing_is_noop (history : List Op) (lb ub : Int) (hle : lb ≤ ub)
    (h : ∀ k, Holds (run history) k → lb < k ∧ k < ub) :
    erase ⟨lb, ub⟩ (run history) = (.success, run history) := by
  obtain ⟨h1, _, h3 | ⟨⟨i, hi, hn⟩, _⟩⟩ := erase_cases hle (run_canonical history)
  · exact Prod.ext h1 h3.2
  · have hw := (run_canonical history).1 i hi
    have a := h i.lower ⟨i, hi, by omega, hw⟩
    have b := h i.upper ⟨i, hi, hw, by omega⟩
    omega

/-- C02 (partial: excludes ranges that strictly enclose a non-empty selection, where the
code fails).  If some selected index is at most `lb` or at least `ub`, or nothing is
selected, removal succeeds and is exactly set difference. -/
theorem C02_remove_is_difference_partial (history : List Op) (lb ub : Int) (hle : lb ≤ ub)
    (h : (∃ k, Holds (run history) k ∧ (k ≤ lb ∨ ub ≤ k)) ∨ ∀ k, ¬ Holds (run history) k) :
    (erase ⟨lb, ub⟩ (run history)).1 = .success ∧
    ∀ k, Holds (erase ⟨lb, ub⟩ (run history)).2 k ↔ Holds (run history) k ∧ ¬ InRange lb ub k := by
  obtain ⟨h1, _, ⟨h3, h4⟩ | ⟨_, h4⟩⟩ := erase_cases hle (run_canonical history)
  · refine ⟨h1, ?_⟩
    rw [h4]
    rcases h with ⟨k, ⟨i, hi, hk1, hk2⟩, hk⟩ | h
    · have := h3 i hi; omega
    · intro k
      exact ⟨fun hk => absurd hk (h k), fun hk => hk.1⟩
  · exact ⟨h1, h4⟩

/-- C02.  An empty range is refused and nothing changes. -/
theorem C02_empty_range_refused (history : List Op) (lb ub : Int) (h : ub < lb) :
    erase ⟨lb, ub⟩ (run history) = (.invalidInput, run history) := by
  simp [erase, h]

example : erase ⟨4, 10⟩ (run [.insert 1 5, .insert 7 8, .insert 10 12])
    = (.success, [⟨1, 3⟩, ⟨11, 12⟩]) := by decide
example : erase ⟨3, 4⟩ (run [.insert 1 6]) = (.success, [⟨1, 2⟩, ⟨5, 6⟩]) := by decide
example : ∃ k, Holds (run [.insert 1 5, .insert 7 8]) k ∧ (k ≤ 4 ∨ 10 ≤ k) :=
  ⟨1, ⟨⟨1, 5⟩, by decide, by decide, by decide⟩, by decide⟩

/-! ### C03  selections stay canonical -/

/-- C03.  After any history the stored intervals are non-empty, sorted, disjoint and not
touching. -/
theorem C03_canonical (history : List Op) : Canonical (run history) := run_canonical history

/-- C03.  Two selections holding the same indices have the same stored form. -/
theorem C03_same_indices_same_form (history₁ history₂ : List Op)
    (h : ∀ k, Holds (run history₁) k ↔ Holds (run history₂) k) : run history₁ = run history₂ :=
  canonical_ext (run_canonical _) (run_canonical _) h

/-- C03.  Lookup is total and returns the stored interval containing the key exactly when
the key is selected. -/
theorem C03_find_exact (history : List Op) (key : Int) :
    ∃ r, find key (run history) = some r ∧
      (∀ i, r = some i → i ∈ run history ∧ i.lower ≤ key ∧ key ≤ i.upper) ∧
      (r = none ↔ ¬ Holds (run history) key) := by
  obtain ⟨r, h1, h2, h3⟩ := find_correct (run_canonical history) key
  refine ⟨r, h1, h2, h3, fun hn => ?_⟩
  cases r with
  | none => rfl
  | some i => exact absurd ⟨i, (h2 i rfl).1, (h2 i rfl).2⟩ hn

example : run [.insert 1 2, .insert 6 9, .insert 3 4] = [⟨1, 4⟩, ⟨6, 9⟩] := by decide
example : run [.insert 1 4] = run [.insert 3 4, .insert 1 2] := by decide
example : find 7 (run [.insert 1 2, .insert 6 9]) = some (some ⟨6, 9⟩) := by decide
example : find 4 (run [.insert 1 2, .insert 6 9]) = some none := by decide

end Verif.IntervalSet
