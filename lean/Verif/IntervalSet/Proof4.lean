/- `find` and reachability. -/
import Verif.IntervalSet.Proof3
import Mathlib.Data.List.TakeWhile
namespace Verif.IntervalSet

theorem lt_key {key : Int} {e : Ivl} :
    Ivl.lt ⟨key, key⟩ e = true ↔ key < e.lower ∨ (key = e.lower ∧ key < e.upper) := by
  unfold Ivl.lt
  by_cases h : key = e.lower
  · simp [h]
  · simp [h]

theorem contains_iff {e : Ivl} {k : Int} : e.contains k = true ↔ e.lower ≤ k ∧ k ≤ e.upper := by
  simp [Ivl.contains]

theorem find_correct {s : List Ivl} (hc : Canonical s) (key : Int) :
    ∃ r, find key s = some r ∧ (∀ i, r = some i → i ∈ s ∧ i.lower ≤ key ∧ key ≤ i.upper) ∧
      (r = none → ¬ Holds s key) := by
  cases hs : s with
  | nil => exact ⟨none, by simp [find], by simp, fun _ => holds_nil⟩
  | cons x0 s0 =>
  rw [← hs]
  have hne : s.isEmpty = false := by rw [hs]; rfl
  obtain ⟨B, hB⟩ : ∃ B, B = s.takeWhile (fun e => !(Ivl.lt ⟨key, key⟩ e)) := ⟨_, rfl⟩
  obtain ⟨A, hA⟩ : ∃ A, A = s.dropWhile (fun e => !(Ivl.lt ⟨key, key⟩ e)) := ⟨_, rfl⟩
  have hBA : s = B ++ A := by rw [hB, hA]; exact List.takeWhile_append_dropWhile.symm
  have hBall : ∀ e ∈ B, e.lower ≤ key := by
    intro e he
    rw [hB] at he
    have h := List.mem_takeWhile_imp he
    by_cases hh : e.lower ≤ key
    · exact hh
    · have := (lt_key (key := key) (e := e)).2 (Or.inl (by omega))
      simp [this] at h
  have hlast : ∀ e, B.getLast? = some e → ∀ A', (∀ q ∈ A', key < q.lower) → ∀ i ∈ B ++ A',
      (i.lower ≤ key ∧ key ≤ i.upper) → i = e := by
    intro e he A' hA' i hi hk
    rcases List.mem_append.1 hi with hi | hi
    · obtain ⟨B', hB'⟩ := getLast?_eq_some he
      rw [hB'] at hi
      rcases List.mem_append.1 hi with hi | hi
      · exfalso
        have c := (canonical_append.1 (hBA ▸ hc)).1
        rw [hB'] at c
        have := (canonical_append.1 c).2.2 i hi e (by simp)
        have := hBall e (by rw [hB']; simp)
        omega
      · simpa using hi
    · have := hA' i hi; omega
  have hBne : A = [] → B ≠ [] := by
    intro h1 h2; rw [h1, h2] at hBA; rw [hBA] at hs; simp at hs
  have fromLast : ∀ A', A = A' → (∀ q ∈ A', key < q.lower) → B ≠ [] → ∃ r,
      (match B.getLast? with
      | none => (none : Option (Option Ivl))
      | some e => some (if e.contains key then some e else none)) = some r ∧
      (∀ i, r = some i → i ∈ s ∧ i.lower ≤ key ∧ key ≤ i.upper) ∧ (r = none → ¬ Holds s key) := by
    intro A' hAA hA' hBn
    cases he : B.getLast? with
    | none => exact absurd (by simpa using he) hBn
    | some e =>
      obtain ⟨B', hB'⟩ := getLast?_eq_some he
      refine ⟨_, rfl, ?_, ?_⟩
      · intro i hi
        split at hi
        · rename_i hcon
          cases hi
          exact ⟨by rw [hBA, hB']; simp, contains_iff.1 hcon⟩
        · cases hi
      · intro hr
        split at hr
        · cases hr
        · rename_i hcon
          rintro ⟨i, hi, hk⟩
          rw [hBA, hAA] at hi
          have := hlast e he A' hA' i hi hk
          subst this
          exact hcon (contains_iff.2 hk)
  unfold find
  simp only [hne, Bool.false_eq_true, if_false, ← hB, ← hA]
  cases hAc : A with
  | nil =>
    exact fromLast [] hAc (by simp) (hBne hAc)
  | cons u A' =>
    have hu : Ivl.lt ⟨key, key⟩ u = true := by
      have h := List.head?_dropWhile_not (fun e => !(Ivl.lt ⟨key, key⟩ e)) s
      rw [← hA, hAc] at h
      simpa using h
    have hu' := lt_key.1 hu
    dsimp only
    by_cases hcon : u.contains key = true
    · rw [if_pos hcon]
      refine ⟨some u, rfl, ?_, by simp⟩
      intro i hi; cases hi
      exact ⟨by rw [hBA, hAc]; simp, contains_iff.1 hcon⟩
    · rw [if_neg hcon]
      have hul : key < u.lower := by
        rcases hu' with h | ⟨h, h'⟩
        · exact h
        · exact absurd (contains_iff.2 ⟨by omega, by omega⟩) hcon
      have hA' : ∀ q ∈ u :: A', key < q.lower := by
        intro q hq
        rcases List.mem_cons.1 hq with rfl | hq
        · exact hul
        · have c := canonical_cons.1 (hAc ▸ (canonical_append.1 (hBA ▸ hc)).2.1)
          have := c.2.1 q hq; have := c.1; omega
      by_cases hB0 : B = []
      · rw [if_neg (by simp [hB0]), if_neg hcon]
        refine ⟨none, rfl, by simp, ?_⟩
        rintro - ⟨i, hi, hk⟩
        rw [hBA, hB0, hAc, List.nil_append] at hi
        have := hA' i hi; omega
      · rw [if_pos ⟨by omega, hB0⟩]
        exact fromLast (u :: A') hAc hA' hB0

theorem step_canonical {s : List Ivl} (hc : Canonical s) (op : Op) : Canonical (step s op) := by
  cases op with
  | insert lb ub =>
    by_cases h : lb ≤ ub
    · exact (insert_correct h hc).2.1
    · simp only [step, insert, if_pos (show ub < lb by omega)]; exact hc
  | erase lb ub =>
    by_cases h : lb ≤ ub
    · exact (erase_cases h hc).2.1
    · simp only [step, erase, if_pos (show ub < lb by omega)]; exact hc
  | clear => exact canonical_nil

theorem foldl_canonical (ops : List Op) : ∀ s, Canonical s → Canonical (ops.foldl step s) := by
  induction ops with
  | nil => exact fun s h => h
  | cons op ops ih => exact fun s h => ih _ (step_canonical h op)

theorem run_canonical (ops : List Op) : Canonical (run ops) := foldl_canonical ops [] canonical_nil

end Verif.IntervalSet
