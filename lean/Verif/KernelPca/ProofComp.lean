import Verif.KernelPca.ProofCentre

set_option linter.unusedSectionVars false

/-
The eigenvalues that are kept.
-/
namespace Verif.KernelPca

open Finset

variable {K : Type*} [Field K] [LinearOrder K] [IsStrictOrderedRing K]

/-- What a clamped eigenvalue becomes. -/
def kept (pb e : K) : K := if 0 < e ∧ pb ≤ e then e else 0

theorem clampFrom_ok (pb nb : K) (nCheck : Nat) (l : List K) : ∀ idx, (clampFrom pb nb nCheck idx l).2 = true →
    (clampFrom pb nb nCheck idx l).1 = l.map (kept pb) := by
  induction l with
  | nil => intro idx _; rfl
  | cons e es ih =>
    intro idx h
    unfold clampFrom at h ⊢
    by_cases he : e < 0
    · rw [if_pos he] at h ⊢
      by_cases hc : idx < nCheck ∧ e < nb
      · rw [if_pos hc] at h; exact absurd h (by simp)
      · rw [if_neg hc] at h ⊢
        simp only [List.map_cons]
        rw [ih _ h, kept, if_neg fun g => absurd g.1 (not_lt.2 he.le)]
    · rw [if_neg he] at h ⊢
      simp only [List.map_cons]
      rw [ih _ h]
      congr 1
      unfold kept
      by_cases hp : 0 < e
      · by_cases hq : e < pb
        · rw [if_pos ⟨hp, hq⟩, if_neg fun g => absurd g.2 (not_le.2 hq)]
        · rw [if_neg fun g => hq g.2, if_pos ⟨hp, not_lt.1 hq⟩]
      · rw [if_neg fun g => hp g.1, if_neg fun g => hp g.1]
        exact le_antisymm (not_lt.1 hp) (not_lt.1 he)

/-- The loop runs to its end exactly when no eigenvalue to be checked is below the bound. -/
theorem clampFrom_end (pb nb : K) (nCheck : Nat) (l : List K) : ∀ idx, (clampFrom pb nb nCheck idx l).2 = true ↔
    ∀ j < l.length, idx + j < nCheck → ¬ (l.getD j 0 < 0 ∧ l.getD j 0 < nb) := by
  induction l with
  | nil => intro idx; simp [clampFrom]
  | cons e es ih =>
    intro idx
    have tail : (∀ j < (e :: es).length, idx + j < nCheck → ¬ ((e :: es).getD j 0 < 0 ∧ (e :: es).getD j 0 < nb)) ↔
        (idx < nCheck → ¬ (e < 0 ∧ e < nb)) ∧
        ∀ j < es.length, idx + 1 + j < nCheck → ¬ (es.getD j 0 < 0 ∧ es.getD j 0 < nb) := by
      constructor
      · intro h
        refine ⟨fun g => ?_, fun j hj g => ?_⟩
        · have := h 0 (by simp) (by simpa using g); simpa using this
        · have := h (j + 1) (by simpa using hj) (by omega); simpa using this
      · rintro ⟨h1, h2⟩ j hj g
        cases j with
        | zero => simpa using h1 (by simpa using g)
        | succ j => simpa using h2 j (by simpa using hj) (by omega)
    rw [tail]
    unfold clampFrom
    by_cases he : e < 0
    · rw [if_pos he]
      by_cases hc : idx < nCheck ∧ e < nb
      · rw [if_pos hc]
        simp only [Bool.false_eq_true, false_iff]
        exact fun g => g.1 hc.1 ⟨he, hc.2⟩
      · rw [if_neg hc]
        simp only
        rw [ih]
        exact ⟨fun g => ⟨fun a c => hc ⟨a, c.2⟩, g⟩, fun g => g.2⟩
    · rw [if_neg he]
      simp only
      rw [ih]
      exact ⟨fun g => ⟨fun _ c => he c.1, g⟩, fun g => g.2⟩

theorem kept_nonneg (pb e : K) : 0 ≤ kept pb e := by
  unfold kept
  split
  · next h => exact h.1.le
  · exact le_refl _

theorem kept_mono (pb : K) {a c : K} (h : a ≤ c) : kept pb a ≤ kept pb c := by
  by_cases ha : 0 < a ∧ pb ≤ a
  · rw [kept, if_pos ha, kept, if_pos ⟨ha.1.trans_le h, ha.2.trans h⟩]; exact h
  · rw [kept, if_neg ha]; exact kept_nonneg pb c

theorem kept_pos {pb e : K} : 0 < kept pb e ↔ 0 < e ∧ pb ≤ e := by
  unfold kept
  split
  · next h => exact ⟨fun _ => h, fun h => h.1⟩
  · next h => exact ⟨fun g => absurd g (lt_irrefl _), fun g => absurd g h⟩

/-- In a descending list the positive entries come first. -/
theorem lowerBound_sorted {l : List K} (h : l.Pairwise (· ≥ ·)) : lowerBound l = some (l.countP fun e => decide (0 < e)) := by
  unfold lowerBound
  rw [if_pos (h.imp fun hab hc => lt_of_lt_of_le hc hab)]
  congr 1
  induction l with
  | nil => rfl
  | cons e es ih =>
    rw [List.pairwise_cons] at h
    by_cases he : 0 < e
    · rw [List.takeWhile_cons_of_pos (by simpa using he), List.countP_cons_of_pos (by simpa using he), List.length_cons,
        ih h.2]
    · rw [List.takeWhile_cons_of_neg (by simpa using he), List.countP_cons_of_neg (by simpa using he)]
      symm
      rw [List.length_nil, List.countP_eq_zero]
      intro x hx
      simpa using (h.1 x hx).trans (not_lt.1 he)

/-- Positive entries of a descending list are those at the first positions. -/
theorem sorted_pos {l : List K} (h : l.Pairwise (· ≥ ·)) : ∀ j, 0 < l.getD j 0 ↔ j < l.countP fun e => decide (0 < e) := by
  induction l with
  | nil => intro j; simp
  | cons e es ih =>
    rw [List.pairwise_cons] at h
    intro j
    by_cases he : 0 < e
    · rw [List.countP_cons_of_pos (by simpa using he)]
      cases j with
      | zero => simpa using he
      | succ j =>
        have := ih h.2 j
        simp only [List.getD_cons_succ]
        rw [this]; omega
    · have hz : es.countP (fun e => decide (0 < e)) = 0 := by
        rw [List.countP_eq_zero]
        intro x hx
        simpa using (h.1 x hx).trans (not_lt.1 he)
      rw [List.countP_cons_of_neg (by simpa using he), hz]
      cases j with
      | zero => simpa using not_lt.1 he
      | succ j =>
        have := ih h.2 j
        simp only [List.getD_cons_succ]
        rw [this, hz]; omega

theorem resize_length (n : Nat) (l : List K) : (resize n l).length = n := by
  unfold resize
  simp [List.length_take]
  omega

theorem resize_getD (n : Nat) (l : List K) {j : Nat} (hj : j < n) : (resize n l).getD j 0 = l.getD j 0 := by
  unfold resize
  rw [List.getD_eq_getElem?_getD, List.getD_eq_getElem?_getD, List.getElem?_append]
  by_cases h : j < l.length
  · rw [if_pos (by simp; omega), List.getElem?_take, if_pos hj]
  · rw [if_neg (by simp; omega)]
    rw [List.getElem?_eq_none (l := l) (by omega), List.getElem?_replicate]
    split <;> rfl

/-- compute takes one of its ways out. -/
theorem finish_cases (b : Bounds K) (e : Env K) (o : Opts) (h : Handle K) (ev : List K) (V : Nat → K) {h' : Handle K}
    (g : finish b e o h ev V = (h', .success)) :
    (clamp b ev o.nOpt).2 = true ∧ ∃ nc, components o.nOpt o.removeZero (clamp b ev o.nOpt).1 = some nc ∧ h'.nc = nc ∧
      h'.eigenvectors = keepVectors h o nc V ∧ h'.eigenvalues = resize nc (clamp b ev o.nOpt).1 ∧ h'.trained = true ∧
      h'.row = h.row ∧ h'.n = h.n ∧ h'.rowMeans = h.rowMeans ∧ h'.grand = h.grand ∧
      h'.inverseFitted = (o.fitInverse || h.inverseFitted) ∧
      (o.fitInverse = true → e.ridge = some h'.dual) ∧ (o.fitInverse = false → h'.dual = h.dual) := by
  unfold finish at g
  simp only at g
  split at g
  · simp at g
  · next hc =>
    refine ⟨by simpa using hc, ?_⟩
    split at g
    · simp at g
    · next nc hn =>
      refine ⟨nc, hn, ?_⟩
      by_cases hf : o.fitInverse = true
      · rw [if_pos hf] at g
        split at g
        · simp at g
        · next d hd =>
          simp only [Prod.mk.injEq, and_true] at g
          subst g
          simp [hf, hd, keepVectors]
      · rw [if_neg hf] at g
        simp only [Prod.mk.injEq, and_true] at g
        subst g
        simp [hf, keepVectors]

theorem reverse_getD {w : List K} {n j : Nat} (hw : w.length = n) (hj : j < n) :
    w.reverse.getD j 0 = w.getD (n - 1 - j) 0 := by
  subst hw
  rw [List.getD_eq_getElem?_getD, List.getD_eq_getElem?_getD, List.getElem?_reverse hj]

theorem map_getD {pb : K} {l : List K} (j : Nat) : (l.map (kept pb)).getD j 0 = kept pb (l.getD j 0) := by
  have : kept pb 0 = 0 := if_neg fun g => lt_irrefl _ g.1
  rw [List.getD_eq_getElem?_getD, List.getD_eq_getElem?_getD, List.getElem?_map]
  cases l[j]? with
  | none => exact this.symm
  | some x => rfl

theorem reverse_sorted {w : List K} (h : w.Pairwise (· ≤ ·)) : w.reverse.Pairwise (· ≥ ·) :=
  List.pairwise_reverse.2 h

theorem map_sorted {pb : K} {l : List K} (h : l.Pairwise (· ≥ ·)) : (l.map (kept pb)).Pairwise (· ≥ ·) :=
  h.map _ fun _ _ hab => kept_mono pb hab

end Verif.KernelPca
