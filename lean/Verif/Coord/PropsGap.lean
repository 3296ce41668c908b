import Verif.Coord.FixProof
import Mathlib.Tactic.NormNum

/-!
# Properties of the dual gap

C95: the dual gap bounds how far the objective is from its minimum.  C99: it is zero exactly at the minimisers.
Numbers of an ordered field; the data as `preprocess_data` leaves them (`Data.Ok`).
-/

set_option linter.unusedSectionVars false

namespace Verif.Coord

open Finset

section
variable (K : Type) [Field K] [LinearOrder K]

/-- C95: whatever the coefficients, no allowed ones have an objective that is lower by more than the dual gap. -/
def C95_statement : Prop :=
  ∀ d : Data K, d.Ok → ∀ b r : Nat → K, (∀ i, i < d.m → r i = resid d b i) →
    ∀ b', Allowed d b' → obj (weight d) d b ≤ obj (weight d) d b' + dualGap d b r

/-- C99: the dual gap of allowed coefficients is zero if and only if they minimise the objective. -/
def C99_statement : Prop :=
  ∀ d : Data K, d.Ok → ∀ b r : Nat → K, (∀ i, i < d.m → r i = resid d b i) → Allowed d b →
    (dualGap d b r = 0 ↔ ∀ b', Allowed d b' → obj (weight d) d b ≤ obj (weight d) d b')

end

/-- Two equal samples, scaled without centring. -/
def scaled : Data ℚ where
  m := 2
  n := 1
  icpt := false
  X := fun _ _ => 1
  y := fun _ => 1
  l1reg := 1 / 2
  l2reg := 0
  xv := fun _ => 2
  scaling := .scaleOnly
  positive := false

theorem scaled_ok : scaled.Ok where
  m_pos := by decide
  n_pos := by decide
  l1 := by norm_num [scaled]
  l2 := by norm_num [scaled]
  curve := by intro k _; rw [if_neg (by decide)]; norm_num [scaled, sum_range_succ]
  centredX := by intro h; cases h
  centredY := by intro h; cases h

/-- The gap is computed for the mean of the squares while the steps for `scale only` work on their sum: the gap can be
zero although the objective can be lowered. -/
theorem C95_violated : ¬ C95_statement ℚ := by
  intro h
  have h := h scaled scaled_ok (fun _ => 1 / 2) (fun _ => 1 / 2)
    (by intro i _; norm_num [scaled, resid, Data.col, Data.nmod]) (fun _ => 3 / 4) (by intro h; cases h)
  revert h
  decide +kernel

/-- And it is not zero at the minimiser, so a run that has found it goes on. -/
theorem C99_violated : ¬ C99_statement ℚ := by
  intro h
  have h := (h scaled scaled_ok (fun _ => 3 / 4) (fun _ => 1 / 4)
    (by intro i _; norm_num [scaled, resid, Data.col, Data.nmod]) (by intro h; cases h)).2 (by
      intro b' _
      have hw : weight scaled = 1 := by decide +kernel
      rw [hw]
      simp only [obj, resid, Data.col, Data.nmod, scaled, sum_range_succ, sum_range_zero]
      norm_num
      have := le_abs_self (b' 0)
      nlinarith [sq_nonneg (b' 0 - 3 / 4)])
  revert h
  decide +kernel

section
variable {K : Type} [Field K] [LinearOrder K] [IsStrictOrderedRing K]

/-- C95 for the objective with the mean of the squares, that is, for all scalings but `scale only`
(`weight d = 1 / m` there). -/
theorem C95_gap_partial (d : Data K) (ok : d.Ok) (b r : Nat → K) (hr : ∀ i, i < d.m → r i = resid d b i) :
    (∀ b', Allowed d b' → obj (1 / (d.m : K)) d b ≤ obj (1 / (d.m : K)) d b' + dualGap d b r)
    ∧ (Allowed d b → 0 ≤ dualGap d b r)
    ∧ (d.scaling ≠ .scaleOnly → weight d = 1 / (d.m : K)) := by
  have h := gap_bounds d ok b r hr
  refine ⟨h, fun ha => ?_, fun hs => by simp [weight, hs]⟩
  have := h b ha
  linarith

/-- C99 for the objective with the mean of the squares, and that it is enough that no single coefficient can be
improved. -/
theorem C99_zero_partial (d : Data K) (ok : d.Ok) (b r : Nat → K) (hr : ∀ i, i < d.m → r i = resid d b i)
    (ha : Allowed d b) :
    (dualGap d b r = 0 ↔ ∀ b', Allowed d b' → obj (1 / (d.m : K)) d b ≤ obj (1 / (d.m : K)) d b')
    ∧ ((∀ k, k < d.n → ∀ t, (d.positive = true → k < d.nmod → 0 ≤ t) →
        obj (1 / (d.m : K)) d b ≤ obj (1 / (d.m : K)) d (fun j => if j = k then t else b j)) → dualGap d b r = 0) := by
  have hstill : (∀ k, k < d.n → ∀ t, (d.positive = true → k < d.nmod → 0 ≤ t) →
        obj (1 / (d.m : K)) d b ≤ obj (1 / (d.m : K)) d (fun j => if j = k then t else b j)) → dualGap d b r = 0 :=
    fun h => gap_zero d ok b r ha hr h
  refine ⟨⟨fun h b' hb' => ?_, fun h => hstill fun k _ t ht => h _ ?_⟩, hstill⟩
  · have := gap_bounds d ok b r hr b' hb'
    rw [h, add_zero] at this
    exact this
  · intro hp j hj
    simp only
    split
    · next hjk => exact ht hp (hjk ▸ hj)
    · exact ha hp j hj

end

/-- Two samples, a feature and an intercept, standardized. -/
def standard : Data ℚ where
  m := 2
  n := 2
  icpt := true
  X := fun i _ => if i = 0 then 1 else -1
  y := fun i => if i = 0 then 1 else -1
  l1reg := 1 / 2
  l2reg := 1 / 4
  xv := fun _ => 1
  scaling := .standardize
  positive := true

theorem standard_ok : standard.Ok where
  m_pos := by decide
  n_pos := by decide
  l1 := by norm_num [standard]
  l2 := by norm_num [standard]
  curve := by intro k _; norm_num [standard, sum_range_succ]
  centredX := by intro _ k _; norm_num [standard, sum_range_succ]
  centredY := by intro _; norm_num [standard, sum_range_succ]

/-- At the minimiser, 1/3, the gap is zero; at 1 it is 1, not less than the difference of the objectives, 1/3. -/
example : dualGap standard (fun j => if j = 0 then 1 / 3 else 0) (fun i => if i = 0 then 2 / 3 else -2 / 3) = 0
    ∧ dualGap standard (fun j => if j = 0 then 1 else 0) (fun _ => 0) = 1
    ∧ obj (weight standard) standard (fun j => if j = 0 then 1 else 0)
      - obj (weight standard) standard (fun j => if j = 0 then 1 / 3 else 0) = 1 / 3 := by decide +kernel

end Verif.Coord
