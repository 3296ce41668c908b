import Mathlib.Algebra.BigOperators.Field
import Mathlib.Algebra.Order.BigOperators.Ring.Finset
import Verif.Moments.StatsProof

/-
Lines of a matrix as finite sets of cells, and the inequalities between moments.
-/
namespace Verif.Moments

set_option linter.unusedSectionVars false

open Finset

/-- The cells that go into result `k`. -/
def cells (axis : Axis) (m n k : Nat) : Finset (Nat × Nat) :=
  match axis with
  | .all => range m ×ˢ range n
  | .col => (range m).map ⟨fun i => (i, k), fun _ _ h => (Prod.mk.inj h).1⟩
  | .row => (range n).map ⟨fun j => (k, j), fun _ _ h => (Prod.mk.inj h).2⟩

theorem total_cells {A W : Type} [AddCommMonoid W] (axis : Axis) (m n : Nat)
    (X : Nat → Nat → A) (g : A → W) (k : Nat) :
    total axis m n X g k = ∑ c ∈ cells axis m n k, g (X c.1 c.2) := by
  cases axis
  · simp only [total, cells]; rw [sum_product]
  · simp only [total, cells, sum_map]; rfl
  · simp only [total, cells, sum_map]; rfl

theorem card_cells (axis : Axis) (m n k : Nat) : (cells axis m n k).card = obs axis m n := by
  cases axis
  · simp [cells, obs]
  · simp [cells, obs]
  · simp [cells, obs]

theorem mem_cells {axis : Axis} {m n k : Nat} {c : Nat × Nat} (hk : k < outLen axis m n) :
    c ∈ cells axis m n k ↔ c.1 < m ∧ c.2 < n ∧ line axis c.1 c.2 = k := by
  obtain ⟨i, j⟩ := c
  cases axis
  · simp only [outLen] at hk
    simp only [cells, mem_product, mem_range, line]
    constructor
    · rintro ⟨h1, h2⟩; exact ⟨h1, h2, by omega⟩
    · rintro ⟨h1, h2, _⟩; exact ⟨h1, h2⟩
  · simp only [outLen] at hk
    simp only [cells, mem_map, mem_range, line]
    constructor
    · rintro ⟨a, h1, h⟩; cases h; exact ⟨h1, hk, rfl⟩
    · rintro ⟨h1, _, rfl⟩; exact ⟨i, h1, rfl⟩
  · simp only [outLen] at hk
    simp only [cells, mem_map, mem_range, line]
    constructor
    · rintro ⟨a, h1, h⟩; cases h; exact ⟨hk, h1, rfl⟩
    · rintro ⟨_, h1, rfl⟩; exact ⟨j, h1, rfl⟩

variable {K : Type} [Field K] [LinearOrder K] [IsStrictOrderedRing K]

section Set

variable {ι : Type} (s : Finset ι) (f : ι → K)

/-- Deviations from the mean add up to zero. -/
theorem dev_sum (h : s.card ≠ 0) : ∑ c ∈ s, (f c - (∑ c ∈ s, f c) / s.card) = 0 := by
  have hc : (s.card : K) ≠ 0 := by exact_mod_cast h
  rw [sum_sub_distrib, sum_const, nsmul_eq_mul]
  field_simp
  ring

theorem sq_sum_zero_iff (d : ι → K) : ∑ c ∈ s, d c * d c = 0 ↔ ∀ c ∈ s, d c = 0 := by
  rw [sum_eq_zero_iff_of_nonneg (fun c _ => mul_self_nonneg (d c))]
  constructor
  · intro h c hc; exact mul_self_eq_zero.1 (h c hc)
  · intro h c hc; rw [h c hc, mul_zero]

theorem sq_sum_nonneg (d : ι → K) : 0 ≤ ∑ c ∈ s, d c * d c :=
  sum_nonneg fun c _ => mul_self_nonneg (d c)

/-- Pearson's inequality. -/
theorem pearson (d : ι → K) (h0 : ∑ c ∈ s, d c = 0) (h2 : ∑ c ∈ s, d c * d c ≠ 0) :
    (s.card : K) * (∑ c ∈ s, d c ^ 3) ^ 2 + (∑ c ∈ s, d c * d c) ^ 3 ≤
      (s.card : K) * (∑ c ∈ s, d c ^ 4) * ∑ c ∈ s, d c * d c := by
  have hs : s.card ≠ 0 := by
    intro h
    rw [card_eq_zero] at h
    rw [h] at h2
    simp at h2
  have hn : (0 : K) < s.card := by exact_mod_cast Nat.pos_of_ne_zero hs
  obtain ⟨S2, hS2⟩ : ∃ v, v = ∑ c ∈ s, d c * d c := ⟨_, rfl⟩
  obtain ⟨S3, hS3⟩ : ∃ v, v = ∑ c ∈ s, d c ^ 3 := ⟨_, rfl⟩
  obtain ⟨S4, hS4⟩ : ∃ v, v = ∑ c ∈ s, d c ^ 4 := ⟨_, rfl⟩
  have hS2p : 0 < S2 := by
    rw [hS2]
    exact lt_of_le_of_ne (sq_sum_nonneg s d) (Ne.symm h2)
  rw [← hS2, ← hS3, ← hS4]
  have key : ∑ c ∈ s, (S2 * (s.card : K) * d c ^ 2 - S3 * (s.card : K) * d c - S2 * S2) ^ 2 =
      S2 * (s.card : K) * ((s.card : K) * S4 * S2 - (s.card : K) * S3 ^ 2 - S2 ^ 3) := by
    have : ∀ c, (S2 * (s.card : K) * d c ^ 2 - S3 * (s.card : K) * d c - S2 * S2) ^ 2 =
        (S2 * s.card) ^ 2 * d c ^ 4 - 2 * (S2 * s.card) * (S3 * s.card) * d c ^ 3
          + ((S3 * s.card) ^ 2 - 2 * (S2 * s.card) * (S2 * S2)) * (d c * d c)
          + 2 * (S3 * s.card) * (S2 * S2) * d c + (S2 * S2) ^ 2 := by
      intro c; ring
    simp only [this]
    rw [sum_add_distrib, sum_add_distrib, sum_add_distrib, sum_sub_distrib, ← mul_sum, ← mul_sum,
      ← mul_sum, ← mul_sum, h0, ← hS2, ← hS3, ← hS4, sum_const, nsmul_eq_mul]
    ring
  have hnn : 0 ≤ S2 * (s.card : K) * ((s.card : K) * S4 * S2 - (s.card : K) * S3 ^ 2 - S2 ^ 3) := by
    rw [← key]
    exact sum_nonneg fun c _ => sq_nonneg _
  have hpos : 0 < S2 * (s.card : K) := by positivity
  have := nonneg_of_mul_nonneg_right hnn hpos
  linarith

/-- The harmonic mean of positive numbers lies between them. -/
theorem harmonic_between (h : s.Nonempty) (hpos : ∀ c ∈ s, 0 < f c) (lo hi : K)
    (h1 : ∀ c ∈ s, lo ≤ f c) (h2 : ∀ c ∈ s, f c ≤ hi) :
    (∑ c ∈ s, 1 / f c) ≠ 0 ∧ lo ≤ (s.card : K) / ∑ c ∈ s, 1 / f c ∧
      (s.card : K) / ∑ c ∈ s, 1 / f c ≤ hi := by
  have hn : (0 : K) < s.card := by exact_mod_cast card_pos.2 h
  have hS : 0 < ∑ c ∈ s, 1 / f c := sum_pos (fun c hc => by have := hpos c hc; positivity) h
  obtain ⟨c0, hc0⟩ := h
  have hhi : 0 < hi := lt_of_lt_of_le (hpos c0 hc0) (h2 c0 hc0)
  refine ⟨hS.ne', ?_, ?_⟩
  · rw [le_div_iff₀ hS, mul_sum]
    have : ∑ c ∈ s, lo * (1 / f c) ≤ ∑ c ∈ s, (1 : K) := by
      apply sum_le_sum
      intro c hc
      rw [mul_one_div, div_le_one (hpos c hc)]
      exact h1 c hc
    simpa using this
  · rw [div_le_iff₀ hS, mul_sum]
    have : ∑ c ∈ s, (1 : K) ≤ ∑ c ∈ s, hi * (1 / f c) := by
      apply sum_le_sum
      intro c hc
      rw [mul_one_div, le_div_iff₀ (hpos c hc), one_mul]
      exact h2 c hc
    simpa using this

end Set

end Verif.Moments
