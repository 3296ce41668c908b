import Verif.Coord.Spec
import Mathlib.Algebra.BigOperators.Ring.Finset
import Mathlib.Algebra.Order.BigOperators.Ring.Finset
import Mathlib.Tactic.Ring
import Mathlib.Tactic.Linarith
import Mathlib.Tactic.FieldSimp
import Mathlib.Tactic.Positivity

/-! # Proofs about the call-backs of linear regression -/

namespace Verif.Coord

open Finset

theorem put_same {A : Type} (f : Nat → A) (k : Nat) (a : A) : put f k a k = a := by simp [put]

theorem put_ne {A : Type} (f : Nat → A) {k j : Nat} (a : A) (h : j ≠ k) : put f k a j = f j := by simp [put, h]

section
variable {K : Type} [Field K] [LinearOrder K]

omit [Field K] [LinearOrder K] in
theorem Data.nmod_le (d : Data K) : d.nmod ≤ d.n := by
  unfold Data.nmod; split <;> omega

omit [LinearOrder K] in
/-- With an intercept its coefficient is the last one. -/
theorem Data.split_sum (d : Data K) (hn : 0 < d.nmod) (f : Nat → K) :
    ∑ j ∈ range d.n, f j = (∑ j ∈ range d.nmod, f j) + if d.icpt then f (d.n - 1) else 0 := by
  unfold Data.nmod at *
  by_cases h : d.icpt = true
  · simp only [h, if_true] at *
    have : d.n = (d.n - 1) + 1 := by omega
    rw [this, sum_range_succ]
    simp
  · simp [h]

omit [LinearOrder K] in
theorem fresh_eq (d : Data K) (hn : 0 < d.nmod) (b : Nat → K) (i : Nat) : d.fresh b i = resid d b i := by
  unfold Data.fresh resid
  rw [d.split_sum hn]
  have h1 : ∑ j ∈ range d.nmod, d.col j i * b j = ∑ j ∈ range d.nmod, d.X i j * b j := by
    apply sum_congr rfl
    intro j hj
    rw [mem_range] at hj
    simp [Data.col, hj]
  rw [h1]
  by_cases h : d.icpt = true
  · have : ¬ d.n - 1 < d.nmod := by unfold Data.nmod; simp [h]
    simp [h, Data.col, this]
  · simp [h]

omit [LinearOrder K] in
/-- Changing one coefficient changes the residual by a multiple of its column. -/
theorem resid_put (d : Data K) (b : Nat → K) {k : Nat} (hk : k < d.n) (t : K) (i : Nat) :
    resid d (put b k t) i = resid d b i - (t - b k) * d.col k i := by
  unfold resid
  have h : ∑ j ∈ range d.n, d.col j i * put b k t j = (∑ j ∈ range d.n, d.col j i * b j) + (t - b k) * d.col k i := by
    have h1 : ∀ j ∈ range d.n, d.col j i * put b k t j
        = d.col j i * b j + if j = k then (t - b k) * d.col k i else 0 := by
      intro j _
      by_cases hj : j = k
      · subst hj; simp [put]; ring
      · simp [put, hj]
    rw [sum_congr rfl h1, sum_add_distrib]
    simp [hk]
  rw [h]; ring

omit [LinearOrder K] in
/-- A sum in which only the term of `k` depends on the value put at `k`. -/
theorem sum_put (n : Nat) (b : Nat → K) (g : K → K) (k : Nat) (t : K) :
    ∑ j ∈ range n, g (put b k t j) = (∑ j ∈ range n, g (b j)) + if k < n then g t - g (b k) else 0 := by
  have h1 : ∀ j ∈ range n, g (put b k t j) = g (b j) + if j = k then g t - g (b k) else 0 := by
    intro j _
    by_cases hj : j = k
    · subst hj; simp [put]
    · simp [put, hj]
  rw [sum_congr rfl h1, sum_add_distrib]
  simp

variable [IsStrictOrderedRing K]

/-- The soft threshold minimises a quadratic with a multiple of the modulus. -/
theorem soft_min (q g l t : K) (hq : 0 < q) (hl : 0 ≤ l) :
    let u := (if g < 0 then -max (|g| - l) 0 else max (|g| - l) 0) / q
    q / 2 * u ^ 2 - g * u + l * |u| ≤ q / 2 * t ^ 2 - g * t + l * |t| := by
  intro u
  have habs1 : t ≤ |t| := le_abs_self t
  have habs2 : -t ≤ |t| := neg_le_abs t
  have h0 : 0 ≤ |t| := abs_nonneg t
  have ht2 : 0 ≤ q / 2 * t ^ 2 := by positivity
  by_cases hs : |g| ≤ l
  · have hu : u = 0 := by
      have : max (|g| - l) 0 = 0 := max_eq_right (by linarith)
      simp only [u, this, neg_zero, ite_self, zero_div]
    rw [hu]
    have : g * t ≤ l * |t| := by
      calc g * t ≤ |g * t| := le_abs_self _
        _ = |g| * |t| := abs_mul _ _
        _ ≤ l * |t| := mul_le_mul_of_nonneg_right hs h0
    simp only [abs_zero, mul_zero]
    linarith [this]
  · have hs' : l < |g| := lt_of_not_ge hs
    have hm : max (|g| - l) 0 = |g| - l := max_eq_left (by linarith)
    by_cases hg : g < 0
    · have hug : u * q = -(|g| - l) := by
        simp only [u, hg, if_true, hm]
        field_simp
      rw [abs_of_neg hg] at hug hs'
      have hu0 : u ≤ 0 := by
        by_contra hc
        have : 0 < u * q := mul_pos (lt_of_not_ge hc) hq
        linarith
      rw [abs_of_nonpos hu0]
      have e : q / 2 * t ^ 2 - g * t + l * (-t) - (q / 2 * u ^ 2 - g * u + l * (-u)) = q / 2 * (t - u) ^ 2 := by
        have : g + l = u * q := by rw [hug]; ring
        have hg' : g = u * q - l := by rw [← this]; ring
        rw [hg']; ring
      have : 0 ≤ q / 2 * (t - u) ^ 2 := by positivity
      have : l * (-t) ≤ l * |t| := mul_le_mul_of_nonneg_left habs2 hl
      linarith
    · have hg0 : 0 ≤ g := le_of_not_gt hg
      have hug : u * q = |g| - l := by
        simp only [u, hg, if_false, hm]
        field_simp
      rw [abs_of_nonneg hg0] at hug hs'
      have hu0 : 0 ≤ u := by
        by_contra hc
        have : u * q < 0 := mul_neg_of_neg_of_pos (lt_of_not_ge hc) hq
        linarith
      rw [abs_of_nonneg hu0]
      have e : q / 2 * t ^ 2 - g * t + l * t - (q / 2 * u ^ 2 - g * u + l * u) = q / 2 * (t - u) ^ 2 := by
        have hg' : g = u * q + l := by rw [hug]; ring
        rw [hg']; ring
      have : 0 ≤ q / 2 * (t - u) ^ 2 := by positivity
      have : l * t ≤ l * |t| := mul_le_mul_of_nonneg_left habs1 hl
      linarith

omit [LinearOrder K] [IsStrictOrderedRing K] in
theorem sum_sq_shift (m : Nat) (a ρ : Nat → K) (t : K) :
    ∑ i ∈ range m, (ρ i - t * a i) ^ 2 = (∑ i ∈ range m, ρ i ^ 2) - 2 * t * (∑ i ∈ range m, a i * ρ i)
      + t ^ 2 * ∑ i ∈ range m, a i ^ 2 := by
  rw [mul_sum, mul_sum, ← sum_sub_distrib, ← sum_add_distrib]
  apply sum_congr rfl
  intro i _
  ring

/-- The objective along one coordinate: a quadratic whose linear term is the product of the column with the residual
without this coordinate. -/
theorem obj_put (c : K) (d : Data K) (b : Nat → K) {k : Nat} (hk : k < d.n) (t : K) :
    obj c d (put b k t) = obj c d (put b k 0)
      + (c * (∑ i ∈ range d.m, d.col k i ^ 2) / 2 * t ^ 2
        - c * (∑ i ∈ range d.m, d.col k i * (resid d b i + b k * d.col k i)) * t)
      + if k < d.nmod then d.l1reg * |t| + d.l2reg * t ^ 2 else 0 := by
  have h1 : ∀ s : K, ∑ i ∈ range d.m, resid d (put b k s) i ^ 2
      = (∑ i ∈ range d.m, (resid d b i + b k * d.col k i) ^ 2)
        - 2 * s * (∑ i ∈ range d.m, d.col k i * (resid d b i + b k * d.col k i))
        + s ^ 2 * ∑ i ∈ range d.m, d.col k i ^ 2 := by
    intro s
    rw [← sum_sq_shift]
    apply sum_congr rfl
    intro i _
    rw [resid_put d b hk]
    ring
  unfold obj
  rw [h1, h1, sum_put d.nmod b (fun v => |v|), sum_put d.nmod b (fun v => |v|), sum_put d.nmod b (fun v => v ^ 2),
    sum_put d.nmod b (fun v => v ^ 2)]
  by_cases hm : k < d.nmod
  · simp only [hm, if_true, abs_zero]; ring
  · simp only [hm, if_false]; ring

end

end Verif.Coord
