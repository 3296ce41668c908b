import Verif.LeastSq.Direct

set_option linter.unusedSectionVars false

/-
The solver with the singular value decomposition.
-/
namespace Verif.LeastSq

open Finset (range)
open Verif.Logistic (lin icpt loop upd entry)

/-- What `gesdd` returns, the factors by columns. -/
structure IsSvd (n p : Nat) (M : Nat → Nat → ℝ) (U S Vt : Nat → ℝ) : Prop where
  prod : ∀ i j, i < n → j < p →
    M i j = ∑ k ∈ range (min n p), U (k * n + i) * S k * Vt (j * min n p + k)
  orthU : ∀ k l, k < min n p → l < min n p →
    ∑ i ∈ range n, U (k * n + i) * U (l * n + i) = if k = l then 1 else 0
  orthV : ∀ k l, k < min n p → l < min n p →
    ∑ j ∈ range p, Vt (j * min n p + k) * Vt (j * min n p + l) = if k = l then 1 else 0
  nonneg : ∀ k, k < min n p → 0 ≤ S k
  sorted : ∀ k l, k ≤ l → l < min n p → S l ≤ S k

section
variable {n p : Nat} {M : Nat → Nat → ℝ} {U S Vt : Nat → ℝ}

/-- Row `i` against a combination of the right singular vectors. -/
theorem IsSvd.mulV (H : IsSvd n p M U S Vt) (g : Nat → ℝ) {i : Nat} (hi : i < n) :
    ∑ j ∈ range p, M i j * ∑ k ∈ range (min n p), Vt (j * min n p + k) * g k =
      ∑ k ∈ range (min n p), U (k * n + i) * (S k * g k) := by
  have h1 : ∀ j ∈ range p, M i j * ∑ k ∈ range (min n p), Vt (j * min n p + k) * g k =
      ∑ l ∈ range (min n p), ∑ k ∈ range (min n p), U (l * n + i) * S l * g k *
        (Vt (j * min n p + l) * Vt (j * min n p + k)) := by
    intro j hj
    rw [H.prod i j hi (Finset.mem_range.mp hj), Finset.sum_mul]
    refine Finset.sum_congr rfl fun l _ => ?_
    rw [Finset.mul_sum]
    exact Finset.sum_congr rfl fun k _ => by ring
  rw [Finset.sum_congr rfl h1, Finset.sum_comm]
  refine Finset.sum_congr rfl fun l hl => ?_
  rw [Finset.sum_comm, Finset.sum_eq_single l]
  · rw [← Finset.mul_sum, H.orthV l l (Finset.mem_range.mp hl) (Finset.mem_range.mp hl), if_pos rfl]
    ring
  · intro k hk hne
    rw [← Finset.mul_sum, H.orthV l k (Finset.mem_range.mp hl) (Finset.mem_range.mp hk),
      if_neg (fun h => hne h.symm), mul_zero]
  · intro h
    exact absurd hl h

/-- Column `j` against any vector. -/
theorem IsSvd.mulT (H : IsSvd n p M U S Vt) (w : Nat → ℝ) {j : Nat} (hj : j < p) :
    ∑ i ∈ range n, M i j * w i =
      ∑ k ∈ range (min n p), Vt (j * min n p + k) * (S k * ∑ i ∈ range n, U (k * n + i) * w i) := by
  have h1 : ∀ i ∈ range n, M i j * w i =
      ∑ k ∈ range (min n p), Vt (j * min n p + k) * (S k * (U (k * n + i) * w i)) := by
    intro i hi
    rw [H.prod i j (Finset.mem_range.mp hi) hj, Finset.sum_mul]
    exact Finset.sum_congr rfl fun k _ => by ring
  rw [Finset.sum_congr rfl h1, Finset.sum_comm]
  refine Finset.sum_congr rfl fun k _ => ?_
  rw [← Finset.mul_sum, ← Finset.mul_sum]

/-- A left singular vector against a combination of them. -/
theorem IsSvd.projU (H : IsSvd n p M U S Vt) (g : Nat → ℝ) {k : Nat} (hk : k < min n p) :
    ∑ i ∈ range n, U (k * n + i) * ∑ l ∈ range (min n p), U (l * n + i) * g l = g k := by
  have h1 : ∀ i ∈ range n, U (k * n + i) * ∑ l ∈ range (min n p), U (l * n + i) * g l =
      ∑ l ∈ range (min n p), g l * (U (k * n + i) * U (l * n + i)) := by
    intro i _
    rw [Finset.mul_sum]
    exact Finset.sum_congr rfl fun l _ => by ring
  rw [Finset.sum_congr rfl h1, Finset.sum_comm, Finset.sum_eq_single k]
  · rw [← Finset.mul_sum, H.orthU k k hk hk, if_pos rfl, mul_one]
  · intro l hl hne
    rw [← Finset.mul_sum, H.orthU k l hk (Finset.mem_range.mp hl), if_neg (fun h => hne h.symm),
      mul_zero]
  · intro h
    exact absurd (Finset.mem_range.mpr hk) h

/-- The coefficients, in terms of the new diagonal. -/
theorem svdCoef_at (eps lambda : ℝ) (U S Vt y coef : Nat → ℝ) (j : Nat) :
    svdCoef eps lambda n p U S Vt y coef j =
      if j < p then ∑ k ∈ range (min n p), Vt (j * min n p + k) *
        (svdDiag eps lambda (min n p) S k * ∑ i ∈ range n, U (k * n + i) * y i)
      else coef j := by
  unfold svdCoef
  simp only [gemvT_at]
  by_cases hj : j < p
  · rw [if_pos (by omega), if_pos hj]
    refine Finset.sum_congr rfl fun k hk => ?_
    have hk' := Finset.mem_range.mp hk
    have := Verif.Logistic.loop_upd0 (min n p) (gemvT false n (min n p) U n y (fun _ => 0) 0)
      (fun i t => svdDiag eps lambda (min n p) S i * t) k
    rw [this, if_pos hk', gemvT_at, if_pos (by omega)]
    simp [entry]
  · rw [if_neg (by omega), if_neg hj]

/-- The diagonal of ridge regression. -/
theorem svdDiag_ridge (eps : ℝ) {lambda : ℝ} (hl : lambda ≠ 0) (m : Nat) (S : Nat → ℝ) {k : Nat}
    (hk : k < m) : svdDiag eps lambda m S k = S k / (S k * S k + lambda) := by
  unfold svdDiag
  rw [if_pos hl]
  have := Verif.Logistic.loop_upd0 m S (fun _ s => s / (s * s + lambda)) k
  rw [this, if_pos hk]

/-- The diagonal without a penalty: the comparison for the later values is with the inverse of the
first. -/
theorem svdDiag_plain (eps : ℝ) (m : Nat) (S : Nat → ℝ) {k : Nat} (hk : k < m) :
    svdDiag eps 0 m S k =
      if 100 * eps * max (if k = 0 then S 0 else
        if 100 * eps * max (S 0) 1 < S 0 then 1 / S 0 else 0) 1 < S k then 1 / S k else 0 := by
  unfold svdDiag
  rw [if_neg (by simp)]
  have key := Verif.Logistic.loop_inv (fun l (v : Nat → ℝ) =>
      (∀ k, k < l → v k = if 100 * eps * max (if k = 0 then S 0 else
        if 100 * eps * max (S 0) 1 < S 0 then 1 / S 0 else 0) 1 < S k then 1 / S k else 0) ∧
      ∀ k, l ≤ k → v k = S k) m S
    (fun i S' => upd S' i (if 100 * eps * max (S' 0) 1 < S' i then 1 / S' i else 0))
    ⟨fun k h => absurd h (Nat.not_lt_zero k), fun _ _ => rfl⟩ (by
      rintro i v _ ⟨h1, h2⟩
      refine ⟨fun k hk => ?_, fun k hk => ?_⟩
      · by_cases e : k = i
        · subst e
          rw [Verif.Logistic.upd_same, h2 k (Nat.le_refl k)]
          by_cases hk0 : k = 0
          · subst hk0
            rw [h2 0 (Nat.le_refl 0), if_pos rfl]
          · rw [h1 0 (by omega), if_pos rfl, if_neg hk0]
        · rw [Verif.Logistic.upd_ne _ _ e]
          exact h1 k (by omega)
      · rw [Verif.Logistic.upd_ne _ _ (by omega)]
        exact h2 k (by omega))
  exact key.1 k hk

/-- The coefficients minimise if the new diagonal solves the problem for each singular value. -/
theorem svd_min {ic : Bool} (H : IsSvd n p M U S Vt) {eps lambda : ℝ} (hl : 0 ≤ lambda)
    (y coef : Nat → ℝ) (hc : coef p = 0)
    (hD : ∀ k, k < min n p → S k - S k * (S k * svdDiag eps lambda (min n p) S k) =
      lambda * svdDiag eps lambda (min n p) S k) :
    Minimises0 p (cost (1 / 2) 0 (lambda / 2) (fun _ => 1) ic n p M y)
      (svdCoef eps lambda n p U S Vt y coef) := by
  have hp : svdCoef eps lambda n p U S Vt y coef p = 0 := by
    rw [svdCoef_at, if_neg (by omega), hc]
  refine ⟨hp, fun d hd => ridge_min0 hl (fun _ => hp) ?_ d fun _ => hd⟩
  intro j hj
  have hfit : ∀ i, i < n → ∑ j ∈ range p, M i j * svdCoef eps lambda n p U S Vt y coef j =
      ∑ k ∈ range (min n p), U (k * n + i) * (S k * (svdDiag eps lambda (min n p) S k *
        ∑ i ∈ range n, U (k * n + i) * y i)) := by
    intro i hi
    rw [← H.mulV _ hi]
    exact Finset.sum_congr rfl fun j hj => by
      rw [svdCoef_at, if_pos (Finset.mem_range.mp hj)]
  rw [H.mulT _ hj, svdCoef_at, if_pos hj, Finset.mul_sum]
  refine Finset.sum_congr rfl fun k hk => ?_
  have hk' := Finset.mem_range.mp hk
  have e1 : ∑ i ∈ range n, U (k * n + i) *
      (y i - ∑ j ∈ range p, M i j * svdCoef eps lambda n p U S Vt y coef j) =
      ∑ i ∈ range n, U (k * n + i) * y i - S k * (svdDiag eps lambda (min n p) S k *
        ∑ i ∈ range n, U (k * n + i) * y i) := by
    rw [← H.projU (fun l => S l * (svdDiag eps lambda (min n p) S l *
      ∑ i ∈ range n, U (l * n + i) * y i)) hk', ← Finset.sum_sub_distrib]
    exact Finset.sum_congr rfl fun i hi => by
      rw [hfit i (Finset.mem_range.mp hi)]
      ring
  rw [e1]
  linear_combination (Vt (j * min n p + k) * ∑ i ∈ range n, U (k * n + i) * y i) * hD k hk'

/-- Two minimisers of the sum of the squares have the same fitted values. -/
theorem same_fit {ic : Bool} {y c d : Nat → ℝ} (hc : ic = true → c p = 0) (hd : ic = true → d p = 0)
    (h : Minimises0 p (cost (1 / 2) 0 0 (fun _ => 1) ic n p M y) c)
    (h' : cost (1 / 2) 0 0 (fun _ => 1) ic n p M y d ≤ cost (1 / 2) 0 0 (fun _ => 1) ic n p M y c)
    (i : Nat) (hi : i < n) : ∑ j ∈ range p, M i j * d j = ∑ j ∈ range p, M i j * c j := by
  -- the mean of the two is not better
  have e : ∀ c : Nat → ℝ, (ic = true → c p = 0) → cost (1 / 2) 0 0 (fun _ => 1) ic n p M y c =
      1 / 2 * ∑ i ∈ range n, (y i - ∑ k ∈ range p, M i k * c k) ^ 2 := fun c hc => by
    unfold cost ssr lin
    simp only [zero_mul, add_zero]
    congr 1
    refine Finset.sum_congr rfl fun i _ => ?_
    have : icpt ic (c p) = 0 := by
      unfold icpt
      split
      · exact hc (by assumption)
      · rfl
    rw [this, add_zero]
  obtain ⟨mid, hmid⟩ : ∃ t : Nat → ℝ, t = fun j => if j = p then 0 else (c j + d j) / 2 := ⟨_, rfl⟩
  have hm0 : mid p = 0 := by rw [hmid]; simp
  have h1 := h.2 mid hm0
  rw [e c hc, e mid fun _ => hm0] at h1
  rw [e c hc, e d hd] at h'
  have hm : ∀ i, ∑ k ∈ range p, M i k * mid k =
      (∑ k ∈ range p, M i k * c k + ∑ k ∈ range p, M i k * d k) / 2 := by
    intro i
    rw [← Finset.sum_add_distrib, Finset.sum_div]
    refine Finset.sum_congr rfl fun k hk => ?_
    have : k ≠ p := by have := Finset.mem_range.mp hk; omega
    rw [hmid]
    simp only [this, if_false]
    ring
  have h2 : ∑ i ∈ range n, (y i - ∑ k ∈ range p, M i k * mid k) ^ 2 =
      (∑ i ∈ range n, (y i - ∑ k ∈ range p, M i k * c k) ^ 2 +
        ∑ i ∈ range n, (y i - ∑ k ∈ range p, M i k * d k) ^ 2) / 2 -
      (∑ i ∈ range n, (∑ k ∈ range p, M i k * c k - ∑ k ∈ range p, M i k * d k) ^ 2) / 4 := by
    rw [← Finset.sum_add_distrib, Finset.sum_div, Finset.sum_div, ← Finset.sum_sub_distrib]
    refine Finset.sum_congr rfl fun i _ => ?_
    rw [hm i]
    ring
  rw [h2] at h1
  have h3 : ∑ i ∈ range n, (∑ k ∈ range p, M i k * c k - ∑ k ∈ range p, M i k * d k) ^ 2 = 0 := by
    have : 0 ≤ ∑ i ∈ range n, (∑ k ∈ range p, M i k * c k - ∑ k ∈ range p, M i k * d k) ^ 2 :=
      Finset.sum_nonneg fun _ _ => sq_nonneg _
    linarith
  have h4 := (Finset.sum_eq_zero_iff_of_nonneg fun i _ => sq_nonneg _).mp h3 i
    (Finset.mem_range.mpr hi)
  have := pow_eq_zero_iff (two_ne_zero) |>.mp h4
  linarith

/-- The coefficients are a combination of the rows, if no value that is zero is inverted. -/
theorem svd_rows (H : IsSvd n p M U S Vt) {eps : ℝ} (y coef : Nat → ℝ)
    (hD : ∀ k, k < min n p → S k = 0 → svdDiag eps 0 (min n p) S k = 0) :
    ∃ w : Nat → ℝ, ∀ j, j < p → svdCoef eps 0 n p U S Vt y coef j = ∑ i ∈ range n, M i j * w i := by
  refine ⟨fun i => ∑ l ∈ range (min n p), U (l * n + i) * (svdDiag eps 0 (min n p) S l / S l *
    ∑ i ∈ range n, U (l * n + i) * y i), fun j hj => ?_⟩
  rw [H.mulT _ hj, svdCoef_at, if_pos hj]
  refine Finset.sum_congr rfl fun k hk => ?_
  have hk' := Finset.mem_range.mp hk
  rw [H.projU _ hk']
  by_cases h0 : S k = 0
  · rw [hD k hk' h0, h0]
    simp
  · field_simp

end

end Verif.LeastSq
