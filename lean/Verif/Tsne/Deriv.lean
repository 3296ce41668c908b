import Verif.Tsne.Force
import Mathlib.Analysis.SpecialFunctions.Log.Deriv

/-
The gradient of the exact method is the derivative of the divergence.
-/
namespace Verif.Tsne

set_option linter.unusedSectionVars false

open Finset (range)

/-- The embedding with coordinate `d` of point `i` replaced by `t`. -/
def moved (y : Nat → Nat → ℝ) (i d : Nat) (t : ℝ) : Nat → Nat → ℝ :=
  fun a b => if a = i ∧ b = d then t else y a b

theorem moved_self (y : Nat → Nat → ℝ) (i d : Nat) : moved y i d (y i d) = y := by
  funext a b
  unfold moved
  by_cases h : a = i ∧ b = d
  · rw [if_pos h, h.1, h.2]
  · rw [if_neg h]

/-- `1` when `a = i`, else `0`. -/
def at_ (i a : Nat) : ℝ := if a = i then 1 else 0

theorem sqd_deriv (D : Nat) (y : Nat → Nat → ℝ) (i : Nat) {d : Nat} (hd : d < D) (a b : Nat) :
    HasDerivAt (fun t => sqd D (moved y i d t a) (moved y i d t b))
      (2 * (y a d - y b d) * (at_ i a - at_ i b)) (y i d) := by
  have hc : ∀ a k, HasDerivAt (fun t => moved y i d t a k) (if k = d then at_ i a else 0) (y i d) := by
    intro a k
    unfold moved at_
    by_cases h : a = i ∧ k = d
    · simp only [if_pos h, if_pos h.2, if_pos h.1]
      exact hasDerivAt_id _
    · simp only [if_neg h]
      by_cases hk : k = d
      · rw [if_pos hk, if_neg (fun h' => h ⟨h', hk⟩)]
        exact hasDerivAt_const _ _
      · rw [if_neg hk]
        exact hasDerivAt_const _ _
  have hs : HasDerivAt (fun t => ∑ k ∈ range D, (moved y i d t a k - moved y i d t b k) *
      (moved y i d t a k - moved y i d t b k)) (∑ k ∈ range D,
      (((if k = d then at_ i a else 0) - (if k = d then at_ i b else 0)) * (y a k - y b k) +
        (y a k - y b k) * ((if k = d then at_ i a else 0) - (if k = d then at_ i b else 0)))) (y i d) := by
    refine HasDerivAt.fun_sum fun k _ => ?_
    have h := ((hc a k).fun_sub (hc b k)).fun_mul ((hc a k).fun_sub (hc b k))
    rw [moved_self] at h
    exact h
  have e : (∑ k ∈ range D, (((if k = d then at_ i a else 0) - (if k = d then at_ i b else 0)) *
      (y a k - y b k) + (y a k - y b k) * ((if k = d then at_ i a else 0) - (if k = d then at_ i b else 0)))) =
      2 * (y a d - y b d) * (at_ i a - at_ i b) := by
    rw [Finset.sum_eq_single d]
    · rw [if_pos rfl, if_pos rfl]; ring
    · intro k _ hk
      rw [if_neg hk, if_neg hk]; ring
    · intro h
      exact absurd (Finset.mem_range.2 hd) h
  rw [e] at hs
  exact hs

/-- The pairs in which point `i` takes part. -/
theorem pair_sum {n i : Nat} (hi : i < n) (S : Nat → Nat → ℝ) (hS : ∀ a b, S a b = S b a) (z : Nat → ℝ) :
    ∑ a ∈ range n, ∑ b ∈ range n, S a b * (2 * (z a - z b) * (at_ i a - at_ i b)) =
      4 * ∑ j ∈ range n, S i j * (z i - z j) := by
  have h1 : ∑ a ∈ range n, ∑ b ∈ range n, S a b * (2 * (z a - z b) * at_ i a) =
      2 * ∑ j ∈ range n, S i j * (z i - z j) := by
    rw [Finset.sum_eq_single i]
    · rw [Finset.mul_sum]
      refine Finset.sum_congr rfl fun b _ => ?_
      unfold at_
      rw [if_pos rfl]; ring
    · intro a _ ha
      refine Finset.sum_eq_zero fun b _ => ?_
      unfold at_
      rw [if_neg ha]; ring
    · intro h; exact absurd (Finset.mem_range.2 hi) h
  have h2 : ∑ a ∈ range n, ∑ b ∈ range n, S a b * (2 * (z a - z b) * at_ i b) =
      -(2 * ∑ j ∈ range n, S i j * (z i - z j)) := by
    rw [Finset.mul_sum, ← Finset.sum_neg_distrib]
    refine Finset.sum_congr rfl fun a _ => ?_
    rw [Finset.sum_eq_single i]
    · unfold at_
      rw [if_pos rfl, hS a i]; ring
    · intro b _ hb
      unfold at_
      rw [if_neg hb]; ring
    · intro h; exact absurd (Finset.mem_range.2 hi) h
  have h3 : ∀ a b, S a b * (2 * (z a - z b) * (at_ i a - at_ i b)) =
      S a b * (2 * (z a - z b) * at_ i a) - S a b * (2 * (z a - z b) * at_ i b) := fun a b => by ring
  simp only [h3, Finset.sum_sub_distrib]
  rw [h1, h2]; ring

theorem qk_deriv (D : Nat) (y : Nat → Nat → ℝ) (i : Nat) {d : Nat} (hd : d < D) (a b : Nat) :
    HasDerivAt (fun t => qk D (moved y i d t a) (moved y i d t b))
      (-(qk D (y a) (y b) * qk D (y a) (y b) * (2 * (y a d - y b d) * (at_ i a - at_ i b)))) (y i d) := by
  have h := ((sqd_deriv D y i hd a b).const_add 1).fun_inv (by rw [moved_self]; exact one_add_ne D _ _)
  rw [moved_self] at h
  have e : -(2 * (y a d - y b d) * (at_ i a - at_ i b)) / (1 + sqd D (y a) (y b)) ^ 2 =
      -(qk D (y a) (y b) * qk D (y a) (y b) * (2 * (y a d - y b d) * (at_ i a - at_ i b))) := by
    unfold qk
    have := one_add_ne D (y a) (y b)
    field_simp
  rw [e] at h
  unfold qk at h ⊢
  simp only [one_div] at h ⊢
  exact h

theorem zsum_deriv {n D : Nat} (y : Nat → Nat → ℝ) {i d : Nat} (hi : i < n) (hd : d < D) :
    HasDerivAt (fun t => zsum n D (moved y i d t))
      (-(4 * ∑ j ∈ range n, qk D (y i) (y j) * qk D (y i) (y j) * (y i d - y j d))) (y i d) := by
  have h : HasDerivAt (fun t => zsum n D (moved y i d t)) (∑ a ∈ range n, ∑ b ∈ (range n).erase a,
      -(qk D (y a) (y b) * qk D (y a) (y b) * (2 * (y a d - y b d) * (at_ i a - at_ i b)))) (y i d) := by
    unfold zsum
    exact HasDerivAt.fun_sum fun a _ => HasDerivAt.fun_sum fun b _ => qk_deriv D y i hd a b
  rw [← pair_sum hi (fun a b => qk D (y a) (y b) * qk D (y a) (y b))
    (fun a b => by unfold qk; rw [sqd_comm]) (fun a => y a d), ← Finset.sum_neg_distrib]
  have e : ∀ a ∈ range n, (∑ b ∈ (range n).erase a,
      -(qk D (y a) (y b) * qk D (y a) (y b) * (2 * (y a d - y b d) * (at_ i a - at_ i b)))) =
      -∑ b ∈ range n, qk D (y a) (y b) * qk D (y a) (y b) * (2 * (y a d - y b d) * (at_ i a - at_ i b)) := by
    intro a ha
    rw [← Finset.add_sum_erase _ _ ha, Finset.sum_neg_distrib, sub_self]
    congr 1
    ring
  rw [Finset.sum_congr rfl e] at h
  exact h

/-- The Kullback–Leibler divergence of the affinities from those of the embedding. -/
noncomputable def divergence (n D : Nat) (y Q : Nat → Nat → ℝ) : ℝ :=
  ∑ i ∈ range n, ∑ j ∈ (range n).filter (fun j => Q i j ≠ 0),
    Q i j * Real.log (Q i j / (qk D (y i) (y j) / zsum n D y))

theorem divergence_deriv {n D : Nat} (y Q : Nat → Nat → ℝ) (hn : 2 ≤ n) (hsym : ∀ a b, Q a b = Q b a)
    (hsum : ∑ a ∈ range n, ∑ b ∈ range n, Q a b = 1) {i d : Nat} (hi : i < n) (hd : d < D) :
    HasDerivAt (fun t => divergence n D (moved y i d t) Q) (gradOf n D y Q 1 (zsum n D y) i d)
      (y i d) := by
  have hz := (zsum_pos hn D y).ne'
  have hterm : ∀ a b, Q a b ≠ 0 → HasDerivAt (fun t => Q a b * Real.log (Q a b /
      (qk D (moved y i d t a) (moved y i d t b) / zsum n D (moved y i d t))))
      (Q a b * (qk D (y a) (y b) * (2 * (y a d - y b d) * (at_ i a - at_ i b)) +
        -(4 * ∑ j ∈ range n, qk D (y i) (y j) * qk D (y i) (y j) * (y i d - y j d)) / zsum n D y))
      (y i d) := by
    intro a b hq
    have e : (fun t => Q a b * Real.log (Q a b / (qk D (moved y i d t a) (moved y i d t b) /
        zsum n D (moved y i d t)))) = fun t => Q a b * (Real.log (Q a b) +
        Real.log (1 + sqd D (moved y i d t a) (moved y i d t b)) + Real.log (zsum n D (moved y i d t))) := by
      funext t
      congr 1
      have h1 := one_add_ne D (moved y i d t a) (moved y i d t b)
      have h2 := (zsum_pos hn D (moved y i d t)).ne'
      rw [← Real.log_mul hq h1, ← Real.log_mul (mul_ne_zero hq h1) h2]
      congr 1
      unfold qk
      field_simp
    rw [e]
    refine HasDerivAt.const_mul _ ?_
    have l1 := ((sqd_deriv D y i hd a b).const_add 1).log (by rw [moved_self]; exact one_add_ne D _ _)
    have l2 := (zsum_deriv y hi hd).log (by rw [moved_self]; exact hz)
    rw [moved_self] at l1 l2
    have l3 := (l1.const_add (Real.log (Q a b))).fun_add l2
    have e2 : 2 * (y a d - y b d) * (at_ i a - at_ i b) / (1 + sqd D (y a) (y b)) =
        qk D (y a) (y b) * (2 * (y a d - y b d) * (at_ i a - at_ i b)) := by
      unfold qk
      ring
    rw [e2] at l3
    exact l3
  have h : HasDerivAt (fun t => divergence n D (moved y i d t) Q) (∑ a ∈ range n,
      ∑ b ∈ (range n).filter (fun b => Q a b ≠ 0),
      (Q a b * (qk D (y a) (y b) * (2 * (y a d - y b d) * (at_ i a - at_ i b)) +
        -(4 * ∑ j ∈ range n, qk D (y i) (y j) * qk D (y i) (y j) * (y i d - y j d)) / zsum n D y)))
      (y i d) := by
    unfold divergence
    refine HasDerivAt.fun_sum fun a _ => HasDerivAt.fun_sum fun b hb => ?_
    exact hterm a b (Finset.mem_filter.1 hb).2
  obtain ⟨c, hc⟩ : ∃ c, c = -(4 * ∑ j ∈ range n, qk D (y i) (y j) * qk D (y i) (y j) * (y i d - y j d)) /
    zsum n D y := ⟨_, rfl⟩
  rw [← hc] at h
  have e1 : ∀ a ∈ range n, (∑ b ∈ (range n).filter (fun b => Q a b ≠ 0),
      (Q a b * (qk D (y a) (y b) * (2 * (y a d - y b d) * (at_ i a - at_ i b)) + c))) =
      (∑ b ∈ range n, Q a b * qk D (y a) (y b) * (2 * (y a d - y b d) * (at_ i a - at_ i b))) +
        (∑ b ∈ range n, Q a b) * c := by
    intro a _
    rw [Finset.sum_filter, Finset.sum_mul, ← Finset.sum_add_distrib]
    refine Finset.sum_congr rfl fun b _ => ?_
    by_cases hq : Q a b = 0
    · rw [if_neg (not_not.2 hq), hq]; ring
    · rw [if_pos hq]; ring
  have e3 : gradOf n D y Q 1 (zsum n D y) i d =
      4 * (∑ j ∈ range n, Q i j * qk D (y i) (y j) * (y i d - y j d)) + c := by
    rw [hc]
    unfold gradOf
    rw [neg_div, mul_div_assoc, ← sub_eq_add_neg, ← mul_sub, Finset.sum_div, ← Finset.sum_sub_distrib]
    congr 1
    refine Finset.sum_congr rfl fun j _ => ?_
    ring
  rw [Finset.sum_congr rfl e1, Finset.sum_add_distrib, ← Finset.sum_mul, hsum, one_mul,
    pair_sum hi (fun a b => Q a b * qk D (y a) (y b))
      (fun a b => by rw [hsym a b]; unfold qk; rw [sqd_comm]) (fun a => y a d), ← e3] at h
  exact h

/-- The value that is reported is the divergence when neither bound takes effect. -/
theorem klOf_eq {n D : Nat} (y Q : Nat → Nat → ℝ) {eps : ℝ}
    (hQ : ∀ i < n, ∀ j < n, Q i j ≠ 0 → eps ≤ Q i j ∧ eps ≤ qk D (y i) (y j) / zsum n D y) :
    klOf Real.log n D eps y Q (zsum n D y) = divergence n D y Q := by
  unfold klOf divergence
  refine Finset.sum_congr rfl fun i hi => Finset.sum_congr rfl fun j hj => ?_
  rw [Finset.mem_filter, Finset.mem_range] at hj
  obtain ⟨h1, h2⟩ := hQ i (Finset.mem_range.1 hi) j hj.1 hj.2
  rw [max_eq_left h1, max_eq_left h2]

end Verif.Tsne
