import Verif.Coord.StepProof

/-! # The gap of the check bounds the distance from the optimum -/

set_option linter.unusedSectionVars false

namespace Verif.Coord

open Finset

section
variable {K : Type} [Field K] [LinearOrder K] [IsStrictOrderedRing K]

theorem le_maxAbs (w : Nat → K) : ∀ n j, j < n → |w j| ≤ maxAbs w n
  | 0, _, h => absurd h (Nat.not_lt_zero _)
  | n + 1, j, h => by
    unfold maxAbs
    rcases Nat.lt_succ_iff_lt_or_eq.mp h with h | h
    · exact le_trans (le_maxAbs w n j h) (le_max_left _ _)
    · subst h; exact le_max_right _ _

theorem le_maxElem (w : Nat → K) : ∀ n j, j ≤ n → w j ≤ maxElem w n
  | 0, j, h => by
    have : j = 0 := by omega
    subst this; exact le_rfl
  | n + 1, j, h => by
    unfold maxElem
    rcases Nat.le_succ_iff.mp h with h | h
    · exact le_trans (le_maxElem w n j h) (le_max_left _ _)
    · subst h; exact le_max_right _ _

/-- The weak duality behind the check: `r`, `r'` the residuals of `b`, `b'` with intercepts `e`, `e'`. -/
theorem weak_duality (m N : Nat) (X : Nat → Nat → K) (y r r' b b' : Nat → K) (e' c l h : K)
    (hh : 0 ≤ h)
    (hr' : ∀ i, i < m → y i = r' i + (∑ j ∈ range N, X i j * b' j) + e')
    (hI : c * e' * (∑ i ∈ range m, r i) ≤ 1 / 2 * ∑ i ∈ range m, (r' i - c * r i) ^ 2)
    (hw : ∀ j, j < N → c * b' j * (dot m (fun i => X i j) r - 2 * h * b j) ≤ l * |b' j|) :
    c * dot m r y ≤ 1 / 2 * (∑ i ∈ range m, r' i ^ 2) + l * (∑ j ∈ range N, |b' j|)
      + h * (∑ j ∈ range N, b' j ^ 2) + c ^ 2 * (1 / 2 * (∑ i ∈ range m, r i ^ 2) + h * ∑ j ∈ range N, b j ^ 2) := by
  -- the products with the responses
  have hry : dot m r y = (∑ i ∈ range m, r i * r' i) + (∑ j ∈ range N, b' j * dot m (fun i => X i j) r)
      + e' * ∑ i ∈ range m, r i := by
    have h1 : dot m r y = ∑ i ∈ range m, (r i * r' i + (∑ j ∈ range N, X i j * b' j) * r i + e' * r i) := by
      unfold dot
      apply sum_congr rfl
      intro i hi
      rw [hr' i (mem_range.mp hi)]; ring
    rw [h1, sum_add_distrib, sum_add_distrib, ← mul_sum]
    congr 2
    have h2 : ∀ i ∈ range m, (∑ j ∈ range N, X i j * b' j) * r i = ∑ j ∈ range N, b' j * (X i j * r i) := by
      intro i _
      rw [sum_mul]
      exact sum_congr rfl fun j _ => by ring
    rw [sum_congr rfl h2, sum_comm]
    exact sum_congr rfl fun j _ => by unfold dot; rw [mul_sum]
  have hsq : ∑ i ∈ range m, (r' i - c * r i) ^ 2
      = (∑ i ∈ range m, r' i ^ 2) - 2 * c * (∑ i ∈ range m, r i * r' i) + c ^ 2 * ∑ i ∈ range m, r i ^ 2 := by
    rw [mul_sum, mul_sum, ← sum_sub_distrib, ← sum_add_distrib]
    exact sum_congr rfl fun i _ => by ring
  have hterm : ∀ j ∈ range N, c * (b' j * dot m (fun i => X i j) r)
      ≤ l * |b' j| + h * b' j ^ 2 + c ^ 2 * (h * b j ^ 2) := by
    intro j hj
    have h1 := hw j (mem_range.mp hj)
    have h2 : 0 ≤ h * (b' j - c * b j) ^ 2 := mul_nonneg hh (sq_nonneg _)
    nlinarith [h1, h2]
  have hsum := sum_le_sum hterm
  rw [sum_add_distrib, sum_add_distrib, ← mul_sum, ← mul_sum, ← mul_sum, ← mul_sum, ← mul_sum] at hsum
  rw [hry]
  rw [hsq] at hI
  nlinarith [hsum, hI]

theorem regSum_split (d : Data K) (ok : d.Ok) (b : Nat → K) (i : Nat) :
    d.y i = resid d b i + (∑ j ∈ range d.nmod, d.X i j * b j) + (if d.icpt then b (d.n - 1) else 0) := by
  rw [← fresh_eq d ok.n_pos]
  unfold Data.fresh
  ring

/-- The gap bounds how much the objective with the mean of the squares can be lowered. -/
theorem gap_bounds (d : Data K) (ok : d.Ok) (b r : Nat → K) (hr : Right d b r) :
    Within (1 / (d.m : K)) (dualGap d b r) d b := by
  intro b' hb'
  have hm : (0 : K) < (d.m : K) := by exact_mod_cast ok.m_pos
  obtain ⟨l1, hl1⟩ : ∃ l1, l1 = d.l1reg * (d.m : K) := ⟨_, rfl⟩
  obtain ⟨h, hh⟩ : ∃ h, h = d.l2reg * (d.m : K) := ⟨_, rfl⟩
  have hl0 : 0 ≤ l1 := by rw [hl1]; exact mul_nonneg ok.l1 hm.le
  have hh0 : 0 ≤ h := by rw [hh]; exact mul_nonneg ok.l2 hm.le
  obtain ⟨w, hw⟩ : ∃ w : Nat → K, w = fun j => dot d.m (fun i => d.X i j) r - 2 * h * b j := ⟨_, rfl⟩
  obtain ⟨dn, hdn⟩ : ∃ dn, dn = if d.positive then maxElem w (d.nmod - 1) else maxAbs w d.nmod := ⟨_, rfl⟩
  obtain ⟨c, hc⟩ : ∃ c, c = if l1 < dn then l1 / dn else 1 := ⟨_, rfl⟩
  -- the gap in one formula
  have hgap : dualGap d b r * (d.m : K) = 1 / 2 * (1 + c ^ 2) * dot d.m r r + l1 * (∑ j ∈ range d.nmod, |b j|)
      - c * dot d.m r d.y + h * (1 + c ^ 2) * dot d.nmod b b := by
    have h0 : dualGap d b r = ((if l1 < dn then 1 / 2 * (dot d.m r r + dot d.m r r * (c * c)) else dot d.m r r)
        + (l1 * (∑ j ∈ range d.nmod, |b j|) - c * dot d.m r d.y + h * (1 + c * c) * dot d.nmod b b)) / (d.m : K) := by
      rw [hc, hdn, hw, hl1, hh]; rfl
    rw [h0, div_mul_cancel₀ _ (ne_of_gt hm)]
    by_cases hlt : l1 < dn
    · rw [if_pos hlt]; ring
    · have : c = 1 := by rw [hc, if_neg hlt]
      rw [if_neg hlt, this]; ring
  -- the scaled residual is feasible for the dual problem
  have hc0 : 0 ≤ c := by
    rw [hc]; split
    · next hlt => exact div_nonneg hl0 (le_trans hl0 hlt.le)
    · exact zero_le_one
  have hcdn : c * dn ≤ l1 := by
    rw [hc]; split
    · next hlt => rw [div_mul_cancel₀ _ (ne_of_gt (lt_of_le_of_lt hl0 hlt))]
    · next hlt => rw [one_mul]; exact le_of_not_gt hlt
  have hfeas : ∀ j, j < d.nmod → c * b' j * (dot d.m (fun i => d.X i j) r - 2 * h * b j) ≤ l1 * |b' j| := by
    intro j hj
    have hwj : dot d.m (fun i => d.X i j) r - 2 * h * b j = w j := by rw [hw]
    rw [hwj]
    by_cases hp : d.positive = true
    · have h1 : w j ≤ dn := by
        rw [hdn, if_pos hp]; exact le_maxElem w _ j (by omega)
      have h2 : 0 ≤ b' j := hb' hp j hj
      rw [abs_of_nonneg h2]
      have h3 : c * w j ≤ l1 := le_trans (mul_le_mul_of_nonneg_left h1 hc0) hcdn
      nlinarith [mul_le_mul_of_nonneg_right h3 h2]
    · have h1 : |w j| ≤ dn := by
        rw [hdn, if_neg hp]; exact le_maxAbs w _ j hj
      have h3 : c * |w j| ≤ l1 := le_trans (mul_le_mul_of_nonneg_left h1 hc0) hcdn
      have h4 : b' j * w j ≤ |b' j| * |w j| := by rw [← abs_mul]; exact le_abs_self _
      have h5 := mul_le_mul_of_nonneg_left h4 hc0
      have h6 := mul_le_mul_of_nonneg_right h3 (abs_nonneg (b' j))
      nlinarith
  -- the intercept
  have hrs : ∑ i ∈ range d.m, r i = ∑ i ∈ range d.m, resid d b i :=
    sum_congr rfl fun i hi => hr i (mem_range.mp hi)
  have hI : c * (if d.icpt then b' (d.n - 1) else 0) * (∑ i ∈ range d.m, r i)
      ≤ 1 / 2 * ∑ i ∈ range d.m, (resid d b' i - c * r i) ^ 2 := by
    by_cases hi : d.icpt = true
    · rw [if_pos hi, hrs, resid_sum d ok hi]
      set e := b (d.n - 1)
      set e' := b' (d.n - 1)
      have hz : ∑ i ∈ range d.m, (resid d b' i - c * r i) = -((d.m : K) * (e' - c * e)) := by
        rw [sum_sub_distrib, ← mul_sum, hrs, resid_sum d ok hi, resid_sum d ok hi]; ring
      have hsh : ∑ i ∈ range d.m, (resid d b' i - c * r i + (e' - c * e)) ^ 2
          = (∑ i ∈ range d.m, (resid d b' i - c * r i) ^ 2)
            + 2 * (e' - c * e) * (∑ i ∈ range d.m, (resid d b' i - c * r i)) + (d.m : K) * (e' - c * e) ^ 2 := by
        have : ∀ i ∈ range d.m, (resid d b' i - c * r i + (e' - c * e)) ^ 2
            = (resid d b' i - c * r i) ^ 2 + 2 * (e' - c * e) * (resid d b' i - c * r i) + (e' - c * e) ^ 2 :=
          fun i _ => by ring
        rw [sum_congr rfl this, sum_add_distrib, sum_add_distrib, ← mul_sum, sum_const, card_range, nsmul_eq_mul]
      have hpos : 0 ≤ ∑ i ∈ range d.m, (resid d b' i - c * r i + (e' - c * e)) ^ 2 :=
        sum_nonneg fun i _ => sq_nonneg _
      rw [hsh, hz] at hpos
      have h1 : 0 ≤ (d.m : K) * (e' ^ 2 + c ^ 2 * e ^ 2) := by positivity
      nlinarith [hpos, h1]
    · rw [if_neg hi]
      have : 0 ≤ ∑ i ∈ range d.m, (resid d b' i - c * r i) ^ 2 := sum_nonneg fun i _ => sq_nonneg _
      linarith
  have key := weak_duality d.m d.nmod d.X d.y r (resid d b') b b' _ c l1 h hh0
    (fun i _ => regSum_split d ok b' i) hI hfeas
  -- put together
  have hrr : dot d.m r r = ∑ i ∈ range d.m, resid d b i ^ 2 := by
    unfold dot
    exact sum_congr rfl fun i hi => by rw [hr i (mem_range.mp hi)]; ring
  have hrr' : ∑ i ∈ range d.m, r i ^ 2 = ∑ i ∈ range d.m, resid d b i ^ 2 :=
    sum_congr rfl fun i hi => by rw [hr i (mem_range.mp hi)]
  have hbb : dot d.nmod b b = ∑ j ∈ range d.nmod, b j ^ 2 := by
    unfold dot; exact sum_congr rfl fun j _ => by ring
  have hobj : ∀ v : Nat → K, obj (1 / (d.m : K)) d v * (d.m : K)
      = 1 / 2 * (∑ i ∈ range d.m, resid d v i ^ 2) + l1 * (∑ j ∈ range d.nmod, |v j|)
        + h * ∑ j ∈ range d.nmod, v j ^ 2 := by
    intro v
    unfold obj
    rw [hl1, hh]
    field_simp
  rw [hrr, hbb] at hgap
  rw [hrr'] at key
  have : obj (1 / (d.m : K)) d b * (d.m : K) ≤ (obj (1 / (d.m : K)) d b' + dualGap d b r) * (d.m : K) := by
    rw [add_mul, hobj, hobj, hgap]
    linarith [key]
  exact le_of_mul_le_mul_right this hm

end

end Verif.Coord
