import Verif.LeastSq.Scale
import Verif.Logistic.Ssc

set_option linter.unusedSectionVars false

/-
The normal equations, and the coefficients that the direct solvers make of a solution.
-/
namespace Verif.LeastSq

open Finset (range)
open Verif.Logistic (lin icpt loop upd fill entry Stored)

/-- Entry `(r, c)` of the symmetric matrix of which LAPACK reads the upper triangle, by columns. -/
def symU (A : Nat → ℝ) (ld r c : Nat) : ℝ := A (max r c * ld + min r c)

/-- `x` solves the symmetric system `A x = b` of order `m`. -/
def Solves (m : Nat) (A b x : Nat → ℝ) : Prop :=
  ∀ r, r < m → ∑ c ∈ range m, symU A m r c * x c = b r

/-! ### Minimisers from a gradient that vanishes -/

theorem grad_min (n m : Nat) (φ : Nat → Nat → ℝ) (y : Nat → ℝ) (l : Nat → ℝ) (x d : Nat → ℝ)
    (hl : ∀ k, k < m → 0 ≤ l k)
    (h : ∀ k, k < m → ∑ i ∈ range n, φ i k * (y i - ∑ k ∈ range m, φ i k * x k) = l k * x k) :
    ∑ i ∈ range n, (y i - ∑ k ∈ range m, φ i k * x k) ^ 2 + ∑ k ∈ range m, l k * x k ^ 2 ≤
      ∑ i ∈ range n, (y i - ∑ k ∈ range m, φ i k * d k) ^ 2 + ∑ k ∈ range m, l k * d k ^ 2 := by
  obtain ⟨r, hr⟩ : ∃ r : Nat → ℝ, r = fun i => y i - ∑ k ∈ range m, φ i k * x k := ⟨_, rfl⟩
  obtain ⟨e, he⟩ : ∃ e : Nat → ℝ, e = fun i => ∑ k ∈ range m, φ i k * (d k - x k) := ⟨_, rfl⟩
  have h1 : ∀ i, y i - ∑ k ∈ range m, φ i k * d k = r i - e i := fun i => by
    rw [hr, he]
    simp only [mul_sub, Finset.sum_sub_distrib]
    ring
  have h2 : ∑ i ∈ range n, r i * e i = ∑ k ∈ range m, l k * x k * (d k - x k) := by
    rw [he]
    simp only [Finset.mul_sum]
    rw [Finset.sum_comm]
    refine Finset.sum_congr rfl fun k hk => ?_
    rw [← h k (Finset.mem_range.mp hk), Finset.sum_mul]
    refine Finset.sum_congr rfl fun i _ => ?_
    rw [hr]
    ring
  have h3 : ∑ i ∈ range n, (r i - e i) ^ 2 =
      ∑ i ∈ range n, r i ^ 2 - 2 * ∑ i ∈ range n, r i * e i + ∑ i ∈ range n, e i ^ 2 := by
    rw [Finset.mul_sum, ← Finset.sum_sub_distrib, ← Finset.sum_add_distrib]
    exact Finset.sum_congr rfl fun i _ => by ring
  have h4 : ∑ k ∈ range m, l k * d k ^ 2 = ∑ k ∈ range m, l k * x k ^ 2 +
      2 * ∑ k ∈ range m, l k * x k * (d k - x k) + ∑ k ∈ range m, l k * (d k - x k) ^ 2 := by
    rw [Finset.mul_sum, ← Finset.sum_add_distrib, ← Finset.sum_add_distrib]
    exact Finset.sum_congr rfl fun i _ => by ring
  have h5 : 0 ≤ ∑ i ∈ range n, e i ^ 2 := Finset.sum_nonneg fun _ _ => sq_nonneg _
  have h6 : 0 ≤ ∑ k ∈ range m, l k * (d k - x k) ^ 2 := Finset.sum_nonneg fun k hk =>
    mul_nonneg (hl k (Finset.mem_range.mp hk)) (sq_nonneg _)
  have h7 : ∑ i ∈ range n, (y i - ∑ k ∈ range m, φ i k * x k) ^ 2 = ∑ i ∈ range n, r i ^ 2 := by
    rw [hr]
  have h8 : ∑ i ∈ range n, (y i - ∑ k ∈ range m, φ i k * d k) ^ 2 =
      ∑ i ∈ range n, (r i - e i) ^ 2 := Finset.sum_congr rfl fun i _ => by rw [h1 i]
  rw [h7, h8, h3, h4, h2]
  linarith

/-- Ridge regression on the features alone. -/
theorem ridge_min0 {ic : Bool} {n p : Nat} {X : Nat → Nat → ℝ} {y c : Nat → ℝ} {lambda : ℝ}
    (hl : 0 ≤ lambda) (hc : ic = true → c p = 0)
    (h : ∀ k, k < p → ∑ i ∈ range n, X i k * (y i - ∑ j ∈ range p, X i j * c j) = lambda * c k)
    (d : Nat → ℝ) (hd : ic = true → d p = 0) :
    cost (1 / 2) 0 (lambda / 2) (fun _ => 1) ic n p X y c ≤
      cost (1 / 2) 0 (lambda / 2) (fun _ => 1) ic n p X y d := by
  have key := grad_min n p X y (fun _ => lambda) c d (fun _ _ => hl) h
  have e : ∀ c : Nat → ℝ, (ic = true → c p = 0) → ssr ic n p X y c =
      ∑ i ∈ range n, (y i - ∑ k ∈ range p, X i k * c k) ^ 2 := fun c hc => by
    unfold ssr lin
    refine Finset.sum_congr rfl fun i _ => ?_
    have : icpt ic (c p) = 0 := by
      unfold icpt
      split
      · exact hc (by assumption)
      · rfl
    rw [this, add_zero]
  unfold cost
  rw [e c hc, e d hd]
  simp only [one_mul, zero_mul, add_zero]
  rw [← Finset.mul_sum, ← Finset.mul_sum] at key
  linarith

/-- An exact solution that is a combination of the rows has the least norm. -/
theorem min_norm {n p : Nat} {X : Nat → Nat → ℝ} {c w d : Nat → ℝ}
    (h : ∀ k, k < p → c k = ∑ i ∈ range n, X i k * w i)
    (hd : ∀ i, i < n → ∑ j ∈ range p, X i j * d j = ∑ j ∈ range p, X i j * c j) :
    ∑ j ∈ range p, c j ^ 2 ≤ ∑ j ∈ range p, d j ^ 2 := by
  have h1 : ∑ j ∈ range p, c j * (d j - c j) = 0 := by
    have : ∑ j ∈ range p, c j * (d j - c j) =
        ∑ i ∈ range n, w i * ∑ j ∈ range p, X i j * (d j - c j) := by
      simp only [Finset.mul_sum]
      rw [Finset.sum_comm]
      refine Finset.sum_congr rfl fun j hj => ?_
      rw [h j (Finset.mem_range.mp hj), Finset.sum_mul]
      exact Finset.sum_congr rfl fun i _ => by ring
    rw [this]
    refine Finset.sum_eq_zero fun i hi => ?_
    have := hd i (Finset.mem_range.mp hi)
    simp only [mul_sub, Finset.sum_sub_distrib, this, sub_self, mul_zero]
  have h2 : ∑ j ∈ range p, d j ^ 2 = ∑ j ∈ range p, c j ^ 2 +
      2 * ∑ j ∈ range p, c j * (d j - c j) + ∑ j ∈ range p, (d j - c j) ^ 2 := by
    rw [Finset.mul_sum, ← Finset.sum_add_distrib, ← Finset.sum_add_distrib]
    exact Finset.sum_congr rfl fun i _ => by ring
  have h3 : 0 ≤ ∑ j ∈ range p, (d j - c j) ^ 2 := Finset.sum_nonneg fun _ _ => sq_nonneg _
  rw [h2, h1]
  linarith

/-! ### The system -/

theorem entry_stored {row : Bool} {X : Nat → ℝ} {ld n p : Nat} {M : Nat → Nat → ℝ}
    (h : Stored row X ld n p M) {i j : Nat} (hi : i < n) (hj : j < p) :
    entry row X ld i j = M i j := by
  rw [← h i j hi hj]
  unfold entry
  split <;> rfl

theorem gemvT_at (row : Bool) (m n : Nat) (X : Nat → ℝ) (ldX : Nat) (u v : Nat → ℝ) (vo c : Nat) :
    gemvT row m n X ldX u v vo c =
      if vo ≤ c ∧ c < vo + n then ∑ i ∈ range m, entry row X ldX i (c - vo) * u i else v c := by
  unfold gemvT
  have := Verif.Logistic.loop_upd n v vo
    (fun j _ => loop m 0 fun i s => s + entry row X ldX i j * u i) c
  rw [this]
  simp only [Verif.Logistic.loop_sum, zero_add]

/-- The triangle that `da_syrk` writes. -/
theorem tri_at (n : Nat) (A : Nat → ℝ) (ld : Nat) (F : Nat → Nat → ℝ) (hld : n ≤ ld) {r c : Nat}
    (hr : r ≤ c) (hc : c < ld) :
    loop n A (fun j A => loop (j + 1) A fun i A => upd A (j * ld + i) (F i j)) (c * ld + r) =
      if c < n then F r c else A (c * ld + r) := by
  have key := Verif.Logistic.loop_inv (fun k (v : Nat → ℝ) => k ≤ n →
      v (c * ld + r) = if c < k then F r c else A (c * ld + r)) n A
    (fun j A => loop (j + 1) A fun i A => upd A (j * ld + i) (F i j))
    (fun _ => by rw [if_neg (by omega)]) (by
      intro k v hk ih hk'
      have ih := ih (by omega)
      have hu := Verif.Logistic.loop_upd (k + 1) v (k * ld) (fun i _ => F i k) (c * ld + r)
      rw [hu]
      by_cases e : c = k
      · subst e
        rw [if_pos (by omega), if_pos (by omega)]
        congr 1
        omega
      · have hne : ¬ (k * ld ≤ c * ld + r ∧ c * ld + r < k * ld + (k + 1)) := by
          rintro ⟨a, b⟩
          have := Verif.Logistic.cell_inj (ns := ld) (k := c) (k' := k) (i := r)
            (i' := c * ld + r - k * ld) (by omega) (by omega) (by omega)
          exact e this.1
        rw [if_neg hne, ih]
        by_cases h2 : c < k
        · rw [if_pos h2, if_pos (by omega)]
        · rw [if_neg h2, if_neg (by omega)])
  exact key (Nat.le_refl n)

theorem diag_at (m : Nat) (A : Nat → ℝ) (ld : Nat) (l : ℝ) (hm : m ≤ ld) {r c : Nat} (hr : r < ld) :
    loop m A (fun i A => upd A (i * ld + i) (A (i * ld + i) + l)) (c * ld + r) =
      A (c * ld + r) + if r = c ∧ c < m then l else 0 := by
  have key := Verif.Logistic.loop_inv (fun k (v : Nat → ℝ) => k ≤ m →
      v (c * ld + r) = A (c * ld + r) + if r = c ∧ c < k then l else 0) m A
    (fun i A => upd A (i * ld + i) (A (i * ld + i) + l))
    (fun _ => by rw [if_neg (by omega), add_zero]) (by
      intro k v hk ih hk'
      have ih := ih (by omega)
      by_cases e : c * ld + r = k * ld + k
      · obtain ⟨e1, e2⟩ := Verif.Logistic.cell_inj hr (by omega) e
        rw [e, Verif.Logistic.upd_same, ← e, ih, if_neg (by omega), if_pos (by omega), add_zero]
      · rw [Verif.Logistic.upd_ne _ _ e, ih]
        have : ¬ (r = c ∧ c = k) := by
          rintro ⟨rfl, rfl⟩
          exact e rfl
        by_cases h2 : r = c ∧ c < k
        · rw [if_pos h2, if_pos (by omega)]
        · rw [if_neg h2, if_neg (by omega)])
  exact key (Nat.le_refl m)

/-- The columns of the problem with an intercept. -/
noncomputable def aug (p : Nat) (M : Nat → Nat → ℝ) (i k : Nat) : ℝ := if k < p then M i k else 1

theorem lin_aug (ic : Bool) (p : Nat) (M : Nat → Nat → ℝ) (c : Nat → ℝ) (i : Nat) :
    lin M p c (icpt ic (c p)) i =
      ∑ k ∈ range (if ic then p + 1 else p), aug p M i k * c k := by
  have e : ∑ k ∈ range p, aug p M i k * c k = ∑ k ∈ range p, M i k * c k :=
    Finset.sum_congr rfl fun k hk => by rw [aug, if_pos (Finset.mem_range.mp hk)]
  cases ic with
  | true =>
    simp only [if_true]
    rw [Finset.sum_range_succ, e]
    simp [lin, icpt, aug]
  | false =>
    simp only [Bool.false_eq_true, if_false]
    rw [e]
    simp [lin, icpt]

section
variable {row ic : Bool} {n p : Nat} {X : Nat → ℝ} {ldX : Nat} {M : Nat → Nat → ℝ}
  {y : Nat → ℝ} {lambda : ℝ}

/-- The matrix of the system, more samples than coefficients. -/
theorem setup_well_A (hS : Stored row X ldX n p M) (hl : 0 ≤ lambda) (A b : Nat → ℝ) {r c : Nat}
    (hr : r ≤ c) (hc : c < if ic then p + 1 else p) :
    (setupXtx true row ic n p X ldX y lambda A b).1 (c * (if ic then p + 1 else p) + r) =
      ∑ i ∈ range n, aug p M i r * aug p M i c + if r = c ∧ c < p then lambda else 0 := by
  obtain ⟨nc, hnc⟩ : ∃ t, t = if ic = true then p + 1 else p := ⟨_, rfl⟩
  have hpn : p ≤ nc := by rw [hnc]; split <;> omega
  rw [← hnc] at hc ⊢
  -- without the penalty
  obtain ⟨B, hB⟩ : ∃ B : Nat → ℝ, B = if ic = true then
      upd (gemvT row n p X ldX (fun _ => 1) (syrkT row p n X ldX A nc) (nc * p)) (nc * nc - 1) (n : ℝ)
      else syrkT row p n X ldX A nc := ⟨_, rfl⟩
  have hsy : ∀ {r c}, r ≤ c → c < nc → syrkT row p n X ldX A nc (c * nc + r) =
      if c < p then ∑ i ∈ range n, entry row X ldX i r * entry row X ldX i c
      else A (c * nc + r) := by
    intro r c hr hc
    unfold syrkT
    have := tri_at p A nc (fun i j => loop n 0 fun l s => s + entry row X ldX l i *
      entry row X ldX l j) hpn hr hc
    rw [this]
    simp only [Verif.Logistic.loop_sum, zero_add]
  have hval : B (c * nc + r) = ∑ i ∈ range n, aug p M i r * aug p M i c := by
    by_cases hcp : c < p
    · have h1 : syrkT row p n X ldX A nc (c * nc + r) = ∑ i ∈ range n, aug p M i r * aug p M i c := by
        rw [hsy hr hc, if_pos hcp]
        refine Finset.sum_congr rfl fun i hi => ?_
        have hi' := Finset.mem_range.mp hi
        rw [entry_stored hS hi' (by omega), entry_stored hS hi' hcp, aug, aug, if_pos hcp,
          if_pos (by omega)]
      rw [hB]
      split
      · rename_i hic
        rw [if_pos hic] at hnc
        have hblk := Verif.Logistic.cell_block (ns := nc) (k := p) (k' := c) (i := r) hcp (by omega)
        have hsq : nc * nc - 1 = p * nc + p := by
          have : nc * nc = p * nc + nc := by
            conv_lhs => rw [show nc * nc = (p + 1) * nc by rw [hnc]]
            rw [Nat.add_mul, Nat.one_mul]
          omega
        have hcomm : nc * p = p * nc := Nat.mul_comm _ _
        rw [Verif.Logistic.upd_ne _ _ (by omega), gemvT_at, if_neg (by omega)]
        exact h1
      · exact h1
    · have hic : ic = true := by
        by_contra hic
        rw [if_neg hic] at hnc
        omega
      rw [if_pos hic] at hnc
      have hce : c = p := by omega
      subst hce
      have hsq : nc * nc - 1 = c * nc + c := by
        have : nc * nc = c * nc + nc := by
          conv_lhs => rw [show nc * nc = (c + 1) * nc by rw [hnc]]
          rw [Nat.add_mul, Nat.one_mul]
        omega
      have hcomm : nc * c = c * nc := Nat.mul_comm _ _
      rw [hB, if_pos hic, hsq]
      by_cases hrc : r = c
      · subst hrc
        rw [Verif.Logistic.upd_same]
        simp [aug]
      · rw [Verif.Logistic.upd_ne _ _ (by omega), gemvT_at, if_pos (by omega)]
        refine Finset.sum_congr rfl fun i hi => ?_
        have hi' := Finset.mem_range.mp hi
        rw [show c * nc + r - nc * c = r by omega, entry_stored hS hi' (by omega), aug, aug,
          if_pos (by omega), if_neg (by omega)]
  have hset : (setupXtx true row ic n p X ldX y lambda A b).1 =
      if 0 < lambda then loop p B fun i A => upd A (i * nc + i) (A (i * nc + i) + lambda) else B := by
    rw [hB]
    unfold setupXtx
    simp only [if_true, ← hnc]
  rw [hset]
  by_cases hl0 : 0 < lambda
  · rw [if_pos hl0, diag_at p B nc lambda hpn (by omega), hval]
  · rw [if_neg hl0, hval, show lambda = 0 by linarith]
    simp

theorem setup_well_b (hS : Stored row X ldX n p M) (A b : Nat → ℝ) {r : Nat}
    (hr : r < if ic then p + 1 else p) :
    (setupXtx true row ic n p X ldX y lambda A b).2 r = ∑ i ∈ range n, aug p M i r * y i := by
  have hb : ∀ r, r < p → gemvT row n p X ldX y b 0 r = ∑ i ∈ range n, aug p M i r * y i := by
    intro r hr
    rw [gemvT_at, if_pos (by omega)]
    refine Finset.sum_congr rfl fun i hi => ?_
    rw [Nat.sub_zero, entry_stored hS (Finset.mem_range.mp hi) hr, aug, if_pos hr]
  have hset : (setupXtx true row ic n p X ldX y lambda A b).2 =
      if ic then upd (gemvT row n p X ldX y b 0) p (loop n 0 fun i s => s + y i)
      else gemvT row n p X ldX y b 0 := by
    unfold setupXtx
    simp only [if_true]
  rw [hset]
  cases ic with
  | true =>
    simp only [if_true] at hr ⊢
    by_cases e : r = p
    · subst e
      rw [Verif.Logistic.upd_same, Verif.Logistic.loop_sum, zero_add]
      simp [aug]
    · rw [Verif.Logistic.upd_ne _ _ e]
      exact hb r (by omega)
  | false =>
    simp only [Bool.false_eq_true, if_false] at hr ⊢
    exact hb r hr

/-- The coefficients of the direct solvers, more samples than coefficients. -/
theorem direct_well (hS : Stored row X ldX n p M) (hl : 0 ≤ lambda) (A b coef x : Nat → ℝ)
    (hx : Solves (if ic then p + 1 else p) (setupXtx true row ic n p X ldX y lambda A b).1
      (setupXtx true row ic n p X ldX y lambda A b).2 x) :
    Minimises (cost (1 / 2) 0 (lambda / 2) (fun _ => 1) ic n p M y)
      (directCoef true row ic n p X ldX x coef) := by
  obtain ⟨nc, hnc⟩ : ∃ t, t = if ic = true then p + 1 else p := ⟨_, rfl⟩
  have hpn : p ≤ nc := by rw [hnc]; split <;> omega
  have hdc : ∀ k, k < nc → directCoef true row ic n p X ldX x coef k = x k := by
    intro k hk
    unfold directCoef
    rw [if_pos rfl, ← hnc]
    have := Verif.Logistic.loop_upd0 nc coef (fun i _ => x i) k
    rw [this, if_pos hk]
  have hsym : ∀ r c, r < nc → c < nc → symU (setupXtx true row ic n p X ldX y lambda A b).1 nc r c =
      ∑ i ∈ range n, aug p M i r * aug p M i c + if r = c ∧ c < p then lambda else 0 := by
    intro r c hr hc
    unfold symU
    rcases Nat.le_total r c with h | h
    · rw [Nat.max_eq_right h, Nat.min_eq_left h, hnc, setup_well_A hS hl A b h (hnc ▸ hc)]
    · rw [Nat.max_eq_left h, Nat.min_eq_right h, hnc, setup_well_A hS hl A b h (hnc ▸ hr)]
      congr 1
      · exact Finset.sum_congr rfl fun i _ => mul_comm _ _
      · by_cases e : r = c
        · subst e; rfl
        · rw [if_neg (by omega), if_neg (by omega)]
  have hgrad : ∀ k, k < nc → ∑ i ∈ range n, aug p M i k *
      (y i - ∑ k ∈ range nc, aug p M i k * x k) = (if k < p then lambda else 0) * x k := by
    intro k hk
    have h1 := hx k (hnc ▸ hk)
    rw [← hnc, setup_well_b hS A b (hnc ▸ hk)] at h1
    rw [Finset.sum_congr rfl fun c hc => by rw [hsym k c hk (Finset.mem_range.mp hc), add_mul],
      Finset.sum_add_distrib] at h1
    have h2 : ∑ c ∈ range nc, (if k = c ∧ c < p then lambda else 0) * x c =
        (if k < p then lambda else 0) * x k := by
      rw [Finset.sum_eq_single k]
      · by_cases h : k < p
        · rw [if_pos ⟨rfl, h⟩, if_pos h]
        · rw [if_neg (by omega), if_neg h]
      · intro c _ hne
        rw [if_neg (by omega), zero_mul]
      · intro h
        exact absurd (Finset.mem_range.mpr hk) h
    have h3 : ∑ c ∈ range nc, (∑ i ∈ range n, aug p M i k * aug p M i c) * x c =
        ∑ i ∈ range n, aug p M i k * ∑ c ∈ range nc, aug p M i c * x c := by
      simp only [Finset.sum_mul, Finset.mul_sum]
      rw [Finset.sum_comm]
      exact Finset.sum_congr rfl fun i _ => Finset.sum_congr rfl fun c _ => by ring
    rw [h2, h3] at h1
    simp only [mul_sub, Finset.sum_sub_distrib]
    linarith
  intro d
  have hce : cost (1 / 2) 0 (lambda / 2) (fun _ => 1) ic n p M y
      (directCoef true row ic n p X ldX x coef) =
      cost (1 / 2) 0 (lambda / 2) (fun _ => 1) ic n p M y x :=
    cost_congr ic n p M y (fun j hj => hdc j (by omega)) fun hic =>
      hdc p (by rw [hnc, if_pos hic]; omega)
  have key := grad_min n nc (aug p M) y (fun k => if k < p then lambda else 0) x d
    (fun k _ => by split <;> linarith) hgrad
  have hssr : ∀ c : Nat → ℝ, ssr ic n p M y c =
      ∑ i ∈ range n, (y i - ∑ k ∈ range nc, aug p M i k * c k) ^ 2 := fun c => by
    unfold ssr
    refine Finset.sum_congr rfl fun i _ => ?_
    rw [lin_aug, hnc]
  have hpen : ∀ c : Nat → ℝ, ∑ k ∈ range nc, (if k < p then lambda else 0) * c k ^ 2 =
      lambda * ∑ k ∈ range p, c k ^ 2 := fun c => by
    rw [Finset.mul_sum]
    have hsub : range p ⊆ range nc := fun k hk =>
      Finset.mem_range.mpr (lt_of_lt_of_le (Finset.mem_range.mp hk) hpn)
    rw [← Finset.sum_subset hsub fun k _ hk => by
      rw [if_neg (fun h => hk (Finset.mem_range.mpr h)), zero_mul]]
    exact Finset.sum_congr rfl fun k hk => by rw [if_pos (Finset.mem_range.mp hk)]
  rw [hce]
  unfold cost
  rw [hssr, hssr]
  rw [hpen, hpen] at key
  simp only [one_mul, zero_mul, add_zero]
  linarith

/-- The system with fewer samples than coefficients: `X X' + λ`. -/
theorem setup_under (hS : Stored row X ldX n p M) (hl : 0 ≤ lambda) (A b x : Nat → ℝ)
    (hx : Solves n (setupXtx false row ic n p X ldX y lambda A b).1
      (setupXtx false row ic n p X ldX y lambda A b).2 x) (r : Nat) (hr : r < n) :
    ∑ j ∈ range p, M r j * ∑ i ∈ range n, M i j * x i + lambda * x r = y r := by
  have hb : (setupXtx false row ic n p X ldX y lambda A b).2 r = y r := by
    have e : (setupXtx false row ic n p X ldX y lambda A b).2 =
        loop n b fun i b => upd b i (y i) := by
      unfold setupXtx
      simp only [Bool.false_eq_true, if_false]
    rw [e]
    have := Verif.Logistic.loop_upd0 n b (fun i _ => y i) r
    rw [this, if_pos hr]
  have hA : ∀ {r c}, r ≤ c → c < n → (setupXtx false row ic n p X ldX y lambda A b).1 (c * n + r) =
      ∑ j ∈ range p, M r j * M c j + if r = c then lambda else 0 := by
    intro r c hr hc
    have e : (setupXtx false row ic n p X ldX y lambda A b).1 =
        if 0 < lambda then loop n (syrkN row n p X ldX A n) fun i A =>
          upd A (i * n + i) (A (i * n + i) + lambda) else syrkN row n p X ldX A n := by
      unfold setupXtx
      simp only [Bool.false_eq_true, if_false]
    have hsy : syrkN row n p X ldX A n (c * n + r) = ∑ j ∈ range p, M r j * M c j := by
      unfold syrkN
      have := tri_at n A n (fun i j => loop p 0 fun l s => s + entry row X ldX i l *
        entry row X ldX j l) (Nat.le_refl n) hr hc
      rw [this, if_pos hc]
      simp only [Verif.Logistic.loop_sum, zero_add]
      refine Finset.sum_congr rfl fun j hj => ?_
      have hj' := Finset.mem_range.mp hj
      rw [entry_stored hS (by omega) hj', entry_stored hS hc hj']
    rw [e]
    by_cases hl0 : 0 < lambda
    · rw [if_pos hl0, diag_at n _ n lambda (Nat.le_refl n) (by omega), hsy]
      by_cases hrc : r = c
      · rw [if_pos ⟨hrc, hc⟩, if_pos hrc]
      · rw [if_neg (by omega), if_neg hrc]
    · rw [if_neg hl0, hsy, show lambda = 0 by linarith]
      simp
  have h1 := hx r hr
  rw [hb] at h1
  have hsym : ∀ c ∈ range n, symU (setupXtx false row ic n p X ldX y lambda A b).1 n r c * x c =
      (∑ j ∈ range p, M r j * M c j) * x c + (if r = c then lambda else 0) * x c := by
    intro c hc
    have hc' := Finset.mem_range.mp hc
    rw [← add_mul]
    congr 1
    unfold symU
    rcases Nat.le_total r c with h | h
    · rw [Nat.max_eq_right h, Nat.min_eq_left h, hA h hc']
    · rw [Nat.max_eq_left h, Nat.min_eq_right h, hA h hr]
      congr 1
      · exact Finset.sum_congr rfl fun i _ => mul_comm _ _
      · by_cases e : r = c
        · subst e; rfl
        · rw [if_neg (by omega), if_neg (by omega)]
  rw [Finset.sum_congr rfl hsym, Finset.sum_add_distrib] at h1
  have h2 : ∑ c ∈ range n, (if r = c then lambda else 0) * x c = lambda * x r := by
    rw [Finset.sum_eq_single r]
    · rw [if_pos rfl]
    · intro c _ hne
      rw [if_neg (fun h => hne h.symm), zero_mul]
    · intro h
      exact absurd (Finset.mem_range.mpr hr) h
  have h3 : ∑ c ∈ range n, (∑ j ∈ range p, M r j * M c j) * x c =
      ∑ j ∈ range p, M r j * ∑ i ∈ range n, M i j * x i := by
    simp only [Finset.sum_mul, Finset.mul_sum]
    rw [Finset.sum_comm]
    exact Finset.sum_congr rfl fun i _ => Finset.sum_congr rfl fun c _ => by ring
  rw [h2, h3] at h1
  exact h1

theorem directCoef_under (hS : Stored row X ldX n p M) (x coef : Nat → ℝ) (k : Nat) :
    directCoef false row ic n p X ldX x coef k =
      if k < p then ∑ i ∈ range n, M i k * x i else coef k := by
  unfold directCoef
  simp only [Bool.false_eq_true, if_false]
  rw [gemvT_at]
  by_cases h : k < p
  · rw [if_pos (by omega), if_pos h]
    exact Finset.sum_congr rfl fun i hi => by
      rw [Nat.sub_zero, entry_stored hS (Finset.mem_range.mp hi) h]
  · rw [if_neg (by omega), if_neg h]

end

end Verif.LeastSq
