import Verif.LeastSq.Spec
import Verif.Logistic.Ssc

set_option linter.unusedSectionVars false

/-
The copy of the matrix of the user.
-/
namespace Verif.LeastSq

open Verif.Logistic (loop upd Stored)

theorem omatcopy_at (t : Bool) (rows cols : Nat) (A : Nat → ℝ) (lda : Nat) (B : Nat → ℝ) (ldb : Nat)
    (h : if t then cols ≤ ldb else rows ≤ ldb) {i j : Nat} (hi : i < rows) (hj : j < cols) :
    omatcopy t rows cols A lda B ldb (if t then i * ldb + j else j * ldb + i) =
      A (j * lda + i) := by
  unfold omatcopy
  have := Verif.Logistic.loop2_write cols rows B
    (fun j i => if t = true then i * ldb + j else j * ldb + i) (fun j i => A (j * lda + i)) (by
      intro a b a' b' ha hb ha' hb' e
      cases t with
      | true =>
        simp only [if_true] at e h
        have := Verif.Logistic.cell_inj (by omega) (by omega) e
        exact ⟨this.2, this.1⟩
      | false =>
        simp only [Bool.false_eq_true, if_false] at e h
        exact Verif.Logistic.cell_inj (by omega) (by omega) e) hj hi
  exact this

theorem omatcopy_keep (t : Bool) (rows cols : Nat) (A : Nat → ℝ) (lda : Nat) (B : Nat → ℝ)
    (ldb : Nat) (h : if t then cols = ldb else rows = ldb) {c : Nat} (hc : rows * cols ≤ c) :
    omatcopy t rows cols A lda B ldb c = B c := by
  unfold omatcopy
  refine Verif.Logistic.loop2_keep cols rows B
    (fun j i => if t = true then i * ldb + j else j * ldb + i) (fun j i => A (j * lda + i)) ?_
  intro j i hj hi
  cases t with
  | true =>
    simp only [if_true] at h ⊢
    have := Verif.Logistic.cell_block (ns := cols) hi hj
    rw [← h]
    omega
  | false =>
    simp only [Bool.false_eq_true, if_false] at h ⊢
    have := Verif.Logistic.cell_block (ns := rows) hj hi
    rw [Nat.mul_comm cols rows] at this
    rw [← h]
    omega

section
variable (m : Method) (well row : Bool) (n p : Nat) (XU : Nat → ℝ) (ldU : Nat) (X0 : Nat → ℝ)
  {M : Nat → Nat → ℝ}

theorem prepX_at (h : Stored row XU ldU n p M) {i j : Nat} (hi : i < n) (hj : j < p) :
    (prepX m well row n p XU ldU X0).X
      (if (prepX m well row n p XU ldU X0).transposed then
        i * (prepX m well row n p XU ldU X0).cinc + j * (prepX m well row n p XU ldU X0).rinc
      else j * (prepX m well row n p XU ldU X0).cinc + i * (prepX m well row n p XU ldU X0).rinc) =
      M i j := by
  obtain ⟨t, ht⟩ : ∃ t, t = requiresT m well row := ⟨_, rfl⟩
  obtain ⟨q, hq⟩ : ∃ q, q = requiresCol m well := ⟨_, rfl⟩
  have hst := h i j hi hj
  cases hrow : row with
  | true =>
    have htf : t = false := by rw [ht, hrow]; simp [requiresT]
    rw [hrow] at hst ht
    simp only [if_true] at hst
    simp only [prepX, ← ht, ← hq, htf, Bool.and_true, Bool.true_and, Bool.false_or, Bool.not_true,
      Bool.false_and, Bool.not_false, if_true, Bool.false_eq_true, if_false]
    cases q with
    | true =>
      simp only [Bool.not_true, Bool.and_false, Bool.false_eq_true, if_false, if_true, Nat.mul_one]
      have := omatcopy_at true p n XU ldU X0 n (by simp) hj hi
      simp only [if_true] at this
      rw [this, hst]
    | false =>
      simp only [Bool.not_false, Bool.and_true, if_true, Bool.false_eq_true, if_false, Nat.mul_one]
      by_cases hld : ldU = p
      · rw [if_pos (by simpa using hld)]
        have := Verif.Logistic.loop_upd0 (n * p) X0 (fun c _ => XU c) (j + i * p)
        rw [this, if_pos (by
          have := Verif.Logistic.cell_block (ns := p) hi hj
          omega), ← hld, Nat.add_comm, hst]
      · rw [if_neg (by simpa using hld)]
        have := omatcopy_at false p n XU ldU X0 p (by simp) hj hi
        simp only [Bool.false_eq_true, if_false] at this
        rw [Nat.add_comm, this, hst]
  | false =>
    rw [hrow] at hst ht
    simp only [Bool.false_eq_true, if_false] at hst
    simp only [prepX, ← ht, ← hq, Bool.and_false, Bool.or_false, Bool.not_false, Bool.true_and,
      Bool.false_and, Bool.and_true, Bool.false_eq_true, if_false]
    cases t with
    | true =>
      simp only [Bool.not_true, Bool.and_false, Bool.false_eq_true, if_false, if_true, Nat.mul_one]
      have := omatcopy_at true n p XU ldU X0 p (by simp) hi hj
      simp only [if_true] at this
      rw [this, hst]
    | false =>
      simp only [Bool.not_false, Bool.and_true, if_true, Bool.false_eq_true, if_false, Nat.mul_one]
      by_cases hld : ldU = n
      · rw [if_pos (by simpa using hld)]
        have := Verif.Logistic.loop_upd0 (n * p) X0 (fun c _ => XU c) (j * n + i)
        rw [this, if_pos (by
          have := Verif.Logistic.cell_block (ns := n) hj hi
          rw [Nat.mul_comm p n] at this
          exact this), ← hld, hst]
      · rw [if_neg (by simpa using hld)]
        have := omatcopy_at false n p XU ldU X0 n (by simp) hi hj
        simp only [Bool.false_eq_true, if_false] at this
        rw [this, hst]

theorem prepX_incs :
    ((prepX m well row n p XU ldU X0).cinc, (prepX m well row n p XU ldU X0).rinc) =
      if (prepX m well row n p XU ldU X0).row then (1, (prepX m well row n p XU ldU X0).ld)
      else ((prepX m well row n p XU ldU X0).ld, 1) := by
  simp only [prepX]
  by_cases h : (row && !(requiresCol m well && row)) = true
  · rw [if_pos h, if_pos h]; exact (if_pos h).symm
  · rw [if_neg h, if_neg h]; exact (if_neg h).symm

theorem prepX_keep {c : Nat} (hc : n * p ≤ c) : (prepX m well row n p XU ldU X0).X c = X0 c := by
  obtain ⟨t, ht⟩ : ∃ t, t = requiresT m well row := ⟨_, rfl⟩
  obtain ⟨q, hq⟩ : ∃ q, q = requiresCol m well := ⟨_, rfl⟩
  have hmem : loop (n * p) X0 (fun c X => upd X c (XU c)) c = X0 c := by
    have := Verif.Logistic.loop_upd0 (n * p) X0 (fun c _ => XU c) c
    rw [this, if_neg (by omega)]
  cases hrow : row with
  | true =>
    have htf : t = false := by rw [ht, hrow]; simp [requiresT]
    rw [hrow] at ht
    simp only [prepX, ← ht, ← hq, htf, Bool.and_true, Bool.true_and, Bool.false_or, Bool.not_true,
      Bool.false_and, Bool.not_false, if_true]
    rw [Nat.mul_comm] at hc
    split
    · exact hmem
    · cases q with
      | true => exact omatcopy_keep true p n XU ldU X0 n (by simp) hc
      | false => exact omatcopy_keep false p n XU ldU X0 p (by simp) hc
  | false =>
    rw [hrow] at ht
    simp only [prepX, ← ht, ← hq, Bool.and_false, Bool.or_false, Bool.not_false, Bool.true_and,
      Bool.false_and, Bool.and_true, Bool.false_eq_true, if_false]
    split
    · exact hmem
    · cases t with
      | true => exact omatcopy_keep true n p XU ldU X0 p (by simp) hc
      | false => exact omatcopy_keep false n p XU ldU X0 n (by simp) hc

/-- The form that LAPACK and BLAS use. -/
theorem prepX_stored (h : Stored row XU ldU n p M) :
    Stored ((prepX m well row n p XU ldU X0).row || (prepX m well row n p XU ldU X0).transposed)
      (prepX m well row n p XU ldU X0).X (prepX m well row n p XU ldU X0).ld n p M := by
  intro i j hi hj
  have h1 := prepX_at m well row n p XU ldU X0 h hi hj
  have h2 := prepX_incs m well row n p XU ldU X0
  generalize hC : prepX m well row n p XU ldU X0 = C at *
  have hx : ¬ (C.row = true ∧ C.transposed = true) := by
    rw [← hC]
    simp only [prepX, requiresT]
    cases row <;> simp
  cases hr : C.row with
  | true =>
    have htr : C.transposed = false := by
      by_contra hne
      exact hx ⟨hr, by simpa using hne⟩
    simp only [hr, if_true, Prod.mk.injEq] at h2
    simp only [htr, Bool.false_eq_true, if_false, h2.1, h2.2] at h1
    rw [htr]
    simp only [Bool.or_false, if_true]
    rw [← h1]
    congr 1
    omega
  | false =>
    simp only [hr, Bool.false_eq_true, if_false, Prod.mk.injEq] at h2
    rw [h2.1, h2.2] at h1
    cases htr : C.transposed with
    | true =>
      simp only [htr, if_true] at h1
      simp only [Bool.or_true, if_true]
      rw [← h1, Nat.mul_one]
    | false =>
      simp only [htr, Bool.false_eq_true, if_false] at h1
      simp only [Bool.or_false, Bool.false_eq_true, if_false]
      rw [← h1, Nat.mul_one]

end

end Verif.LeastSq
