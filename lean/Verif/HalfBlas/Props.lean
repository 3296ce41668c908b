import Verif.HalfBlas.Proof

/-! C65: symmetric rank-k update for `_Float16`.  C66: products of matrix and vector, scalar products and copies. -/
namespace Verif.HalfBlas

variable {R : Type} [CommRing R]

/-- Element (i, l) of op(A): A itself or its transpose, stored by columns or by rows from position `ao`. -/
def elem (col noTrans : Bool) (A : Nat → R) (ao lda i l : Nat) : R :=
  match col, noTrans with
  | true, true => A (ao + i + l * lda)
  | true, false => A (ao + l + i * lda)
  | false, true => A (ao + l + i * lda)
  | false, false => A (ao + i + l * lda)

/-- Position of element (i, j) of C. -/
def place (col : Bool) (co ldc i j : Nat) : Nat := match col with
  | true => co + i + j * ldc
  | false => co + j + i * ldc

/-- Element (i, j) belongs to the triangle that is updated. -/
def inTriangle (lower : Bool) (i j : Nat) : Prop := (lower = true ∧ j ≤ i) ∨ (lower = false ∧ i ≤ j)

theorem place_eq {col : Bool} {co ldc i j : Nat} : co + addr col ldc i j = place col co ldc i j := by
  cases col
  · show co + (j + i * ldc) = co + j + i * ldc
    omega
  · show co + (i + j * ldc) = co + i + j * ldc
    omega

theorem elem_eq {col nt : Bool} {A : Nat → R} {ao lda i l : Nat} : A (ao + opAddr col nt lda i l) = elem col nt A ao lda i l := by
  cases col <;> cases nt <;> simp only [elem, opAddr, addr, Bool.false_eq_true, if_false, if_true, Nat.add_assoc]

theorem tri_iff {lower : Bool} {i j : Nat} : tri lower i j ↔ inTriangle lower i j := by
  unfold tri inTriangle
  cases lower <;> simp

/-- The property C65: with rows that fit into the leading dimension, the chosen triangle of C becomes alpha op(A) op(A)^T + beta C and no
other position changes. -/
theorem C65_syrk {col lower noTrans : Bool} {n k : Nat} {alpha : R} {A : Nat → R} {ao lda : Nat} {beta : R} {C : Nat → R} {co ldc : Nat} (h : n ≤ ldc) :
    (∀ i < n, ∀ j < n, inTriangle lower i j → syrk col lower noTrans n k alpha A ao lda beta C co ldc (place col co ldc i j) =
      alpha * (∑ l ∈ Finset.range k, elem col noTrans A ao lda i l * elem col noTrans A ao lda j l) + beta * C (place col co ldc i j)) ∧
    (∀ p, (∀ i < n, ∀ j < n, inTriangle lower i j → p ≠ place col co ldc i j) → syrk col lower noTrans n k alpha A ao lda beta C co ldc p = C p) := by
  have := rec_good (R := R) (col := col) (lower := lower) (noTrans := noTrans) (k := k) (alpha := alpha) (A := A) (lda := lda) (beta := beta) (ldc := ldc)
    (n + 1) n C ao co (by omega) h
  unfold Good prod at this
  simp only [place_eq, elem_eq, tri_iff] at this
  exact this

/-- A 33 by 33 lower triangle, one column in A: three blocks. -/
example : (List.range 4).map (fun t => syrk true true true 33 1 (1 : Int) (fun p => (p : Int) + 1) 0 33 2 (fun p => (p : Int)) 0 40 (t * 17 + t * 13 * 40))
    = [1, 18 * 14 + 2 * (17 + 13 * 40), 2 * 17 + 2 * 13 * 40, 3 * 17 + 3 * 13 * 40] := by decide +kernel

theorem forUp_sum (f : Nat → R) (a : R) : ∀ n, forUp n (fun j acc => acc + f j) a = a + ∑ j ∈ Finset.range n, f j := by
  intro n
  induction n with
  | zero => simp [forUp]
  | succ n ih =>
    rw [Finset.sum_range_succ, ← add_assoc, ← ih]
    rfl

theorem dotBlocks_eq (block : Nat) (x : Nat → R) (incx : Nat) (y : Nat → R) (incy n : Nat) : ∀ (fuel i : Nat) (acc : R), i ≤ n →
    dotBlocks block fuel n x incx y incy i acc = acc + ∑ j ∈ Finset.range (n - i), x ((i + j) * incx) * y ((i + j) * incy) := by
  intro fuel
  induction fuel with
  | zero =>
    intro i acc _
    rw [dotBlocks, forUp_sum, zero_add]
  | succ fuel ih =>
    intro i acc hi
    rw [dotBlocks]
    by_cases h : i + block ≤ n
    · rw [if_pos h, ih _ _ h, forUp_sum, zero_add, add_assoc]
      congr 1
      rw [show n - i = block + (n - (i + block)) by omega, Finset.sum_range_add]
      congr 1
      apply Finset.sum_congr rfl
      intro j _
      rw [Nat.add_assoc]
    · rw [if_neg h, forUp_sum, zero_add]

/-- The property C66 for `cblas_dot`: all products, each once. -/
theorem C66_dot {n : Nat} {x : Nat → R} {incx : Nat} {y : Nat → R} {incy : Nat} :
    dot n x incx y incy = ∑ j ∈ Finset.range n, x (j * incx) * y (j * incy) := by
  unfold dot
  rw [dotBlocks_eq _ _ _ _ _ _ _ _ _ (Nat.zero_le n), zero_add, Nat.sub_zero]
  apply Finset.sum_congr rfl
  intro j _
  rw [Nat.zero_add]

example : dot 3 (fun p => (p : Int) + 1) 2 (fun p => (p : Int) * p) 1 = 1 * 0 + 3 * 1 + 5 * 4 := by decide +kernel

/-- The property C66 for `cblas_gemv`: y becomes alpha op(A) x + beta y, nothing else changes. -/
theorem C66_gemv {col noTrans : Bool} {m n : Nat} {alpha : R} {A : Nat → R} {lda : Nat} {x : Nat → R} {incx : Nat} {beta : R} {y : Nat → R} {incy : Nat}
    (h : incy ≠ 0) :
    (∀ i < (if noTrans then m else n), gemv col noTrans m n alpha A lda x incx beta y incy (i * incy) =
      alpha * (∑ l ∈ Finset.range (if noTrans then n else m), elem col noTrans A 0 lda i l * x (l * incx)) + beta * y (i * incy)) ∧
    (∀ p, (∀ i < (if noTrans then m else n), p ≠ i * incy) → gemv col noTrans m n alpha A lda x incx beta y incy p = y p) := by
  unfold gemv
  by_cases h1 : incx = 1 ∧ incy = 1
  · obtain ⟨rfl, rfl⟩ := h1
    rw [if_pos (show 1 = 1 ∧ 1 = 1 from ⟨rfl, rfl⟩)]
    obtain ⟨g1, g2⟩ := gemm_spec (R := R) (col := col) (ntA := noTrans) (ntB := true) (m := if noTrans then m else n) (n := 1) (k := if noTrans then n else m)
      (alpha := alpha) (A := A) (ao := 0) (lda := lda) (B := x) (bo := 0) (ldb := if col then (if noTrans then n else m) else 1) (beta := beta) (C := y) (co := 0)
      (ldc := if col then (if noTrans then m else n) else 1)
      (fun i hi j hj => by cases col; exacts [hj, hi])
    have e : ∀ ld i, 0 + addr col (if col then ld else 1) i 0 = i := by
      intro ld i
      unfold addr
      cases col <;> simp
    refine ⟨?_, ?_⟩
    · intro i hi
      have := g1 i hi 0 (by omega)
      rw [e] at this
      rw [Nat.mul_one, this]
      congr 2
      apply Finset.sum_congr rfl
      intro l _
      rw [if_pos rfl, e, Nat.mul_one]
      congr 1
      exact elem_eq (R := R) (ao := 0)
    · intro p hp
      apply g2
      intro i hi j hj
      have : j = 0 := by omega
      rw [this, e]
      have := hp i hi
      omega
  · rw [if_neg h1]
    have inj : ∀ N, ∀ j < N, ∀ j' < N, j * incy = j' * incy → j = j' := fun N j _ j' _ he => Nat.eq_of_mul_eq_mul_right (by omega) he
    cases noTrans
    · simp only [Bool.false_eq_true, if_false]
      have := row_spec (R := R) (fun i => i * incy) (fun j c => beta * c + alpha * forUp m (fun i acc => acc + (if col then A (i + j * lda) else A (j + i * lda)) * x (i * incx)) 0)
        y n (inj n)
      refine ⟨fun i hi => ?_, this.2⟩
      refine (this.1 i hi).trans ?_
      rw [forUp_sum, zero_add, add_comm]
      congr 2
      apply Finset.sum_congr rfl
      intro l _
      congr 1
      cases col <;> simp [elem]
    · simp only [if_true]
      have := row_spec (R := R) (fun i => i * incy) (fun i c => beta * c + alpha * forUp n (fun j acc => acc + (if col then A (i + j * lda) else A (j + i * lda)) * x (j * incx)) 0)
        y m (inj m)
      refine ⟨fun i hi => ?_, this.2⟩
      refine (this.1 i hi).trans ?_
      rw [forUp_sum, zero_add, add_comm]
      congr 2
      apply Finset.sum_congr rfl
      intro l _
      congr 1
      cases col <;> simp [elem]

example : (List.range 5).map (gemv true false 2 2 (3 : Int) (fun p => (p : Int) + 1) 4 (fun p => (p : Int)) 1 1 (fun _ => 7) 3) = [13, 7, 7, 25, 7] := by decide +kernel
example : (List.range 3).map (gemv false true 2 2 (3 : Int) (fun p => (p : Int) + 1) 4 (fun p => (p : Int)) 1 1 (fun _ => 7) 1) = [13, 25, 7] := by decide +kernel

/-- The property C66 for `omatcopy`: B is alpha A or its transpose, nothing else changes. -/
theorem C66_omatcopy {transpose : Bool} {m n : Nat} {alpha : R} {A : Nat → R} {lda : Nat} {B : Nat → R} {ldb : Nat} (h : (if transpose then n else m) ≤ ldb) :
    (∀ i < m, ∀ j < n, omatcopy transpose m n alpha A lda B ldb (if transpose then j + i * ldb else i + j * ldb) = alpha * A (i + j * lda)) ∧
    (∀ p, (∀ i < m, ∀ j < n, p ≠ if transpose then j + i * ldb else i + j * ldb) → omatcopy transpose m n alpha A lda B ldb p = B p) := by
  unfold omatcopy
  cases transpose
  · simp only [Bool.false_eq_true, if_false] at h ⊢
    rw [if_pos trivial]
    obtain ⟨h1, h2⟩ := loop_spec (R := R) m (fun j i => i + j * ldb) (fun j i _ => alpha * A (i + j * lda)) B n
      (fun j _ i hi j' _ i' hi' he => (lin_inj (by omega) (by omega) he).symm)
    exact ⟨fun i hi j hj => h1 j hj i hi, fun p hp => h2 p (fun j hj i hi => hp i hi j hj)⟩
  · simp only [if_true] at h ⊢
    rw [if_neg (by decide)]
    obtain ⟨h1, h2⟩ := loop_spec (R := R) m (fun j i => j + i * ldb) (fun j i _ => alpha * A (i + j * lda)) B n
      (fun j hj i hi j' hj' i' hi' he => lin_inj (by omega) (by omega) he)
    exact ⟨fun i hi j hj => h1 j hj i hi, fun p hp => h2 p (fun j hj i hi => hp i hi j hj)⟩

example : (List.range 6).map (omatcopy true 2 2 (3 : Int) (fun p => (p : Int)) 4 (fun _ => -1) 3) = [0, 12, -1, 3, 15, -1] := by decide +kernel

end Verif.HalfBlas
