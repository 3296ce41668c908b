import Verif.HalfBlas.Model
import Mathlib.Tactic.Ring
import Mathlib.Tactic.Linarith

/-! Loops that write a matrix, and the recursion of `cblas_syrk`. -/
namespace Verif.HalfBlas

variable {R : Type} [CommRing R]

omit [CommRing R] in
theorem row_spec (g : Nat → Nat) (h : Nat → R → R) (s : Nat → R) : ∀ m, (∀ j < m, ∀ j' < m, g j = g j' → j = j') →
    (∀ j < m, forUp m (fun j s => put s (g j) (h j (s (g j)))) s (g j) = h j (s (g j))) ∧
    (∀ p, (∀ j < m, p ≠ g j) → forUp m (fun j s => put s (g j) (h j (s (g j)))) s p = s p) := by
  intro m
  induction m with
  | zero => exact fun _ => ⟨by omega, fun _ _ => rfl⟩
  | succ m ih =>
    intro hi
    obtain ⟨h1, h2⟩ := ih (fun j hj j' hj' => hi j (by omega) j' (by omega))
    refine ⟨?_, ?_⟩
    · intro j hj
      show (if g j = g m then h m (forUp m (fun j s => put s (g j) (h j (s (g j)))) s (g m)) else _) = _
      by_cases hjm : j = m
      · subst hjm
        rw [if_pos rfl, h2 _ (fun j' hj' he => by have := hi j (by omega) j' (by omega) he; omega)]
      · rw [if_neg (fun he => hjm (hi j hj m (by omega) he))]
        exact h1 j (by omega)
    · intro p hp
      show put _ (g m) _ p = _
      unfold put
      rw [if_neg (hp m (by omega))]
      exact h2 p (fun j hj => hp j (by omega))

theorem loop_spec (m : Nat) (idx : Nat → Nat → Nat) (f : Nat → Nat → R → R) (mem : Nat → R) : ∀ n,
    (∀ i < n, ∀ j < m, ∀ i' < n, ∀ j' < m, idx i j = idx i' j' → i = i' ∧ j = j') →
    (∀ i < n, ∀ j < m, loop n m idx f mem (idx i j) = f i j (mem (idx i j))) ∧
    (∀ p, (∀ i < n, ∀ j < m, p ≠ idx i j) → loop n m idx f mem p = mem p) := by
  intro n
  induction n with
  | zero => exact fun _ => ⟨by omega, fun _ _ => rfl⟩
  | succ n ih =>
    intro hi
    obtain ⟨h1, h2⟩ := ih (fun i a j b i' c j' d => hi i (by omega) j b i' (by omega) j' d)
    obtain ⟨r1, r2⟩ := row_spec (idx n) (f n) (loop n m idx f mem) m
      (fun j hj j' hj' he => (hi n (by omega) j hj n (by omega) j' hj' he).2)
    have e : loop (n + 1) m idx f mem = forUp m (fun j s => put s (idx n j) (f n j (s (idx n j)))) (loop n m idx f mem) := rfl
    rw [e]
    refine ⟨?_, ?_⟩
    · intro i hin j hj
      by_cases he : i = n
      · subst he
        rw [r1 j hj, h2 _ (fun i' hi' j' hj' h => by have := (hi i (by omega) j hj i' (by omega) j' hj' h).1; omega)]
      · rw [r2 _ (fun j' hj' h => he (hi i hin j hj n (by omega) j' hj' h).1)]
        exact h1 i (by omega) j hj
    · intro p hp
      rw [r2 p (fun j hj => hp n (by omega) j hj)]
      exact h2 p (fun i hin j hj => hp i (by omega) j hj)

theorem lin_inj {ld a b a' b' : Nat} (ha : a < ld) (ha' : a' < ld) (h : a + b * ld = a' + b' * ld) : a = a' ∧ b = b' := by
  have h1 : (a + b * ld) % ld = a := by rw [Nat.add_mul_mod_self_right, Nat.mod_eq_of_lt ha]
  have h2 : (a' + b' * ld) % ld = a' := by rw [Nat.add_mul_mod_self_right, Nat.mod_eq_of_lt ha']
  have e : a = a' := by rw [← h1, ← h2, h]
  subst e
  have : b * ld = b' * ld := by omega
  exact ⟨rfl, Nat.eq_of_mul_eq_mul_right (by omega) this⟩

/-- The rows (or columns) of the matrix fit into the leading dimension. -/
theorem addr_inj {col : Bool} {ld i j i' j' : Nat} (h1 : (if col then i else j) < ld) (h2 : (if col then i' else j') < ld)
    (h : addr col ld i j = addr col ld i' j') : i = i' ∧ j = j' := by
  unfold addr at h
  cases col
  · exact (lin_inj h1 h2 h).symm
  · exact lin_inj h1 h2 h

/-- The triangle. -/
def tri (lower : Bool) (i j : Nat) : Prop := if lower then j ≤ i else i ≤ j

instance (lower : Bool) (i j : Nat) : Decidable (tri lower i j) := by unfold tri; infer_instance

/-- Position of element (i, l) of op(A). -/
def opAddr (col noTrans : Bool) (ld i l : Nat) : Nat := if noTrans then addr col ld i l else addr col ld l i

/-- Element (i, j) of op(A) op(A)^T. -/
def prod (col noTrans : Bool) (k : Nat) (A : Nat → R) (ao lda i j : Nat) : R :=
  ∑ l ∈ Finset.range k, A (ao + opAddr col noTrans lda i l) * A (ao + opAddr col noTrans lda j l)

/-- What `cblas_syrk` must do. -/
def Good (col lower noTrans : Bool) (n k : Nat) (alpha : R) (A : Nat → R) (ao lda : Nat) (beta : R) (C : Nat → R) (co ldc : Nat) (C' : Nat → R) : Prop :=
  (∀ i < n, ∀ j < n, tri lower i j → C' (co + addr col ldc i j) = alpha * prod col noTrans k A ao lda i j + beta * C (co + addr col ldc i j)) ∧
  (∀ p, (∀ i < n, ∀ j < n, tri lower i j → p ≠ co + addr col ldc i j) → C' p = C p)

theorem fit {col : Bool} {n ld i j : Nat} (h : n ≤ ld) (hi : i < n) (hj : j < n) : (if col then i else j) < ld := by
  split <;> omega

theorem addr_ne {col : Bool} {co n ld i j i' j' : Nat} (h : n ≤ ld) (hi : i < n) (hj : j < n) (hi' : i' < n) (hj' : j' < n) (hne : i ≠ i' ∨ j ≠ j') :
    co + addr col ld i j ≠ co + addr col ld i' j' := by
  intro he
  have := addr_inj (fit h hi hj) (fit h hi' hj') (Nat.add_left_cancel he)
  omega

theorem leaf_good {col lower noTrans : Bool} {n k : Nat} {alpha : R} {A : Nat → R} {ao lda : Nat} {beta : R} {C : Nat → R} {co ldc : Nat}
    (h : n ≤ ldc) : Good col lower noTrans n k alpha A ao lda beta C co ldc (syrkLeaf col lower noTrans n k alpha A ao lda beta C co ldc) := by
  -- the packed copy of op(A)
  have hA : ∀ (rows cols : Nat) (Af : Nat → R),
      Af = (if col then loop cols rows (fun j i => i + j * (if col then rows else cols)) (fun j i _ => A (ao + (i + j * lda))) (fun _ => 0)
        else loop rows cols (fun i j => j + i * (if col then rows else cols)) (fun i j _ => A (ao + (j + i * lda))) (fun _ => 0)) →
      ∀ i < rows, ∀ j < cols, Af (addr col (if col then rows else cols) i j) = A (ao + addr col lda i j) := by
    intro rows cols Af e i hi j hj
    subst e
    cases col
    · exact (loop_spec (R := R) cols (fun i j => j + i * cols) (fun i j _ => A (ao + (j + i * lda))) (fun _ => 0) rows
        (fun i _ j hj i' _ j' hj' he => (lin_inj hj hj' he).symm)).1 i hi j hj
    · exact (loop_spec (R := R) rows (fun j i => i + j * rows) (fun j i _ => A (ao + (i + j * lda))) (fun _ => 0) cols
        (fun j _ i hi j' _ i' hi' he => (lin_inj hi hi' he).symm)).1 j hj i hi
  -- the packed copy of C
  have hC : ∀ Cf : Nat → R, Cf = (if col then loop n n (fun j i => i + j * n) (fun j i _ => C (co + (i + j * ldc))) (fun _ => 0)
        else loop n n (fun i j => j + i * n) (fun i j _ => C (co + (j + i * ldc))) (fun _ => 0)) →
      ∀ i < n, ∀ j < n, Cf (addr col n i j) = C (co + addr col ldc i j) := by
    intro Cf e i hi j hj
    subst e
    cases col
    · exact (loop_spec (R := R) n (fun i j => j + i * n) (fun i j _ => C (co + (j + i * ldc))) (fun _ => 0) n
        (fun i _ j hj i' _ j' hj' he => (lin_inj hj hj' he).symm)).1 i hi j hj
    · exact (loop_spec (R := R) n (fun j i => i + j * n) (fun j i _ => C (co + (i + j * ldc))) (fun _ => 0) n
        (fun j _ i hi j' _ i' hi' he => (lin_inj hi hi' he).symm)).1 j hj i hi
  -- the copy back
  have hB : ∀ (Cf C' : Nat → R), C' = (if col then loop n n (fun j i => co + (i + j * ldc)) (fun j i _ => Cf (i + j * n)) C
        else loop n n (fun i j => co + (j + i * ldc)) (fun i j _ => Cf (j + i * n)) C) →
      (∀ i < n, ∀ j < n, C' (co + addr col ldc i j) = Cf (addr col n i j)) ∧
      (∀ p, (∀ i < n, ∀ j < n, p ≠ co + addr col ldc i j) → C' p = C p) := by
    intro Cf C' e
    subst e
    cases col
    · have := loop_spec (R := R) n (fun i j => co + (j + i * ldc)) (fun i j _ => Cf (j + i * n)) C n
        (fun i _ j hj i' _ j' hj' he => (lin_inj (by omega) (by omega) (Nat.add_left_cancel he)).symm)
      exact ⟨this.1, this.2⟩
    · have := loop_spec (R := R) n (fun j i => co + (i + j * ldc)) (fun j i _ => Cf (i + j * n)) C n
        (fun j _ i hi j' _ i' hi' he => (lin_inj (by omega) (by omega) (Nat.add_left_cancel he)).symm)
      exact ⟨fun i hi j hj => this.1 j hj i hi, fun p hp => this.2 p (fun j hj i hi => hp i hi j hj)⟩
  unfold syrkLeaf
  dsimp only
  generalize hAf : (if col then loop (if noTrans then k else n) (if noTrans then n else k) _ _ _ else _ : Nat → R) = Af
  generalize hCf : (if col then loop n n _ _ (fun _ => (0 : R)) else _ : Nat → R) = Cf
  have hA' := hA _ _ Af hAf.symm
  have hC' := hC _ hCf.symm
  obtain ⟨b1, b2⟩ := hB _ _ rfl
  have hS := loop_spec (R := R) n (fun i j => addr col n i j) (fun i j c =>
    if (if lower then j ≤ i else i ≤ j) then
      alpha * (∑ l ∈ Finset.range k, (if noTrans then Af (addr col (if col then (if noTrans then n else k) else (if noTrans then k else n)) i l) *
          Af (addr col (if col then (if noTrans then n else k) else (if noTrans then k else n)) j l)
        else Af (addr col (if col then (if noTrans then n else k) else (if noTrans then k else n)) l i) *
          Af (addr col (if col then (if noTrans then n else k) else (if noTrans then k else n)) l j))) + beta * c
    else c) Cf n (fun i hi j hj i' hi' j' hj' he => addr_inj (fit (Nat.le_refl n) hi hj) (fit (Nat.le_refl n) hi' hj') he)
  refine ⟨?_, ?_⟩
  · intro i hi j hj ht
    rw [b1 i hi j hj]
    unfold ssyrk
    refine (hS.1 i hi j hj).trans ?_
    rw [if_pos (show (if lower then j ≤ i else i ≤ j) from ht), hC' i hi j hj]
    congr 2
    unfold prod opAddr
    apply Finset.sum_congr rfl
    intro l hl
    have hl' := Finset.mem_range.mp hl
    cases noTrans
    · simp only [Bool.false_eq_true, if_false] at hA' ⊢
      rw [hA' l hl' i hi, hA' l hl' j hj]
    · simp only [if_true] at hA' ⊢
      rw [hA' i hi l hl', hA' j hj l hl']
  · intro p hp
    by_cases hq : ∃ i < n, ∃ j < n, p = co + addr col ldc i j
    · obtain ⟨i, hi, j, hj, e⟩ := hq
      have ht : ¬ tri lower i j := fun ht => hp i hi j hj ht e
      rw [e, b1 i hi j hj]
      unfold ssyrk
      refine (hS.1 i hi j hj).trans ?_
      rw [if_neg (show ¬ (if lower then j ≤ i else i ≤ j) from ht), hC' i hi j hj]
    · exact b2 p (fun i hi j hj e => hq ⟨i, hi, j, hj, e⟩)

theorem gemm_spec {col ntA ntB : Bool} {m n k : Nat} {alpha : R} {A : Nat → R} {ao lda : Nat} {B : Nat → R} {bo ldb : Nat} {beta : R} {C : Nat → R} {co ldc : Nat}
    (hc : ∀ i < m, ∀ j < n, (if col then i else j) < ldc) :
    (∀ i < m, ∀ j < n, gemm col ntA ntB m n k alpha A ao lda B bo ldb beta C co ldc (co + addr col ldc i j) =
      alpha * (∑ l ∈ Finset.range k, A (ao + if ntA then addr col lda i l else addr col lda l i) *
        B (bo + if ntB then addr col ldb l j else addr col ldb j l)) + beta * C (co + addr col ldc i j)) ∧
    (∀ p, (∀ i < m, ∀ j < n, p ≠ co + addr col ldc i j) → gemm col ntA ntB m n k alpha A ao lda B bo ldb beta C co ldc p = C p) :=
  loop_spec (R := R) n (fun i j => co + addr col ldc i j) _ C m
    (fun i hi j hj i' hi' j' hj' he => addr_inj (hc i hi j hj) (hc i' hi' j' hj') (Nat.add_left_cancel he))

theorem addr_shift {col : Bool} {ld i j a b : Nat} : addr col ld (a + i) (b + j) = addr col ld a b + addr col ld i j := by
  unfold addr
  split <;> ring

theorem opAddr_shift {col nt : Bool} {ld i l a : Nat} : opAddr col nt ld (a + i) l = opAddr col nt ld a 0 + opAddr col nt ld i l := by
  unfold opAddr
  split
  · have := addr_shift (col := col) (ld := ld) (i := i) (j := l) (a := a) (b := 0)
    rwa [Nat.zero_add] at this
  · have := addr_shift (col := col) (ld := ld) (i := l) (j := i) (a := 0) (b := a)
    rwa [Nat.zero_add] at this

theorem prod_shift {col nt : Bool} {k : Nat} {A : Nat → R} {ao lda i j a : Nat} :
    prod col nt k A (ao + opAddr col nt lda a 0) lda i j = prod col nt k A ao lda (a + i) (a + j) := by
  unfold prod
  apply Finset.sum_congr rfl
  intro l _
  rw [opAddr_shift (i := i), opAddr_shift (i := j), Nat.add_assoc, Nat.add_assoc]

theorem rec_good {col lower noTrans : Bool} {k : Nat} {alpha : R} {A : Nat → R} {lda : Nat} {beta : R} {ldc : Nat} : ∀ (fuel n : Nat) (C : Nat → R) (ao co : Nat), n < fuel →
    n ≤ ldc → Good col lower noTrans n k alpha A ao lda beta C co ldc (syrkRec col lower noTrans fuel n k alpha A ao lda beta C co ldc) := by
  intro fuel
  induction fuel with
  | zero => intro n C ao co h; omega
  | succ fuel ih =>
    intro n C ao co hf h
    rw [syrkRec]
    by_cases hl : n ≤ leafSize
    · rw [if_pos hl]
      exact leaf_good h
    rw [if_neg hl]
    have hl' : 32 < n := by
      have : leafSize = 32 := rfl
      omega
    have hn1 : ∃ n1, n1 = n / 2 := ⟨_, rfl⟩
    obtain ⟨n1, hn1⟩ := hn1
    obtain ⟨n2, hn2⟩ : ∃ n2, n2 = n - n1 := ⟨_, rfl⟩
    dsimp only
    rw [← hn1, ← hn2]
    have ea : (if col then (if noTrans then ao + n1 else ao + n1 * lda) else (if noTrans then ao + n1 * lda else ao + n1)) = ao + opAddr col noTrans lda n1 0 := by
      unfold opAddr addr
      cases col <;> cases noTrans <;> simp
    have ec : (if col then co + n1 + n1 * ldc else co + n1 * ldc + n1) = co + addr col ldc n1 n1 := by
      unfold addr
      cases col
      · simp only [Bool.false_eq_true, if_false]; omega
      · simp only [if_true]; omega
    rw [ea, ec]
    obtain ⟨g1, g1'⟩ := ih n1 C ao co (by omega) (by omega)
    generalize syrkRec col lower noTrans fuel n1 k alpha A ao lda beta C co ldc = C1 at g1 g1' ⊢
    obtain ⟨g2, g2'⟩ := ih n2 C1 (ao + opAddr col noTrans lda n1 0) (co + addr col ldc n1 n1) (by omega) (by omega)
    generalize syrkRec col lower noTrans fuel n2 k alpha A (ao + opAddr col noTrans lda n1 0) lda beta C1 (co + addr col ldc n1 n1) ldc = C2 at g2 g2' ⊢
    have s2 : ∀ i j, co + addr col ldc n1 n1 + addr col ldc i j = co + addr col ldc (n1 + i) (n1 + j) := by
      intro i j; rw [addr_shift]; omega
    simp only [s2, prod_shift] at g2 g2'
    have trs : ∀ i j, tri lower (n1 + i) (n1 + j) ↔ tri lower i j := by
      intro i j; unfold tri; split <;> omega
    -- after the two triangles
    have d1 : ∀ i < n1, ∀ j < n1, tri lower i j → C2 (co + addr col ldc i j) = alpha * prod col noTrans k A ao lda i j + beta * C (co + addr col ldc i j) := by
      intro i hi j hj ht
      rw [g2' _ (fun i' hi' j' hj' _ => addr_ne h (by omega) (by omega) (by omega) (by omega) (by omega))]
      exact g1 i hi j hj ht
    have d2 : ∀ i < n2, ∀ j < n2, tri lower i j → C2 (co + addr col ldc (n1 + i) (n1 + j)) =
        alpha * prod col noTrans k A ao lda (n1 + i) (n1 + j) + beta * C (co + addr col ldc (n1 + i) (n1 + j)) := by
      intro i hi j hj ht
      rw [g2 i hi j hj ht, g1' _ (fun i' hi' j' hj' _ => addr_ne h (by omega) (by omega) (by omega) (by omega) (by omega))]
    have d3 : ∀ p, (∀ i < n1, ∀ j < n1, tri lower i j → p ≠ co + addr col ldc i j) →
        (∀ i < n2, ∀ j < n2, tri lower i j → p ≠ co + addr col ldc (n1 + i) (n1 + j)) → C2 p = C p := by
      intro p h1 h2
      rw [g2' p h2, g1' p h1]
    cases lower
    · simp only [Bool.false_eq_true, if_false]
      have eo : (if col then co + n1 * ldc else co + n1) = co + addr col ldc 0 n1 := by
        unfold addr
        cases col <;> simp
      rw [eo]
      obtain ⟨m1, m2⟩ := gemm_spec (R := R) (col := col) (ntA := noTrans) (ntB := if noTrans then false else true) (m := n1) (n := n2) (k := k) (alpha := alpha)
        (A := A) (ao := ao) (lda := lda) (B := A) (bo := ao + opAddr col noTrans lda n1 0) (ldb := lda) (beta := beta) (C := C2) (co := co + addr col ldc 0 n1) (ldc := ldc)
        (fun i hi j hj => fit h (by omega) (by omega))
      have s3 : ∀ i j, co + addr col ldc 0 n1 + addr col ldc i j = co + addr col ldc i (n1 + j) := by
        intro i j
        have := addr_shift (col := col) (ld := ldc) (i := i) (j := j) (a := 0) (b := n1)
        rw [Nat.zero_add] at this
        omega
      have hp : ∀ i j, (∑ l ∈ Finset.range k, A (ao + if noTrans then addr col lda i l else addr col lda l i) *
          A (ao + opAddr col noTrans lda n1 0 + if (if noTrans then false else true) then addr col lda l j else addr col lda j l)) = prod col noTrans k A ao lda i (n1 + j) := by
        intro i j
        unfold prod
        apply Finset.sum_congr rfl
        intro l _
        rw [opAddr_shift, Nat.add_assoc]
        unfold opAddr
        cases noTrans <;> rfl
      simp only [s3, hp] at m1 m2
      refine ⟨?_, ?_⟩
      · intro i hi j hj ht
        have ht' : i ≤ j := ht
        by_cases c1 : j < n1
        · rw [m2 _ (fun i' hi' j' hj' => addr_ne h hi hj (by omega) (by omega) (by omega))]
          exact d1 i (by omega) j c1 ht
        · by_cases c2 : i < n1
          · have := m1 i c2 (j - n1) (by omega)
            rw [show n1 + (j - n1) = j by omega] at this
            rw [this, d3 _ (fun i' hi' j' hj' _ => addr_ne h hi hj (by omega) (by omega) (by omega))
              (fun i' hi' j' hj' _ => addr_ne h hi hj (by omega) (by omega) (by omega))]
          · rw [m2 _ (fun i' hi' j' hj' => addr_ne h hi hj (by omega) (by omega) (by omega))]
            have := d2 (i - n1) (by omega) (j - n1) (by omega) (show i - n1 ≤ j - n1 by omega)
            rwa [show n1 + (j - n1) = j by omega, show n1 + (i - n1) = i by omega] at this
      · intro p hp
        rw [m2 p (fun i hi j hj => hp i (by omega) (n1 + j) (by omega) (show i ≤ n1 + j by omega))]
        exact d3 p (fun i hi j hj ht => hp i (by omega) j (by omega) ht)
          (fun i hi j hj ht => hp (n1 + i) (by omega) (n1 + j) (by omega) ((trs i j).mpr ht))
    · simp only [if_true]
      have eo : (if col then co + n1 else co + n1 * ldc) = co + addr col ldc n1 0 := by
        unfold addr
        cases col <;> simp
      rw [eo]
      obtain ⟨m1, m2⟩ := gemm_spec (R := R) (col := col) (ntA := noTrans) (ntB := if noTrans then false else true) (m := n2) (n := n1) (k := k) (alpha := alpha)
        (A := A) (ao := ao + opAddr col noTrans lda n1 0) (lda := lda) (B := A) (bo := ao) (ldb := lda) (beta := beta) (C := C2) (co := co + addr col ldc n1 0) (ldc := ldc)
        (fun i hi j hj => fit h (by omega) (by omega))
      have s3 : ∀ i j, co + addr col ldc n1 0 + addr col ldc i j = co + addr col ldc (n1 + i) j := by
        intro i j
        have := addr_shift (col := col) (ld := ldc) (i := i) (j := j) (a := n1) (b := 0)
        rw [Nat.zero_add] at this
        omega
      have hp : ∀ i j, (∑ l ∈ Finset.range k, A (ao + opAddr col noTrans lda n1 0 + if noTrans then addr col lda i l else addr col lda l i) *
          A (ao + if (if noTrans then false else true) then addr col lda l j else addr col lda j l)) = prod col noTrans k A ao lda (n1 + i) j := by
        intro i j
        unfold prod
        apply Finset.sum_congr rfl
        intro l _
        rw [opAddr_shift, Nat.add_assoc]
        unfold opAddr
        cases noTrans <;> rfl
      simp only [s3, hp] at m1 m2
      refine ⟨?_, ?_⟩
      · intro i hi j hj ht
        have ht' : j ≤ i := ht
        by_cases c1 : i < n1
        · rw [m2 _ (fun i' hi' j' hj' => addr_ne h hi hj (by omega) (by omega) (by omega))]
          exact d1 i c1 j (by omega) ht
        · by_cases c2 : j < n1
          · have := m1 (i - n1) (by omega) j c2
            rw [show n1 + (i - n1) = i by omega] at this
            rw [this, d3 _ (fun i' hi' j' hj' _ => addr_ne h hi hj (by omega) (by omega) (by omega))
              (fun i' hi' j' hj' _ => addr_ne h hi hj (by omega) (by omega) (by omega))]
          · rw [m2 _ (fun i' hi' j' hj' => addr_ne h hi hj (by omega) (by omega) (by omega))]
            have := d2 (i - n1) (by omega) (j - n1) (by omega) (show j - n1 ≤ i - n1 by omega)
            rwa [show n1 + (j - n1) = j by omega, show n1 + (i - n1) = i by omega] at this
      · intro p hp
        rw [m2 p (fun i hi j hj => hp (n1 + i) (by omega) j (by omega) (show j ≤ n1 + i by omega))]
        exact d3 p (fun i hi j hj ht => hp i (by omega) j (by omega) ht)
          (fun i hi j hj ht => hp (n1 + i) (by omega) (n1 + j) (by omega) ((trs i j).mpr ht))

end Verif.HalfBlas
