/- Property C37: changing storage order keeps the matrix. -/
import Verif.Copies.Model
import Mathlib.Tactic.Common
import Mathlib.Tactic.Ring
namespace Verif.Copies

variable {α β : Type}

/-! #### Specification -/

/-- Where cell (i, j) lives in a buffer with leading dimension `ld`. -/
def cell : Order → Nat → Nat → Nat → Nat
  | .rowMajor, ld, i, j => i * ld + j
  | .colMajor, ld, i, j => j * ld + i

/-- A buffer of that order, shape and leading dimension is large enough and `ld` is legal. -/
def Fits (o : Order) (nRows nCols ld len : Nat) : Prop :=
  (match o with | .rowMajor => nCols ≤ ld | .colMajor => nRows ≤ ld) ∧
  ∀ i j, i < nRows → j < nCols → cell o ld i j < len

/-- `B'` is `B` with every matrix cell replaced by the cell of `A`; everything else (padding)
is as before. -/
def CopiedTo (f : α → β) (oa ob : Order) (nRows nCols lda ldb : Nat) (A : List α) (B B' : List β) : Prop :=
  B'.length = B.length ∧
  (∀ i j, i < nRows → j < nCols → B'[cell ob ldb i j]? = A[cell oa lda i j]?.map f) ∧
  (∀ k, (∀ i j, i < nRows → j < nCols → k ≠ cell ob ldb i j) → B'[k]? = B[k]?)

/-! #### Lemmas -/

theorem mem_blockStarts (n B start x : Nat) (hB : 0 < B) :
    x ∈ blockStarts n B start ↔ x < n ∧ ∃ q, x = start + q * B := by
  induction start using blockStarts.induct (n := n) (B := B) with
  | case1 s h ih =>
    rw [blockStarts, dif_pos h, List.mem_cons, ih]
    constructor
    · rintro (rfl | ⟨h1, q, rfl⟩)
      · exact ⟨h.1, 0, by simp⟩
      · exact ⟨h1, q + 1, by ring⟩
    · rintro ⟨h1, q, rfl⟩
      cases q with
      | zero => left; simp
      | succ q => right; exact ⟨h1, q, by ring⟩
  | case2 s h =>
    rw [blockStarts, dif_neg h]
    constructor
    · intro hx; cases hx
    · rintro ⟨h1, q, rfl⟩; omega

theorem mem_upTo (lo hi x : Nat) : x ∈ upTo lo hi ↔ lo ≤ x ∧ x < hi := by
  simp only [upTo, List.mem_map, List.mem_range]
  constructor
  · rintro ⟨a, h, rfl⟩; omega
  · intro h; exact ⟨x - lo, by omega, by omega⟩

theorem exists_block (n B x : Nat) (hB : 0 < B) :
    (∃ b ∈ blockStarts n B 0, b ≤ x ∧ x < min (b + B) n) ↔ x < n := by
  constructor
  · rintro ⟨b, _, h1, h2⟩; omega
  · intro hx
    refine ⟨x / B * B, ?_, Nat.div_mul_le_self x B, ?_⟩
    · rw [mem_blockStarts _ _ _ _ hB]
      exact ⟨by have := Nat.div_mul_le_self x B; omega, x / B, by simp⟩
    · have := Nat.lt_mul_div_succ x hB
      rw [Nat.mul_add, Nat.mul_comm] at this
      omega

theorem mem_blockedPairs (n1 n2 B x y : Nat) (hB : 0 < B) :
    (x, y) ∈ blockedPairs n1 n2 B ↔ x < n1 ∧ y < n2 := by
  rw [← exists_block n1 B x hB, ← exists_block n2 B y hB]
  simp only [blockedPairs, List.mem_flatMap, List.mem_map, mem_upTo, Prod.mk.injEq]
  constructor
  · rintro ⟨b1, h1, b2, h2, x1, h3, x2, h4, rfl, rfl⟩
    exact ⟨⟨b1, h1, h3⟩, ⟨b2, h2, h4⟩⟩
  · rintro ⟨⟨b1, h1, h3⟩, ⟨b2, h2, h4⟩⟩
    exact ⟨b1, h1, b2, h2, x, h3, y, h4, rfl, rfl⟩

/-- Copies that never write one destination from two sources are order independent. -/
theorem exec_spec (f : α → β) (A : List α) : ∀ (ws : List (Nat × Nat)) (B : List β),
    (∀ p ∈ ws, p.1 < B.length ∧ p.2 < A.length) →
    (∀ p ∈ ws, ∀ q ∈ ws, p.1 = q.1 → p.2 = q.2) →
    ∃ B', exec f A ws B = some B' ∧ B'.length = B.length ∧
      (∀ p ∈ ws, B'[p.1]? = A[p.2]?.map f) ∧ (∀ k, (∀ p ∈ ws, k ≠ p.1) → B'[k]? = B[k]?) := by
  intro ws
  induction ws with
  | nil => intro B _ _; exact ⟨B, rfl, rfl, by simp, by simp⟩
  | cons w ws ih =>
    obtain ⟨d, s⟩ := w
    intro B hb hf
    have h0 := hb (d, s) (by simp)
    obtain ⟨B', h1, h2, h3, h4⟩ := ih (B.set d (f A[s])) (by
      intro p hp; simpa using hb p (by simp [hp])) (by
      intro p hp q hq; exact hf p (by simp [hp]) q (by simp [hq]))
    refine ⟨B', ?_, by simpa using h2, ?_, ?_⟩
    · simp only [exec, List.getElem?_eq_getElem h0.2, Option.bind_eq_bind, Option.bind_some]
      rw [if_pos h0.1, h1]
    · intro p hp
      rcases List.mem_cons.mp hp with rfl | hp
      · by_cases hex : ∃ q ∈ ws, q.1 = d
        · obtain ⟨q, hq, hqd⟩ := hex
          have hs := hf (d, s) (by simp) q (by simp [hq]) hqd.symm
          have := h3 q hq
          simp only at hs
          rw [hqd, ← hs] at this
          exact this
        · rw [h4 d (by intro q hq h; exact hex ⟨q, hq, h.symm⟩)]
          simp [h0.1, List.getElem?_eq_getElem h0.2]
      · exact h3 p hp
    · intro k hk
      rw [h4 k (fun p hp => hk p (by simp [hp]))]
      have : k ≠ d := hk (d, s) (by simp)
      rw [List.getElem?_set_ne (Ne.symm this)]

theorem cell_inj {o : Order} {nRows nCols ld len : Nat} (hf : Fits o nRows nCols ld len)
    {i j i' j' : Nat} (hi : i < nRows) (hj : j < nCols) (hi' : i' < nRows) (hj' : j' < nCols)
    (h : cell o ld i j = cell o ld i' j') : i = i' ∧ j = j' := by
  have key : ∀ a b a' b' : Nat, b < ld → b' < ld → a * ld + b = a' * ld + b' → a = a' ∧ b = b' := by
    intro a b a' b' hb hb' h
    have h1 : a = a' := by
      have e1 : (a * ld + b) / ld = a := by
        rw [Nat.mul_comm, Nat.mul_add_div (by omega), Nat.div_eq_of_lt hb, Nat.add_zero]
      have e2 : (a' * ld + b') / ld = a' := by
        rw [Nat.mul_comm, Nat.mul_add_div (by omega), Nat.div_eq_of_lt hb', Nat.add_zero]
      rw [← e1, ← e2, h]
    subst h1; omega
  cases o with
  | rowMajor => exact key i j i' j' (Nat.lt_of_lt_of_le hj hf.1) (Nat.lt_of_lt_of_le hj' hf.1) h
  | colMajor => exact (key j i j' i' (Nat.lt_of_lt_of_le hi hf.1) (Nat.lt_of_lt_of_le hi' hf.1) h).symm

/-- A set of writes that contains exactly the cells does the copy, in any order. -/
theorem copied_of_mem (f : α → β) (oa ob : Order) (nRows nCols lda ldb : Nat) (A : List α) (B : List β)
    (ws : List (Nat × Nat))
    (hws : ∀ d s, (d, s) ∈ ws ↔ ∃ i j, i < nRows ∧ j < nCols ∧ d = cell ob ldb i j ∧ s = cell oa lda i j)
    (hA : Fits oa nRows nCols lda A.length) (hB : Fits ob nRows nCols ldb B.length) :
    ∃ B', exec f A ws B = some B' ∧ CopiedTo f oa ob nRows nCols lda ldb A B B' := by
  obtain ⟨B', h1, h2, h3, h4⟩ := exec_spec f A ws B (by
    rintro ⟨d, s⟩ hp
    obtain ⟨i, j, hi, hj, rfl, rfl⟩ := (hws d s).mp hp
    exact ⟨hB.2 i j hi hj, hA.2 i j hi hj⟩) (by
    rintro ⟨d, s⟩ hp ⟨d', s'⟩ hq heq
    obtain ⟨i, j, hi, hj, rfl, rfl⟩ := (hws d s).mp hp
    obtain ⟨i', j', hi', hj', rfl, rfl⟩ := (hws d' s').mp hq
    obtain ⟨rfl, rfl⟩ := cell_inj hB hi hj hi' hj' heq
    rfl)
  refine ⟨B', h1, h2, ?_, ?_⟩
  · intro i j hi hj
    exact h3 (cell ob ldb i j, cell oa lda i j) ((hws _ _).mpr ⟨i, j, hi, hj, rfl, rfl⟩)
  · intro k hk
    refine h4 k ?_
    rintro ⟨d, s⟩ hp
    obtain ⟨i, j, hi, hj, rfl, rfl⟩ := (hws d s).mp hp
    exact hk i j hi hj

/-! #### C37 -/

/-- C37.  Row-major to column-major, whatever order the threads perform the copies in. -/
theorem C37_row_to_column (nRows nCols lda ldb : Nat) (A B : List α)
    (hA : Fits .rowMajor nRows nCols lda A.length) (hB : Fits .colMajor nRows nCols ldb B.length)
    (ws : List (Nat × Nat)) (hp : ws.Perm (rowToColWrites nRows nCols lda ldb)) :
    ∃ B', exec id A ws B = some B' ∧ CopiedTo id .rowMajor .colMajor nRows nCols lda ldb A B B' := by
  refine copied_of_mem id _ _ _ _ _ _ A B ws ?_ hA hB
  intro d s
  rw [hp.mem_iff]
  simp only [rowToColWrites, List.mem_map, Prod.exists, Prod.mk.injEq, cell]
  constructor
  · rintro ⟨i, j, h, rfl, rfl⟩
    rw [mem_blockedPairs _ _ _ _ _ (by decide)] at h
    exact ⟨i, j, h.1, h.2, rfl, rfl⟩
  · rintro ⟨i, j, hi, hj, rfl, rfl⟩
    exact ⟨i, j, (mem_blockedPairs _ _ _ _ _ (by decide)).mpr ⟨hi, hj⟩, rfl, rfl⟩

/-- C37.  Column-major to row-major, in any order. -/
theorem C37_column_to_row (nRows nCols lda ldb : Nat) (A B : List α)
    (hA : Fits .colMajor nRows nCols lda A.length) (hB : Fits .rowMajor nRows nCols ldb B.length)
    (ws : List (Nat × Nat)) (hp : ws.Perm (colToRowWrites nRows nCols lda ldb)) :
    ∃ B', exec id A ws B = some B' ∧ CopiedTo id .colMajor .rowMajor nRows nCols lda ldb A B B' := by
  refine copied_of_mem id _ _ _ _ _ _ A B ws ?_ hA hB
  intro d s
  rw [hp.mem_iff]
  simp only [colToRowWrites, List.mem_map, Prod.exists, Prod.mk.injEq, cell]
  constructor
  · rintro ⟨j, i, h, rfl, rfl⟩
    rw [mem_blockedPairs _ _ _ _ _ (by decide)] at h
    exact ⟨i, j, h.2, h.1, by ring, by ring⟩
  · rintro ⟨i, j, hi, hj, rfl, rfl⟩
    exact ⟨j, i, (mem_blockedPairs _ _ _ _ _ (by decide)).mpr ⟨hj, hi⟩, by ring, by ring⟩

/-- C37.  Copying with a change of precision keeps the storage order and converts each cell. -/
theorem C37_convert_precision (f : α → β) (order : Order) (nRows nCols lda ldb : Nat) (A : List α) (B : List β)
    (hA : Fits order nRows nCols lda A.length) (hB : Fits order nRows nCols ldb B.length)
    (ws : List (Nat × Nat)) (hp : ws.Perm (convertWrites order nRows nCols lda ldb)) :
    ∃ B', exec f A ws B = some B' ∧ CopiedTo f order order nRows nCols lda ldb A B B' := by
  refine copied_of_mem f _ _ _ _ _ _ A B ws ?_ hA hB
  intro d s
  rw [hp.mem_iff]
  cases order with
  | rowMajor =>
    simp only [convertWrites, List.mem_map, Prod.exists, Prod.mk.injEq, cell]
    constructor
    · rintro ⟨i, j, h, rfl, rfl⟩
      rw [mem_blockedPairs _ _ _ _ _ (by decide)] at h
      exact ⟨i, j, h.1, h.2, rfl, rfl⟩
    · rintro ⟨i, j, hi, hj, rfl, rfl⟩
      exact ⟨i, j, (mem_blockedPairs _ _ _ _ _ (by decide)).mpr ⟨hi, hj⟩, rfl, rfl⟩
  | colMajor =>
    simp only [convertWrites, List.mem_map, Prod.exists, Prod.mk.injEq, cell]
    constructor
    · rintro ⟨j, i, h, rfl, rfl⟩
      rw [mem_blockedPairs _ _ _ _ _ (by decide)] at h
      exact ⟨i, j, h.2, h.1, by ring, by ring⟩
    · rintro ⟨i, j, hi, hj, rfl, rfl⟩
      exact ⟨j, i, (mem_blockedPairs _ _ _ _ _ (by decide)).mpr ⟨hj, hi⟩, by ring, by ring⟩

/-- C37.  Going to the other order and back restores every cell. -/
theorem C37_round_trip (nRows nCols lda ldb ldc : Nat) (A B C : List α)
    (hA : Fits .rowMajor nRows nCols lda A.length) (hB : Fits .colMajor nRows nCols ldb B.length)
    (hC : Fits .rowMajor nRows nCols ldc C.length) :
    ∃ B' C', exec id A (rowToColWrites nRows nCols lda ldb) B = some B' ∧
      exec id B' (colToRowWrites nRows nCols ldb ldc) C = some C' ∧
      ∀ i j, i < nRows → j < nCols → C'[i * ldc + j]? = A[i * lda + j]? := by
  obtain ⟨B', h1, h2, h3, _⟩ := C37_row_to_column nRows nCols lda ldb A B hA hB _ (List.Perm.refl _)
  obtain ⟨C', g1, _, g3, _⟩ := C37_column_to_row nRows nCols ldb ldc B' C (by rw [h2]; exact hB) hC _
    (List.Perm.refl _)
  refine ⟨B', C', h1, g1, ?_⟩
  intro i j hi hj
  have e1 := g3 i j hi hj
  have e2 := h3 i j hi hj
  simp only [cell, Option.map_id_fun, id_eq] at e1 e2
  rw [e1, e2]

theorem mem_omatcopyT (rows cols lda ldb d s : Nat) : (d, s) ∈ omatcopyT rows cols lda ldb ↔
    ∃ i j, i < rows ∧ j < cols ∧ d = j + i * ldb ∧ s = i + j * lda := by
  simp only [omatcopyT, List.mem_flatMap, List.mem_map, List.mem_range, Prod.mk.injEq]
  constructor
  · rintro ⟨i, hi, j, hj, rfl, rfl⟩; exact ⟨i, j, hi, hj, rfl, rfl⟩
  · rintro ⟨i, j, hi, hj, rfl, rfl⟩; exact ⟨i, hi, j, hj, rfl, rfl⟩

/-- The order the copy is made to. -/
def Order.other : Order → Order | .rowMajor => .colMajor | .colMajor => .rowMajor

/-- C37.  `switch_order_copy` succeeds exactly for positive shapes, non-null buffers and legal
leading dimensions, and then does the copy; otherwise the target is untouched. -/
theorem C37_switch_order_copy (order : Order) (nRows nCols ldx ldy : Nat) (X Y : List α)
    (hX : Fits order nRows nCols ldx X.length) (hY : Fits order.other nRows nCols ldy Y.length)
    (h1 : 0 < nRows) (h2 : 0 < nCols) :
    ∃ Y', switchOrderCopy order nRows nCols (some X) ldx (some Y) ldy = some (.success, some Y') ∧
      CopiedTo id order order.other nRows nCols ldx ldy X Y Y' := by
  cases order with
  | rowMajor =>
    obtain ⟨Y', e1, e2⟩ := copied_of_mem id .rowMajor .colMajor nRows nCols ldx ldy X Y
      (omatcopyT nCols nRows ldx ldy) (by
        intro d s
        rw [mem_omatcopyT]
        simp only [cell]
        constructor
        · rintro ⟨j, i, hj, hi, rfl, rfl⟩; exact ⟨i, j, hi, hj, by ring, by ring⟩
        · rintro ⟨i, j, hi, hj, rfl, rfl⟩; exact ⟨j, i, hj, hi, by ring, by ring⟩) hX hY
    have a1 := hX.1; have a2 := hY.1
    simp only [Order.other] at a1 a2
    refine ⟨Y', ?_, e2⟩
    unfold switchOrderCopy
    rw [if_neg (by omega)]
    simp only
    rw [if_neg (by omega)]
    simp [e1]
  | colMajor =>
    obtain ⟨Y', e1, e2⟩ := copied_of_mem id .colMajor .rowMajor nRows nCols ldx ldy X Y
      (omatcopyT nRows nCols ldx ldy) (by
        intro d s
        rw [mem_omatcopyT]
        simp only [cell]
        constructor
        · rintro ⟨i, j, hj, hi, rfl, rfl⟩; exact ⟨i, j, hj, hi, by ring, by ring⟩
        · rintro ⟨i, j, hi, hj, rfl, rfl⟩; exact ⟨i, j, hi, hj, by ring, by ring⟩) hX hY
    have a1 := hX.1; have a2 := hY.1
    simp only [Order.other] at a1 a2
    refine ⟨Y', ?_, e2⟩
    unfold switchOrderCopy
    rw [if_neg (by omega)]
    simp only
    rw [if_neg (by omega)]
    simp [e1]

/-- C37.  Refusals of `switch_order_copy` leave the target as it was. -/
theorem C37_switch_order_refused (order : Order) (nRows nCols ldx ldy : Int) (X Y : Option (List α))
    (h : nRows < 1 ∨ nCols < 1 ∨ X = none ∨ Y = none ∨
      (order = .rowMajor ∧ (ldx < nCols ∨ ldy < nRows)) ∨ (order = .colMajor ∧ (ldx < nRows ∨ ldy < nCols))) :
    ∃ s, switchOrderCopy order nRows nCols X ldx Y ldy = some (s, Y) ∧ s ≠ .success := by
  unfold switchOrderCopy
  by_cases hd : nRows < 1 ∨ nCols < 1
  · rw [if_pos hd]; exact ⟨_, rfl, by decide⟩
  · rw [if_neg hd]
    cases X with
    | none => exact ⟨_, rfl, by decide⟩
    | some X =>
      cases Y with
      | none => exact ⟨_, rfl, by decide⟩
      | some Y =>
        cases order with
        | rowMajor =>
          simp only [reduceCtorEq, true_and, false_and, or_false, false_or] at h ⊢
          rw [if_pos (by omega)]; exact ⟨_, rfl, by decide⟩
        | colMajor =>
          simp only [reduceCtorEq, true_and, false_and, false_or] at h ⊢
          rw [if_pos (by omega)]; exact ⟨_, rfl, by decide⟩

-- A 2 x 3 matrix with padding: hypotheses hold and the result is the transpose
example : Fits .rowMajor 2 3 4 7 := ⟨by decide, by simp only [cell]; omega⟩
example : Fits .colMajor 2 3 2 6 := ⟨by decide, by simp only [cell]; omega⟩
example : exec id [1, 2, 3, 0, 4, 5, 6] ((List.range 2).flatMap fun i => (List.range 3).map fun j => (j * 2 + i, i * 4 + j))
    [9, 9, 9, 9, 9, 9] = some [1, 4, 2, 5, 3, 6] := by decide
example : switchOrderCopy .rowMajor 2 3 (some [1, 2, 3, 0, 4, 5, 6]) 4 (some [9, 9, 9, 9, 9, 9, 9]) 2
    = some (.success, some [1, 4, 2, 5, 3, 6, 9]) := by decide
example : switchOrderCopy .rowMajor 2 3 (some [1, 2, 3, 0, 4, 5, 6]) 2 (some [9]) 2
    = some (.invalidLeadingDimension, some [9]) := by decide

end Verif.Copies
