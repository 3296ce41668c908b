import Verif.PairDist.Packed

/-
What is done to the sums afterwards: roots, powers and the cosine distance.
-/
namespace Verif.PairDist

open Verif.Logistic (loop upd loop_inv loop_congr loop_sum upd_same upd_ne)
open Finset (range)

set_option linter.unusedSectionVars false

variable {K : Type*} [Field K] [LinearOrder K]

/-- The same cells numbered in another way. -/
theorem Wr.reindex {f : (Nat → K) → Nat → K} {idx idx' : Nat → Nat → Nat}
    {Dom Dom' : Nat → Nat → Prop} {G G' : Nat → Nat → K → K} (h : Wr f idx Dom G)
    (h1 : ∀ i j, Dom' i j → ∃ i' j', Dom i' j' ∧ idx i' j' = idx' i j ∧ ∀ v, G i' j' v = G' i j v)
    (h2 : ∀ i' j', Dom i' j' → ∃ i j, Dom' i j ∧ idx i' j' = idx' i j) : Wr f idx' Dom' G' := by
  intro C
  refine ⟨fun i j d => ?_, fun c hc => (h C).2 c fun i' j' d' => ?_⟩
  · obtain ⟨i', j', d', e, g⟩ := h1 i j d
    rw [← e, (h C).1 i' j' d', g]
  · obtain ⟨i, j, d, e⟩ := h2 i' j' d'
    rw [e]
    exact hc i j d

/-- One column. -/
theorem Wr.column {m j0 : Nat} {idx : Nat → Nat → Nat} {G : Nat → Nat → K → K}
    (hi : ∀ i i', i < m → i' < m → idx i j0 = idx i' j0 → i = i') :
    Wr (fun C => loop m C fun i C => upd C (idx i j0) (G i j0 (C (idx i j0)))) idx
      (fun i j => j = j0 ∧ i < m) G := by
  refine (Wr.rect (m := m) (n := 1) (idx := fun i _ => idx i j0) (G := fun i _ => G i j0)
    (fun i j i' j' d d' e => ⟨hi i i' d.1 d'.1 e, by omega⟩)).reindex (fun i j d => ?_)
    fun i j d => ⟨i, j0, ⟨rfl, d.1⟩, rfl⟩
  obtain ⟨rfl, d⟩ := d
  exact ⟨i, 0, ⟨d, Nat.zero_lt_one⟩, rfl, fun _ => rfl⟩

theorem sqrtMatrix_is (s : K → K) (m N : Nat) : PostIs (sqrtMatrix s) m N fun _ _ v => s v := by
  intro n co ldc _ hl
  by_cases h : m = ldc
  · subst h
    have E : (fun C => sqrtMatrix s m n C co m) =
        fun C => loop (m * n) C fun i C => upd C (co + i) (s (C (co + i))) := by
      funext C; unfold sqrtMatrix; rw [if_pos rfl]
    rw [E]
    refine (Wr.column (m := m * n) (j0 := 0) (idx := fun i _ => co + i) (G := fun _ _ v => s v)
      fun i i' _ _ e => by omega).reindex (fun i j d => ?_) fun i j d => ?_
    · refine ⟨j * m + i, 0, ⟨rfl, ?_⟩, by omega, fun _ => rfl⟩
      have := Nat.mul_le_mul_right m (show j + 1 ≤ n by omega)
      rw [Nat.add_mul, Nat.one_mul, Nat.mul_comm n] at this
      omega
    · have hm : 0 < m := by
        rcases Nat.eq_zero_or_pos m with rfl | h
        · simp at d
        · exact h
      refine ⟨i % m, i / m, ⟨Nat.mod_lt _ hm, (Nat.div_lt_iff_lt_mul hm).2 ?_⟩, ?_⟩
      · rw [Nat.mul_comm]; exact d.2
      · have := Nat.div_add_mod' i m
        omega
  · have E : (fun C => sqrtMatrix s m n C co ldc) = fun C => loop n C fun j C => loop m C fun i C =>
        upd C (co + j * ldc + i) (s (C (co + j * ldc + i))) := by
      funext C; unfold sqrtMatrix; rw [if_neg h]
    rw [E]
    exact Wr.rect (idx := fun i j => co + j * ldc + i) (G := fun _ _ v => s v) (inj_cols hl)

theorem powPost_is (pow : K → K → K) (p : K) (m N : Nat) :
    PostIs (powPost pow p) m N fun _ _ v => pow v (1 / p) := fun _ co ldc _ hl =>
  Wr.rect (idx := fun i j => co + j * ldc + i) (G := fun _ _ v => pow v (1 / p)) (inj_cols hl)

theorem cosPost_is (nx ny : Nat → K) (xIsY : Bool) {m N : Nat} (hN : xIsY = true → N ≤ m) :
    PostIs (cosPost nx ny xIsY) m N fun i j v =>
      if xIsY = true ∧ i = j then 0 else 1 - v / (nx i * ny j) := by
  intro n co ldc hn hl
  cases xIsY with
  | false =>
    exact (Wr.rect (idx := fun i j => co + j * ldc + i) (G := fun i j v => 1 - v / (nx i * ny j))
      (inj_cols hl)).congr (fun C => rfl) (fun _ _ _ => rfl) (fun _ _ => Iff.rfl)
      fun i j v _ => by simp
  | true =>
    have hN := hN rfl
    refine (Wr.fold (L := List.range n) List.nodup_range
      (f := fun j C => upd (loop m C fun i C =>
        upd C (co + j * ldc + i) (1 - C (co + j * ldc + i) / (nx i * ny j))) (co + j * ldc + j) 0)
      (DT := fun j0 i j => j = j0 ∧ i < m) (inj_cols hl (co := co) (n := n)) (fun j0 hj0 => ?_)
      (fun i j => ?_) fun t t' i j _ _ d d' => d.1.symm.trans d'.1).congr (fun C => ?_)
      (fun _ _ _ => rfl) (fun _ _ => Iff.rfl) fun _ _ _ _ => rfl
    · rw [List.mem_range] at hj0
      refine ((Wr.column (m := m) (j0 := j0) (idx := fun i j => co + j * ldc + i)
        (G := fun i j v => 1 - v / (nx i * ny j)) fun i i' _ _ e => by omega).comp (f' := fun C => upd C (co + j0 * ldc + j0) 0)
        (G' := fun i j v => if i = j then 0 else v) (fun C => ⟨fun i j d => ?_, fun c hc => ?_⟩)).congr
        (fun _ => rfl) (fun _ _ _ => rfl) (fun _ _ => Iff.rfl) fun i j v d => by simp
      · obtain ⟨rfl, d⟩ := d
        by_cases h : i = j
        · subst h; simp only [if_true]; rw [upd_same]
        · simp only [if_neg h]; rw [upd_ne _ _ (by omega)]
      · exact upd_ne _ _ (hc j0 j0 ⟨rfl, by omega⟩)
    · simp only [List.mem_range]
      constructor
      · rintro ⟨a, b⟩; exact ⟨j, b, rfl, a⟩
      · rintro ⟨t, a, rfl, b⟩; exact ⟨b, a⟩
    · show cosPost nx ny true m n C co ldc = _
      rw [← loop_foldl]
      rfl

/-- Norm of a row, 1 where it is negligible. -/
def normOf (s : K → K) (eps : K) (k : Nat) (x : Nat → K) : K :=
  if s (∑ l ∈ range k, x l * x l) ≤ eps then 1 else s (∑ l ∈ range k, x l * x l)

theorem norms_at (s : K → K) (eps : K) (row : Bool) {rows k i : Nat} (hi : i < rows) (X : Nat → K)
    (ldx : Nat) :
    norms s eps row rows k X ldx i = normOf s eps k fun l => X (cell row ldx i l) := by
  have key : (loop k 0 fun l v => v +
      (if row then (X, ldx) else (colToRow rows k X ldx (fun _ => 0) k, k)).1
        (i * (if row then (X, ldx) else (colToRow rows k X ldx (fun _ => 0) k, k)).2 + l) *
      (if row then (X, ldx) else (colToRow rows k X ldx (fun _ => 0) k, k)).1
        (i * (if row then (X, ldx) else (colToRow rows k X ldx (fun _ => 0) k, k)).2 + l)) =
      ∑ l ∈ range k, X (cell row ldx i l) * X (cell row ldx i l) := by
    rw [loop_sum, zero_add]
    refine Finset.sum_congr rfl fun l hl => ?_
    rw [Finset.mem_range] at hl
    cases row with
    | true => simp [cell]
    | false =>
      have := (colToRow_wr rows k X ldx (le_refl k) (fun _ => 0)).1 i l ⟨hi, hl⟩
      simp only [cell, if_true] at this
      simp only [Bool.false_eq_true, if_false, cell]
      rw [this, Nat.add_comm]
  unfold norms normOf
  simp only [key]

/-- The cosine distances as the code computes them: within a block of `NC` columns the norms of the
rows of `Y` are counted from the beginning again. -/
theorem cosine_wr (s : K → K) (eps : K) {z : Sizes} (hz : z.Ok) {m : Nat} {e : Env K}
    (he : e.Ok z m) {n ldd : Nat} {Y : Option (Nat → K)} {row : Bool}
    (hl : if row then rowsY Y m n ≤ ldd else m ≤ ldd) (k : Nat) (X : Nat → K) (ldx ldy : Nat) :
    Wr (fun D => cosine s eps z e row m n k X ldx Y ldy D ldd) (cell row ldd)
      (fun i j => i < m ∧ j < rowsY Y m n)
      fun i j _ => if Y.isNone = true ∧ i = j % z.NC then 0 else
        1 - total (fun a b => a * b) k (fun l => X (cell row ldx i l)) (rowY row X ldx Y ldy j) /
          (normOf s eps k (fun l => X (cell row ldx i l)) *
            normOf s eps k (rowY row X ldx Y ldy (j % z.NC))) := by
  obtain ⟨n', hn'⟩ : ∃ n', n' = rowsY Y m n := ⟨_, rfl⟩
  obtain ⟨Y', hY'⟩ : ∃ Y', Y' = Y.getD X := ⟨_, rfl⟩
  obtain ⟨ld', hld'⟩ : ∃ ld', ld' = if Y.isNone then ldx else ldy := ⟨_, rfl⟩
  have hrow : ∀ j, rowY row X ldx Y ldy j = fun l => Y' (cell row ld' j l) := by
    intro j
    funext l
    unfold rowY
    rw [hY', hld']
    cases Y <;> simp
  have hN : Y.isNone = true → n' ≤ m := by
    intro h; rw [hn', rowsY, if_pos h]
  rw [← hn'] at hl ⊢
  have hd := dispatch_wr .dot (fun x => x) hz he (n := n') (ldd := ldd) (Y := some Y')
    (cosPost_is (norms s eps row m k X ldx) (norms s eps row n' k Y' ld') Y.isNone
      (N := rowsY (some Y') m n') hN) (row := row) hl k X ldx ld'
  refine hd.congr (fun D => ?_) (fun _ _ _ => rfl) (fun _ _ => Iff.rfl) fun i j v d => ?_
  · unfold cosine
    rw [hn', hY', hld']
    rfl
  · have hj : j % z.NC < n' := lt_of_le_of_lt (Nat.mod_le _ _) d.2
    rw [norms_at s eps row d.1, norms_at s eps row hj, hrow, hrow]
    rfl

end Verif.PairDist
