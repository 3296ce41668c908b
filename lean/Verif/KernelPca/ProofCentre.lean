import Verif.KernelPca.Model
import Verif.KernelPca.Spec
import Verif.PairDist.Bridge
import Verif.KnnPredict.ProofVote
import Mathlib.Tactic.FieldSimp
import Mathlib.Tactic.Ring

set_option linter.unusedSectionVars false

/-
The arithmetic of centring, and the loops of the kernel principal component analysis.
-/
namespace Verif.KernelPca

open Finset
open Verif.Logistic (loop upd loop_sum upd_same upd_ne loop_inv loop_congr)
open Verif.PairDist (cell Wr Inj inj_cell)
open Verif.KnnPredict (iamax iamax_at)

variable {K : Type*} [Field K] [LinearOrder K] [IsStrictOrderedRing K]

theorem pos_cell (row : Bool) (ld i j : Nat) : cell row ld i j = pos row ld i j := by
  cases row <;> simp [cell, pos, Nat.add_comm]

/-- The centred entry by means. -/
theorem centred_means {n : Nat} (_hn : 0 < n) (k : Nat → Nat → K) {i j : Nat} (hi : i < n) (hj : j < n) :
    centred n k i j = k i j - (∑ l ∈ range n, k i l) / n - (∑ l ∈ range n, k l j) / n +
      (∑ a ∈ range n, ∑ c ∈ range n, k a c) / n / n := by
  have inner : ∀ a, ∑ c ∈ range n, proj n i a * k a c * proj n c j =
      proj n i a * (k a j - (∑ c ∈ range n, k a c) / n) := by
    intro a
    have : ∀ c, proj n i a * k a c * proj n c j =
        proj n i a * (if c = j then k a c else 0) - proj n i a * (k a c * (1 / n)) := by
      intro c
      by_cases h : c = j
      · simp only [proj, if_pos h]; ring
      · simp only [proj, if_neg h]; ring
    rw [Finset.sum_congr rfl fun c _ => this c, Finset.sum_sub_distrib, ← Finset.mul_sum, ← Finset.mul_sum,
      Finset.sum_ite_eq', if_pos (Finset.mem_range.2 hj), ← Finset.sum_mul]
    ring
  unfold centred
  rw [Finset.sum_congr rfl fun a _ => inner a]
  have outer : ∀ a, proj n i a * (k a j - (∑ c ∈ range n, k a c) / n) =
      (if i = a then k a j - (∑ c ∈ range n, k a c) / n else 0) -
        (k a j * (1 / n) - (∑ c ∈ range n, k a c) * (1 / n / n)) := by
    intro a
    unfold proj
    split <;> ring
  rw [Finset.sum_congr rfl fun a _ => outer a, Finset.sum_sub_distrib, Finset.sum_ite_eq,
    if_pos (Finset.mem_range.2 hi), Finset.sum_sub_distrib, ← Finset.sum_mul, ← Finset.sum_mul]
  ring

/-- A row of the centred matrix adds up to 0. -/
theorem centred_row {n : Nat} (hn : 0 < n) (k : Nat → Nat → K) {i : Nat} (hi : i < n) :
    ∑ j ∈ range n, centred n k i j = 0 := by
  have hn' : (n : K) ≠ 0 := Nat.cast_ne_zero.2 hn.ne'
  rw [Finset.sum_congr rfl fun j hj => centred_means hn k hi (Finset.mem_range.1 hj), Finset.sum_add_distrib,
    Finset.sum_sub_distrib, Finset.sum_sub_distrib, Finset.sum_const, Finset.sum_const, ← Finset.sum_div,
    Finset.sum_comm (f := fun j l => k l j), Finset.card_range, nsmul_eq_mul, nsmul_eq_mul]
  field_simp
  ring

theorem centred_symm {n : Nat} (hn : 0 < n) {k : Nat → Nat → K} (hk : ∀ i j, i < n → j < n → k i j = k j i) {i j : Nat}
    (hi : i < n) (hj : j < n) : centred n k i j = centred n k j i := by
  rw [centred_means hn k hi hj, centred_means hn k hj hi, hk i j hi hj]
  have e : ∀ a, a < n → ∑ l ∈ range n, k l a = ∑ l ∈ range n, k a l := fun a ha =>
    Finset.sum_congr rfl fun l hl => hk l a (Finset.mem_range.1 hl) ha
  rw [e i hi, e j hj]
  ring

theorem rowMean_eq (row : Bool) (n ld : Nat) (M : Nat → K) (i : Nat) :
    rowMean row n ld M i = (∑ j ∈ range n, M (pos row ld i j)) / n := by
  unfold rowMean
  rw [loop_sum]
  simp [pos_cell]

theorem grandMean_eq (n : Nat) (r : Nat → K) : grandMean n r = (∑ j ∈ range n, r j) / n := by
  unfold grandMean
  rw [loop_sum]
  simp

theorem centreUpper_wr (n : Nat) (r : Nat → K) (g : K) :
    Wr (fun M => centreUpper n r g M) (fun i j => i + j * n) (fun i j => j < n ∧ i < j + 1)
      fun i j x => x + ((g - r j) - r i) :=
  Wr.nest (b := fun j => j + 1) (h := fun i j M => upd M (i + j * n) (M (i + j * n) + ((g - r j) - r i)))
    (fun i j i' j' d d' e => by
      have := Verif.Logistic.cell_inj (ns := n) (k := j) (k' := j') (i := i) (i' := i') (by omega) (by omega)
        (by simpa [Nat.add_comm] using e)
      exact ⟨this.2, this.1⟩)
    (fun _ _ _ _ _ => upd_same _ _ _) fun _ _ _ _ _ _ h => upd_ne _ _ h

/-- Loops with the columns inside. -/
theorem Wr.rectRow {m n : Nat} {idx : Nat → Nat → Nat} {G : Nat → Nat → K → K}
    (hi : Inj idx fun i j => i < m ∧ j < n) :
    Wr (fun C => loop m C fun i C => loop n C fun j C => upd C (idx i j) (G i j (C (idx i j)))) idx
      (fun i j => i < m ∧ j < n) G := by
  have := Wr.rect (m := n) (n := m) (idx := fun j i => idx i j) (G := fun j i => G i j)
    fun j i j' i' d d' e => (hi i j i' j' d.symm d'.symm e).symm
  intro C
  exact ⟨fun i j d => (this C).1 j i d.symm, fun c hc => (this C).2 c fun j i d => hc i j d.symm⟩

theorem inj_pos (row : Bool) {m n ld : Nat} (h : if row then n ≤ ld else m ≤ ld) :
    Inj (pos row ld) fun i j => i < m ∧ j < n := by
  intro i j i' j' d d' e
  rw [← pos_cell, ← pos_cell] at e
  exact inj_cell row h i j i' j' d d' e

/-- Both forms of the loops over a matrix. -/
theorem both_wr (row : Bool) {m n ld : Nat} (h : if row then n ≤ ld else m ≤ ld) (G : Nat → Nat → K → K) :
    Wr (fun C => if row then loop m C fun i C => loop n C fun j C => upd C (i * ld + j) (G i j (C (i * ld + j)))
      else loop n C fun j C => loop m C fun i C => upd C (i + j * ld) (G i j (C (i + j * ld))))
      (pos row ld) (fun i j => i < m ∧ j < n) G := by
  cases row with
  | true => exact Wr.rectRow (idx := pos true ld) (inj_pos true h)
  | false => exact Wr.rect (idx := pos false ld) (inj_pos false h)

theorem centreNew_wr (row : Bool) (m n : Nat) (r : Nat → K) (g : K) (M : Nat → K) {i j : Nat} (hi : i < m) (hj : j < n) :
    centreNew row m n r g M (pos row (if row then n else m) i j) =
      M (pos row (if row then n else m) i j) + (g - r j - rowMean row n (if row then n else m) M i) := by
  cases row with
  | true =>
    have := (both_wr true (m := m) (n := n) (ld := n) (by simp)
      (fun i j x => x + ((g - rowMean true n n M i) - r j)) M).1 i j ⟨hi, hj⟩
    simp only [if_true] at this ⊢
    unfold centreNew
    simp only [if_true]
    rw [this]; ring
  | false =>
    have := (both_wr false (m := m) (n := n) (ld := m) (by simp)
      (fun i j x => x + ((g - r j) - rowMean false n m M i)) M).1 i j ⟨hi, hj⟩
    simp only [Bool.false_eq_true, if_false] at this ⊢
    unfold centreNew
    simp only [Bool.false_eq_true, if_false]
    rw [this]

theorem gemmNN_wr (row : Bool) {m nc ldx : Nat} (h : if row then nc ≤ ldx else m ≤ ldx) (n : Nat) (M : Nat → K) (ldk : Nat)
    (E : Nat → K) (ldev : Nat) :
    Wr (fun X => gemmNN row m nc n M ldk E ldev X ldx) (pos row ldx) (fun i j => i < m ∧ j < nc)
      fun i j _ => ∑ l ∈ range n, M (pos row ldk i l) * E (pos row ldev l j) := by
  refine (Wr.rect (idx := cell row ldx) (G := fun i j _ => loop n 0 fun l s => s + M (cell row ldk i l) * E (cell row ldev l j))
    (inj_cell row h)).congr (fun _ => rfl) (fun i j _ => pos_cell row ldx i j) (fun _ _ => Iff.rfl) fun i j x _ => ?_
  rw [loop_sum]
  simp [pos_cell]

theorem scaleColumns_wr (sq : K → K) (row : Bool) {m nc ldx : Nat} (h : if row then nc ≤ ldx else m ≤ ldx) (ev : List K) :
    Wr (fun X => scaleColumns sq row m nc ev X ldx) (pos row ldx) (fun i j => i < m ∧ j < nc)
      fun _ j x => x * scaleOf sq ev j := by
  refine (both_wr row h (fun _ j x => x * scaleOf sq ev j)).congr (fun X => ?_) (fun _ _ _ => rfl) (fun _ _ => Iff.rfl)
    fun _ _ _ _ => rfl
  unfold scaleColumns
  cases row <;> simp [Nat.mul_comm]

theorem scores_wr (sq : K → K) (row : Bool) (n nc : Nat) (ev : List K) (E : Nat → K) :
    Wr (fun X => scores sq row n nc ev E X) (pos row (if row then nc else n)) (fun i j => i < n ∧ j < nc)
      fun i j _ => E (pos row (if row then nc else n) i j) * sq (ev.getD j 0) := by
  refine (both_wr row (m := n) (n := nc) (ld := if row then nc else n) (by cases row <;> simp)
    (fun i j _ => E (pos row (if row then nc else n) i j) * sq (ev.getD j 0))).congr (fun X => ?_) (fun _ _ _ => rfl)
    (fun _ _ => Iff.rfl) fun _ _ _ _ => rfl
  unfold scores
  cases row <;> simp [pos]

theorem copyVectors_at (row : Bool) (n nc : Nat) (W E : Nat → K) {i j : Nat} (hi : i < n) (hj : j < nc) :
    copyVectors row n nc W E (pos row (if row then nc else n) i j) = W ((n - 1 - j) * n + i) := by
  have := (both_wr row (m := n) (n := nc) (ld := if row then nc else n) (by cases row <;> simp)
    (fun i j _ => W ((n - 1 - j) * n + i)) E).1 i j ⟨hi, hj⟩
  unfold copyVectors
  cases row <;> simpa [pos, Nat.add_comm] using this

/-- A column of sign_normalize_columns: the column or its opposite, with a nonnegative entry of greatest absolute value. -/
theorem signColumn_at {rows : Nat} (hr : 0 < rows) (j : Nat) (A : Nat → K) :
    ((∀ i < rows, signColumn rows j A (j * rows + i) = A (j * rows + i)) ∨
      ∀ i < rows, signColumn rows j A (j * rows + i) = -A (j * rows + i)) ∧
    SignFixed rows (fun i => signColumn rows j A (j * rows + i)) ∧
    ∀ c, (∀ i < rows, c ≠ j * rows + i) → signColumn rows j A c = A c := by
  obtain ⟨hm, hb⟩ := iamax_at rows hr fun i => A (i + j * rows)
  obtain ⟨m, em⟩ : ∃ m, m = iamax rows fun i => A (i + j * rows) := ⟨_, rfl⟩
  rw [← em] at hm hb
  have hb' : ∀ i < rows, |A (j * rows + i)| ≤ |A (j * rows + m)| := fun i hi => by
    rw [Nat.add_comm (j * rows) i, Nat.add_comm (j * rows) m]
    rcases hb i hi with h | h
    · exact h.le
    · exact h.1.le
  have key : ∀ c, loop rows A (fun i A => upd A (i + j * rows) (-A (i + j * rows))) c =
      if j * rows ≤ c ∧ c < j * rows + rows then -A c else A c := by
    intro c
    rw [← Verif.Logistic.loop_upd rows A (j * rows) (fun _ x => -x) c]
    simp only [Nat.add_comm]
  by_cases h : A (m + j * rows) < 0
  · have e : ∀ c, signColumn rows j A c = if j * rows ≤ c ∧ c < j * rows + rows then -A c else A c := fun c => by
      unfold signColumn
      simp only [← em, if_pos h]
      exact key c
    have e' : ∀ i < rows, signColumn rows j A (j * rows + i) = -A (j * rows + i) := fun i hi => by
      rw [e, if_pos (by omega)]
    refine ⟨Or.inr e', ⟨m, hm, ?_, fun i hi => ?_⟩, fun c hc => ?_⟩
    · show 0 ≤ signColumn rows j A (j * rows + m)
      rw [e' m hm, Nat.add_comm]
      exact neg_nonneg.2 h.le
    · show |signColumn rows j A (j * rows + i)| ≤ |signColumn rows j A (j * rows + m)|
      rw [e' i hi, e' m hm, abs_neg, abs_neg]
      exact hb' i hi
    · rw [e, if_neg fun g => hc (c - j * rows) (by omega) (by omega)]
  · have e : signColumn rows j A = A := by
      unfold signColumn
      simp only [← em, if_neg h]
    refine ⟨Or.inl fun i _ => by rw [e], ⟨m, hm, ?_, fun i hi => ?_⟩, fun c _ => by rw [e]⟩
    · show 0 ≤ signColumn rows j A (j * rows + m)
      rw [e, Nat.add_comm]
      exact not_lt.1 h
    · show |signColumn rows j A (j * rows + i)| ≤ |signColumn rows j A (j * rows + m)|
      rw [e]
      exact hb' i hi

theorem signColumns_at {rows : Nat} (hr : 0 < rows) (cols : Nat) (A : Nat → K) {j : Nat} (hj : j < cols) :
    ((∀ i < rows, signColumns rows cols A (j * rows + i) = A (j * rows + i)) ∨
      ∀ i < rows, signColumns rows cols A (j * rows + i) = -A (j * rows + i)) ∧
    SignFixed rows (fun i => signColumns rows cols A (j * rows + i)) := by
  have key := loop_inv (fun k (B : Nat → K) =>
    (∀ j < k, ((∀ i < rows, B (j * rows + i) = A (j * rows + i)) ∨ ∀ i < rows, B (j * rows + i) = -A (j * rows + i)) ∧
      SignFixed rows fun i => B (j * rows + i)) ∧ ∀ j, k ≤ j → ∀ i < rows, B (j * rows + i) = A (j * rows + i))
    cols A (fun j A => signColumn rows j A) ⟨by omega, fun _ _ _ _ => rfl⟩ (by
      intro k B hk ⟨h1, h2⟩
      obtain ⟨a1, a2, a3⟩ := signColumn_at hr k B
      have other : ∀ j, j ≠ k → ∀ i < rows, signColumn rows k B (j * rows + i) = B (j * rows + i) := fun j hjk i hi =>
        a3 _ fun i' hi' e => hjk (Verif.Logistic.cell_inj hi hi' e).1
      refine ⟨fun j hj => ?_, fun j hj i hi => by rw [other j (by omega) i hi]; exact h2 j (by omega) i hi⟩
      by_cases e : j = k
      · subst e
        refine ⟨?_, a2⟩
        rcases a1 with a1 | a1
        · exact Or.inl fun i hi => by rw [a1 i hi, h2 j (le_refl _) i hi]
        · exact Or.inr fun i hi => by rw [a1 i hi, h2 j (le_refl _) i hi]
      · obtain ⟨b1, m, hm, b2, b3⟩ := h1 j (by omega)
        refine ⟨?_, m, hm, ?_, fun i hi => ?_⟩
        · rcases b1 with b1 | b1
          · exact Or.inl fun i hi => by rw [other j e i hi, b1 i hi]
          · exact Or.inr fun i hi => by rw [other j e i hi, b1 i hi]
        · show 0 ≤ signColumn rows k B (j * rows + m)
          rw [other j e m hm]; exact b2
        · show |signColumn rows k B (j * rows + i)| ≤ |signColumn rows k B (j * rows + m)|
          rw [other j e i hi, other j e m hm]; exact b3 i hi)
  exact key.1 j hj

end Verif.KernelPca
