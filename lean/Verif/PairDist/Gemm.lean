import Verif.PairDist.Post
import Verif.Logistic.Safe

/-
Distances by matrix multiplication.
-/
namespace Verif.PairDist

open Verif.Logistic (loop upd loop_inv loop_congr loop_congr_inv loop_sum upd_same upd_ne)
open Finset (range)

set_option linter.unusedSectionVars false

variable {K : Type*} [Field K] [LinearOrder K]

theorem gemm_wr (row : Bool) {m n ldd : Nat} (hl : if row then n ≤ ldd else m ≤ ldd) (k : Nat)
    (alpha : K) (X : Nat → K) (ldx : Nat) (Y : Nat → K) (ldy : Nat) :
    Wr (fun D => gemm row m n k alpha X ldx Y ldy D ldd) (cell row ldd) (fun i j => i < m ∧ j < n)
      fun i j _ => alpha * total (fun a b => a * b) k (fun l => X (cell row ldx i l))
        fun l => Y (cell row ldy j l) := by
  refine (Wr.rect (idx := cell row ldd) (G := fun i j _ => alpha * loop k 0 fun l s => s +
    X (cell row ldx i l) * Y (cell row ldy j l)) (inj_cell row hl)).congr (fun _ => rfl)
    (fun _ _ _ => rfl) (fun _ _ => Iff.rfl) fun i j v _ => ?_
  rw [loop_sum, zero_add]
  rfl

theorem add_wr (row : Bool) {m n ldd : Nat} (hl : if row then n ≤ ldd else m ≤ ldd)
    (g : Nat → Nat → K) :
    Wr (fun D => loop n D fun j D => loop m D fun i D =>
      upd D (cell row ldd i j) (D (cell row ldd i j) + g i j)) (cell row ldd)
      (fun i j => i < m ∧ j < n) fun i j v => v + g i j :=
  Wr.rect (idx := cell row ldd) (G := fun i j v => v + g i j) (inj_cell row hl)

/-- The upper triangle. -/
theorem upper_wr (row : Bool) {m ldd : Nat} (hl : m ≤ ldd) (G : Nat → Nat → K → K) :
    Wr (fun D => loop m D fun j D => loop (j + 1) D fun i D =>
      upd D (cell row ldd i j) (G i j (D (cell row ldd i j)))) (cell row ldd)
      (fun i j => j < m ∧ i < j + 1) G :=
  Wr.nest (b := fun j => j + 1) (h := fun i j C => upd C (cell row ldd i j)
    (G i j (C (cell row ldd i j))))
    ((inj_cell row (m := m) (n := m) (by cases row <;> simpa using hl)).mono fun i j d => by omega)
    (fun i j C _ _ => upd_same _ _ _) fun i j C c _ _ hc => upd_ne _ _ hc

theorem syrk_wr (row : Bool) {m ldd : Nat} (hl : m ≤ ldd) (k : Nat) (alpha : K) (X : Nat → K)
    (ldx : Nat) :
    Wr (fun D => syrk row m k alpha X ldx D ldd) (cell row ldd) (fun i j => j < m ∧ i < j + 1)
      fun i j _ => alpha * total (fun a b => a * b) k (fun l => X (cell row ldx i l))
        fun l => X (cell row ldx j l) := by
  refine (upper_wr row hl fun i j _ => alpha * loop k 0 fun l s => s +
    X (cell row ldx i l) * X (cell row ldx j l)).congr (fun _ => rfl)
    (fun _ _ _ => rfl) (fun _ _ => Iff.rfl) fun i j v _ => ?_
  rw [loop_sum, zero_add]
  rfl

theorem sqrt_wr (s : K → K) (row : Bool) {m n ldd : Nat}
    (hl : if row then n ≤ ldd else m ≤ ldd) :
    Wr (fun D => if !row then sqrtMatrix s m n D 0 ldd else sqrtMatrix s n m D 0 ldd) (cell row ldd)
      (fun i j => i < m ∧ j < n) fun _ _ v => s v := by
  cases row with
  | false =>
    exact (sqrtMatrix_is s m n n 0 ldd (le_refl _) hl).congr (fun _ => rfl)
      (fun i j _ => by simp [cell]) (fun _ _ => Iff.rfl) fun _ _ _ _ => rfl
  | true =>
    exact (sqrtMatrix_is s n m m 0 ldd (le_refl _) hl).reindex
      (fun i j d => ⟨j, i, ⟨d.2, d.1⟩, by simp [cell], fun _ => rfl⟩)
      fun i j d => ⟨j, i, ⟨d.2, d.1⟩, by simp [cell]⟩

/-- The sum of squares of a row. -/
def sqOf (k : Nat) (x : Nat → K) : K := ∑ l ∈ range k, x l * x l

theorem acc_cell (k i : Nat) (a : Nat → K) (N : Nat → K) :
    (loop k N fun j N => upd N i (N i + a j)) i = N i + ∑ l ∈ range k, a l ∧
    ∀ c, c ≠ i → (loop k N fun j N => upd N i (N i + a j)) c = N c := by
  induction k with
  | zero => simp [loop]
  | succ k ih =>
    refine ⟨?_, fun c hc => ?_⟩
    · show upd _ i _ i = _
      rw [upd_same, ih.1, Finset.sum_range_succ, add_assoc]
    · show upd _ i _ c = _
      rw [upd_ne _ _ hc, ih.2 c hc]

theorem sqNorms_at (row : Bool) {m i : Nat} (hi : i < m) (k : Nat) (X : Nat → K) (ldx : Nat)
    (N : Nat → K) :
    sqNorms row m k X ldx N i = sqOf k fun l => X (cell row ldx i l) := by
  have h0 : (loop m N fun i N => upd N i 0) i = 0 :=
    (Wr.column (m := m) (j0 := 0) (idx := fun i _ => i) (G := fun _ _ _ => (0 : K))
      (fun _ _ _ _ e => e) N).1 i 0 ⟨rfl, hi⟩
  unfold sqNorms
  obtain ⟨N0, hN0⟩ : ∃ N0, N0 = loop m N fun i N => upd N i 0 := ⟨_, rfl⟩
  rw [← hN0] at h0 ⊢
  cases row with
  | false =>
    have key : ∀ q, (loop q N0 fun j N => loop m N fun i N =>
        upd N i (N i + X (i + j * ldx) * X (i + j * ldx))) i =
        ∑ l ∈ range q, X (i + l * ldx) * X (i + l * ldx) := by
      intro q
      induction q with
      | zero => simpa [loop] using h0
      | succ q ih =>
        rw [Finset.sum_range_succ, ← ih]
        exact (Wr.column (m := m) (j0 := 0) (idx := fun i _ => i)
          (G := fun i _ v => v + X (i + q * ldx) * X (i + q * ldx)) (fun _ _ _ _ e => e) _).1 i 0
          ⟨rfl, hi⟩
    simp only [Bool.not_false, if_true]
    rw [key]
    unfold sqOf
    refine Finset.sum_congr rfl fun l _ => ?_
    simp only [cell, Bool.false_eq_true, if_false]
    rw [Nat.add_comm]
  | true =>
    have key := fold_one (List.range m) List.nodup_range
      (fun i N => loop k N fun j N => upd N i (N i + X (i * ldx + j) * X (i * ldx + j))) N0 i i
      (List.mem_range.2 hi) (fun v => v + ∑ l ∈ range k, X (i * ldx + l) * X (i * ldx + l))
      (fun C => (acc_cell k i _ C).1) fun t _ hne C => (acc_cell k t _ C).2 i (Ne.symm hne)
    rw [← loop_foldl, h0, zero_add] at key
    simp only [Bool.not_true, Bool.false_eq_true, if_false]
    rw [key]
    simp [sqOf, cell]

/-- The norms that are added: none, those given, or those of the rows. -/
def normsUsed (mode : Nat) (given : Nat → K) (k : Nat) (x : Nat → Nat → K) (i : Nat) : K :=
  if mode = 0 then 0 else if mode = 2 then sqOf k (x i) else given i

/-- `euclidean_gemm_distance` for two matrices. -/
theorem gemmDistance_wr (s : K → K) (row : Bool) {m n ldd : Nat}
    (hl : if row then n ≤ ldd else m ≤ ldd) (k : Nat) (X : Nat → K) (ldx : Nat) (Y : Nat → K)
    (ldy : Nat) (XN : Nat → K) (cx : Nat) (YN : Nat → K) (cy : Nat) (square : Bool) :
    Wr (fun D => gemmDistance s row m n k X ldx Y ldy D ldd XN cx YN cy square false) (cell row ldd)
      (fun i j => i < m ∧ j < n)
      fun i j _ => (if square then (fun v => v) else s)
        (-2 * total (fun a b => a * b) k (fun l => X (cell row ldx i l))
          (fun l => Y (cell row ldy j l)) +
          (normsUsed cx XN k (fun i l => X (cell row ldx i l)) i +
            normsUsed cy YN k (fun j l => Y (cell row ldy j l)) j)) := by
  obtain ⟨XN', hX⟩ : ∃ XN', XN' = if cx = 2 then sqNorms row m k X ldx XN else XN := ⟨_, rfl⟩
  obtain ⟨YN', hY⟩ : ∃ YN', YN' = if cy = 2 ∧ (!false) = true then sqNorms row n k Y ldy YN else YN :=
    ⟨_, rfl⟩
  have vX : ∀ i, i < m → 0 < cx → XN' i = normsUsed cx XN k (fun i l => X (cell row ldx i l)) i := by
    intro i hi hc
    rw [hX, normsUsed, if_neg (show ¬ cx = 0 by omega)]
    by_cases h : cx = 2
    · rw [if_pos h, if_pos h, sqNorms_at row hi]
    · rw [if_neg h, if_neg h]
  have vY : ∀ j, j < n → 0 < cy → YN' j = normsUsed cy YN k (fun j l => Y (cell row ldy j l)) j := by
    intro i hi hc
    rw [hY, normsUsed, if_neg (show ¬ cy = 0 by omega)]
    by_cases h : cy = 2
    · rw [if_pos ⟨h, rfl⟩, if_pos h, sqNorms_at row hi]
    · rw [if_neg (fun c => h c.1), if_neg h]
  obtain ⟨F, hF⟩ : ∃ F : (Nat → K) → Nat → K, F = fun D =>
      if 0 < cx ∧ cy = 0 then
        loop n D fun j D => loop m D fun i D =>
          upd D (cell row ldd i j) (D (cell row ldd i j) + XN' i)
      else if cx = 0 ∧ 0 < cy then
        loop n D fun j D => loop m D fun i D =>
          upd D (cell row ldd i j) (D (cell row ldd i j) + YN' j)
      else if cx ≠ 0 ∧ cy ≠ 0 then
        loop n D fun j D => loop m D fun i D =>
          upd D (cell row ldd i j) (D (cell row ldd i j) + (XN' i + YN' j))
      else D := ⟨_, rfl⟩
  have wF : Wr F (cell row ldd) (fun i j => i < m ∧ j < n) fun i j v => v +
      (normsUsed cx XN k (fun i l => X (cell row ldx i l)) i +
        normsUsed cy YN k (fun j l => Y (cell row ldy j l)) j) := by
    rw [hF]
    by_cases h1 : 0 < cx ∧ cy = 0
    · refine (add_wr row hl fun i _ => XN' i).congr (fun D => by rw [if_pos h1]) (fun _ _ _ => rfl)
        (fun _ _ => Iff.rfl) fun i j v d => ?_
      rw [vX i d.1 h1.1]
      have : normsUsed cy YN k (fun j l => Y (cell row ldy j l)) j = 0 := by
        rw [normsUsed, if_pos h1.2]
      rw [this, add_zero]
    · by_cases h2 : cx = 0 ∧ 0 < cy
      · refine (add_wr row hl fun _ j => YN' j).congr (fun D => by rw [if_neg h1, if_pos h2])
          (fun _ _ _ => rfl) (fun _ _ => Iff.rfl) fun i j v d => ?_
        rw [vY j d.2 h2.2]
        have : normsUsed cx XN k (fun i l => X (cell row ldx i l)) i = 0 := by
          rw [normsUsed, if_pos h2.1]
        rw [this, zero_add]
      · by_cases h3 : cx ≠ 0 ∧ cy ≠ 0
        · refine (add_wr row hl fun i j => XN' i + YN' j).congr
            (fun D => by rw [if_neg h1, if_neg h2, if_pos h3]) (fun _ _ _ => rfl)
            (fun _ _ => Iff.rfl) fun i j v d => ?_
          rw [vX i d.1 (by omega), vY j d.2 (by omega)]
        · have a1 : cx = 0 := by omega
          have a2 : cy = 0 := by omega
          intro D
          refine ⟨fun i j d => ?_, fun _ _ => ?_⟩
          · simp [normsUsed, a1, a2]
          · simp [a1, a2]
  have E : ∀ D, gemmDistance s row m n k X ldx Y ldy D ldd XN cx YN cy square false =
      if square then F (gemm row m n k (-2) X ldx Y ldy D ldd)
      else (fun D => if !row then sqrtMatrix s m n D 0 ldd else sqrtMatrix s n m D 0 ldd)
        (F (gemm row m n k (-2) X ldx Y ldy D ldd)) := by
    intro D
    rw [hF, hX, hY]
    rfl
  have base := (gemm_wr row hl k (-2) X ldx Y ldy).comp wF
  cases square with
  | true =>
    exact base.congr (fun D => by rw [E, if_pos rfl]) (fun _ _ _ => rfl) (fun _ _ => Iff.rfl)
      fun i j v _ => by simp
  | false =>
    exact (base.comp (sqrt_wr s row hl)).congr (fun D => by rw [E]; rfl)
      (fun _ _ _ => rfl) (fun _ _ => Iff.rfl) fun i j v _ => by simp

/-- The diagonal becomes zero and, if asked for, roots are taken above it. -/
theorem finish_wr (s : K → K) (row square : Bool) {m ldd : Nat} (hl : m ≤ ldd) :
    Wr (fun D => if !row then
        loop m D fun j D =>
          upd (if square then D else loop j D fun i D =>
            upd D (j * ldd + i) (s (D (j * ldd + i)))) (j + j * ldd) 0
      else
        loop m D fun i D =>
          upd (if 0 < m - i - 1 ∧ !square then loop (m - i - 1) D fun t D =>
            upd D (i * ldd + (i + 1) + t) (s (D (i * ldd + (i + 1) + t))) else D)
            (i * ldd + i) 0) (cell row ldd) (fun i j => j < m ∧ i < j + 1)
      fun i j v => if i = j then 0 else if square then v else s v := by
  have inj := (inj_cell row (m := m) (n := m) (ld := ldd) (by cases row <;> simpa using hl))
  have loopId : ∀ n (D : Nat → K), loop n D (fun _ D => D) = D := by
    intro n D
    induction n with
    | zero => rfl
    | succ n ih => exact ih
  cases row with
  | false =>
    refine (Wr.nest (n := m) (b := fun j => j + 1) (idx := cell false ldd)
      (h := fun i j C => if i = j then upd C (cell false ldd i j) 0 else
        if square then C else upd C (cell false ldd i j) (s (C (cell false ldd i j))))
      (G := fun i j v => if i = j then 0 else if square then v else s v)
      (inj.mono fun i j d => by omega) (fun i j C _ _ => ?_) fun i j C c _ _ hc => ?_).congr
      (fun D => ?_) (fun _ _ _ => rfl) (fun _ _ => Iff.rfl) fun _ _ _ _ => rfl
    · by_cases h : i = j
      · rw [if_pos h, if_pos h, upd_same]
      · rw [if_neg h, if_neg h]
        cases square
        · simp [upd_same]
        · simp
    · by_cases h : i = j
      · rw [if_pos h, upd_ne _ _ hc]
      · rw [if_neg h]
        cases square
        · simp only [Bool.false_eq_true, if_false]; rw [upd_ne _ _ hc]
        · simp
    · simp only [Bool.not_false, if_true]
      refine loop_congr _ _ _ _ fun j D hj => ?_
      show _ = (fun i C => if i = j then upd C (cell false ldd i j) 0 else
        if square then C else upd C (cell false ldd i j) (s (C (cell false ldd i j)))) j (loop j D _)
      simp only [if_true]
      have e1 : j + j * ldd = cell false ldd j j := by simp [cell, Nat.add_comm]
      rw [e1]
      congr 1
      cases square with
      | true =>
        simp only [if_true]
        rw [loop_congr j D _ (fun _ D => D) fun i C hi => ?_, loopId]
        rw [if_neg (by omega)]
      | false =>
        simp only [Bool.false_eq_true, if_false]
        refine loop_congr _ _ _ _ fun i C hi => ?_
        rw [if_neg (by omega)]
        simp [cell]
  | true =>
    obtain ⟨idx, hidx⟩ : ∃ idx : Nat → Nat → Nat, idx = fun t i =>
        if t = m - i - 1 then i * ldd + i else i * ldd + (i + 1) + t := ⟨_, rfl⟩
    have hcell : ∀ t i, i < m → t < m - i → idx t i =
        cell true ldd i (if t = m - i - 1 then i else i + 1 + t) := by
      intro t i _ _
      rw [hidx]
      simp only [cell, if_true]
      by_cases h : t = m - i - 1
      · rw [if_pos h, if_pos h]
      · rw [if_neg h, if_neg h]; omega
    have inj' : Inj idx fun t i => i < m ∧ t < m - i := by
      intro t i t' i' d d' e
      rw [hcell t i d.1 d.2, hcell t' i' d'.1 d'.2] at e
      have := inj i _ i' _ ⟨d.1, by split <;> omega⟩ ⟨d'.1, by split <;> omega⟩ e
      obtain ⟨rfl, h⟩ := this
      refine ⟨?_, rfl⟩
      by_cases h1 : t = m - i - 1 <;> by_cases h2 : t' = m - i - 1
      · omega
      · rw [if_pos h1, if_neg h2] at h; omega
      · rw [if_neg h1, if_pos h2] at h; omega
      · rw [if_neg h1, if_neg h2] at h; omega
    have W := Wr.nest (n := m) (b := fun i => m - i) (idx := idx)
      (h := fun t i C => if t = m - i - 1 then upd C (idx t i) 0 else
        if square then C else upd C (idx t i) (s (C (idx t i))))
      (G := fun t i v => if t = m - i - 1 then 0 else if square then v else s v)
      inj' (fun t i C _ _ => by
        by_cases h : t = m - i - 1
        · rw [if_pos h, if_pos h, upd_same]
        · rw [if_neg h, if_neg h]
          cases square
          · simp [upd_same]
          · simp) fun t i C c _ _ hc => by
        by_cases h : t = m - i - 1
        · rw [if_pos h, upd_ne _ _ hc]
        · rw [if_neg h]
          cases square
          · simp only [Bool.false_eq_true, if_false]; rw [upd_ne _ _ hc]
          · simp
    have W' : Wr (fun D => if !true then
        loop m D fun j D =>
          upd (if square then D else loop j D fun i D =>
            upd D (j * ldd + i) (s (D (j * ldd + i)))) (j + j * ldd) 0
      else
        loop m D fun i D =>
          upd (if 0 < m - i - 1 ∧ !square then loop (m - i - 1) D fun t D =>
            upd D (i * ldd + (i + 1) + t) (s (D (i * ldd + (i + 1) + t))) else D)
            (i * ldd + i) 0) idx (fun t i => i < m ∧ t < m - i)
          (fun t i v => if t = m - i - 1 then 0 else if square then v else s v) := by
      refine W.congr (fun D => ?_) (fun _ _ _ => rfl) (fun _ _ => Iff.rfl) fun _ _ _ _ => rfl
      simp only [Bool.not_true, Bool.false_eq_true, if_false]
      refine loop_congr _ _ _ _ fun i D hi => ?_
      obtain ⟨q, hq⟩ : ∃ q, q = m - i - 1 := ⟨_, rfl⟩
      have e0 : m - i = q + 1 := by omega
      rw [← hq, e0]
      show _ = (fun t C => if t = q then upd C (idx t i) 0 else
        if square then C else upd C (idx t i) (s (C (idx t i)))) q (loop q D _)
      simp only [if_true]
      have e1 : i * ldd + i = idx q i := by rw [hidx]; simp only [← hq, if_true]
      rw [e1]
      congr 1
      cases square with
      | true =>
        rw [if_neg (by simp)]
        rw [loop_congr q D _ (fun _ D => D) fun t C ht => ?_, loopId]
        rw [if_neg (by omega)]
        simp
      | false =>
        have e2 : (loop q D fun t C => if t = q then upd C (idx t i) 0 else
            if false = true then C else upd C (idx t i) (s (C (idx t i)))) =
            loop q D fun t D => upd D (i * ldd + (i + 1) + t) (s (D (i * ldd + (i + 1) + t))) := by
          refine loop_congr _ _ _ _ fun t C ht => ?_
          have e3 : idx t i = i * ldd + (i + 1) + t := by
            rw [hidx]; simp only [← hq]; rw [if_neg (by omega)]
          rw [if_neg (by omega), e3]
          simp
        rw [e2]
        by_cases hq0 : 0 < q
        · rw [if_pos ⟨hq0, rfl⟩]
        · have : q = 0 := by omega
          rw [if_neg (by omega), this]
          rfl
    refine W'.reindex (fun i j d => ?_) fun t i d => ?_
    · by_cases h : i = j
      · subst h
        refine ⟨m - i - 1, i, ⟨d.1, by omega⟩, ?_, fun v => by simp⟩
        rw [hcell _ _ d.1 (by omega), if_pos rfl]
      · refine ⟨j - i - 1, i, ⟨by omega, by omega⟩, ?_, fun v => ?_⟩
        · rw [hcell _ _ (by omega) (by omega), if_neg (by omega)]
          congr 1; omega
        · rw [if_neg (by omega), if_neg h]
    · refine ⟨i, if t = m - i - 1 then i else i + 1 + t, ?_, hcell t i d.1 d.2⟩
      by_cases h : t = m - i - 1
      · rw [if_pos h]; omega
      · rw [if_neg h]; omega

/-- Copying the upper triangle to the lower. -/
theorem mirror_at (row : Bool) {m ldd : Nat} (hl : m ≤ ldd) (D : Nat → K) :
    (∀ i j, i < m → j < m → (loop m D fun i D => loop m D fun j D =>
      if j < i then upd D (cell row ldd i j) (D (cell row ldd j i)) else D) (cell row ldd i j) =
        if j < i then D (cell row ldd j i) else D (cell row ldd i j)) ∧
    ∀ c, (∀ i j, i < m ∧ j < m → c ≠ cell row ldd i j) → (loop m D fun i D => loop m D fun j D =>
      if j < i then upd D (cell row ldd i j) (D (cell row ldd j i)) else D) c = D c := by
  have inj := (inj_cell row (m := m) (n := m) (ld := ldd) (by cases row <;> simpa using hl))
  have key : (loop m D fun i E => loop m E fun j E =>
      if j < i then upd E (cell row ldd i j) (E (cell row ldd j i)) else E) =
      loop m D fun i E => loop m E fun j E =>
      if j < i then upd E (cell row ldd i j) (D (cell row ldd j i)) else E := by
    have step : ∀ i j (E : Nat → K), i < m → j < m →
        (∀ a b, a ≤ b → b < m → E (cell row ldd a b) = D (cell row ldd a b)) →
        ∀ a b, a ≤ b → b < m → (if j < i then upd E (cell row ldd i j) (D (cell row ldd j i)) else E)
          (cell row ldd a b) = D (cell row ldd a b) := by
      intro i j E hi hj hE a b hab hb
      by_cases h : j < i
      · rw [if_pos h, upd_ne, hE a b hab hb]
        intro e
        have := inj a b i j ⟨by omega, hb⟩ ⟨hi, hj⟩ e
        omega
      · rw [if_neg h, hE a b hab hb]
    refine loop_congr_inv (fun _ E => ∀ a b, a ≤ b → b < m →
      E (cell row ldd a b) = D (cell row ldd a b)) _ _ _ _ (fun _ _ _ _ => rfl) (fun i E hi hE => ?_)
      fun i E hi hE => ?_
    · exact loop_inv (fun _ E => ∀ a b, a ≤ b → b < m →
        E (cell row ldd a b) = D (cell row ldd a b)) _ _ _ hE fun j E hj hE => step i j E hi hj hE
    · refine loop_congr_inv (fun _ E => ∀ a b, a ≤ b → b < m →
        E (cell row ldd a b) = D (cell row ldd a b)) _ _ _ _ hE
        (fun j E hj hE => step i j E hi hj hE) fun j E hj hE => ?_
      by_cases h : j < i
      · rw [if_pos h, if_pos h, hE j i (by omega) hi]
      · rw [if_neg h, if_neg h]
  rw [key]
  have W := Wr.nest (n := m) (b := fun _ => m) (idx := fun j i => cell row ldd i j)
    (h := fun j i E => if j < i then upd E (cell row ldd i j) (D (cell row ldd j i)) else E)
    (G := fun j i v => if j < i then D (cell row ldd j i) else v)
    (fun j i j' i' d d' e => (inj i j i' j' d d' e).symm)
    (fun j i E _ _ => by
      by_cases h : j < i
      · rw [if_pos h, if_pos h, upd_same]
      · rw [if_neg h, if_neg h])
    (fun j i E c _ _ hc => by
      by_cases h : j < i
      · rw [if_pos h, upd_ne _ _ hc]
      · rw [if_neg h]) D
  exact ⟨fun i j hi hj => W.1 j i ⟨hi, hj⟩, fun c hc => W.2 c fun j i d => hc i j d⟩

/-- `euclidean_gemm` for one matrix. -/
theorem euclideanGemm_one (s : K → K) (square row : Bool) {m ldd : Nat} (hl : m ≤ ldd) (n k : Nat)
    (X : Nat → K) (ldx ldy : Nat) :
    Wr (fun D => euclideanGemm s square row m n k X ldx none ldy D ldd) (cell row ldd)
      (fun i j => i < m ∧ j < m)
      fun i j _ => if i = j then 0 else (if square then (fun v => v) else s)
        (-2 * total (fun a b => a * b) k (fun l => X (cell row ldx i l))
          (fun l => X (cell row ldx j l)) +
          (sqOf k (fun l => X (cell row ldx i l)) + sqOf k (fun l => X (cell row ldx j l)))) := by
  obtain ⟨XN, hXN⟩ : ∃ XN, XN = sqNorms row m k X ldx (fun _ => (0 : K)) := ⟨_, rfl⟩
  have base := ((syrk_wr row hl k (-2) X ldx).comp (upper_wr row hl fun i j v => v +
    (XN i + XN j))).comp (finish_wr s row square hl)
  intro D
  obtain ⟨U, hU⟩ : ∃ U, U = gemmDistance s row m n k X ldx (fun _ => 0) ldy D ldd (fun _ => 0) 2
    (fun _ => 0) 2 square true := ⟨_, rfl⟩
  have bU := base D
  have EU : U = (fun D => if !row then
        loop m D fun j D =>
          upd (if square then D else loop j D fun i D =>
            upd D (j * ldd + i) (s (D (j * ldd + i)))) (j + j * ldd) 0
      else
        loop m D fun i D =>
          upd (if 0 < m - i - 1 ∧ !square then loop (m - i - 1) D fun t D =>
            upd D (i * ldd + (i + 1) + t) (s (D (i * ldd + (i + 1) + t))) else D)
            (i * ldd + i) 0) (loop m (syrk row m k (-2) X ldx D ldd) fun j D =>
              loop (j + 1) D fun i D =>
                upd D (cell row ldd i j) (D (cell row ldd i j) + (XN i + XN j))) := by
    rw [hU, hXN]
    rfl
  rw [← EU] at bU
  have E : euclideanGemm s square row m n k X ldx none ldy D ldd =
      loop m U fun i D => loop m D fun j D =>
        if j < i then upd D (cell row ldd i j) (D (cell row ldd j i)) else D := by
    rw [hU]
    cases row with
    | false =>
      simp only [cell, Bool.false_eq_true, if_false, Nat.add_comm (_ * ldd)]
      rfl
    | true =>
      simp only [cell, if_true, Nat.add_comm (_ * ldd)]
      rfl
  have M := mirror_at row hl U
  simp only [E]
  have val : ∀ i j, i ≤ j → j < m → U (cell row ldd i j) = if i = j then 0 else
      (if square then (fun v => v) else s)
        (-2 * total (fun a b => a * b) k (fun l => X (cell row ldx i l))
          (fun l => X (cell row ldx j l)) +
          (sqOf k (fun l => X (cell row ldx i l)) + sqOf k (fun l => X (cell row ldx j l)))) := by
    intro i j hij hj
    refine (bU.1 i j ⟨hj, by omega⟩).trans ?_
    simp only
    rw [hXN, sqNorms_at row (show i < m by omega),
      sqNorms_at row hj]
    cases square <;> simp
  refine ⟨fun i j d => (M.1 i j d.1 d.2).trans ?_, fun c hc => (M.2 c hc).trans (bU.2 c fun i j d =>
    hc i j (by omega))⟩
  by_cases h : j < i
  · rw [if_pos h, val j i (by omega) d.1, if_neg (show ¬ j = i by omega),
      if_neg (show ¬ i = j by omega)]
    have : total (fun a b => a * b) k (fun l => X (cell row ldx j l))
        (fun l => X (cell row ldx i l)) = total (fun a b => a * b) k (fun l => X (cell row ldx i l))
        fun l => X (cell row ldx j l) := Finset.sum_congr rfl fun l _ => mul_comm _ _
    rw [add_comm (sqOf k fun l => X (cell row ldx j l)), this]
  · rw [if_neg h, val i j (by omega) d.2]

end Verif.PairDist
