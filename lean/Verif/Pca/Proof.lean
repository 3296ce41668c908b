import Verif.Pca.Spec
import Verif.KernelPca.ProofCentre
import Mathlib.Tactic.FieldSimp
import Mathlib.Tactic.Ring
import Mathlib.Algebra.BigOperators.Field
import Mathlib.Algebra.BigOperators.Ring.Finset
import Mathlib.Algebra.Order.BigOperators.Group.Finset

set_option linter.unusedSectionVars false

namespace Verif.Pca

open Finset
open Verif.Logistic (loop upd loop_sum loop_congr upd_same upd_ne)
open Verif.PairDist (cell Wr Inj)
open Verif.KernelPca (pos pos_cell inj_pos both_wr gemmNN gemmNN_wr Wr.rectRow)

variable {K : Type*} [Field K] [LinearOrder K] [IsStrictOrderedRing K]

theorem standardizedCopy_at (method : Method) (n p lda : Nat) (A means sds sdnz C : Nat → K)
    (hs : ∀ j < p, sdnz j = if sds j = 0 then 1 else sds j) {i j : Nat} (hi : i < n) (hj : j < p) :
    standardizedCopy method n p lda A means sdnz C (i + j * n) = std method means sds (A (i + lda * j)) j := by
  have := (both_wr false (m := n) (n := p) (ld := n) (by simp) (fun i j _ => match method with
      | .svd => A (i + lda * j)
      | .cov => A (i + lda * j) - means j
      | .corr => (A (i + lda * j) - means j) / sdnz j) C).1 i j ⟨hi, hj⟩
  refine Eq.trans ?_ (Eq.trans this ?_)
  · cases method <;> rfl
  · cases method <;> simp [std, hs j hj]

theorem upper_wr (p : Nat) (G : Nat → Nat → K → K) :
    Wr (fun V => loop p V fun j V => loop (j + 1) V fun i V => upd V (i + p * j) (G i j (V (i + p * j))))
      (fun i j => i + p * j) (fun i j => j < p ∧ i < j + 1) G :=
  Wr.nest (n := p) (b := fun j => j + 1) (idx := fun i j => i + p * j) (G := G)
    (h := fun i j V => upd V (i + p * j) (G i j (V (i + p * j))))
    (fun i j i' j' d d' e => by
      have := Verif.Logistic.cell_inj (ns := p) (k := j) (k' := j') (i := i) (i' := i') (by omega) (by omega)
        (by simpa [Nat.add_comm, Nat.mul_comm] using e)
      exact ⟨this.2, this.1⟩)
    (fun _ _ _ _ _ => upd_same _ _ _) fun _ _ _ _ _ _ h => upd_ne _ _ h

theorem gramOf_at (method : Method) {n p : Nat} (hn : (n : K) ≠ 0) (lda : Nat) (A means sds sdnz V : Nat → K)
    (hs : ∀ j < p, sdnz j = if sds j = 0 then 1 else sds j)
    (hm : ∀ j < p, means j = (∑ i ∈ range n, A (i + lda * j)) / n) {i j : Nat} (hij : i ≤ j) (hj : j < p) :
    gramOf method n p lda A means sdnz V (i + p * j) =
      ∑ r ∈ range n, std method means sds (A (r + lda * i)) i * std method means sds (A (r + lda * j)) j := by
  have h1 : syrkUpper n p lda p A V (i + p * j) = ∑ r ∈ range n, A (r + lda * i) * A (r + lda * j) := by
    have := (upper_wr p (fun i j _ => loop n 0 fun r s => s + A (r + lda * i) * A (r + lda * j)) V).1 i j ⟨hj, by omega⟩
    refine Eq.trans this ?_
    show loop n 0 _ = _
    rw [loop_sum]
    simp
  have hsum : ∀ j < p, ∑ r ∈ range n, A (r + lda * j) = n * means j := by
    intro j hj
    rw [hm j hj]
    field_simp
  have hc : ∑ r ∈ range n, (A (r + lda * i) - means i) * (A (r + lda * j) - means j) =
      ∑ r ∈ range n, A (r + lda * i) * A (r + lda * j) - n * means j * means i := by
    have : ∀ r, (A (r + lda * i) - means i) * (A (r + lda * j) - means j) =
      A (r + lda * i) * A (r + lda * j) - means i * A (r + lda * j) - A (r + lda * i) * means j + means i * means j := by
      intro r; ring
    simp only [this]
    rw [sum_add_distrib, sum_sub_distrib, sum_sub_distrib, ← mul_sum, ← sum_mul, hsum i (by omega), hsum j hj, sum_const, card_range,
      nsmul_eq_mul]
    ring
  have h2 : ∀ V : Nat → K, method ≠ .svd → correctGram method n p p means sdnz V (i + p * j) =
      if method = .corr then (V (i + p * j) - n * means j * means i) / (sdnz j * sdnz i)
      else V (i + p * j) - n * means j * means i := by
    intro V h
    unfold correctGram
    rw [if_neg h]
    exact (upper_wr p (fun i j x => if method = .corr then (x - n * means j * means i) / (sdnz j * sdnz i)
      else x - n * means j * means i) V).1 i j ⟨hj, by omega⟩
  unfold gramOf
  cases method with
  | svd => simpa [correctGram, std] using h1
  | cov => rw [h2 _ (by decide), h1]; simp [std, hc]
  | corr =>
    rw [h2 _ (by decide), h1, if_pos rfl, ← hc, hs j hj, hs i (by omega), sum_div]
    refine sum_congr rfl fun r _ => ?_
    simp only [std]
    rw [div_mul_div_comm, mul_comm (if sds j = 0 then (1 : K) else sds j)]

theorem sum_grid (n p : Nat) (g : Nat → K) : ∑ i ∈ range (n * p), g i = ∑ j ∈ range p, ∑ i ∈ range n, g (i + j * n) := by
  induction p with
  | zero => simp
  | succ p ih =>
    rw [Nat.mul_succ, sum_range_add, ih, sum_range_succ]
    congr 1
    exact sum_congr rfl fun i _ => by rw [Nat.mul_comm n p, Nat.add_comm]

theorem totalVariance_copy (n p : Nat) (div : K) (C V : Nat → K) :
    totalVariance false n p div C V = (∑ j ∈ range p, ∑ i ∈ range n, C (i + j * n) ^ 2) / div := by
  unfold totalVariance
  simp only [Bool.false_eq_true, if_false]
  rw [loop_sum, zero_add, sum_grid n p fun i => C i * C i]
  simp only [pow_two]

theorem totalVariance_gram (n p : Nat) (div : K) (C V : Nat → K) :
    totalVariance true n p div C V = (∑ j ∈ range p, V (j + p * j)) / div := by
  unfold totalVariance
  simp only [if_true]
  rw [loop_sum, zero_add]

theorem buildV_at (f : Fit K) (v : Nat → K) {i j : Nat} (hj : j < f.p) (hi : i < f.npc) :
    buildV f v (pos f.row (if f.row then f.npc else f.p) j i) = vEntry f j i := by
  have := (Wr.rectRow (m := f.p) (n := f.npc) (idx := pos f.row (if f.row then f.npc else f.p)) (G := fun j i _ => vEntry f j i)
    (inj_pos f.row (by cases f.row <;> simp)) v).1 j i ⟨hj, hi⟩
  refine Eq.trans ?_ this
  unfold buildV
  cases f.row <;> simp [pos, Nat.add_comm, Nat.mul_comm]

theorem vEntry_eq (f : Fit K) (h : Fitted f) {i j : Nat} (hj : j < f.p) (hi : i < f.npc) :
    vEntry f j i = (if f.method = .corr then 1 / (if f.sds j = 0 then 1 else f.sds j) else 1) * f.vt (i + f.ldvt * j) *
      whitening f i := by
  have hz : f.sigma (f.npc - 1) ≠ 0 → f.sigma i ≠ 0 := by
    intro h0 h1
    have a := h.sorted i hi
    have b := h.nonneg (f.npc - 1) (by have := h.pos; omega)
    rw [h1] at a
    exact h0 (le_antisymm a b)
  have hp : (0 < f.sigma i) ↔ ¬ f.sigma i = 0 :=
    ⟨fun a b => by rw [b] at a; exact lt_irrefl _ a, fun a => lt_of_le_of_ne (h.nonneg i hi) (Ne.symm a)⟩
  unfold vEntry sdevFactor whitening
  rw [h.sdnz j hj]
  by_cases hw : f.whiten = true
  · by_cases h0 : f.sigma (f.npc - 1) = 0
    · by_cases h1 : f.sigma i = 0
      · have : ¬ 0 < f.sigma i := fun a => (hp.1 a) h1
        by_cases hc : f.method = .corr
        · simp only [hw, h0, lt_irrefl, hc, h1, if_true, if_false]; ring
        · simp only [hw, h0, lt_irrefl, hc, h1, if_true, if_false]; ring
      · have : 0 < f.sigma i := hp.2 h1
        by_cases hc : f.method = .corr
        · simp only [hw, h0, this, hc, h1, if_true, if_false]; ring
        · simp only [hw, h0, this, hc, h1, if_true, if_false]; ring
    · have h1 := hz h0
      by_cases hc : f.method = .corr
      · simp only [hw, h0, hc, h1, if_true, if_false]; ring
      · simp only [hw, h0, hc, h1, if_true, if_false]; ring
  · by_cases hc : f.method = .corr
    · simp only [hw, hc, if_true, Bool.false_eq_true, if_false]; ring
    · simp only [hw, hc, Bool.false_eq_true, if_false]; ring

theorem transform_at (f : Fit K) (h : Fitted f) (m : Nat) (X : Nat → K) (ldx : Nat) (T : Nat → K) {ldt : Nat}
    (hl : if f.row then f.npc ≤ ldt else m ≤ ldt) {i c : Nat} (hi : i < m) (hc : c < f.npc) :
    transform f m X ldx T ldt (pos f.row ldt i c) = coordinate f (fun j => X (pos f.row ldx i j)) c := by
  have hg := (gemmNN_wr f.row hl f.p X ldx (buildV f fun _ => 0) (if f.row then f.npc else f.p) T).1 i c ⟨hi, hc⟩
  have hg' : gemmNN f.row m f.npc f.p X ldx (buildV f fun _ => 0) (if f.row then f.npc else f.p) T ldt (pos f.row ldt i c) =
      ∑ j ∈ range f.p, X (pos f.row ldx i j) * vEntry f j c :=
    hg.trans (sum_congr rfl fun j hj => by rw [buildV_at f _ (mem_range.1 hj) hc])
  have hmc : meanCorrection f (buildV f fun _ => 0) c = ∑ j ∈ range f.p, vEntry f j c * f.means j := by
    unfold meanCorrection
    rw [loop_sum, zero_add]
    exact sum_congr rfl fun j hj => by rw [pos_cell, buildV_at f _ (mem_range.1 hj) hc]
  unfold coordinate
  rw [sum_mul]
  unfold transform
  by_cases hs : f.method = .svd
  · simp only [hs, if_true]
    rw [hg']
    refine sum_congr rfl fun j hj => ?_
    rw [vEntry_eq f h (mem_range.1 hj) hc, hs]
    simp only [std, reduceCtorEq, if_false]
    ring
  · have := (both_wr f.row hl (fun _ c x => x - meanCorrection f (buildV f fun _ => 0) c)
      (gemmNN f.row m f.npc f.p X ldx (buildV f fun _ => 0) (if f.row then f.npc else f.p) T ldt)).1 i c ⟨hi, hc⟩
    simp only [hs, if_false]
    refine Eq.trans ?_ (this.trans ?_)
    · cases f.row <;> simp [pos, Nat.add_comm, Nat.mul_comm]
    · show _ - _ = _
      rw [hg', hmc, ← sum_sub_distrib]
      refine sum_congr rfl fun j hj => ?_
      rw [vEntry_eq f h (mem_range.1 hj) hc]
      cases hm : f.method with
      | svd => exact absurd hm hs
      | cov => simp only [std, reduceCtorEq, if_false]; ring
      | corr => simp only [std, if_true]; ring

theorem scores_at (f : Fit K) (n ldu : Nat) (u out : Nat → K) {i c : Nat} (hi : i < n) (hc : c < f.npc) :
    scores f n ldu u out (pos f.row (if f.row then f.npc else n) i c) =
      u (i + ldu * c) * if f.whiten then f.sqrtDiv else f.sigma c := by
  have w := (both_wr f.row (m := n) (n := f.npc) (ld := if f.row then f.npc else n) (by cases f.row <;> simp)
      fun i j _ => u (i + ldu * j)).comp
    (both_wr f.row (m := n) (n := f.npc) (ld := if f.row then f.npc else n) (by cases f.row <;> simp)
      fun _ j x => x * if f.whiten then f.sqrtDiv else f.sigma j)
  refine Eq.trans ?_ ((w out).1 i c ⟨hi, hc⟩)
  unfold scores
  cases f.row <;> simp

theorem inverseOperator_at (f : Fit K) {c j : Nat} (hc : c < f.npc) (hj : j < f.p) :
    (inverseOperator f).1 (pos f.row (inverseOperator f).2 c j) =
      f.vt (c + f.ldvt * j) * (if f.whiten then f.sigma c / f.sqrtDiv else 1) := by
  have key : ∀ G : Nat → Nat → K, ∀ o : Nat → K, ∀ row : Bool,
      (loop f.p o fun j o => loop f.npc o fun i o => upd o (pos row (if row then f.p else f.npc) i j) (G i j))
        (pos row (if row then f.p else f.npc) c j) = G c j := by
    intro G o row
    exact (Wr.rect (m := f.npc) (n := f.p) (idx := pos row (if row then f.p else f.npc)) (G := fun i j _ => G i j)
      (inj_pos row (by cases row <;> simp)) o).1 c j ⟨hc, hj⟩
  unfold inverseOperator
  by_cases hw : f.whiten = true
  · by_cases hr : f.row = true
    · have := key (fun i j => f.vt (i + f.ldvt * j) * f.sigma i / f.sqrtDiv) (fun _ => 0) true
      simp only [hw, hr, if_true, pos] at this ⊢
      rw [mul_div_assoc'] 
      refine Eq.trans ?_ this
      refine congrFun ?_ _
      refine loop_congr _ _ _ _ (fun j o _ => loop_congr _ _ _ _ (fun i o _ => ?_))
      rw [Nat.add_comm, Nat.mul_comm]
    · have := key (fun i j => f.vt (i + f.ldvt * j) * f.sigma i / f.sqrtDiv) (fun _ => 0) false
      simp only [hw, hr, if_true, pos, Bool.false_eq_true, if_false] at this ⊢
      rw [mul_div_assoc']
      refine Eq.trans ?_ this
      refine congrFun ?_ _
      refine loop_congr _ _ _ _ (fun j o _ => loop_congr _ _ _ _ (fun i o _ => ?_))
      rw [Nat.mul_comm]
  · by_cases hr : f.row = true
    · have := key (fun i j => f.vt (i + f.ldvt * j)) (fun _ => 0) true
      simp only [hw, hr, if_true, pos, Bool.false_eq_true, if_false, mul_one] at this ⊢
      refine Eq.trans ?_ this
      refine congrFun ?_ _
      refine loop_congr _ _ _ _ (fun j o _ => loop_congr _ _ _ _ (fun i o _ => ?_))
      rw [Nat.add_comm, Nat.mul_comm]
    · simp only [hw, hr, pos, Bool.false_eq_true, if_false, mul_one]
      rw [Nat.mul_comm]

theorem isZero_iff (p : Nat) (a : Nat → K) : isZero p a = true ↔ ∀ j < p, a j = 0 := by
  simp [isZero]

theorem colMean_eq (row : Bool) (n ld : Nat) (A : Nat → K) (j : Nat) :
    colMean row n ld A j = (∑ i ∈ range n, A (pos row ld i j)) / n := by
  unfold colMean
  rw [loop_sum]
  simp [pos_cell]

theorem product_at (f : Fit K) (k : Nat) (Y : Nat → K) (ldy : Nat) (Z : Nat → K) {ldz : Nat}
    (hl : if f.row then f.p ≤ ldz else k ≤ ldz) {i j : Nat} (hi : i < k) (hj : j < f.p) :
    gemmNN f.row k f.p f.npc Y ldy (inverseOperator f).1 (inverseOperator f).2 Z ldz (pos f.row ldz i j) =
      recon f (fun c => Y (pos f.row ldy i c)) j := by
  refine ((gemmNN_wr f.row hl f.npc Y ldy (inverseOperator f).1 (inverseOperator f).2 Z).1 i j ⟨hi, hj⟩).trans ?_
  unfold recon
  refine sum_congr rfl fun c hc => ?_
  rw [inverseOperator_at f (mem_range.1 hc) hj]
  ring

theorem undo_at (f : Fit K) (k : Nat) (dev X : Nat → K) {ld : Nat} (hl : if f.row then f.p ≤ ld else k ≤ ld) {i j : Nat}
    (hi : i < k) (hj : j < f.p) :
    undo f k dev X ld (pos f.row ld i j) =
      unstd f.method (shiftUsed f.row k f.p ld f.means X) (scaleUsed f.p f.sds dev) (X (pos f.row ld i j)) j := by
  have := (both_wr f.row hl (fun _ j x => x * (if f.method = .corr then nonzero (scaleUsed f.p f.sds dev) j else 1) +
    shiftUsed f.row k f.p ld f.means X j) X).1 i j ⟨hi, hj⟩
  unfold undo
  cases hm : f.method with
  | svd => simp [unstd]
  | cov =>
    simp only [reduceCtorEq, if_false, hm] at this ⊢
    exact this.trans (by simp [unstd])
  | corr =>
    simp only [reduceCtorEq, if_true, if_false, hm] at this ⊢
    exact this.trans (by simp [unstd, nonzero])

end Verif.Pca
