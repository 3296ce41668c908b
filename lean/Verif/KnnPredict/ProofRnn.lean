import Verif.KnnPredict.ProofVote

/-
The predictions from the neighbours in a radius, and the members of the handle that are kept between calls.
-/
namespace Verif.KnnPredict

open Verif.Logistic (loop upd fill loop_inv loop_congr upd_same upd_ne loop_sum cell_inj)
open Finset (range)

set_option linter.unusedSectionVars false

section
variable {K : Type*} [Field K] [LinearOrder K]

/-- The row of a query without neighbours is written within the row and holds `E`. -/
def RowOk (h : Outlier) (cls : List Int) (midx : Option Nat) (mf : Int) (size base : Nat) (E : Nat → K) : Prop :=
  ∀ p : Nat → K, ∃ q, outlierRow h cls midx mf size base p = .done q ∧
    (∀ i < cls.length, q (i + base) = E i) ∧
      ∀ x, x < base ∨ base + cls.length ≤ x → q x = p x

theorem rowOk_mostFrequent (cls : List Int) (midx : Option Nat) (mf : Int) (size base : Nat) :
    RowOk (K := K) .mostFrequent cls midx mf size base fun i => if cls.getD i 0 = mf then 1 else 0 := by
  intro p
  refine ⟨_, rfl, ?_⟩
  have key := loop_inv (fun k (q : Nat → K) => ∀ x, q x = if base ≤ x ∧ x < base + k then
      (if cls.getD (x - base) 0 = mf then 1 else 0) else p x) cls.length p
      (fun i p => upd p (i + base) (if cls.getD i 0 = mf then 1 else 0))
      (fun x => by rw [if_neg (by omega)]) (by
        intro k q _ ih x
        by_cases hx : x = k + base
        · rw [hx, upd_same, if_pos (show base ≤ k + base ∧ k + base < base + (k + 1) by omega), Nat.add_sub_cancel]
        · rw [upd_ne _ _ hx, ih]
          by_cases hin : base ≤ x ∧ x < base + k
          · rw [if_pos hin, if_pos (show base ≤ x ∧ x < base + (k + 1) by omega)]
          · rw [if_neg hin, if_neg (by omega)])
  refine ⟨fun i hi => ?_, fun x hx => ?_⟩
  · rw [key, if_pos (by omega), Nat.add_sub_cancel]
  · rw [key, if_neg (by omega)]

theorem rowOk_manual {cls : List Int} (hs : cls.Pairwise (· < ·)) (v mf : Int) {nq j : Nat} (hj : j < nq)
    (hv : ∀ m : Nat, findLabel v cls = some m → cls.getD m 0 = m) :
    RowOk (K := K) .manual cls (findLabel v cls) mf (nq * cls.length) (j * cls.length)
      fun i => if cls.getD i 0 = v then 1 else 0 := by
  intro p
  cases hf : findLabel v cls with
  | none =>
    refine ⟨_, rfl, fun i hi => ?_, fun x hx => ?_⟩
    · simp only
      rw [if_neg (show ¬ cls.getD i 0 = v from fun e => (findLabel_none v cls).mp hf (e ▸ getD_mem hi))]
      exact if_pos ⟨by omega, by omega⟩
    · exact if_neg (by omega)
  | some m =>
    obtain ⟨hm, hmv⟩ := findLabel_some hf
    have hmm := hv m hf
    have hrow := row_le (nc := cls.length) hj
    unfold outlierRow
    simp only [hmm]
    have hb : (0 : Int) ≤ (m : Int) + ((j * cls.length : Nat) : Int) ∧
        (m : Int) + ((j * cls.length : Nat) : Int) < ((nq * cls.length : Nat) : Int) := by
      constructor <;> omega
    have ht : ((m : Int) + ((j * cls.length : Nat) : Int)).toNat = m + j * cls.length := by omega
    rw [if_pos hb, ht]
    refine ⟨_, rfl, fun i hi => ?_, fun x hx => ?_⟩
    · by_cases e : i = m
      · rw [e, upd_same, if_pos hmv]
      · rw [upd_ne _ _ (by omega), if_neg fun g => e (sorted_inj hs hi hm (by rw [hmv, g]))]
        exact if_pos ⟨by omega, by omega⟩
    · rw [upd_ne _ _ (by omega)]
      exact if_neg (by omega)

/-- When no query without neighbours does harm, each row is as it should be. -/
theorem probaRnn_done (h : Outlier) (nq : Nat) {cls : List Int} (hs : cls.Pairwise (· < ·)) (midx : Option Nat)
    (mf : Int) (y : Nat → Int) (cnt : Nat → Nat) (ind : Nat → Nat → Nat) (w : Nat → Nat → K) (p : Nat → K)
    (E : Nat → K) (hl : ∀ j < nq, ∀ k < cnt j, y (ind j k) ∈ cls)
    (hE : ∀ j < nq, cnt j = 0 → RowOk h cls midx mf (nq * cls.length) (j * cls.length) E) :
    ∃ q, probaRnn h nq cls midx mf y cnt ind w p = .done q ∧
      (∀ j i, j < nq → i < cls.length → q (i + j * cls.length) =
        if cnt j = 0 then E i else share (cnt j) (fun k => y (ind j k)) (w j) (cls.getD i 0)) ∧
      ∀ x, nq * cls.length ≤ x → q x = p x := by
  unfold probaRnn
  refine loop_inv (fun k (r : Result (Nat → K)) => ∃ q, r = .done q ∧
    (∀ j i, j < k → i < cls.length → q (i + j * cls.length) =
        if cnt j = 0 then E i else share (cnt j) (fun k => y (ind j k)) (w j) (cls.getD i 0)) ∧
      ∀ x, k * cls.length ≤ x → q x = p x) nq _ _ ⟨p, rfl, by omega, fun _ _ => rfl⟩ ?_
  rintro k r hk ⟨q, rfl, ih1, ih2⟩
  simp only
  have hsucc : (k + 1) * cls.length = k * cls.length + cls.length := Nat.succ_mul _ _
  have fin : ∀ q' : Nat → K,
      (∀ i < cls.length, q' (i + k * cls.length) =
        if cnt k = 0 then E i else share (cnt k) (fun l => y (ind k l)) (w k) (cls.getD i 0)) →
      (∀ x, x < k * cls.length ∨ k * cls.length + cls.length ≤ x → q' x = q x) →
      (∀ j i, j < k + 1 → i < cls.length → q' (i + j * cls.length) =
        if cnt j = 0 then E i else share (cnt j) (fun k => y (ind j k)) (w j) (cls.getD i 0)) ∧
      ∀ x, (k + 1) * cls.length ≤ x → q' x = p x := by
    intro q' g1 g2
    refine ⟨fun j i hj hi => ?_, fun x hx => ?_⟩
    · rcases Nat.lt_succ_iff_lt_or_eq.mp hj with g | g
      · have := row_le (nc := cls.length) g
        rw [g2 _ (Or.inl (by omega))]
        exact ih1 j i g hi
      · subst g; exact g1 i hi
    · rw [g2 x (Or.inr (by omega))]
      exact ih2 x (by omega)
  by_cases h0 : cnt k = 0
  · rw [if_pos h0]
    obtain ⟨q', e, g1, g2⟩ := hE k hk h0 q
    exact ⟨q', e, fin q' (fun i hi => by rw [if_pos h0]; exact g1 i hi) g2⟩
  · rw [if_neg h0]
    exact ⟨_, rfl, fin _ (fun i hi => by
      rw [if_neg h0]; exact voteRow_share hs _ _ _ (hl k hk) _ _ hi)
      fun x hx => voteRow_keep _ _ _ _ _ _ hx⟩

/-- With a label of another value than its position, the row of some query without neighbours lacks its 1. -/
theorem probaRnn_misses (nq : Nat) (cls : List Int) (mf : Int) (y : Nat → Int) (cnt : Nat → Nat)
    (ind : Nat → Nat → Nat) (w : Nat → Nat → K) (p : Nat → K) {m : Nat} (hm : m < cls.length)
    (hne : cls.getD m 0 ≠ m) (hex : ∃ j < nq, cnt j = 0) :
    probaRnn .manual nq cls (some m) mf y cnt ind w p = .outside ∨
      ∃ q, probaRnn .manual nq cls (some m) mf y cnt ind w p = .done q ∧
        ∃ j < nq, cnt j = 0 ∧ q (m + j * cls.length) = 0 := by
  have key : probaRnn .manual nq cls (some m) mf y cnt ind w p = .outside ∨
      ∃ q, probaRnn .manual nq cls (some m) mf y cnt ind w p = .done q ∧
        ((∃ j < nq, cnt j = 0) → ∃ j < nq, cnt j = 0 ∧ q (m + j * cls.length) = 0) := by
    unfold probaRnn
    refine loop_inv (fun k (r : Result (Nat → K)) => r = .outside ∨ ∃ q, r = .done q ∧
        ((∃ j < k, cnt j = 0) → ∃ j < k, cnt j = 0 ∧ q (m + j * cls.length) = 0)) nq _ _
        (Or.inr ⟨p, rfl, by rintro ⟨j, hj, _⟩; omega⟩) ?_
    rintro k r hk (rfl | ⟨q, rfl, ih⟩)
    · exact Or.inl rfl
    · simp only
      by_cases h0 : cnt k = 0
      · rw [if_pos h0]
        unfold outlierRow
        simp only
        split
        · next hb =>
          refine Or.inr ⟨_, rfl, fun _ => ⟨k, by omega, h0, ?_⟩⟩
          rw [upd_ne _ _ (by omega)]
          exact if_pos ⟨by omega, by omega⟩
        · exact Or.inl rfl
      · rw [if_neg h0]
        refine Or.inr ⟨_, rfl, ?_⟩
        rintro ⟨j, hj, hj0⟩
        have hjk : j < k := by
          rcases Nat.lt_succ_iff_lt_or_eq.mp hj with g | g
          · exact g
          · subst g; exact absurd hj0 h0
        obtain ⟨j', hj', hj0', e⟩ := ih ⟨j, hjk, hj0⟩
        refine ⟨j', by omega, hj0', ?_⟩
        have := row_le (nc := cls.length) hj'
        rw [voteRow_keep _ _ _ _ _ _ (Or.inl (by omega))]
        exact e
  rcases key with h | ⟨q, h, g⟩
  · exact Or.inl h
  · exact Or.inr ⟨q, h, g hex⟩

/-! ### Targets -/

theorem gather_at (size n : Nat) (t : Nat → K) (ind : Nat → Nat) (pred : Nat → K) :
    (n ≤ size → ∃ q, gather size n t ind pred = .done q ∧ ∀ i < n, q i = t (ind i)) ∧
      (size < n → gather size n t ind pred = .outside) := by
  unfold gather
  refine loop_inv (fun k (r : Result (Nat → K)) =>
    (k ≤ size → ∃ q, r = .done q ∧ ∀ i < k, q i = t (ind i)) ∧ (size < k → r = .outside)) n _ _
    ⟨fun _ => ⟨pred, rfl, by omega⟩, by omega⟩ ?_
  rintro k r _ ⟨ih1, ih2⟩
  refine ⟨fun hk => ?_, fun hk => ?_⟩
  · obtain ⟨q, rfl, hq⟩ := ih1 (by omega)
    simp only
    rw [if_pos (by omega)]
    refine ⟨_, rfl, fun i hi => ?_⟩
    by_cases e : i = k
    · rw [e, upd_same]
    · rw [upd_ne _ _ e]; exact hq i (by omega)
  · by_cases hs : size < k
    · rw [ih2 hs]
    · obtain ⟨q, rfl, hq⟩ := ih1 (by omega)
      simp only
      rw [if_neg (by omega)]

theorem maxElement_at (m : Nat) (cnt : Nat → Nat) :
    (maxElement m cnt < m ∨ maxElement m cnt = 0) ∧ ∀ i < m, cnt i ≤ cnt (maxElement m cnt) := by
  unfold maxElement
  refine loop_inv (fun k b => (b < k ∨ b = 0) ∧ ∀ i < k, cnt i ≤ cnt b) m _ _ ⟨Or.inr rfl, by omega⟩ ?_
  rintro k b _ ⟨h1, h2⟩
  split
  · next h =>
    refine ⟨Or.inl (by omega), fun i hi => ?_⟩
    rcases Nat.lt_succ_iff_lt_or_eq.mp hi with g | g
    · exact (h2 i g).trans h.le
    · rw [g]
  · next h =>
    refine ⟨by omega, fun i hi => ?_⟩
    rcases Nat.lt_succ_iff_lt_or_eq.mp hi with g | g
    · exact h2 i g
    · rw [g]; omega

/-- What the target of a query without neighbours should be. -/
def outlierValue (h : Outlier) (manual meanTarget : K) : K :=
  match h with
  | .mostFrequent => meanTarget
  | _ => manual

theorem outlierTarget_at {h : Outlier} (hh : h ≠ .none) (manual meanTarget : K) (j : Nat) (out : Nat → K) :
    outlierTarget h manual meanTarget j out = .done (upd out j (outlierValue h manual meanTarget)) := by
  cases h
  · exact absurd rfl hh
  · rfl
  · rfl

variable [IsStrictOrderedRing K]

theorem targetsRnnDistance_at (h : Outlier) (manual meanTarget : K) (nq : Nat) (t : Nat → K) (cnt : Nat → Nat)
    (ind : Nat → Nat → Nat) (w : Nat → Nat → K) (out : Nat → K)
    (hh : h = .none → ∀ j < nq, cnt j ≠ 0) :
    ∃ q, targetsRnnDistance h manual meanTarget nq t cnt ind w out = .done q ∧
      ∀ x, q x = if x < nq then (if cnt x = 0 then outlierValue h manual meanTarget
        else weightedMean (cnt x) (fun k => t (ind x k)) (w x)) else out x := by
  unfold targetsRnnDistance
  refine loop_inv (fun k (r : Result (Nat → K)) => ∃ q, r = .done q ∧
    ∀ x, q x = if x < k then (if cnt x = 0 then outlierValue h manual meanTarget
        else weightedMean (cnt x) (fun k => t (ind x k)) (w x)) else out x) nq _ _
      ⟨out, rfl, fun x => by simp⟩ ?_
  rintro k r hk ⟨q, rfl, ih⟩
  simp only
  have fin : ∀ (q' : Nat → K) (V : K), (∀ x, q' x = if x = k then V else q x) →
      V = (if cnt k = 0 then outlierValue h manual meanTarget
        else weightedMean (cnt k) (fun l => t (ind k l)) (w k)) →
      ∀ x, q' x = if x < k + 1 then (if cnt x = 0 then outlierValue h manual meanTarget
        else weightedMean (cnt x) (fun k => t (ind x k)) (w x)) else out x := by
    intro q' V g1 g2 x
    rw [g1]
    by_cases hx : x = k
    · rw [if_pos hx, if_pos (by omega), g2, hx]
    · rw [if_neg hx, ih]
      by_cases hlt : x < k
      · rw [if_pos hlt, if_pos (show x < k + 1 by omega)]
      · rw [if_neg hlt, if_neg (show ¬ x < k + 1 by omega)]
  by_cases h0 : cnt k = 0
  · rw [if_pos h0, outlierTarget_at fun e => hh e k hk h0]
    refine ⟨_, rfl, fin _ (outlierValue h manual meanTarget) (fun x => ?_) (by rw [if_pos h0])⟩
    rfl
  · rw [if_neg h0]
    refine ⟨_, rfl, fin _ (weightedMean (cnt k) (fun l => t (ind k l)) (w k)) (fun x => ?_) (by rw [if_neg h0])⟩
    exact accum_at (cnt k) k (fun l => t (ind k l)) (w k) q x

theorem mean_congr (n : Nat) {x x' : Nat → K} (h : ∀ i < n, x i = x' i) : mean n x = mean n x' := by
  unfold mean
  rw [loop_congr n (0 : K) (fun i s => s + x i) (fun i s => s + x' i) fun i s hi => by rw [h i hi]]

/-- The loop over the queries with uniform weights, up to the first query with more neighbours than pred_targets holds. -/
theorem targetsUniform_loop (h : Outlier) (manual meanTarget : K) (size nq : Nat) (t : Nat → K) (cnt : Nat → Nat)
    (ind : Nat → Nat → Nat) (out : Nat → K) (hh : h = .none → ∀ j < nq, cnt j ≠ 0)
    (hsz : ∀ j < nq, cnt j ≤ size) :
    ∃ q pred, loop nq (.done (out, fun _ => (0 : K))) (targetStep h manual meanTarget size t cnt ind) =
        .done (q, pred) ∧
      ∀ x, q x = if x < nq then (if cnt x = 0 then outlierValue h manual meanTarget
        else weightedMean (cnt x) (fun k => t (ind x k)) fun _ => 1) else out x := by
  refine loop_inv (fun k (r : Result ((Nat → K) × (Nat → K))) => ∃ q pred, r = .done (q, pred) ∧
    ∀ x, q x = if x < k then (if cnt x = 0 then outlierValue h manual meanTarget
        else weightedMean (cnt x) (fun k => t (ind x k)) fun _ => 1) else out x) nq _ _
      ⟨out, _, rfl, fun x => by simp⟩ ?_
  rintro k r hk ⟨q, pred, rfl, ih⟩
  unfold targetStep
  simp only
  have fin : ∀ (V : K), V = (if cnt k = 0 then outlierValue h manual meanTarget
        else weightedMean (cnt k) (fun l => t (ind k l)) fun _ => 1) →
      ∀ x, upd q k V x = if x < k + 1 then (if cnt x = 0 then outlierValue h manual meanTarget
        else weightedMean (cnt x) (fun k => t (ind x k)) fun _ => 1) else out x := by
    intro V g2 x
    by_cases hx : x = k
    · rw [hx, upd_same, if_pos (by omega), g2]
    · rw [upd_ne _ _ hx, ih]
      by_cases hlt : x < k
      · rw [if_pos hlt, if_pos (show x < k + 1 by omega)]
      · rw [if_neg hlt, if_neg (show ¬ x < k + 1 by omega)]
  by_cases h0 : cnt k = 0
  · rw [if_pos h0, outlierTarget_at fun e => hh e k hk h0]
    exact ⟨_, _, rfl, fin _ (by rw [if_pos h0])⟩
  · rw [if_neg h0]
    obtain ⟨pred', e, hp⟩ := (gather_at size (cnt k) t (ind k) pred).1 (hsz k hk)
    rw [e]
    refine ⟨_, _, rfl, fin _ ?_⟩
    rw [if_neg h0, mean_congr _ hp, mean_eq]

end

/-! ### The handle -/

/-- Nothing kept is out of date. -/
def Fresh (h : Handle) : Prop :=
  (∀ c, h.classes = some c → c = availableClasses h.n h.y) ∧
  (∀ v, h.mostFreq = some v → v = mostFrequentElement h.n h.y) ∧
  ∀ m, h.manualIdx = some m → m = findLabel h.manualLabel (availableClasses h.n h.y)

theorem fresh_options {h : Handle} (hf : Fresh h) (o : Outlier) (v : Int) : Fresh (h.setOptions o v) := hf

theorem fresh_check {h : Handle} (hf : Fresh h) : Fresh h.checkOptions := by
  unfold Handle.checkOptions
  simp only
  split
  · split
    · exact ⟨hf.1, hf.2.1, fun m e => by simp at e⟩
    · exact hf
  · exact hf

theorem check_label (h : Handle) : h.checkOptions.outlier = h.optOutlier ∧
    (h.checkOptions.outlier = .manual → h.checkOptions.manualLabel = h.optLabel) ∧
    h.checkOptions.n = h.n ∧ h.checkOptions.y = h.y ∧ h.checkOptions.optOutlier = h.optOutlier ∧
    h.checkOptions.optLabel = h.optLabel := by
  unfold Handle.checkOptions
  simp only
  split
  · split
    · simp
    · next e => simp only [ne_eq, not_not] at e; simp [e]
  · next e => simp [e]

theorem need_classes {h : Handle} (hf : Fresh h) : Fresh h.needClasses ∧
    h.needClasses.classes = some (availableClasses h.n h.y) ∧ h.needClasses.n = h.n ∧
    h.needClasses.y = h.y ∧ h.needClasses.outlier = h.outlier ∧ h.needClasses.manualLabel = h.manualLabel := by
  unfold Handle.needClasses
  split
  · next e =>
    refine ⟨⟨fun c hc => ?_, hf.2.1, hf.2.2⟩, rfl, rfl, rfl, rfl, rfl⟩
    simpa using hc.symm
  · next c e => exact ⟨hf, by rw [e, hf.1 c e], rfl, rfl, rfl, rfl⟩

theorem fresh_knn {h : Handle} (hf : Fresh h) : Fresh h.startKnn := (need_classes (fresh_check hf)).1

theorem start_rnn {h : Handle} (hf : Fresh h) : Fresh h.startRnn ∧ h.startRnn.n = h.n ∧ h.startRnn.y = h.y ∧
    h.startRnn.outlier = h.optOutlier ∧
    h.startRnn.classes = some (availableClasses h.n h.y) ∧
    (h.optOutlier = .mostFrequent → h.startRnn.mostFreq = some (mostFrequentElement h.n h.y)) ∧
    (h.optOutlier = .manual → h.startRnn.manualLabel = h.optLabel ∧
      h.startRnn.manualIdx = some (findLabel h.optLabel (availableClasses h.n h.y))) := by
  obtain ⟨c1, c2, c3, c4, _, _⟩ := check_label h
  obtain ⟨g0, g1, g2, g3, g4, g5⟩ := need_classes (fresh_check hf)
  obtain ⟨k, hk⟩ : ∃ k, k = h.checkOptions.needClasses := ⟨_, rfl⟩
  unfold Handle.startRnn
  simp only
  rw [← hk] at g0 g1 g2 g3 g4 g5 ⊢
  rw [c3] at g2
  rw [c4] at g3
  rw [c3, c4] at g1
  rw [c1] at g4
  cases ho : h.optOutlier with
  | none =>
    rw [ho] at g4
    simp only [g4, reduceCtorEq, if_false, false_imp_iff, and_true]
    exact ⟨g0, g2, g3, trivial, g1⟩
  | mostFrequent =>
    rw [ho] at g4
    simp only [g4, if_true]
    cases hm : k.mostFreq with
    | none =>
      simp only [reduceCtorEq, if_false, false_imp_iff, and_true, true_imp_iff]
      refine ⟨⟨g0.1, fun v e => ?_, g0.2.2⟩, g2, g3, trivial, g1, ?_⟩
      · simpa using e.symm
      · rw [g2, g3]
    | some v =>
      simp only [g4, reduceCtorEq, if_false, false_imp_iff, and_true, true_imp_iff]
      refine ⟨g0, g2, g3, trivial, g1, ?_⟩
      rw [hm, g0.2.1 v hm, g2, g3]
  | manual =>
    rw [ho] at g4 c1
    have hl := c2 c1
    rw [hl] at g5
    simp only [g4, reduceCtorEq, if_false, if_true, false_imp_iff, true_imp_iff, true_and]
    cases hm : k.manualIdx with
    | none =>
      refine ⟨⟨g0.1, g0.2.1, fun m e => ?_⟩, g2, g3, rfl, g1, g5, ?_⟩
      · simp only [Option.some.injEq] at e
        simp only
        rw [← e, g1, g2, g3, Option.getD_some]
      · simp only
        rw [g1, g5, Option.getD_some]
    | some m =>
      simp only
      refine ⟨g0, g2, g3, g4, g1, g5, ?_⟩
      rw [hm, g0.2.2 m hm, g5, g2, g3]

end Verif.KnnPredict
