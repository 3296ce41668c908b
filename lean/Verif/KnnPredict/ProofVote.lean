import Verif.KnnPredict.Proof
import Verif.KnnPredict.Spec

/-
The rows of the probabilities, the label with the most votes, and the means of the targets.
-/
namespace Verif.KnnPredict

open Verif.Logistic (loop upd fill loop_inv loop_congr upd_same upd_ne loop_sum cell_inj)
open Finset (range)

set_option linter.unusedSectionVars false

section
variable {K : Type*} [Field K] [LinearOrder K]

theorem tally_at (c : Int) (nn : Nat) (lab : Nat → Int) (w : Nat → K) (a : Nat) (p : Nat → K) (x : Nat) :
    tally c nn lab w a p x = if x = a then p a + votes nn lab w c else p x := by
  have key : ∀ x, tally c nn lab w a p x =
      if x = a then p a + ∑ k ∈ range nn, (if lab k = c then w k else 0) else p x := by
    unfold tally
    refine loop_inv (fun n (q : Nat → K) => ∀ x, q x =
      if x = a then p a + ∑ k ∈ range n, (if lab k = c then w k else 0) else p x) nn _ _ ?_ ?_
    · intro x
      by_cases h : x = a
      · simp [h]
      · simp [h]
    · intro k q _ ih x
      by_cases hc : c = lab k
      · rw [if_pos hc, Finset.sum_range_succ, if_pos hc.symm]
        by_cases h : x = a
        · rw [h, upd_same, if_pos rfl, ih, if_pos rfl, add_assoc]
        · rw [upd_ne _ _ h, if_neg h, ih, if_neg h]
      · rw [if_neg hc, Finset.sum_range_succ, if_neg (show ¬ lab k = c from fun e => hc e.symm), add_zero]
        exact ih x
  rw [key]
  unfold votes
  rw [Finset.sum_filter]

theorem voteRow_at (cls : List Int) (nn : Nat) (lab : Nat → Int) (w : Nat → K) (base : Nat) (p : Nat → K)
    (x : Nat) :
    voteRow cls nn lab w base p x =
      if base ≤ x ∧ x < base + cls.length then
        votes nn lab w (cls.getD (x - base) 0) / ∑ i ∈ range cls.length, votes nn lab w (cls.getD i 0)
      else p x := by
  unfold voteRow
  simp only
  obtain ⟨s, hs⟩ : ∃ s, s = loop cls.length (p, (0 : K)) fun i s =>
    (tally (cls.getD i 0) nn lab w (i + base) (upd s.1 (i + base) 0),
      s.2 + tally (cls.getD i 0) nn lab w (i + base) (upd s.1 (i + base) 0) (i + base)) := ⟨_, rfl⟩
  rw [← hs]
  have h1 : s.2 = ∑ i ∈ range cls.length, votes nn lab w (cls.getD i 0) ∧ ∀ x, s.1 x =
      if base ≤ x ∧ x < base + cls.length then votes nn lab w (cls.getD (x - base) 0) else p x := by
    rw [hs]
    refine loop_inv (fun k (s : (Nat → K) × K) =>
      s.2 = ∑ i ∈ range k, votes nn lab w (cls.getD i 0) ∧ ∀ x, s.1 x =
        if base ≤ x ∧ x < base + k then votes nn lab w (cls.getD (x - base) 0) else p x)
      cls.length _ _ ⟨by simp, fun x => by rw [if_neg (by omega)]⟩ ?_
    rintro k ⟨q, d⟩ hk ⟨ih1, ih2⟩
    simp only at ih1 ih2 ⊢
    refine ⟨?_, fun x => ?_⟩
    · rw [tally_at, if_pos rfl, upd_same, zero_add, Finset.sum_range_succ, ih1]
    · rw [tally_at]
      by_cases hx : x = k + base
      · rw [if_pos hx, upd_same, zero_add, if_pos (by omega)]
        congr 2
        omega
      · rw [if_neg hx, upd_ne _ _ hx, ih2]
        by_cases hin : base ≤ x ∧ x < base + k
        · rw [if_pos hin, if_pos (by omega)]
        · rw [if_neg hin, if_neg (by omega)]
  obtain ⟨h1, h2⟩ := h1
  have := loop_inv (fun k (q : Nat → K) => ∀ x, q x =
      if base ≤ x ∧ x < base + k then s.1 x / s.2 else s.1 x) cls.length s.1
      (fun i p => upd p (i + base) (p (i + base) / s.2))
      (fun x => by rw [if_neg (by omega)]) (by
        intro k q _ ih x
        by_cases hx : x = k + base
        · rw [hx, upd_same, ih, if_neg (by omega), if_pos (by omega)]
        · rw [upd_ne _ _ hx, ih]
          by_cases hin : base ≤ x ∧ x < base + k
          · rw [if_pos hin, if_pos (by omega)]
          · rw [if_neg hin, if_neg (by omega)]) x
  rw [this]
  by_cases hin : base ≤ x ∧ x < base + cls.length
  · rw [if_pos hin, if_pos hin, h1, h2, if_pos hin]
  · rw [if_neg hin, if_neg hin, h2, if_neg hin]

/-- Every neighbour is counted for exactly one class. -/
theorem votes_total {cls : List Int} (hs : cls.Pairwise (· < ·)) (nn : Nat) (lab : Nat → Int) (w : Nat → K)
    (hl : ∀ k < nn, lab k ∈ cls) :
    ∑ i ∈ range cls.length, votes nn lab w (cls.getD i 0) = ∑ k ∈ range nn, w k := by
  unfold votes
  simp only [Finset.sum_filter]
  rw [Finset.sum_comm]
  refine Finset.sum_congr rfl fun k hk => ?_
  obtain ⟨m, hm, e⟩ := mem_getD (hl k (Finset.mem_range.mp hk))
  rw [Finset.sum_eq_single m]
  · rw [if_pos e.symm]
  · intro i hi hne
    rw [if_neg]
    intro he
    exact hne (sorted_inj hs (Finset.mem_range.mp hi) hm (by rw [e, he]))
  · intro h
    exact absurd (Finset.mem_range.mpr hm) h

theorem voteRow_share {cls : List Int} (hs : cls.Pairwise (· < ·)) (nn : Nat) (lab : Nat → Int) (w : Nat → K)
    (hl : ∀ k < nn, lab k ∈ cls) (base : Nat) (p : Nat → K) {i : Nat} (hi : i < cls.length) :
    voteRow cls nn lab w base p (i + base) = share nn lab w (cls.getD i 0) := by
  rw [voteRow_at, if_pos (by omega), votes_total hs _ _ _ hl, Nat.add_sub_cancel]
  rfl

theorem voteRow_keep (cls : List Int) (nn : Nat) (lab : Nat → Int) (w : Nat → K) (base : Nat) (p : Nat → K)
    {x : Nat} (hx : x < base ∨ base + cls.length ≤ x) : voteRow cls nn lab w base p x = p x := by
  rw [voteRow_at, if_neg (by omega)]

/-- `j * nc` is below any later row. -/
theorem row_le {nc j j' : Nat} (h : j < j') : j * nc + nc ≤ j' * nc := by
  have := Nat.mul_le_mul_right nc (Nat.succ_le_of_lt h)
  rwa [Nat.succ_mul] at this

/-- A loop whose iteration `j` writes row `j` only. -/
theorem rows_at (nq nc : Nat) (p : Nat → K) (f : Nat → (Nat → K) → Nat → K) (R : Nat → Nat → K)
    (hin : ∀ j p i, j < nq → i < nc → f j p (i + j * nc) = R j i)
    (hout : ∀ j p x, j < nq → x < j * nc ∨ j * nc + nc ≤ x → f j p x = p x) :
    (∀ j i, j < nq → i < nc → loop nq p f (i + j * nc) = R j i) ∧
      ∀ x, nq * nc ≤ x → loop nq p f x = p x := by
  refine loop_inv (fun k (q : Nat → K) => (∀ j i, j < k → i < nc → q (i + j * nc) = R j i) ∧
      ∀ x, k * nc ≤ x → q x = p x) nq p f ⟨by omega, fun _ _ => rfl⟩ ?_
  rintro k q hk ⟨ih1, ih2⟩
  refine ⟨fun j i hj hi => ?_, fun x hx => ?_⟩
  · rcases Nat.lt_succ_iff_lt_or_eq.mp hj with h | h
    · have := row_le (nc := nc) h
      rw [hout k q _ hk (Or.inl (by omega))]
      exact ih1 j i h hi
    · subst h
      exact hin j q i hk hi
  · have : (k + 1) * nc = k * nc + nc := Nat.succ_mul k nc
    rw [hout k q x hk (Or.inr (by omega))]
    exact ih2 x (by omega)

theorem probaKnn_at (wt : Weights) (eps : K) (nq nn : Nat) {cls : List Int} (hs : cls.Pairwise (· < ·))
    (y : Nat → Int) (ind : Nat → Nat) (dist p : Nat → K)
    (hl : ∀ j < nq, ∀ k < nn, y (ind (k + j * nn)) ∈ cls) :
    (∀ j i, j < nq → i < cls.length → probaKnn wt eps nq nn cls y ind dist p (i + j * cls.length) =
      share nn (fun k => y (ind (k + j * nn))) (fun k => weightOf wt eps (dist (k + j * nn)))
        (cls.getD i 0)) ∧
      ∀ x, nq * cls.length ≤ x → probaKnn wt eps nq nn cls y ind dist p x = p x := by
  unfold probaKnn
  exact rows_at nq cls.length p _
    (fun j i => share nn (fun k => y (ind (k + j * nn))) (fun k => weightOf wt eps (dist (k + j * nn)))
      (cls.getD i 0))
    (fun j p i hj hi => voteRow_share hs _ _ _ (hl j hj) _ _ hi)
    (fun j p x _ hx => voteRow_keep _ _ _ _ _ _ hx)

variable [IsStrictOrderedRing K]

theorem iamax_at (n : Nat) (hn : 0 < n) (x : Nat → K) :
    iamax n x < n ∧ ∀ i < n, |x i| < |x (iamax n x)| ∨ (|x i| = |x (iamax n x)| ∧ iamax n x ≤ i) := by
  have key := loop_inv (fun k (s : Nat × K) => s.2 = |x s.1| ∧ s.1 < n ∧ (s.1 < k ∨ s.1 = 0) ∧
    ∀ i < k, |x i| < |x s.1| ∨ (|x i| = |x s.1| ∧ s.1 ≤ i)) n (0, |x 0|)
    (fun i s => if s.2 < |x i| then (i, |x i|) else s) ⟨rfl, hn, Or.inr rfl, by omega⟩ (by
      rintro k ⟨m, v⟩ hk ⟨h1, h2, h4, h3⟩
      simp only at h1 h2 h3 h4
      simp only
      split
      · next h =>
        refine ⟨rfl, hk, Or.inl (by omega), fun i hi => ?_⟩
        rcases Nat.lt_succ_iff_lt_or_eq.mp hi with g | g
        · rcases h3 i g with e | e
          · exact Or.inl (e.trans (h1 ▸ h))
          · exact Or.inl (e.1.trans_lt (h1 ▸ h))
        · subst g; exact Or.inr ⟨rfl, le_refl _⟩
      · next h =>
        refine ⟨h1, h2, by omega, fun i hi => ?_⟩
        rcases Nat.lt_succ_iff_lt_or_eq.mp hi with g | g
        · exact h3 i g
        · subst g
          rw [h1] at h
          rcases lt_or_eq_of_le (not_lt.mp h) with e | e
          · exact Or.inl e
          · exact Or.inr ⟨e, by omega⟩)
  exact ⟨key.2.1, key.2.2.2⟩

theorem getWeight_pos {eps d : K} (he : 0 ≤ eps) : 0 < getWeight eps d := by
  unfold getWeight
  split
  · exact one_pos
  · next h => exact one_div_pos.mpr (he.trans_lt (not_le.mp h))

theorem weightOf_pos (wt : Weights) {eps d : K} (he : 0 ≤ eps) : 0 < weightOf wt eps d := by
  cases wt
  · exact one_pos
  · exact getWeight_pos he

theorem votes_nonneg (nn : Nat) (lab : Nat → Int) (w : Nat → K) (hw : ∀ k < nn, 0 < w k) (c : Int) :
    0 ≤ votes nn lab w c :=
  Finset.sum_nonneg fun k hk => (hw k (by simpa using (Finset.mem_filter.mp hk).1)).le

theorem votes_pos (nn : Nat) (lab : Nat → Int) (w : Nat → K) (hw : ∀ k < nn, 0 < w k) {k : Nat} (hk : k < nn) :
    0 < votes nn lab w (lab k) :=
  Finset.sum_pos (fun i hi => hw i (by simpa using (Finset.mem_filter.mp hi).1))
    ⟨k, by simp [hk]⟩

theorem votes_zero (nn : Nat) (lab : Nat → Int) (w : Nat → K) {c : Int} (h : ∀ k < nn, lab k ≠ c) :
    votes nn lab w c = 0 := by
  unfold votes
  rw [Finset.filter_false_of_mem fun k hk => h k (Finset.mem_range.mp hk), Finset.sum_empty]

theorem total_pos (nn : Nat) (hn : 0 < nn) (w : Nat → K) (hw : ∀ k < nn, 0 < w k) :
    0 < ∑ k ∈ range nn, w k :=
  Finset.sum_pos (fun k hk => hw k (Finset.mem_range.mp hk)) ⟨0, by simp [hn]⟩

/-- The position found by iamax in a row of shares is that of the winner. -/
theorem iamax_wins {cls : List Int} (hs : cls.Pairwise (· < ·)) (nn : Nat) (hn : 0 < nn) (lab : Nat → Int)
    (w : Nat → K) (hw : ∀ k < nn, 0 < w k) (hl : ∀ k < nn, lab k ∈ cls) (x : Nat → K)
    (hx : ∀ i < cls.length, x i = share nn lab w (cls.getD i 0)) :
    iamax cls.length x < cls.length ∧ Wins nn lab w (cls.getD (iamax cls.length x) 0) ∧
      0 < x (iamax cls.length x) := by
  have hT := total_pos nn hn w hw
  obtain ⟨i0, hi0, e0⟩ := mem_getD (hl 0 hn)
  have hlen : 0 < cls.length := by omega
  obtain ⟨hm, hmax⟩ := iamax_at cls.length hlen x
  obtain ⟨m, hmd⟩ : ∃ m, m = iamax cls.length x := ⟨_, rfl⟩
  rw [← hmd] at hm hmax ⊢
  have habs : ∀ i < cls.length, |x i| = votes nn lab w (cls.getD i 0) / ∑ k ∈ range nn, w k := fun i hi => by
    rw [hx i hi]
    exact abs_of_nonneg (div_nonneg (votes_nonneg nn lab w hw _) hT.le)
  have hmax' : ∀ i < cls.length, votes nn lab w (cls.getD i 0) < votes nn lab w (cls.getD m 0) ∨
      (votes nn lab w (cls.getD i 0) = votes nn lab w (cls.getD m 0) ∧ m ≤ i) := fun i hi => by
    have := hmax i hi
    rw [habs i hi, habs m hm] at this
    rcases this with h | ⟨h, g⟩
    · exact Or.inl ((div_lt_div_iff_of_pos_right hT).mp h)
    · exact Or.inr ⟨(div_left_inj' hT.ne').mp h, g⟩
  have hpos : 0 < votes nn lab w (cls.getD m 0) := by
    have h0 := votes_pos nn lab w hw hn
    rw [← e0] at h0
    rcases hmax' i0 hi0 with h | h
    · exact h0.trans h
    · rw [← h.1]; exact h0
  refine ⟨hm, ⟨hpos, fun d => ?_⟩, ?_⟩
  · by_cases hd : d ∈ cls
    · obtain ⟨i, hi, rfl⟩ := mem_getD hd
      rcases hmax' i hi with h | ⟨h, g⟩
      · exact Or.inl h
      · refine Or.inr ⟨h, ?_⟩
        rcases Nat.lt_or_eq_of_le g with g | g
        · exact (sorted_lt hs g hi).le
        · rw [g]
    · refine Or.inl ?_
      rw [votes_zero nn lab w (c := d) fun k hk e => hd (by rw [← e]; exact hl k hk)]
      exact hpos
  · rw [hx m hm]
    exact div_pos hpos hT

theorem mean_eq (n : Nat) (x : Nat → K) : mean n x = weightedMean n x fun _ => 1 := by
  unfold mean weightedMean
  rw [loop_sum, zero_add]
  simp

/-- The accumulation of a weighted mean in `out[j]`. -/
theorem accum_at (n j : Nat) (t w : Nat → K) (out : Nat → K) (x : Nat) :
    let s := loop n (upd out j 0, (0 : K)) fun i s => (upd s.1 j (s.1 j + t i * w i), s.2 + w i)
    upd s.1 j (s.1 j / s.2) x = if x = j then weightedMean n t w else out x := by
  have key := loop_inv (fun k (s : (Nat → K) × K) => s.1 j = ∑ i ∈ range k, t i * w i ∧
    s.2 = ∑ i ∈ range k, w i ∧ ∀ x, x ≠ j → s.1 x = out x) n (upd out j 0, (0 : K))
    (fun i s => (upd s.1 j (s.1 j + t i * w i), s.2 + w i))
    ⟨by simp [upd_same], by simp, fun x hx => upd_ne _ _ hx⟩ (by
      rintro k ⟨q, d⟩ _ ⟨h1, h2, h3⟩
      simp only at h1 h2 h3 ⊢
      refine ⟨?_, ?_, fun x hx => ?_⟩
      · rw [upd_same, h1, Finset.sum_range_succ]
      · rw [h2, Finset.sum_range_succ]
      · rw [upd_ne _ _ hx]; exact h3 x hx)
  obtain ⟨h1, h2, h3⟩ := key
  intro s
  by_cases hx : x = j
  · rw [hx, upd_same, if_pos rfl]
    unfold weightedMean s
    rw [h1, h2]
  · rw [upd_ne _ _ hx, if_neg hx]
    exact h3 x hx

/-- A loop whose iteration `j` sets `out[j]`. -/
theorem each_at {V : Type*} (n : Nat) (out : Nat → V) (f : Nat → (Nat → V) → Nat → V) (R : Nat → V)
    (h : ∀ j out x, j < n → f j out x = if x = j then R j else out x) (x : Nat) :
    loop n out f x = if x < n then R x else out x := by
  refine loop_inv (fun k (q : Nat → V) => ∀ x, q x = if x < k then R x else out x) n out f
    (fun x => by simp) ?_ x
  intro k q hk ih x
  rw [h k q x hk]
  by_cases hx : x = k
  · rw [if_pos hx, if_pos (by omega), hx]
  · rw [if_neg hx, ih]
    by_cases hlt : x < k
    · rw [if_pos hlt, if_pos (by omega)]
    · rw [if_neg hlt, if_neg (by omega)]

theorem weightedMean_between (nn : Nat) (hn : 0 < nn) (t w : Nat → K) (hw : ∀ k < nn, 0 < w k) (lo hi : K)
    (hlo : ∀ k < nn, lo ≤ t k) (hhi : ∀ k < nn, t k ≤ hi) :
    lo ≤ weightedMean nn t w ∧ weightedMean nn t w ≤ hi := by
  have hT := total_pos nn hn w hw
  unfold weightedMean
  rw [le_div_iff₀ hT, div_le_iff₀ hT, Finset.mul_sum, Finset.mul_sum]
  refine ⟨Finset.sum_le_sum fun k hk => ?_, Finset.sum_le_sum fun k hk => ?_⟩
  · exact mul_le_mul_of_nonneg_right (hlo k (Finset.mem_range.mp hk)) (hw k (Finset.mem_range.mp hk)).le
  · exact mul_le_mul_of_nonneg_right (hhi k (Finset.mem_range.mp hk)) (hw k (Finset.mem_range.mp hk)).le

end

end Verif.KnnPredict
