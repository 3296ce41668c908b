import Verif.SvmProb.Platt
import Verif.SvmProb.Proof
import Mathlib.Analysis.SpecialFunctions.Log.Basic
import Mathlib.Analysis.Convex.SpecificFunctions.Basic
import Mathlib.Data.Rat.Defs
import Mathlib.Algebra.Order.Field.Rat
import Mathlib.Tactic.NormNum

/-
C82: parameters of the SVM class probabilities.
-/
namespace Verif.SvmProb

open Finset

/-! ### Cross validation -/

theorem foldEnd_eq {n nFold i : Nat} (h0 : 0 < nFold) : foldEnd n nFold i = foldStart n nFold (i + 1) ∨
    nFold ≤ i := by
  unfold foldEnd foldStart
  by_cases h : i = nFold - 1
  · left
    rw [if_pos h]
    have : i + 1 = nFold := by omega
    rw [this, Nat.mul_div_cancel_left _ h0]
  · left; rw [if_neg h]

theorem foldStart_mono {n nFold i j : Nat} (h : i ≤ j) : foldStart n nFold i ≤ foldStart n nFold j :=
  Nat.div_le_div_right (Nat.mul_le_mul_right n h)

theorem foldStart_end {n nFold : Nat} (h0 : 0 < nFold) : foldStart n nFold nFold = n :=
  Nat.mul_div_cancel_left _ h0

/-- The positions of a fold. -/
theorem fold_positions {n nFold i : Nat} (h0 : 0 < nFold) (hi : i < nFold) :
    (List.range n).filter (fun s => decide (foldStart n nFold i ≤ s) && decide (s < foldEnd n nFold i)) =
      List.range' (foldStart n nFold i) (foldStart n nFold (i + 1) - foldStart n nFold i) := by
  have he : foldEnd n nFold i = foldStart n nFold (i + 1) := (foldEnd_eq h0).resolve_right (by omega)
  rw [he]
  have h1 : foldStart n nFold i ≤ foldStart n nFold (i + 1) := foldStart_mono (by omega)
  have h2 : foldStart n nFold (i + 1) ≤ n := by
    exact (foldStart_mono hi).trans (foldStart_end h0).le
  generalize foldStart n nFold i = a at *
  generalize foldStart n nFold (i + 1) = b at *
  have e : List.range n = List.range' 0 a ++ (List.range' a (b - a) ++ List.range' b (n - b)) := by
    rw [List.range_eq_range']
    have e1 : List.range' a (b - a) ++ List.range' b (n - b) = List.range' a (n - a) := by
      have := List.range'_append (s := a) (m := b - a) (n := n - b) (step := 1)
      rw [show a + 1 * (b - a) = b by omega] at this
      rw [this]
      congr 1
      omega
    rw [e1]
    have := List.range'_append (s := 0) (m := a) (n := n - a) (step := 1)
    rw [show 0 + 1 * a = a by omega] at this
    rw [this]
    congr 1
    omega
  rw [e, List.filter_append, List.filter_append]
  have f1 : (List.range' 0 a).filter (fun s => decide (a ≤ s) && decide (s < b)) = [] := by
    rw [List.filter_eq_nil_iff]
    intro s hs
    rw [List.mem_range'_1] at hs
    simp; omega
  have f2 : (List.range' a (b - a)).filter (fun s => decide (a ≤ s) && decide (s < b)) = List.range' a (b - a) := by
    rw [List.filter_eq_self]
    intro s hs
    rw [List.mem_range'_1] at hs
    simp; omega
  have f3 : (List.range' b (n - b)).filter (fun s => decide (a ≤ s) && decide (s < b)) = [] := by
    rw [List.filter_eq_nil_iff]
    intro s hs
    rw [List.mem_range'_1] at hs
    simp; omega
  rw [f1, f2, f3]
  simp

theorem mem_trainSet {n nFold : Nat} (rand : Nat → Nat) {i : Nat} (x : Nat) :
    x ∈ trainSet n nFold rand i ↔ ∃ s, s < n ∧ ¬ (foldStart n nFold i ≤ s ∧ s < foldEnd n nFold i) ∧ rand s = x := by
  simp only [trainSet, List.mem_map, List.mem_filter, List.mem_range, and_assoc, Bool.not_eq_true',
    Bool.and_eq_false_iff, decide_eq_false_iff_not, not_and_or]

/-- Every sample gets one decision value, from a classifier trained on exactly the
samples of the other folds; the sets have the sizes of their arrays. -/
theorem C82_cross_validation {F : Type} [Field F] [LinearOrder F] (n nFold : Nat) (h0 : 0 < nFold)
    (rand : Nat → Nat) (hinj : ∀ a b, a < n → b < n → rand a = rand b → a = b)
    (hr : ∀ x, x < n → ∃ s, s < n ∧ rand s = x) (y : Nat → Bool) (clf : List Nat → Nat → F) :
    (∀ i, i < nFold →
      (valSet n nFold rand i).length = foldEnd n nFold i - foldStart n nFold i ∧
      (trainSet n nFold rand i).length = n - (foldEnd n nFold i - foldStart n nFold i)) ∧
    ∀ x, x < n → ∃ i, i < nFold ∧
      crossVal n nFold rand y clf x = foldDecision y clf (trainSet n nFold rand i) x ∧
      x ∈ valSet n nFold rand i ∧
      (∀ z, z < n → (z ∈ trainSet n nFold rand i ↔ z ∉ valSet n nFold rand i)) ∧
      ∀ i', i' < nFold → i' ≠ i → x ∈ trainSet n nFold rand i' := by
  have hval : ∀ i, i < nFold → valSet n nFold rand i =
      (List.range' (foldStart n nFold i) (foldStart n nFold (i + 1) - foldStart n nFold i)).map rand :=
    fun i hi => by rw [valSet, fold_positions h0 hi]
  have hend : ∀ i, i < nFold → foldEnd n nFold i = foldStart n nFold (i + 1) :=
    fun i hi => (foldEnd_eq h0).resolve_right (by omega)
  have hle : ∀ i, i < nFold → foldStart n nFold (i + 1) ≤ n := fun i hi =>
    (foldStart_mono hi).trans (foldStart_end h0).le
  constructor
  · intro i hi
    have hv : (valSet n nFold rand i).length = foldEnd n nFold i - foldStart n nFold i := by
      rw [hval i hi, hend i hi]; simp
    refine ⟨hv, ?_⟩
    rw [← hv]
    unfold valSet trainSet
    simp only [List.length_map]
    have := List.length_eq_length_filter_add (l := List.range n)
      (fun s => decide (foldStart n nFold i ≤ s) && decide (s < foldEnd n nFold i))
    rw [List.length_range] at this
    omega
  -- the loop over the folds
  have loop : ∀ m, m ≤ nFold → ∀ s, s < foldStart n nFold m → ∃ i, i < m ∧ foldStart n nFold i ≤ s ∧
      s < foldStart n nFold (i + 1) ∧
      ((List.range m).foldl (fun dec i =>
        let val := valSet n nFold rand i
        (List.range val.length).foldl (fun dec j => fun z =>
          if z = rand (foldStart n nFold i + j)
          then foldDecision y clf (trainSet n nFold rand i) (val.getD j 0) else dec z) dec)
        fun _ => (0 : F)) (rand s) = foldDecision y clf (trainSet n nFold rand i) (rand s) := by
    intro m
    induction m with
    | zero => intro _ s hs; simp [foldStart] at hs
    | succ m ih =>
      intro hm s hs
      rw [List.range_succ, List.foldl_append]
      have ih' := ih (by omega)
      generalize (List.range m).foldl (fun dec i =>
        let val := valSet n nFold rand i
        (List.range val.length).foldl (fun dec j => fun z =>
          if z = rand (foldStart n nFold i + j)
          then foldDecision y clf (trainSet n nFold rand i) (val.getD j 0) else dec z) dec)
        (fun _ => (0 : F)) = dec at ih'
      simp only [List.foldl_cons, List.foldl_nil]
      have hn := hle m (by omega)
      have hlen : (valSet n nFold rand m).length = foldStart n nFold (m + 1) - foldStart n nFold m := by
        rw [hval m (by omega)]; simp
      -- the inner loop
      have inner : ∀ k, k ≤ foldStart n nFold (m + 1) - foldStart n nFold m → ∀ u, u < n →
          ((List.range k).foldl (fun dec j => fun z =>
            if z = rand (foldStart n nFold m + j)
            then foldDecision y clf (trainSet n nFold rand m) ((valSet n nFold rand m).getD j 0) else dec z) dec)
            (rand u) =
          if foldStart n nFold m ≤ u ∧ u < foldStart n nFold m + k
          then foldDecision y clf (trainSet n nFold rand m) (rand u) else dec (rand u) := by
        intro k
        induction k with
        | zero => intro _ u hu; rw [if_neg (by omega)]; rfl
        | succ k ihk =>
          intro hk u hu
          rw [List.range_succ, List.foldl_append]
          simp only [List.foldl_cons, List.foldl_nil]
          by_cases h : u = foldStart n nFold m + k
          · subst h
            rw [if_pos rfl, if_pos (by omega), hval m (by omega)]
            congr 1
            simp [List.getD]
            rw [List.getElem?_range' (by omega)]
            simp
          · rw [if_neg, ihk (by omega) u hu]
            · by_cases h2 : foldStart n nFold m ≤ u ∧ u < foldStart n nFold m + k
              · rw [if_pos h2, if_pos (by omega)]
              · rw [if_neg h2, if_neg (by omega)]
            · intro hc
              exact h (hinj _ _ hu (by omega) hc)
      rw [hlen, inner _ (le_refl _) s (by omega)]
      by_cases h : foldStart n nFold m ≤ s
      · refine ⟨m, by omega, h, hs, ?_⟩
        rw [if_pos (by omega)]
      · obtain ⟨i, h1, h2, h3, h4⟩ := ih' s (by omega)
        refine ⟨i, by omega, h2, h3, ?_⟩
        rw [if_neg (by omega)]
        exact h4
  intro x hx
  obtain ⟨s, hs, rfl⟩ := hr x hx
  obtain ⟨i, h1, h2, h3, h4⟩ := loop nFold (le_refl _) s (by rw [foldStart_end h0]; exact hs)
  have hmem : ∀ z, z < n → ∀ i, i < nFold → (rand z ∈ valSet n nFold rand i ↔
      foldStart n nFold i ≤ z ∧ z < foldStart n nFold (i + 1)) := by
    intro z hz i hi
    rw [hval i hi, List.mem_map]
    constructor
    · rintro ⟨u, hu, e⟩
      rw [List.mem_range'_1] at hu
      have := hle i hi
      have := hinj u z (by omega) hz e
      omega
    · intro h
      exact ⟨z, List.mem_range'_1.2 (by omega), rfl⟩
  refine ⟨i, h1, h4, (hmem s hs i h1).2 ⟨h2, h3⟩, ?_, ?_⟩
  · intro z hz
    obtain ⟨u, hu, rfl⟩ := hr z hz
    rw [mem_trainSet, hmem u hu i h1]
    constructor
    · rintro ⟨v, hv, hv2, e⟩
      rw [hinj v u hv hu e, hend i h1] at hv2
      exact hv2
    · intro h
      exact ⟨u, hu, by rw [hend i h1]; exact h, rfl⟩
  · intro i' hi' hne
    rw [mem_trainSet]
    refine ⟨s, hs, ?_, rfl⟩
    rw [hend i' hi']
    rintro ⟨a, b⟩
    rcases Nat.lt_or_gt_of_ne hne with h | h
    · have := foldStart_mono (n := n) (nFold := nFold) (show i' + 1 ≤ i by omega)
      omega
    · have := foldStart_mono (n := n) (nFold := nFold) (show i + 1 ≤ i' by omega)
      omega

/-- Seven samples in three folds; the "classifier" counts the training samples. -/
example : (List.range 7).map (crossVal 7 3 (fun s => (s * 3) % 7) (fun x => decide (x < 4))
    (fun tr x => ((tr.length * 10 + x : Nat) : ℚ))) = [50, 41, 52, 53, 44, 45, 56] := by decide +kernel

/-- With a single fold (the smallest value of the option) there are no training samples:
every decision value is zero. -/
theorem C82_one_fold {F : Type} [Field F] [LinearOrder F] (n : Nat) (rand : Nat → Nat)
    (hinj : ∀ a b, a < n → b < n → rand a = rand b → a = b)
    (hr : ∀ x, x < n → ∃ s, s < n ∧ rand s = x) (y : Nat → Bool) (clf : List Nat → Nat → F) (x : Nat)
    (hx : x < n) : crossVal n 1 rand y clf x = 0 := by
  obtain ⟨h, h2⟩ := C82_cross_validation n 1 (by decide) rand hinj hr y clf
  obtain ⟨i, hi, e, _⟩ := h2 x hx
  have hi0 : i = 0 := by omega
  subst hi0
  have hl := (h 0 hi).2
  simp only [foldStart, foldEnd] at hl
  have : trainSet n 1 rand 0 = [] := List.length_eq_zero_iff.1 (by rw [hl]; simp)
  rw [e, this]
  rfl

/-! ### The fit -/

variable {F : Type} [Field F] [LinearOrder F] [IsStrictOrderedRing F]

omit [IsStrictOrderedRing F] in
theorem sums_eq (e : F → F) (sigma : F) (n : Nat) (dec t : Nat → F) (A B : F) :
    sums e sigma n dec t A B =
      { h11 := sigma + ∑ i ∈ range n, dec i * dec i * ((pq e (dec i * A + B)).1 * (pq e (dec i * A + B)).2)
        h22 := sigma + ∑ i ∈ range n, (pq e (dec i * A + B)).1 * (pq e (dec i * A + B)).2
        h21 := ∑ i ∈ range n, dec i * ((pq e (dec i * A + B)).1 * (pq e (dec i * A + B)).2)
        g1 := ∑ i ∈ range n, dec i * (t i - (pq e (dec i * A + B)).1)
        g2 := ∑ i ∈ range n, (t i - (pq e (dec i * A + B)).1) } := by
  unfold sums
  induction n with
  | zero => simp
  | succ n ih =>
    rw [List.range_succ, List.foldl_append, ih]
    simp only [List.foldl_cons, List.foldl_nil, sum_range_succ, add_assoc]

omit [IsStrictOrderedRing F] in
theorem value_eq (e l : F → F) (n : Nat) (dec t : Nat → F) (A B : F) :
    value e l n dec t A B = ∑ i ∈ range n, term e l (t i) (dec i * A + B) :=
  foldl_sum _ n

theorem pq_pos (e : F → F) (hpos : ∀ x, 0 < e x) (f : F) : 0 < (pq e f).1 ∧ 0 < (pq e f).2 := by
  have a := hpos f
  have b := hpos (-f)
  unfold pq
  split <;> constructor <;> (simp only; positivity)

/-- The matrix of the Newton step is positive definite. -/
theorem C82_newton_matrix (e : F → F) (hpos : ∀ x, 0 < e x) (sigma : F) (hs : 0 < sigma) (n : Nat)
    (dec t : Nat → F) (A B : F) :
    0 < (sums e sigma n dec t A B).h11 * (sums e sigma n dec t A B).h22 -
      (sums e sigma n dec t A B).h21 * (sums e sigma n dec t A B).h21 ∧
    0 < (sums e sigma n dec t A B).h11 ∧ 0 < (sums e sigma n dec t A B).h22 := by
  rw [sums_eq]
  simp only
  generalize hw : (fun i => (pq e (dec i * A + B)).1 * (pq e (dec i * A + B)).2) = w
  have hwi : ∀ i, (pq e (dec i * A + B)).1 * (pq e (dec i * A + B)).2 = w i := fun i => by rw [← hw]
  have hw0 : ∀ i, 0 ≤ w i := fun i => by
    rw [← hwi]
    obtain ⟨a, b⟩ := pq_pos e hpos (dec i * A + B)
    positivity
  simp only [hwi]
  have h1 : 0 ≤ ∑ i ∈ range n, dec i * dec i * w i :=
    sum_nonneg fun i _ => mul_nonneg (mul_self_nonneg _) (hw0 i)
  have h2 : 0 ≤ ∑ i ∈ range n, w i := sum_nonneg fun i _ => hw0 i
  -- Cauchy-Schwarz
  have cs : (∑ i ∈ range n, dec i * w i) * (∑ i ∈ range n, dec i * w i) ≤
      (∑ i ∈ range n, dec i * dec i * w i) * ∑ i ∈ range n, w i := by
    have key : ∀ m, (∑ i ∈ range m, dec i * w i) * (∑ i ∈ range m, dec i * w i) ≤
        (∑ i ∈ range m, dec i * dec i * w i) * ∑ i ∈ range m, w i := by
      intro m
      have hz : 0 ≤ ∑ i ∈ range m, ∑ j ∈ range m, (dec i - dec j) * (dec i - dec j) * (w i * w j) :=
        sum_nonneg fun i _ => sum_nonneg fun j _ =>
          mul_nonneg (mul_self_nonneg _) (mul_nonneg (hw0 i) (hw0 j))
      have ez : ∑ i ∈ range m, ∑ j ∈ range m, (dec i - dec j) * (dec i - dec j) * (w i * w j) =
          2 * ((∑ i ∈ range m, dec i * dec i * w i) * ∑ i ∈ range m, w i) -
          2 * ((∑ i ∈ range m, dec i * w i) * (∑ i ∈ range m, dec i * w i)) := by
        have e1 : ∀ i j, (dec i - dec j) * (dec i - dec j) * (w i * w j) =
            dec i * dec i * w i * w j + w i * (dec j * dec j * w j) - 2 * (dec i * w i * (dec j * w j)) :=
          fun i j => by ring
        simp only [e1, sum_sub_distrib, sum_add_distrib, ← mul_sum, ← sum_mul]
        ring
      rw [ez] at hz
      linarith
    exact key n
  refine ⟨?_, by linarith, by linarith⟩
  nlinarith [mul_nonneg hs.le h1, mul_nonneg hs.le h2, mul_pos hs hs]

/-- The direction goes downhill: the slope is negative unless both derivatives vanish. -/
theorem C82_slope (e : F → F) (hpos : ∀ x, 0 < e x) (sigma : F) (hs : 0 < sigma) (n : Nat)
    (dec t : Nat → F) (A B : F) :
    (direction (sums e sigma n dec t A B)).2.2 ≤ 0 ∧
    ((direction (sums e sigma n dec t A B)).2.2 = 0 →
      (sums e sigma n dec t A B).g1 = 0 ∧ (sums e sigma n dec t A B).g2 = 0) := by
  obtain ⟨hd, h1, h2⟩ := C82_newton_matrix e hpos sigma hs n dec t A B
  generalize sums e sigma n dec t A B = s at *
  have e1 : (direction s).2.2 = -((s.h22 * (s.g1 * s.g1) - 2 * s.h21 * (s.g1 * s.g2) + s.h11 * (s.g2 * s.g2)) /
      (s.h11 * s.h22 - s.h21 * s.h21)) := by
    unfold direction
    simp only
    have := ne_of_gt hd
    field_simp
    ring
  -- complete the square
  have e2 : s.h11 * (s.h22 * (s.g1 * s.g1) - 2 * s.h21 * (s.g1 * s.g2) + s.h11 * (s.g2 * s.g2)) =
      (s.h11 * s.g2 - s.h21 * s.g1) * (s.h11 * s.g2 - s.h21 * s.g1) +
        (s.h11 * s.h22 - s.h21 * s.h21) * (s.g1 * s.g1) := by ring
  generalize hq : s.h22 * (s.g1 * s.g1) - 2 * s.h21 * (s.g1 * s.g2) + s.h11 * (s.g2 * s.g2) = q at *
  generalize hD : s.h11 * s.h22 - s.h21 * s.h21 = D at *
  have h3 : 0 ≤ (s.h11 * s.g2 - s.h21 * s.g1) * (s.h11 * s.g2 - s.h21 * s.g1) := mul_self_nonneg _
  have h4 : 0 ≤ D * (s.g1 * s.g1) := mul_nonneg hd.le (mul_self_nonneg _)
  have hq0 : 0 ≤ q := by
    by_contra hc
    have := mul_neg_of_pos_of_neg h1 (not_le.1 hc)
    linarith
  constructor
  · rw [e1]
    have := div_nonneg hq0 hd.le
    linarith
  · intro h
    have hq1 : q = 0 := by
      rw [e1, neg_eq_zero, div_eq_zero_iff] at h
      exact h.resolve_right (ne_of_gt hd)
    rw [hq1, mul_zero] at e2
    have h5 : s.g1 * s.g1 = 0 := by
      have : D * (s.g1 * s.g1) = 0 := by linarith
      exact (mul_eq_zero.1 this).resolve_left (ne_of_gt hd)
    have h6 : s.g1 = 0 := mul_self_eq_zero.1 h5
    refine ⟨h6, ?_⟩
    have h7 : (s.h11 * s.g2 - s.h21 * s.g1) * (s.h11 * s.g2 - s.h21 * s.g1) = 0 := by linarith
    have h8 := mul_self_eq_zero.1 h7
    rw [h6, mul_zero, sub_zero] at h8
    exact (mul_eq_zero.1 h8).resolve_left (ne_of_gt h1)

theorem lineSearch_spec (L : F → F → F) (minstep A B fval dA dB gd : F) (hg : gd ≤ 0) (hm : 0 < minstep)
    (k : Nat) : ∀ (step : F) (r : F × F × F), lineSearch L minstep A B fval dA dB gd k step = some r →
      r.2.2 = L r.1 r.2.1 ∧ r.2.2 < fval := by
  induction k with
  | zero => intro step r h; simp [lineSearch] at h
  | succ k ih =>
    intro step r h
    rw [lineSearch] at h
    split at h
    · rename_i hs
      simp only at h
      split at h
      · rename_i hlt
        simp only [Option.some.injEq] at h
        subst h
        refine ⟨rfl, lt_of_lt_of_le hlt ?_⟩
        have : 0 ≤ 1 / 10000 * step := by
          have : 0 < step := lt_of_lt_of_le hm hs
          positivity
        have := mul_nonpos_of_nonneg_of_nonpos this hg
        linarith
      · exact ih _ _ h
    · cases h

/-- The fit never makes the value worse, and it reports convergence only at a point at
which both derivatives are below the tolerance. -/
theorem C82_newton (e l : F → F) (hpos : ∀ x, 0 < e x) (sigma eps minstep : F) (hs : 0 < sigma)
    (hm : 0 < minstep) (n : Nat) (dec t : Nat → F) (k : Nat) : ∀ (A B : F),
    let r := newton e l sigma eps minstep n dec t k A B (value e l n dec t A B)
    value e l n dec t r.1 r.2.1 ≤ value e l n dec t A B ∧
    (r.2.2 = .converged →
      |∑ i ∈ range n, dec i * (t i - (pq e (dec i * r.1 + r.2.1)).1)| < eps ∧
      |∑ i ∈ range n, (t i - (pq e (dec i * r.1 + r.2.1)).1)| < eps) := by
  induction k with
  | zero => intro A B; exact ⟨le_refl _, fun h => by cases h⟩
  | succ k ih =>
    intro A B
    rw [newton]
    simp only
    split
    · rename_i h
      rw [sums_eq] at h
      exact ⟨le_refl _, fun _ => h⟩
    · rcases hl : lineSearch (value e l n dec t) minstep A B (value e l n dec t A B)
        (direction (sums e sigma n dec t A B)).1 (direction (sums e sigma n dec t A B)).2.1
        (direction (sums e sigma n dec t A B)).2.2 64 1 with _ | r
      · simp only
        exact ⟨le_refl _, fun h => by cases h⟩
      · obtain ⟨h1, h2⟩ := lineSearch_spec _ _ _ _ _ _ _ _
          (C82_slope e hpos sigma hs n dec t A B).1 hm 64 1 r hl
        obtain ⟨A', B', f'⟩ := r
        simp only at h1 h2 ⊢
        subst h1
        obtain ⟨i1, i2⟩ := ih A' B'
        exact ⟨i1.trans h2.le, i2⟩

omit [IsStrictOrderedRing F] in
/-- The targets are probabilities. -/
theorem C82_targets [IsStrictOrderedRing F] (n : Nat) (y : Nat → Bool) (i : Nat) :
    0 < target (F := F) n y i ∧ target (F := F) n y i < 1 ∧
    (y i = true → (1 : F) / 2 ≤ target n y i) ∧ (y i = false → target (F := F) n y i ≤ 1 / 2) := by
  unfold target
  simp only
  generalize ((List.range n).filter y).length = a
  generalize ((List.range n).filter fun i => !y i).length = b
  have ha : (0 : F) ≤ a := Nat.cast_nonneg a
  have hb : (0 : F) ≤ b := Nat.cast_nonneg b
  cases hy : y i
  · simp only [Bool.false_eq_true, if_false]
    refine ⟨by positivity, ?_, fun h => h.elim, fun _ => ?_⟩
    · rw [div_lt_one (by positivity)]; linarith
    · exact one_div_le_one_div_of_le (by norm_num) (by linarith)
  · simp only [if_true]
    refine ⟨by positivity, ?_, fun _ => ?_, (fun h => by cases h)⟩
    · rw [div_lt_one (by positivity)]; linarith
    · rw [div_le_div_iff₀ (by norm_num) (by positivity)]; linarith

/-! ### The real exponential function -/

theorem pq_real (f : ℝ) : (pq Real.exp f).1 = 1 / (1 + Real.exp f) ∧
    (pq Real.exp f).2 = 1 - (pq Real.exp f).1 := by
  have a := Real.exp_pos f
  have b := Real.exp_pos (-f)
  have c : Real.exp (-f) * Real.exp f = 1 := by rw [← Real.exp_add]; simp
  unfold pq
  split
  · simp only
    constructor
    · rw [div_eq_div_iff (by positivity) (by positivity)]
      linear_combination c
    · field_simp; ring
  · simp only
    refine ⟨trivial, ?_⟩
    field_simp; ring

/-- Both branches of a term are the negative log likelihood. -/
theorem C82_term (t f : ℝ) : term Real.exp Real.log t f =
    -(t * Real.log (1 / (1 + Real.exp f)) + (1 - t) * Real.log (1 - 1 / (1 + Real.exp f))) := by
  have a := Real.exp_pos f
  have e1 : Real.log (1 / (1 + Real.exp f)) = -Real.log (1 + Real.exp f) := by
    rw [one_div, Real.log_inv]
  have e2 : Real.log (1 - 1 / (1 + Real.exp f)) = f - Real.log (1 + Real.exp f) := by
    have : 1 - 1 / (1 + Real.exp f) = Real.exp f / (1 + Real.exp f) := by field_simp; ring
    rw [this, Real.log_div (ne_of_gt a) (by positivity), Real.log_exp]
  have e3 : Real.log (1 + Real.exp (-f)) = Real.log (1 + Real.exp f) - f := by
    have : 1 + Real.exp (-f) = (1 + Real.exp f) / Real.exp f := by
      rw [Real.exp_neg]; field_simp; ring
    rw [this, Real.log_div (by positivity) (ne_of_gt a), Real.log_exp]
  rw [e1, e2]
  unfold term
  split
  · rw [e3]; ring
  · ring

/-- A term lies above its tangent; the slope is the summand of the derivatives. -/
theorem term_tangent (t f g : ℝ) :
    term Real.exp Real.log t f + (t - (pq Real.exp f).1) * (g - f) ≤ term Real.exp Real.log t g := by
  have hl : ∀ f : ℝ, term Real.exp Real.log t f = (t - 1) * f + Real.log (1 + Real.exp f) := by
    intro f
    have a := Real.exp_pos f
    unfold term
    split
    · have : 1 + Real.exp (-f) = (1 + Real.exp f) / Real.exp f := by
        rw [Real.exp_neg]; field_simp; ring
      rw [this, Real.log_div (by positivity) (ne_of_gt a), Real.log_exp]; ring
    · rfl
  rw [hl f, hl g, (pq_real f).1]
  have a := Real.exp_pos f
  have b := Real.exp_pos g
  generalize hw : Real.exp f / (1 + Real.exp f) = w
  have hp : 1 / (1 + Real.exp f) = 1 - w := by rw [← hw]; field_simp; ring
  have hw0 : 0 ≤ w := by rw [← hw]; positivity
  have hw1 : 0 ≤ 1 - w := by rw [← hp]; positivity
  -- convexity of the exponential function
  have hc := convexOn_exp.2 (Set.mem_univ (0 : ℝ)) (Set.mem_univ (g - f)) hw1 hw0 (by ring)
  simp only [smul_eq_mul, mul_zero, zero_add, Real.exp_zero, mul_one] at hc
  have hr : (1 - w) + w * Real.exp (g - f) = (1 + Real.exp g) / (1 + Real.exp f) := by
    rw [← hp, ← hw, Real.exp_sub]
    field_simp
  rw [hr] at hc
  have hlog := Real.log_le_log (Real.exp_pos _) hc
  rw [Real.log_exp, Real.log_div (by positivity) (by positivity)] at hlog
  rw [hp]
  linarith

/-- If the fit reports convergence, no other parameters have a negative log likelihood
smaller by more than the tolerance times the distance. -/
theorem C82_optimal (sigma eps minstep : ℝ) (hs : 0 < sigma) (hm : 0 < minstep) (n : Nat)
    (dec t : Nat → ℝ) (k : Nat) (A0 B0 : ℝ) (A B : ℝ)
    (hr : newton Real.exp Real.log sigma eps minstep n dec t k A0 B0
      (value Real.exp Real.log n dec t A0 B0) = (A, B, .converged)) (A' B' : ℝ) :
    value Real.exp Real.log n dec t A B ≤
      value Real.exp Real.log n dec t A' B' + eps * (|A' - A| + |B' - B|) := by
  have h := (C82_newton Real.exp Real.log Real.exp_pos sigma eps minstep hs hm n dec t k A0 B0).2
  rw [hr] at h
  obtain ⟨h1, h2⟩ := h rfl
  simp only at h1 h2
  rw [value_eq, value_eq]
  have hsum : ∑ i ∈ range n, term Real.exp Real.log (t i) (dec i * A + B) +
      ((∑ i ∈ range n, dec i * (t i - (pq Real.exp (dec i * A + B)).1)) * (A' - A) +
       (∑ i ∈ range n, (t i - (pq Real.exp (dec i * A + B)).1)) * (B' - B)) ≤
      ∑ i ∈ range n, term Real.exp Real.log (t i) (dec i * A' + B') := by
    rw [sum_mul, sum_mul, ← sum_add_distrib, ← sum_add_distrib]
    refine sum_le_sum fun i _ => ?_
    have := term_tangent (t i) (dec i * A + B) (dec i * A' + B')
    linarith
  generalize (∑ i ∈ range n, dec i * (t i - (pq Real.exp (dec i * A + B)).1)) = g1 at *
  generalize (∑ i ∈ range n, (t i - (pq Real.exp (dec i * A + B)).1)) = g2 at *
  have k1 : -(eps * |A' - A|) ≤ g1 * (A' - A) := by
    have := abs_mul g1 (A' - A)
    have h3 := neg_abs_le (g1 * (A' - A))
    have h4 := mul_le_mul_of_nonneg_right h1.le (abs_nonneg (A' - A))
    linarith
  have k2 : -(eps * |B' - B|) ≤ g2 * (B' - B) := by
    have := abs_mul g2 (B' - B)
    have h3 := neg_abs_le (g2 * (B' - B))
    have h4 := mul_le_mul_of_nonneg_right h2.le (abs_nonneg (B' - B))
    linarith
  linarith

/-! ### The status of the fit -/

/-- Full property: if `compute` reports success with probabilities requested, the
parameters are those of the fit. -/
def C82_status_statement (F : Type) [Field F] : Prop :=
  ∀ (n nFold : Nat) (old fitted : F × F) (trained : Bool),
    (computeClf true n nFold old fitted trained).1 = true →
    (computeClf true n nFold old fitted trained).2 = fitted

/-- Violated: with more folds than samples the error of the fit is lost and the
parameters of an earlier fit (or zeros) are used. -/
theorem C82_status_violated : ¬ C82_status_statement ℚ := by
  intro h
  have := h 4 5 (0, 0) (1, 1) true rfl
  revert this
  decide +kernel

theorem C82_status_partial {F : Type} [Field F] (n nFold : Nat) (old fitted : F × F) (trained : Bool)
    (h : nFold ≤ n) : (computeClf true n nFold old fitted trained).2 = fitted := by
  unfold computeClf
  simp [Nat.not_lt.2 h]

/-- The fit of `platt_scaling`: if it reports convergence, the parameters are optimal up
to a hundred thousandth of the distance to any other parameters, and never worse than
the starting point. -/
theorem C82_platt (n : Nat) (y : Nat → Bool) (dec : Nat → ℝ) (A B : ℝ) (st : Status)
    (hr : platt Real.exp Real.log n y dec = (A, B, st)) :
    value Real.exp Real.log n dec (target n y) A B ≤ value Real.exp Real.log n dec (target n y) 0
      (Real.log (((((List.range n).filter fun i => !y i).length : ℝ) + 1) /
        ((((List.range n).filter y).length : ℝ) + 1))) ∧
    (st = .converged → ∀ A' B', value Real.exp Real.log n dec (target n y) A B ≤
      value Real.exp Real.log n dec (target n y) A' B' + 1 / 10 ^ 5 * (|A' - A| + |B' - B|)) := by
  unfold platt at hr
  simp only at hr
  constructor
  · have := (C82_newton Real.exp Real.log Real.exp_pos (1 / 10 ^ 12) (1 / 10 ^ 5) (1 / 10 ^ 10)
      (by norm_num) (by norm_num) n dec (target n y) 100 0
      (Real.log (((((List.range n).filter fun i => !y i).length : ℝ) + 1) /
        ((((List.range n).filter y).length : ℝ) + 1)))).1
    rw [hr] at this
    exact this
  · rintro rfl A' B'
    exact C82_optimal _ _ _ (by norm_num) (by norm_num) n dec _ _ _ _ A B hr A' B'

/-- A fit with a rational function instead of the exponential function. -/
example : (newton (fun x : ℚ => if 0 ≤ x then 1 + x else 1 / (1 - x)) (fun x => x - 1) 1 (2 / 5) (1 / 1000) 2
    (fun i => if i = 0 then 1 else -1) (fun i => if i = 0 then 1 / 4 else 3 / 4) 5 0 0 2) =
      (1 / 3, 0, .converged) ∧
    (direction (sums (fun _ => (1 : ℚ)) 1 2 (fun i => if i = 0 then 1 else -1)
      (fun i => if i = 0 then 3 / 4 else 1 / 4) 0 0)) = (-1 / 3, 0, -1 / 6) := by
  decide +kernel

end Verif.SvmProb
