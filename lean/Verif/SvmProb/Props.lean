import Verif.SvmProb.Proof
import Mathlib.Data.Rat.Defs
import Mathlib.Algebra.Order.Field.Rat
import Mathlib.Tactic.NormNum

/-
C81: class probabilities of an SVM.
-/
namespace Verif.SvmProb

open Finset

variable {F : Type} [Field F] [LinearOrder F] [IsStrictOrderedRing F]

/-- The pairwise probability is the logistic function, cut off at `minProb` and
`1 - minProb`, whichever branch is taken. -/
theorem C81_sigmoid (e : F → F) (hpos : ∀ x, 0 < e x) (hneg : ∀ x, e (-x) * e x = 1) (minProb f : F)
    (h1 : 2 * minProb ≤ 1) :
    sigmoid e minProb f = min (max (1 / (1 + e f)) minProb) (1 - minProb) ∧
    minProb ≤ sigmoid e minProb f ∧ sigmoid e minProb f ≤ 1 - minProb := by
  have key : (if 0 ≤ f then e (-f) / (1 + e (-f)) else 1 / (1 + e f)) = 1 / (1 + e f) := by
    split
    · have a := hpos f
      have b := hpos (-f)
      have c := hneg f
      rw [div_eq_div_iff (by positivity) (by positivity)]
      linear_combination c
    · rfl
  unfold sigmoid
  simp only [key]
  refine ⟨trivial, ?_, min_le_right _ _⟩
  exact le_min (le_max_right _ _) (by linarith)

/-- The pairwise probabilities between 0 and 1 give a matrix for which the iteration
works. -/
theorem good_build {K : Nat} (hK : 2 ≤ K) (s : Nat → F) (hs : ∀ k, 0 < s k ∧ s k < 1) :
    Good K (buildQ K (pairwise K s).1) := by
  refine good_spec hK (pairwise K s).1 ?_ fun a b ha hb => buildQ_spec K _ a b ha hb
  intro a b ha hb hab
  rcases Nat.lt_or_gt_of_ne hab with h | h
  · obtain ⟨k, hk⟩ := List.mem_iff_getElem?.1 (SvmMulti.mem_pairs.2 ⟨h, hb⟩)
    rw [(pairwise_spec K s k a b hk).1]
    exact (hs k).1
  · obtain ⟨k, hk⟩ := List.mem_iff_getElem?.1 (SvmMulti.mem_pairs.2 ⟨h, ha⟩)
    rw [(pairwise_spec K s k b a hk).2]
    have := (hs k).2
    linarith

theorem iterate_inv {K : Nat} {Q : Nat → Nat → F} (hQ : Good K Q) (eps : F) (n : Nat) :
    ∀ {p : Nat → F}, ∑ t ∈ range K, p t = 1 → (∀ t, t < K → 0 < p t) →
      ∑ t ∈ range K, iterate K Q eps n p t = 1 ∧ (∀ t, t < K → 0 < iterate K Q eps n p t) ∧
      ∑ a ∈ range K, iterate K Q eps n p a * ∑ b ∈ range K, Q a b * iterate K Q eps n p b ≤
        ∑ a ∈ range K, p a * ∑ b ∈ range K, Q a b * p b := by
  induction n with
  | zero => intro p h1 h0; exact ⟨h1, h0, le_refl _⟩
  | succ n ih =>
    intro p h1 h0
    unfold iterate
    simp only
    split
    · exact ⟨h1, h0, le_refl _⟩
    · obtain ⟨a, b, c⟩ := updateAll_inv hQ h1 h0
      obtain ⟨a', b', c'⟩ := ih a b
      exact ⟨a', b', c'.trans c⟩

theorem start_sum {K : Nat} (hK : 2 ≤ K) :
    ∑ _t ∈ range K, (1 / (K : F)) = 1 ∧ (0 : F) < 1 / K := by
  have : (0 : F) < K := by exact_mod_cast (show 0 < K by omega)
  refine ⟨?_, by positivity⟩
  rw [sum_const, card_range, nsmul_eq_mul]
  field_simp

/-- The result is a probability distribution with positive entries, for all pairwise
probabilities between 0 and 1. -/
theorem C81_distribution (K : Nat) (hK : 2 ≤ K) (eps0 : F) (s : Nat → F) (hs : ∀ k, 0 < s k ∧ s k < 1) :
    ∑ t ∈ range K, couple K eps0 s t = 1 ∧ ∀ t, t < K → 0 < couple K eps0 s t := by
  obtain ⟨h1, h0⟩ := start_sum (F := F) hK
  obtain ⟨a, b, _⟩ := iterate_inv (good_build hK s hs) (eps0 / K) (max 100 K) h1 fun _ _ => h0
  exact ⟨a, b⟩

/-- The same for all decision values: `f k` is the decision value of classifier `k` times
`probaA[k]` plus `probaB[k]`. -/
theorem C81_predict_proba (K : Nat) (hK : 2 ≤ K) (eps0 minProb : F) (e : F → F) (hpos : ∀ x, 0 < e x)
    (hneg : ∀ x, e (-x) * e x = 1) (h0 : 0 < minProb) (h1 : 2 * minProb ≤ 1) (f : Nat → F) :
    ∑ t ∈ range K, couple K eps0 (fun k => sigmoid e minProb (f k)) t = 1 ∧
    ∀ t, t < K → 0 < couple K eps0 (fun k => sigmoid e minProb (f k)) t :=
  C81_distribution K hK eps0 _ fun k => by
    obtain ⟨_, a, b⟩ := C81_sigmoid e hpos hneg minProb (f k) h1
    exact ⟨lt_of_lt_of_le h0 a, by linarith⟩

/-- Sum of the squared differences that the probabilities `p` leave: `r i j` is the
pairwise probability of class `i` against class `j`. -/
def gap (K : Nat) (r : Nat → Nat → F) (p : Nat → F) : F :=
  ∑ i ∈ range K, ∑ j ∈ range K with j ≠ i, (r j i * p i - r i j * p j) * (r j i * p i - r i j * p j)

omit [IsStrictOrderedRing F] in
theorem quad_gap (K : Nat) (s : Nat → F) (p : Nat → F) :
    2 * ∑ a ∈ range K, p a * ∑ b ∈ range K, buildQ K (pairwise K s).1 a b * p b =
      gap K (pairwise K s).1 p := by
  rw [gap, ← quad_squares]
  congr 1
  exact sum_congr rfl fun a ha => by
    rw [sum_congr rfl fun b hb => by rw [buildQ_spec K _ a b (mem_range.1 ha) (mem_range.1 hb)]]

/-- Every pass over the classes brings the probabilities closer (or leaves the gap as it
is). -/
theorem C81_descent (K : Nat) (hK : 2 ≤ K) (s : Nat → F) (hs : ∀ k, 0 < s k ∧ s k < 1) (p : Nat → F)
    (h1 : ∑ t ∈ range K, p t = 1) (h0 : ∀ t, t < K → 0 < p t) :
    gap K (pairwise K s).1 (updateAll K (buildQ K (pairwise K s).1) p) ≤ gap K (pairwise K s).1 p := by
  have := (updateAll_inv (good_build hK s hs) h1 h0).2.2
  rw [← quad_gap, ← quad_gap]
  linarith

omit [IsStrictOrderedRing F] in
theorem maxError_le (K : Nat) (Qp : Nat → F) (pQp : F) (t : Nat) (ht : t < K) :
    |Qp t - pQp| ≤ maxError K Qp pQp := by
  unfold maxError
  induction K with
  | zero => omega
  | succ n ih =>
    rw [List.range_succ, List.foldl_append]
    by_cases h : t = n
    · subst h; exact le_max_right _ _
    · exact (ih (by omega)).trans (le_max_left _ _)

omit [IsStrictOrderedRing F] in
theorem iterate_stop (K : Nat) (Q : Nat → Nat → F) (eps : F) (n : Nat) : ∀ p : Nat → F,
    (maxError K (products K Q (iterate K Q eps n p)).1 (products K Q (iterate K Q eps n p)).2 < eps) ∨
    iterate K Q eps n p = (updateAll K Q)^[n] p := by
  induction n with
  | zero => intro p; right; rfl
  | succ n ih =>
    intro p
    unfold iterate
    simp only
    split
    · left; assumption
    · rcases ih (updateAll K Q p) with h | h
      · left; exact h
      · right; rw [h]; rfl

/-- If the iteration stops before the limit, no other distribution has a gap smaller by
more than `8 * eps`. -/
theorem C81_optimal (K : Nat) (hK : 2 ≤ K) (eps0 : F) (s : Nat → F) (hs : ∀ k, 0 < s k ∧ s k < 1)
    (hstop : couple K eps0 s ≠ (updateAll K (buildQ K (pairwise K s).1))^[max 100 K] fun _ => 1 / (K : F))
    (q : Nat → F) (hq : ∑ t ∈ range K, q t = 1) (hq0 : ∀ t, t < K → 0 ≤ q t) :
    gap K (pairwise K s).1 (couple K eps0 s) ≤ gap K (pairwise K s).1 q + 8 * (eps0 / K) := by
  obtain ⟨hp1, hp0⟩ := C81_distribution K hK eps0 s hs
  have hQ := good_build hK s hs
  have hstop' := (iterate_stop K (buildQ K (pairwise K s).1) (eps0 / K) (max 100 K) fun _ => 1 / (K : F)).resolve_right
    hstop
  change maxError K (products K _ (couple K eps0 s)).1 (products K _ (couple K eps0 s)).2 < _ at hstop'
  rw [← quad_gap, ← quad_gap]
  generalize buildQ K (pairwise K s).1 = Q at *
  generalize couple K eps0 s = p at *
  generalize eps0 / (K : F) = eps at *
  have hinv := start_inv (Q := Q) hp1 hp0
  -- the gradient is nearly constant
  have hg : ∀ t, t < K → |(∑ j ∈ range K, Q t j * p j) - (products K Q p).2| < eps := fun t ht => by
    have := maxError_le K (products K Q p).1 (products K Q p).2 t ht
    rw [← hinv.Qp t ht]
    exact lt_of_le_of_lt this hstop'
  generalize (products K Q p).2 = c at *
  have hpsd := hQ.psd fun t => q t - p t
  have e : ∑ a ∈ range K, (q a - p a) * ∑ b ∈ range K, Q a b * (q b - p b) =
      ∑ a ∈ range K, q a * ∑ b ∈ range K, Q a b * q b -
        ∑ a ∈ range K, p a * ∑ b ∈ range K, Q a b * p b -
        2 * ∑ a ∈ range K, (q a - p a) * ∑ b ∈ range K, Q a b * p b := by
    have hsym : ∑ a ∈ range K, p a * ∑ b ∈ range K, Q a b * q b =
        ∑ a ∈ range K, q a * ∑ b ∈ range K, Q a b * p b := by
      simp only [mul_sum]
      rw [sum_comm]
      refine sum_congr rfl fun a ha => sum_congr rfl fun b hb => ?_
      rw [hQ.symm b a (mem_range.1 hb) (mem_range.1 ha)]
      ring
    have e1 : ∀ a, (q a - p a) * ∑ b ∈ range K, Q a b * (q b - p b) =
        (q a * ∑ b ∈ range K, Q a b * q b - q a * ∑ b ∈ range K, Q a b * p b) -
        (p a * ∑ b ∈ range K, Q a b * q b - p a * ∑ b ∈ range K, Q a b * p b) := by
      intro a
      have : ∑ b ∈ range K, Q a b * (q b - p b) = ∑ b ∈ range K, Q a b * q b - ∑ b ∈ range K, Q a b * p b := by
        rw [← sum_sub_distrib]
        exact sum_congr rfl fun _ _ => by ring
      rw [this]
      ring
    have e2 : ∀ a, (q a - p a) * ∑ b ∈ range K, Q a b * p b =
        q a * ∑ b ∈ range K, Q a b * p b - p a * ∑ b ∈ range K, Q a b * p b := fun a => by ring
    simp only [e1, e2, sum_sub_distrib]
    rw [hsym]
    ring
  have hlin : -(2 * eps) ≤ ∑ a ∈ range K, (q a - p a) * ∑ b ∈ range K, Q a b * p b := by
    have hz : ∑ a ∈ range K, (q a - p a) * c = 0 := by
      rw [← sum_mul, sum_sub_distrib, hq, hp1]; simp
    have h1 : ∑ a ∈ range K, (q a - p a) * ∑ b ∈ range K, Q a b * p b =
        ∑ a ∈ range K, (q a - p a) * (∑ b ∈ range K, Q a b * p b - c) := by
      have : ∀ a, (q a - p a) * (∑ b ∈ range K, Q a b * p b - c) =
          (q a - p a) * ∑ b ∈ range K, Q a b * p b - (q a - p a) * c := fun a => by ring
      simp only [this, sum_sub_distrib] at hz ⊢
      linarith
    have h2 : ∀ a ∈ range K, -(eps * (q a + p a)) ≤ (q a - p a) * (∑ b ∈ range K, Q a b * p b - c) := by
      intro a ha
      have ha' := mem_range.1 ha
      have hb := abs_lt.1 (hg a ha')
      have hq' := hq0 a ha'
      have hp' := (hp0 a ha').le
      nlinarith [mul_nonneg hq' (sub_nonneg.2 hb.1.le), mul_nonneg hp' (sub_nonneg.2 hb.2.le)]
    have h3 : ∑ a ∈ range K, -(eps * (q a + p a)) = -(2 * eps) := by
      rw [sum_neg_distrib, ← mul_sum, sum_add_distrib, hq, hp1]
      ring
    rw [h1, ← h3]
    exact sum_le_sum h2
  rw [e] at hpsd
  linarith

/-- Pairwise probabilities that belong to a distribution `P` leave no gap for `P`. -/
theorem C81_consistent (K : Nat) (s : Nat → F) (P : Nat → F) (hP : ∀ t, t < K → 0 < P t)
    (h : ∀ k a b, (SvmMulti.pairs K)[k]? = some (a, b) → s k = P a / (P a + P b)) :
    gap K (pairwise K s).1 P = 0 := by
  refine sum_eq_zero fun i hi => sum_eq_zero fun j hj => ?_
  rw [mem_filter] at hj
  have hi' := hP i (mem_range.1 hi)
  have hj' := hP j (mem_range.1 hj.1)
  have key : ∀ a b, a < b → b < K → (pairwise K s).1 b a * P a - (pairwise K s).1 a b * P b = 0 := by
    intro a b hab hb
    obtain ⟨k, hk⟩ := List.mem_iff_getElem?.1 (SvmMulti.mem_pairs.2 ⟨hab, hb⟩)
    obtain ⟨e1, e2⟩ := pairwise_spec K s k a b hk
    have ha' := hP a (by omega)
    have hb' := hP b hb
    rw [e1, e2, h k a b hk]
    field_simp
    ring
  rcases Nat.lt_or_gt_of_ne hj.2 with h1 | h1
  · have := key j i h1 (mem_range.1 hi)
    have e : (pairwise K s).1 j i * P i - (pairwise K s).1 i j * P j = 0 := by linarith
    rw [e]; simp
  · rw [key i j h1 (mem_range.1 hj.1)]; simp

/-! ### Two classes -/

/-- Full property for two classes: the probability of the first class is the pairwise
probability. -/
def C81_binary_statement (F : Type) [Field F] [LinearOrder F] : Prop :=
  ∀ s : F, 0 < s → s < 1 → couple 2 (5 / 1000) (fun _ => s) 0 = s

/-- Violated: probabilities near one half become one half. -/
theorem C81_binary_violated : ¬ C81_binary_statement ℚ := by
  intro h
  have h1 := h (504 / 1000) (by norm_num) (by norm_num)
  have h2 : couple 2 (5 / 1000) (fun _ => (504 / 1000 : ℚ)) 0 = 1 / 2 := by decide +kernel
  rw [h2] at h1
  norm_num at h1

/-- The error is below `eps0` if the iteration stops before the limit. -/
theorem C81_binary_partial (eps0 s : F) (h0 : 0 < s) (h1 : s < 1)
    (hstop : couple 2 eps0 (fun _ => s) ≠
      (updateAll 2 (buildQ 2 (pairwise 2 fun _ => s).1))^[100] fun _ => 1 / (2 : F)) :
    |couple 2 eps0 (fun _ => s) 0 - s| < eps0 ∧ couple 2 eps0 (fun _ => s) 1 = 1 - couple 2 eps0 (fun _ => s) 0 := by
  have hs : ∀ k : Nat, 0 < (fun _ : Nat => s) k ∧ (fun _ : Nat => s) k < 1 := fun _ => ⟨h0, h1⟩
  obtain ⟨hp1, hp0⟩ := C81_distribution 2 (le_refl _) eps0 (fun _ => s) hs
  have hQ : ∀ a b, a < 2 → b < 2 → _ := fun a b ha hb => buildQ_spec 2 (pairwise 2 fun _ => s).1 a b ha hb
  have e := pairwise_spec 2 (fun _ => s) 0 0 1 rfl
  have hstop' := (iterate_stop 2 (buildQ 2 (pairwise 2 fun _ => s).1) (eps0 / (2 : Nat)) (max 100 2)
    fun _ => 1 / ((2 : Nat) : F)).resolve_right (by
      intro hc
      apply hstop
      have e2 : ((2 : Nat) : F) = 2 := by norm_num
      have e3 : max 100 2 = 100 := by decide
      have h := hc
      rw [e3, e2] at h
      unfold couple
      rw [e3, e2]
      exact h)
  change maxError 2 (products 2 _ (couple 2 eps0 fun _ => s)).1 (products 2 _ (couple 2 eps0 fun _ => s)).2 < _ at hstop'
  generalize couple 2 eps0 (fun _ => s) = p at *
  have hinv := start_inv (Q := buildQ 2 (pairwise 2 fun _ => s).1) hp1 hp0
  have g : ∀ t, t < 2 → |(products 2 (buildQ 2 (pairwise 2 fun _ => s).1) p).1 t -
      (products 2 (buildQ 2 (pairwise 2 fun _ => s).1) p).2| < eps0 / 2 := fun t ht => by
    have h1 := maxError_le 2 (products 2 (buildQ 2 (pairwise 2 fun _ => s).1) p).1
      (products 2 (buildQ 2 (pairwise 2 fun _ => s).1) p).2 t ht
    have h2 : ((2 : Nat) : F) = 2 := by norm_num
    rw [h2] at hstop'
    exact lt_of_le_of_lt h1 hstop'
  have hq0 := hinv.Qp 0 (by decide)
  have hq1 := hinv.Qp 1 (by decide)
  have hpq := hinv.pQp
  have g0 := g 0 (by decide)
  have g1 := g 1 (by decide)
  simp only at hq0 hq1 hpq
  generalize (products 2 (buildQ 2 (pairwise 2 fun _ => s).1) p).1 = Qp at *
  generalize (products 2 (buildQ 2 (pairwise 2 fun _ => s).1) p).2 = c at *
  have q00 := hQ 0 0 (by decide) (by decide)
  have q01 := hQ 0 1 (by decide) (by decide)
  have q10 := hQ 1 0 (by decide) (by decide)
  have q11 := hQ 1 1 (by decide) (by decide)
  have f0 : (range 2).filter (fun j => j ≠ 0) = {1} := by decide
  have f1 : (range 2).filter (fun j => j ≠ 1) = {0} := by decide
  simp only [qSpec, if_true, f0, f1, sum_singleton, e.1, e.2] at q00 q11
  rw [qSpec, if_neg (by decide), e.1, e.2] at q01 q10
  rw [sum_range_succ, sum_range_succ, sum_range_zero, zero_add] at hq0 hq1 hpq hp1
  rw [q00, q01] at hq0
  rw [q10, q11] at hq1
  have hp : p 1 = 1 - p 0 := by linarith
  refine ⟨?_, hp⟩
  generalize hδ : p 0 - s = δ
  have hp0' : p 0 = s + δ := by linarith
  have hp1' : p 1 = 1 - s - δ := by linarith
  rw [hp0', hp1'] at hq0 hq1 hpq
  have e0 : Qp 0 = (1 - s) * δ := by rw [hq0]; ring
  have e1 : Qp 1 = -s * δ := by rw [hq1]; ring
  have ec : c = δ * δ := by rw [hpq, e0, e1]; ring
  rw [e0, ec] at g0
  rw [e1, ec] at g1
  have e2 : δ = ((1 - s) * δ - δ * δ) - (-s * δ - δ * δ) := by ring
  rw [e2]
  refine lt_of_le_of_lt (abs_sub _ _) ?_
  linarith

/-- Three classes with pairwise probabilities 2/3, 3/4 and 3/5 (the distribution 1/2, 1/4,
1/6 scaled to the sum 1 would have 2/3, 3/4, 3/5): two passes. -/
example : (iterate 3 (buildQ 3 (pairwise 3 fun k => ([2 / 3, 3 / 4, 3 / 5] : List ℚ).getD k 0).1) (1 / 100) 0
    fun _ => 1 / 3) 0 = 1 / 3 ∧
    (let p := iterate 3 (buildQ 3 (pairwise 3 fun k => ([2 / 3, 3 / 4, 3 / 5] : List ℚ).getD k 0).1) (1 / 100) 3
      fun _ => 1 / 3
     p 0 + p 1 + p 2 = 1 ∧ 53 / 100 < p 0 ∧ p 0 < 56 / 100 ∧ 26 / 100 < p 1 ∧ p 1 < 28 / 100) := by
  decide +kernel

end Verif.SvmProb
