import Verif.Kmeans.Macqueen
import Verif.Kmeans.LloydSeq

/-
The states of MacQueen's method: labels, counts and means agree at every moment.
-/
namespace Verif.Kmeans

open Verif.HalfBlas (put forUp)

variable {K : Type} [Field K] [LinearOrder K] [IsStrictOrderedRing K]

omit [Field K] [IsStrictOrderedRing K] in
/-- The centre found is the first of those with the smallest distance. -/
theorem closest_spec (k : Nat) (hk : 0 < k) (d : Nat → K) :
    mqClosest k d < k ∧ (∀ j < k, d (mqClosest k d) ≤ d j) ∧ ∀ j < k, d j = d (mqClosest k d) → mqClosest k d ≤ j := by
  unfold mqClosest
  have := forUp_inv (body := fun j0 (r : Nat × K) => if d (j0 + 1) < r.2 then (j0 + 1, d (j0 + 1)) else r) (s := (0, d 0))
    (fun m r => r.2 = d r.1 ∧ r.1 ≤ m ∧ (∀ j ≤ m, d r.1 ≤ d j) ∧ ∀ j ≤ m, d j = d r.1 → r.1 ≤ j) (k - 1)
    ⟨rfl, le_refl _, fun j hj => by rw [Nat.le_zero.mp hj], fun j _ _ => Nat.zero_le j⟩ ?_
  · obtain ⟨_, h2, h3, h4⟩ := this
    exact ⟨by omega, fun j hj => h3 j (by omega), fun j hj e => h4 j (by omega) e⟩
  · rintro m r _ ⟨h1, h2, h3, h4⟩
    rw [h1]
    by_cases hl : d (m + 1) < d r.1
    · rw [if_pos hl]
      refine ⟨rfl, le_refl _, fun j hj => ?_, fun j hj e => ?_⟩
      · rcases Nat.lt_or_ge j (m + 1) with h | h
        · exact le_trans (le_of_lt hl) (h3 j (by omega))
        · rw [show j = m + 1 by omega]
      · rcases Nat.lt_or_ge j (m + 1) with h | h
        · exact absurd (h3 j (by omega)) (not_le.mpr (by rw [e]; exact hl))
        · exact h
    · rw [if_neg hl]
      refine ⟨h1, by omega, fun j hj => ?_, fun j hj e => ?_⟩
      · rcases Nat.lt_or_ge j (m + 1) with h | h
        · exact h3 j (by omega)
        · rw [show j = m + 1 by omega]; exact not_lt.mp hl
      · rcases Nat.lt_or_ge j (m + 1) with h | h
        · exact h4 j (by omega) e
        · omega

omit [LinearOrder K] [IsStrictOrderedRing K] in
theorem mqTerm (c : LCfg K) (x f : Nat) : elem c 0 x f * mqScale c x = term c x f := by
  rw [elem_sample, Nat.zero_add]
  rfl

omit [LinearOrder K] [IsStrictOrderedRing K] in
theorem mqAdd_spec (c : LCfg K) (x a : Nat) (ha : a < c.k) (m : Nat → K) : ∀ j < c.k, ∀ f < c.nf,
    mqAdd c x a m (j + f * c.k) = m (j + f * c.k) + if a = j then term c x f else 0 := by
  intro j hj f hf
  unfold mqAdd
  rw [add_loop (fun f => a + f * c.k) (fun f => elem c 0 x f * mqScale c x)]
  congr 1
  rw [Finset.sum_eq_single f]
  · by_cases he : a = j
    · rw [if_pos (by rw [he]), if_pos he, mqTerm]
    · rw [if_neg fun e => he (half_inj hj ha e).2.symm, if_neg he]
  · intro g _ hg
    exact if_neg fun e => hg (half_inj hj ha e).1.symm
  · intro h
    exact absurd (Finset.mem_range.mpr hf) h

/-- The sum of the samples `i < m` with label `a`, and their number. -/
def tot (c : LCfg K) (m : Nat) (lab : Nat → Nat) (a f : Nat) : K := ∑ i ∈ Finset.range m, if lab i = a then term c i f else 0

def num (m : Nat) (lab : Nat → Nat) (a : Nat) : Nat := ∑ i ∈ Finset.range m, if lab i = a then 1 else 0

omit [IsStrictOrderedRing K] in
theorem centreOf_def (c : LCfg K) (lab : Nat → Nat) (a f : Nat) : centreOf c lab a f = tot c c.n lab a f *
    if c.spherical then (if c.sqrt (∑ f ∈ Finset.range c.nf, tot c c.n lab a f * tot c c.n lab a f) = 0 then 1 else 1 / c.sqrt (∑ f ∈ Finset.range c.nf, tot c c.n lab a f * tot c c.n lab a f))
    else 1 / ((max 1 (num c.n lab a) : Nat) : K) := rfl

theorem num_put (m : Nat) (lab : Nat → Nat) (i b : Nat) (hi : i < m) (_ : lab i ≠ b) (j : Nat) :
    num m (put lab i b) j + (if j = lab i then 1 else 0) = num m lab j + if j = b then 1 else 0 := by
  unfold num
  rw [Finset.sum_eq_add_sum_sdiff_singleton_of_mem (Finset.mem_range.mpr hi), Finset.sum_eq_add_sum_sdiff_singleton_of_mem (Finset.mem_range.mpr hi) (fun i => if lab i = j then 1 else 0)]
  have hrest : ∑ x ∈ Finset.range m \ {i}, (if put lab i b x = j then 1 else 0) = ∑ x ∈ Finset.range m \ {i}, if lab x = j then 1 else 0 := by
    refine Finset.sum_congr rfl fun x hx => ?_
    rw [put_ne _ _ (by simp at hx; exact hx.2)]
  rw [hrest, put_same]
  simp only [eq_comm (a := j)]
  split <;> split <;> omega

theorem num_pos (m : Nat) (lab : Nat → Nat) (i : Nat) (hi : i < m) : 0 < num m lab (lab i) := by
  have : (if lab i = lab i then 1 else 0) ≤ num m lab (lab i) := Finset.single_le_sum (f := fun x => if lab x = lab i then 1 else 0) (fun _ _ => Nat.zero_le _) (Finset.mem_range.mpr hi)
  rw [if_pos rfl] at this
  exact this

theorem num_congr (m : Nat) {lab lab' : Nat → Nat} (h : ∀ i < m, lab i = lab' i) (a : Nat) : num m lab a = num m lab' a :=
  Finset.sum_congr rfl fun i hi => by rw [h i (Finset.mem_range.mp hi)]

/-- Labels in range, counts and means. -/
structure MInv (c : LCfg K) (s : MSt K) : Prop where
  lab : ∀ i < c.n, s.curLab i < c.k
  count : ∀ a < c.k, s.count a = (num c.n s.curLab a : Int)
  cur : ∀ a < c.k, ∀ f < c.nf, s.cur (a + f * c.k) = centreOf c s.curLab a f

/-- `workc1` holds the squared norms of the centres. -/
def MNorms (c : LCfg K) (s : MSt K) : Prop := ∀ a < c.k, s.norms a = ∑ f ∈ Finset.range c.nf, s.cur (a + f * c.k) * s.cur (a + f * c.k)

/-- The square root of a positive number is not zero. -/
def RootOk (c : LCfg K) : Prop := c.spherical = true → ∀ v : K, 0 < v → c.sqrt v ≠ 0

omit [IsStrictOrderedRing K] in
theorem mqUnit_spec (c : LCfg K) (a : Nat) (ha : a < c.k) (m : Nat → K) : ∀ j < c.k, ∀ f < c.nf,
    mqUnit c a m (j + f * c.k) = if a = j then m (j + f * c.k) * (if 0 < ∑ f ∈ Finset.range c.nf, m (j + f * c.k) * m (j + f * c.k) then
      1 / c.sqrt (∑ f ∈ Finset.range c.nf, m (j + f * c.k) * m (j + f * c.k)) else 1) else m (j + f * c.k) := by
  intro j hj f hf
  unfold mqUnit
  simp only [sumTo_eq, gt_iff_lt]
  by_cases hq : 0 < ∑ f ∈ Finset.range c.nf, m (a + f * c.k) * m (a + f * c.k)
  · rw [if_pos hq]
    have hp := forUp_put (fun f => a + f * c.k) (fun _ v => v * (1 / c.sqrt (∑ f ∈ Finset.range c.nf, m (a + f * c.k) * m (a + f * c.k)))) m c.nf
      (fun f _ f' _ e => (half_inj ha ha e).1)
    by_cases he : a = j
    · subst he
      rw [hp.1 f hf, if_pos rfl, if_pos hq]
    · rw [hp.2 _ fun g _ e => he (half_inj hj ha e).2.symm, if_neg he]
  · rw [if_neg hq]
    by_cases he : a = j
    · subst he
      rw [if_pos rfl, if_neg hq, mul_one]
    · rw [if_neg he]

/-- Scaling the sums gives the centre of the labels. -/
theorem unit_centre (c : LCfg K) (hsp : c.spherical = true) (hr : RootOk c) (lab : Nat → Nat) (j f : Nat) (hf : f < c.nf) :
    (tot c c.n lab j f * if 0 < ∑ f ∈ Finset.range c.nf, tot c c.n lab j f * tot c c.n lab j f then
      1 / c.sqrt (∑ f ∈ Finset.range c.nf, tot c c.n lab j f * tot c c.n lab j f) else 1) = centreOf c lab j f := by
  rw [centreOf_def, if_pos hsp]
  have hnn : ∀ f ∈ Finset.range c.nf, 0 ≤ tot c c.n lab j f * tot c c.n lab j f := fun f _ => mul_self_nonneg _
  by_cases hq : 0 < ∑ f ∈ Finset.range c.nf, tot c c.n lab j f * tot c c.n lab j f
  · rw [if_pos hq, if_neg (hr hsp _ hq)]
  · have hz : ∑ f ∈ Finset.range c.nf, tot c c.n lab j f * tot c c.n lab j f = 0 := le_antisymm (not_lt.mp hq) (Finset.sum_nonneg hnn)
    have := (Finset.sum_eq_zero_iff_of_nonneg hnn).mp hz f (Finset.mem_range.mpr hf)
    rw [mul_self_eq_zero.mp this, zero_mul, zero_mul]

omit [LinearOrder K] [IsStrictOrderedRing K] in
/-- The sums of two clusters, computed afresh. -/
theorem resum_spec (c : LCfg K) (lab : Nat → Nat) (a b : Nat) (ha : a < c.k) (hb : b < c.k) (m : Nat → K) : ∀ j < c.k, ∀ f < c.nf,
    forUp c.n (fun x m => if lab x = b then mqAdd c x b m else if lab x = a then mqAdd c x a m else m)
      (forUp c.nf (fun f m => put (put m (a + f * c.k) 0) (b + f * c.k) 0) m) (j + f * c.k) =
      if j = a ∨ j = b then tot c c.n lab j f else m (j + f * c.k) := by
  have hclear : ∀ j < c.k, ∀ f < c.nf, forUp c.nf (fun f m => put (put m (a + f * c.k) 0) (b + f * c.k) 0) m (j + f * c.k) = if j = a ∨ j = b then 0 else m (j + f * c.k) := by
    intro j hj f hf
    have := forUp_inv (body := fun f m => put (put m (a + f * c.k) 0) (b + f * c.k) 0) (s := m)
      (fun g (m' : Nat → K) => ∀ f < c.nf, m' (j + f * c.k) = if f < g ∧ (j = a ∨ j = b) then 0 else m (j + f * c.k)) c.nf (fun f _ => by simp) ?_
    · rw [this f hf]
      simp only [hf, true_and]
    · intro g m' hg ih f hf
      by_cases hb' : j + f * c.k = b + g * c.k
      · have := half_inj hj hb hb'
        rw [hb', put_same, if_pos ⟨by omega, Or.inr this.2⟩]
      · rw [put_ne _ _ hb']
        by_cases ha' : j + f * c.k = a + g * c.k
        · have := half_inj hj ha ha'
          rw [ha', put_same, if_pos ⟨by omega, Or.inl this.2⟩]
        · rw [put_ne _ _ ha', ih f hf]
          by_cases hab : j = a ∨ j = b
          · have hne : f ≠ g := by rintro rfl; rcases hab with h | h <;> subst h <;> omega
            simp only [hab, and_true, show (f < g + 1) = (f < g) from propext (by omega)]
          · simp only [hab, and_false]
  generalize forUp c.nf (fun f m => put (put m (a + f * c.k) 0) (b + f * c.k) 0) m = m0 at hclear ⊢
  have := forUp_inv (body := fun x m => if lab x = b then mqAdd c x b m else if lab x = a then mqAdd c x a m else m) (s := m0)
    (fun y (m' : Nat → K) => ∀ j < c.k, ∀ f < c.nf, m' (j + f * c.k) = if j = a ∨ j = b then tot c y lab j f else m (j + f * c.k)) c.n
    (fun j hj f hf => by rw [hclear j hj f hf]; simp [tot]) ?_
  · exact this
  · intro y m' _ ih j hj f hf
    have hs : tot c (y + 1) lab j f = tot c y lab j f + if lab y = j then term c y f else 0 := Finset.sum_range_succ _ _
    rw [hs]
    by_cases h1 : lab y = b
    · rw [if_pos h1, mqAdd_spec c y b hb m' j hj f hf, ih j hj f hf, h1]
      by_cases hj' : j = a ∨ j = b
      · simp only [if_pos hj']
      · rw [if_neg hj', if_neg hj', if_neg (by omega), add_zero]
    · rw [if_neg h1]
      by_cases h2 : lab y = a
      · rw [if_pos h2, mqAdd_spec c y a ha m' j hj f hf, ih j hj f hf, h2]
        by_cases hj' : j = a ∨ j = b
        · simp only [if_pos hj']
        · rw [if_neg hj', if_neg hj', if_neg (by omega), add_zero]
      · rw [if_neg h2, ih j hj f hf]
        by_cases hj' : j = a ∨ j = b
        · rw [if_pos hj', if_pos hj', if_neg (by rcases hj' with h | h <;> omega), add_zero]
        · rw [if_neg hj', if_neg hj']

omit [LinearOrder K] [IsStrictOrderedRing K] in
/-- Dividing the sums of two clusters by their counts, with their norms. -/
theorem divide_spec (c : LCfg K) (count : Nat → Int) (a b : Nat) (ha : a < c.k) (hb : b < c.k) (hab : a ≠ b) (m w : Nat → K) (hwa : w a = 0) (hwb : w b = 0) :
    let r := forUp c.nf (fun f r => mqDivide c count b f (mqDivide c count a f r)) (m, w)
    (∀ j < c.k, ∀ f < c.nf, r.1 (j + f * c.k) = if (j = a ∨ j = b) ∧ count j > 0 then m (j + f * c.k) / (count j : K) else m (j + f * c.k)) ∧
    ∀ j < c.k, r.2 j = if j = a ∨ j = b then (if count j > 0 then ∑ f ∈ Finset.range c.nf, m (j + f * c.k) / (count j : K) * (m (j + f * c.k) / (count j : K)) else 0) else w j := by
  intro r
  have := forUp_inv (body := fun f r => mqDivide c count b f (mqDivide c count a f r)) (s := (m, w))
    (fun g (r : (Nat → K) × (Nat → K)) =>
      (∀ j < c.k, ∀ f < c.nf, r.1 (j + f * c.k) = if ((j = a ∨ j = b) ∧ count j > 0) ∧ f < g then m (j + f * c.k) / (count j : K) else m (j + f * c.k)) ∧
      ∀ j < c.k, r.2 j = if j = a ∨ j = b then (if count j > 0 then ∑ f ∈ Finset.range g, m (j + f * c.k) / (count j : K) * (m (j + f * c.k) / (count j : K)) else 0) else w j)
    c.nf ⟨fun j _ f _ => by simp, fun j _ => ?_⟩ ?_
  · refine ⟨fun j hj f hf => ?_, this.2⟩
    rw [this.1 j hj f hf]
    simp only [hf, and_true]
  · by_cases hj : j = a ∨ j = b
    · rw [if_pos hj]
      rcases hj with h | h <;> subst h <;> simp [hwa, hwb]
    · rw [if_neg hj]
  · -- one cluster at a time
    have hone : ∀ (q : Nat) (hq : q < c.k) (P : Nat → Prop) (_ : ¬ P q) (g : Nat) (_ : g < c.nf) (r : (Nat → K) × (Nat → K)),
        r.1 (q + g * c.k) = m (q + g * c.k) →
        r.2 q = (if count q > 0 then ∑ f ∈ Finset.range g, m (q + f * c.k) / (count q : K) * (m (q + f * c.k) / (count q : K)) else 0) →
        let r' := mqDivide c count q g r
        (∀ j < c.k, ∀ f < c.nf, (j ≠ q ∨ f ≠ g) → r'.1 (j + f * c.k) = r.1 (j + f * c.k)) ∧ (∀ j, j ≠ q → r'.2 j = r.2 j) ∧
        (r'.1 (q + g * c.k) = if count q > 0 then m (q + g * c.k) / (count q : K) else m (q + g * c.k)) ∧
        r'.2 q = (if count q > 0 then ∑ f ∈ Finset.range (g + 1), m (q + f * c.k) / (count q : K) * (m (q + f * c.k) / (count q : K)) else 0) := by
      intro q hq _ _ g hg r h1 h2
      unfold mqDivide
      by_cases hcq : count q > 0
      · simp only [if_pos hcq]
        rw [if_pos hcq] at h2
        refine ⟨fun j hj f hf hne => put_ne _ _ fun e => ?_, fun j hj => put_ne _ _ hj, by rw [put_same, h1], by rw [put_same, h2, h1, Finset.sum_range_succ]⟩
        have := half_inj hj hq e
        rcases hne with h | h
        · exact h this.2
        · exact h this.1
      · simp only [if_neg hcq]
        rw [if_neg hcq] at h2
        exact ⟨fun _ _ _ _ _ => trivial, fun _ _ => trivial, h1, h2⟩
    rintro g r hg ⟨h1, h2⟩
    have ha1 := hone a ha (fun _ => False) (fun h => h) g hg r (by rw [h1 a ha g hg, if_neg (by omega)]) (by rw [h2 a ha, if_pos (Or.inl rfl)])
    simp only at ha1
    generalize mqDivide c count a g r = r1 at ha1 ⊢
    obtain ⟨p1, p2, p3, p4⟩ := ha1
    have hb1 := hone b hb (fun _ => False) (fun h => h) g hg r1 (by rw [p1 b hb g hg (Or.inl (Ne.symm hab)), h1 b hb g hg, if_neg (by omega)])
      (by rw [p2 b (Ne.symm hab), h2 b hb, if_pos (Or.inr rfl)])
    simp only at hb1
    generalize mqDivide c count b g r1 = r2 at hb1 ⊢
    obtain ⟨q1, q2, q3, q4⟩ := hb1
    refine ⟨fun j hj f hf => ?_, fun j hj => ?_⟩
    · by_cases hjb : j = b
      · by_cases hfg : f = g
        · subst hjb; subst hfg
          rw [q3]
          by_cases hcq : count j > 0
          · rw [if_pos hcq, if_pos ⟨⟨Or.inr rfl, hcq⟩, by omega⟩]
          · rw [if_neg hcq, if_neg (by tauto)]
        · rw [q1 j hj f hf (Or.inr hfg), p1 j hj f hf (Or.inr hfg), h1 j hj f hf]
          simp only [show (f < g + 1) = (f < g) from propext (by omega)]
      · rw [q1 j hj f hf (Or.inl hjb)]
        by_cases hja : j = a
        · by_cases hfg : f = g
          · subst hja; subst hfg
            rw [p3]
            by_cases hcq : count j > 0
            · rw [if_pos hcq, if_pos ⟨⟨Or.inl rfl, hcq⟩, by omega⟩]
            · rw [if_neg hcq, if_neg (by tauto)]
          · rw [p1 j hj f hf (Or.inr hfg), h1 j hj f hf]
            simp only [show (f < g + 1) = (f < g) from propext (by omega)]
        · rw [p1 j hj f hf (Or.inl hja), h1 j hj f hf, if_neg (by tauto), if_neg (by tauto)]
    · by_cases hjb : j = b
      · subst hjb
        rw [q4, if_pos (Or.inr rfl)]
      · rw [q2 j hjb]
        by_cases hja : j = a
        · subst hja
          rw [p4, if_pos (Or.inl rfl)]
        · rw [p2 j hja, h2 j hj, if_neg (by tauto), if_neg (by tauto)]

omit [LinearOrder K] [IsStrictOrderedRing K] in
theorem tot_other (c : LCfg K) (m : Nat) (lab : Nat → Nat) (i b j f : Nat) (h1 : j ≠ lab i) (h2 : j ≠ b) : tot c m (put lab i b) j f = tot c m lab j f := by
  unfold tot
  refine Finset.sum_congr rfl fun x _ => ?_
  by_cases hx : x = i
  · subst hx
    rw [put_same, if_neg (Ne.symm h2), if_neg (Ne.symm h1)]
  · rw [put_ne _ _ hx]

theorem num_other (m : Nat) (lab : Nat → Nat) (i b j : Nat) (h1 : j ≠ lab i) (h2 : j ≠ b) : num m (put lab i b) j = num m lab j := by
  unfold num
  refine Finset.sum_congr rfl fun x _ => ?_
  by_cases hx : x = i
  · subst hx
    rw [put_same, if_neg (Ne.symm h2), if_neg (Ne.symm h1)]
  · rw [put_ne _ _ hx]

omit [LinearOrder K] [IsStrictOrderedRing K] in
theorem tot_zero (c : LCfg K) (m : Nat) (lab : Nat → Nat) (j f : Nat) (h : num m lab j = 0) : tot c m lab j f = 0 := by
  refine Finset.sum_eq_zero fun i hi => if_neg fun e => ?_
  have := num_pos m lab i (Finset.mem_range.mp hi)
  rw [e, h] at this
  omega

/-- What a move does. -/
structure Moved (c : LCfg K) (i b : Nat) (s s' : MSt K) : Prop where
  inv : MInv c s'
  lab : s'.curLab = put s.curLab i b
  prev : s'.prev = s.prev
  prevLab : s'.prevLab = s.prevLab
  other : ∀ j < c.k, j ≠ s.curLab i → j ≠ b → s'.norms j = s.norms j ∧ ∀ f < c.nf, s'.cur (j + f * c.k) = s.cur (j + f * c.k)
  norms : c.spherical = false → ∀ j, j = s.curLab i ∨ j = b → s'.norms j = ∑ f ∈ Finset.range c.nf, s'.cur (j + f * c.k) * s'.cur (j + f * c.k)

theorem move_spec (c : LCfg K) (hr : RootOk c) (s : MSt K) (h : MInv c s) (i b : Nat) (hi : i < c.n) (hb : b < c.k) (hne : s.curLab i ≠ b) :
    Moved c i b s (mqMove c i b s) := by
  have ha := h.lab i hi
  have hcnt : ∀ j < c.k, put (put s.count b (s.count b + 1)) (s.curLab i) (put s.count b (s.count b + 1) (s.curLab i) - 1) j = (num c.n (put s.curLab i b) j : Int) := by
    intro j hj
    have hn := num_put c.n s.curLab i b hi hne j
    have hpos := num_pos c.n s.curLab i hi
    by_cases h1 : j = s.curLab i
    · rw [h1, put_same, put_ne _ _ hne, h.count _ ha]
      rw [h1, if_pos rfl, if_neg hne] at hn
      omega
    · rw [put_ne _ _ h1]
      by_cases h2 : j = b
      · rw [h2, put_same, h.count _ hb]
        rw [if_neg h1, if_pos h2, h2] at hn
        omega
      · rw [put_ne _ _ h2, h.count _ hj]
        rw [if_neg h1, if_neg h2] at hn
        omega
  have hlab : ∀ x < c.n, put s.curLab i b x < c.k := fun x hx => by
    by_cases he : x = i
    · rw [he, put_same]; exact hb
    · rw [put_ne _ _ he]; exact h.lab x hx
  have hres := resum_spec c (put s.curLab i b) (s.curLab i) b ha hb s.cur
  unfold mqMove
  simp only
  generalize put (put s.count b (s.count b + 1)) (s.curLab i) (put s.count b (s.count b + 1) (s.curLab i) - 1) = count at hcnt ⊢
  generalize forUp c.n (fun x m => if put s.curLab i b x = b then mqAdd c x b m else if put s.curLab i b x = s.curLab i then mqAdd c x (s.curLab i) m else m)
      (forUp c.nf (fun f m => put (put m (s.curLab i + f * c.k) 0) (b + f * c.k) 0) s.cur) = cur at hres ⊢
  have hkeep : ∀ j, j ≠ s.curLab i → j ≠ b → ∀ f, centreOf c (put s.curLab i b) j f = centreOf c s.curLab j f := by
    intro j h1 h2 f
    rw [centreOf_def, centreOf_def]
    simp only [tot_other c c.n s.curLab i b j _ h1 h2, num_other c.n s.curLab i b j h1 h2]
  have hw : ∀ j, j ≠ s.curLab i → j ≠ b → put (put s.norms (s.curLab i) 0) b 0 j = s.norms j := fun j h1 h2 => by rw [put_ne _ _ h2, put_ne _ _ h1]
  cases hsp : c.spherical
  · simp only [Bool.false_eq_true, if_false]
    have hd := divide_spec c count (s.curLab i) b ha hb hne cur (put (put s.norms (s.curLab i) 0) b 0) (by rw [put_ne _ _ hne, put_same]) (put_same _ _ _)
    simp only at hd
    generalize forUp c.nf (fun f r => mqDivide c count b f (mqDivide c count (s.curLab i) f r)) (cur, put (put s.norms (s.curLab i) 0) b 0) = r at hd ⊢
    have hcen : ∀ j, j < c.k → j = s.curLab i ∨ j = b → ∀ f < c.nf, r.1 (j + f * c.k) = if count j > 0 then cur (j + f * c.k) / (count j : K) else 0 := by
      intro j hj hab f hf
      rw [hd.1 j hj f hf]
      by_cases hp : count j > 0
      · rw [if_pos ⟨hab, hp⟩, if_pos hp]
      · rw [if_neg (by tauto), if_neg hp, hres j hj f hf, if_pos hab, tot_zero]
        have := hcnt j hj
        omega
    refine ⟨⟨hlab, hcnt, fun j hj f hf => ?_⟩, rfl, rfl, rfl, fun j hj h1 h2 => ⟨?_, fun f hf => ?_⟩, fun _ j hj => ?_⟩
    · show r.1 (j + f * c.k) = centreOf c (put s.curLab i b) j f
      by_cases hab : j = s.curLab i ∨ j = b
      · rw [hcen j hj hab f hf, centreOf_def, hcnt j hj, hres j hj f hf, if_pos hab]
        by_cases hp : (num c.n (put s.curLab i b) j : Int) > 0
        · rw [if_pos hp, hsp, if_neg (by decide), show max 1 (num c.n (put s.curLab i b) j) = num c.n (put s.curLab i b) j by omega, div_eq_mul_one_div]
          push_cast
          rfl
        · rw [if_neg hp, tot_zero c _ _ _ _ (by omega), zero_mul]
      · rw [hd.1 j hj f hf, if_neg (by tauto), hres j hj f hf, if_neg hab, hkeep j (by tauto) (by tauto), h.cur j hj f hf]
    · simp only
      rw [hd.2 j hj, if_neg (by tauto), hw j h1 h2]
    · simp only
      rw [hd.1 j hj f hf, if_neg (by tauto), hres j hj f hf, if_neg (by tauto)]
    · have hjk : j < c.k := by rcases hj with e | e <;> rw [e] <;> assumption
      simp only
      rw [hd.2 j hjk, if_pos hj]
      by_cases hp : count j > 0
      · rw [if_pos hp]
        refine Finset.sum_congr rfl fun f hf => ?_
        rw [hcen j hjk hj f (Finset.mem_range.mp hf), if_pos hp]
      · rw [if_neg hp]
        refine (Finset.sum_eq_zero fun f hf => ?_).symm
        rw [hcen j hjk hj f (Finset.mem_range.mp hf), if_neg hp, mul_zero]
  · simp only [if_true]
    have hu1 := mqUnit_spec c (s.curLab i) ha cur
    generalize mqUnit c (s.curLab i) cur = cur1 at hu1 ⊢
    have hu2 := mqUnit_spec c b hb cur1
    generalize mqUnit c b cur1 = cur2 at hu2 ⊢
    have hcu : ∀ j < c.k, ∀ f < c.nf, cur2 (j + f * c.k) = if s.curLab i = j ∨ b = j then cur (j + f * c.k) * (if 0 < ∑ f ∈ Finset.range c.nf, cur (j + f * c.k) * cur (j + f * c.k) then
      1 / c.sqrt (∑ f ∈ Finset.range c.nf, cur (j + f * c.k) * cur (j + f * c.k)) else 1) else cur (j + f * c.k) := by
      intro j hj f hf
      rw [hu2 j hj f hf]
      by_cases h1 : b = j
      · have h2 : s.curLab i ≠ j := fun e => hne (e.trans h1.symm)
        have hs : ∀ f ∈ Finset.range c.nf, cur1 (j + f * c.k) = cur (j + f * c.k) := fun f hf => by rw [hu1 j hj f (Finset.mem_range.mp hf), if_neg h2]
        rw [if_pos h1, if_pos (Or.inr h1), hs f (Finset.mem_range.mpr hf), Finset.sum_congr rfl fun f hf => by rw [hs f hf]]
      · rw [if_neg h1, hu1 j hj f hf]
        simp only [h1, or_false]
    refine ⟨⟨hlab, hcnt, fun j hj f hf => ?_⟩, rfl, rfl, rfl, fun j hj h1 h2 => ⟨hw j h1 h2, fun f hf => ?_⟩, fun hs => by rw [hsp] at hs; cases hs⟩
    · show cur2 (j + f * c.k) = centreOf c (put s.curLab i b) j f
      rw [hcu j hj f hf]
      by_cases hab : s.curLab i = j ∨ b = j
      · have hab' : j = s.curLab i ∨ j = b := by rcases hab with e | e <;> simp [e]
        have hs : ∀ f ∈ Finset.range c.nf, cur (j + f * c.k) = tot c c.n (put s.curLab i b) j f := fun f hf => by rw [hres j hj f (Finset.mem_range.mp hf), if_pos hab']
        rw [if_pos hab, ← unit_centre c hsp hr _ j f hf, hs f (Finset.mem_range.mpr hf), Finset.sum_congr rfl fun f hf => by rw [hs f hf]]
      · rw [if_neg hab, hres j hj f hf, if_neg (by tauto), hkeep j (by tauto) (by tauto), h.cur j hj f hf]
    · show cur2 (j + f * c.k) = s.cur (j + f * c.k)
      rw [hcu j hj f hf, if_neg (by tauto), hres j hj f hf, if_neg (by tauto)]

end Verif.Kmeans
