import Verif.Kmeans.LloydRun
import Mathlib.Algebra.Order.Chebyshev

/-
Sequences of iterations of Lloyd's method.
-/
namespace Verif.Kmeans

open Verif.HalfBlas (put forUp)

variable {K : Type} [Field K] [LinearOrder K] [IsStrictOrderedRing K]

/-- The two sets of centres agree where centres are stored. -/
def SameC (c : LCfg K) (C D : Nat → K) : Prop := ∀ a < c.k, ∀ f < c.nf, C (a + f * c.k) = D (a + f * c.k)

omit [IsStrictOrderedRing K] in
theorem labOf_congr (c : LCfg K) {C D : Nat → K} (h : SameC c C D) (i : Nat) : labOf c C i = labOf c D i := by
  unfold labOf
  congr 1
  funext j
  by_cases hj : j < c.k
  · rw [if_pos hj, if_pos hj]
    unfold score
    have h1 : ∑ f ∈ Finset.range c.nf, C (j + f * c.k) * sample c i f = ∑ f ∈ Finset.range c.nf, D (j + f * c.k) * sample c i f :=
      Finset.sum_congr rfl fun f hf => by rw [h j hj f (Finset.mem_range.mp hf)]
    have h2 : ∑ f ∈ Finset.range c.nf, C (j + f * c.k) * C (j + f * c.k) = ∑ f ∈ Finset.range c.nf, D (j + f * c.k) * D (j + f * c.k) :=
      Finset.sum_congr rfl fun f hf => by rw [h j hj f (Finset.mem_range.mp hf)]
    rw [h1, h2]
  · rw [if_neg hj, if_neg hj]

/-- The new centre from the labels alone. -/
def centreOf (c : LCfg K) (lab : Nat → Nat) (a f : Nat) : K :=
  let tot := fun f => ∑ i ∈ Finset.range c.n, if lab i = a then term c i f else 0
  tot f * if c.spherical then (if c.sqrt (∑ f ∈ Finset.range c.nf, tot f * tot f) = 0 then 1 else 1 / c.sqrt (∑ f ∈ Finset.range c.nf, tot f * tot f))
    else 1 / ((max 1 (∑ i ∈ Finset.range c.n, if lab i = a then 1 else 0) : Nat) : K)

omit [IsStrictOrderedRing K] in
theorem centreOf_eq (c : LCfg K) (C : Nat → K) (a f : Nat) : total c C a f * factor c C a = centreOf c (labOf c C) a f := rfl

omit [IsStrictOrderedRing K] in
theorem centreOf_congr (c : LCfg K) {lab lab' : Nat → Nat} (h : ∀ i < c.n, lab i = lab' i) (a f : Nat) : centreOf c lab a f = centreOf c lab' a f := by
  have h1 : ∀ f, (∑ i ∈ Finset.range c.n, if lab i = a then term c i f else 0) = ∑ i ∈ Finset.range c.n, if lab' i = a then term c i f else 0 :=
    fun f => Finset.sum_congr rfl fun i hi => by rw [h i (Finset.mem_range.mp hi)]
  have h2 : (∑ i ∈ Finset.range c.n, if lab i = a then 1 else 0) = ∑ i ∈ Finset.range c.n, if lab' i = a then 1 else 0 :=
    Finset.sum_congr rfl fun i hi => by rw [h i (Finset.mem_range.mp hi)]
  unfold centreOf
  simp only [h1, h2]

/-- The states of a run: `S t` after `t` iterations. -/
structure Trace (c : LCfg K) (S : Nat → LSt K) : Prop where
  lab : ∀ t, ∀ i < c.n, (S (t + 1)).curLab i = labOf c (S t).cur i
  prevLab : ∀ t, (S (t + 1)).prevLab = (S t).curLab
  cur : ∀ t, ∀ a < c.k, ∀ f < c.nf, (S (t + 1)).cur (a + f * c.k) = centreOf c (S (t + 1)).curLab a f
  count : ∀ t, ∀ a < c.k, (S (t + 1)).count a = max 1 (∑ i ∈ Finset.range c.n, if (S (t + 1)).curLab i = a then 1 else 0)
  shift : ∀ t, ∀ a < c.k, ∀ f < c.nf, (S (t + 1)).prev (a + f * c.k) = (S t).cur (a + f * c.k) - (S (t + 1)).cur (a + f * c.k)
  padded : ∀ t, Padded c (S t).workc1

omit [IsStrictOrderedRing K] in
/-- A step of a run. -/
theorem step_facts (c : LCfg K) (hc : LCfgOk c) (nThreads : Nat) (sch : Sched) (hs : nThreads > 1 → LSchedAny c nThreads sch) (s : LSt K) (hp : Padded c s.workc1) :
    let s' := lloydIteration c nThreads sch true (swapL s)
    (∀ i < c.n, s'.curLab i = labOf c s.cur i) ∧ s'.prevLab = s.curLab ∧ (∀ a < c.k, ∀ f < c.nf, s'.cur (a + f * c.k) = centreOf c s'.curLab a f) ∧
    (∀ a < c.k, s'.count a = max 1 (∑ i ∈ Finset.range c.n, if s'.curLab i = a then 1 else 0)) ∧
    (∀ a < c.k, ∀ f < c.nf, s'.prev (a + f * c.k) = s.cur (a + f * c.k) - s'.cur (a + f * c.k)) ∧ Padded c s'.workc1 := by
  have h := iteration_lloyd c hc nThreads sch hs true (swapL s) hp
  simp only
  generalize lloydIteration c nThreads sch true (swapL s) = s' at h
  have hl : ∀ i < c.n, s'.curLab i = labOf c s.cur i := h.lab
  refine ⟨hl, h.prevLab, fun a ha f hf => ?_, fun a ha => ?_, h.shift rfl, h.padded⟩
  · rw [h.cur rfl a ha f hf]
    refine (centreOf_eq c s.cur a f).trans (centreOf_congr c (fun i hi => (hl i hi).symm) a f)
  · rw [h.count rfl a ha]
    congr 1
    exact Finset.sum_congr rfl fun i hi => by rw [hl i (Finset.mem_range.mp hi)]; rfl

/-- The state after `t` iterations. -/
def states (c : LCfg K) (nThreads : Nat) (sched : Nat → Sched) (s : LSt K) : Nat → LSt K
  | 0 => s
  | t + 1 => lloydIteration c nThreads (sched t) true (swapL (states c nThreads sched s t))

omit [IsStrictOrderedRing K] in
theorem states_run (c : LCfg K) (nThreads : Nat) (sched : Nat → Sched) (s : LSt K) (t : Nat) :
    states c nThreads sched s t = lloydRun c nThreads s ((List.range t).map sched) := by
  unfold lloydRun
  induction t with
  | zero => rfl
  | succ t ih => rw [List.range_succ, List.map_append, List.foldl_append, ← ih]; rfl

omit [IsStrictOrderedRing K] in
theorem states_trace (c : LCfg K) (hc : LCfgOk c) (nThreads : Nat) (sched : Nat → Sched) (hs : ∀ t, nThreads > 1 → LSchedAny c nThreads (sched t)) (s : LSt K)
    (hp : Padded c s.workc1) : Trace c (states c nThreads sched s) := by
  have hpad : ∀ t, Padded c (states c nThreads sched s t).workc1 := by
    intro t
    induction t with
    | zero => exact hp
    | succ t ih => exact (step_facts c hc nThreads (sched t) (hs t) _ ih).2.2.2.2.2
  have h := fun t => step_facts c hc nThreads (sched t) (hs t) _ (hpad t)
  exact ⟨fun t => (h t).1, fun t => (h t).2.1, fun t => (h t).2.2.1, fun t => (h t).2.2.2.1, fun t => (h t).2.2.2.2.1, hpad⟩

/-! ### Nearest centres -/

/-- The squared distance of sample `i` to centre `j`, or minus their product for spherical clustering. -/
def far (c : LCfg K) (C : Nat → K) (i j : Nat) : K :=
  if c.spherical then - ∑ f ∈ Finset.range c.nf, sample c i f * C (j + f * c.k)
  else ∑ f ∈ Finset.range c.nf, (sample c i f - C (j + f * c.k)) ^ 2

omit [LinearOrder K] [IsStrictOrderedRing K] in
theorem far_score (c : LCfg K) (C : Nat → K) (i j : Nat) :
    far c C i j = score c C i j + if c.spherical then 0 else ∑ f ∈ Finset.range c.nf, sample c i f ^ 2 := by
  unfold far score
  cases c.spherical
  · simp only [Bool.false_eq_true, if_false]
    rw [Finset.mul_sum, ← Finset.sum_add_distrib, ← Finset.sum_add_distrib]
    exact Finset.sum_congr rfl fun f _ => by ring
  · simp only [if_true, add_zero, neg_mul, one_mul]
    rw [Finset.sum_congr rfl fun f _ => mul_comm _ _]

theorem far_le (c : LCfg K) (hc : LCfgOk c) (C : Nat → K) (i : Nat) : labOf c C i < c.k ∧ ∀ b < c.k, far c C i (labOf c C i) ≤ far c C i b := by
  have h := labOf_least c hc C i
  refine ⟨h.lt, fun b hb => ?_⟩
  have hl := h.least b hb
  simp only [if_pos hb, if_pos h.lt] at hl
  rw [far_score, far_score]
  have : score c C i (labOf c C i) ≤ score c C i b := WithTop.coe_le_coe.mp hl
  linarith

omit [LinearOrder K] [IsStrictOrderedRing K] in
theorem far_congr (c : LCfg K) {C D : Nat → K} (h : SameC c C D) (i j : Nat) (hj : j < c.k) : far c C i j = far c D i j := by
  unfold far
  have h1 : ∑ f ∈ Finset.range c.nf, sample c i f * C (j + f * c.k) = ∑ f ∈ Finset.range c.nf, sample c i f * D (j + f * c.k) :=
    Finset.sum_congr rfl fun f hf => by rw [h j hj f (Finset.mem_range.mp hf)]
  have h2 : ∑ f ∈ Finset.range c.nf, (sample c i f - C (j + f * c.k)) ^ 2 = ∑ f ∈ Finset.range c.nf, (sample c i f - D (j + f * c.k)) ^ 2 :=
    Finset.sum_congr rfl fun f hf => by rw [h j hj f (Finset.mem_range.mp hf)]
  rw [h1, h2]

/-! ### The inertia -/

/-- The sum of squared distances of the samples to the centres of their labels. -/
def inertia (c : LCfg K) (C : Nat → K) (lab : Nat → Nat) : K :=
  ∑ i ∈ Finset.range c.n, ∑ f ∈ Finset.range c.nf, (sample c i f - C (lab i + f * c.k)) ^ 2

theorem sum_by_label {M : Type} [AddCommMonoid M] (n k : Nat) (lab : Nat → Nat) (hl : ∀ i < n, lab i < k) (F : Nat → Nat → M) :
    (∑ i ∈ Finset.range n, F i (lab i)) = ∑ a ∈ Finset.range k, ∑ i ∈ Finset.range n, if lab i = a then F i a else 0 := by
  rw [Finset.sum_comm]
  refine Finset.sum_congr rfl fun i hi => ?_
  rw [Finset.sum_ite_eq, if_pos (Finset.mem_range.mpr (hl i (Finset.mem_range.mp hi)))]

/-- The centre is the mean: the deviations of its samples cancel. -/
theorem mean_zero (c : LCfg K) (hsp : c.spherical = false) (lab : Nat → Nat) (a f : Nat) :
    (∑ i ∈ Finset.range c.n, if lab i = a then sample c i f - centreOf c lab a f else 0) = 0 := by
  have ht : ∀ i, term c i f = sample c i f := fun i => by simp [term, hsp]
  unfold centreOf
  simp only [hsp, ht, Bool.false_eq_true, if_false]
  generalize hm : (∑ i ∈ Finset.range c.n, if lab i = a then 1 else 0 : Nat) = m
  have hcard : ∀ x : K, (∑ i ∈ Finset.range c.n, if lab i = a then x else 0) = m * x := fun x => by
    rw [← hm, Nat.cast_sum, Finset.sum_mul]
    exact Finset.sum_congr rfl fun i _ => by split <;> simp
  have hsub : ∀ x : K, (∑ i ∈ Finset.range c.n, if lab i = a then sample c i f - x else 0) =
      (∑ i ∈ Finset.range c.n, if lab i = a then sample c i f else 0) - ∑ i ∈ Finset.range c.n, if lab i = a then x else 0 := fun x => by
    rw [← Finset.sum_sub_distrib]
    exact Finset.sum_congr rfl fun i _ => by split <;> simp
  rw [hsub, hcard]
  rcases Nat.eq_zero_or_pos m with h0 | h0
  · have hz : (∑ i ∈ Finset.range c.n, if lab i = a then sample c i f else 0) = 0 := by
      refine Finset.sum_eq_zero fun i hi => if_neg fun e => ?_
      rw [h0] at hm
      have := (Finset.sum_eq_zero_iff.mp hm) i hi
      rw [if_pos e] at this
      exact absurd this one_ne_zero
    rw [h0, hz]
    simp
  · have : (m : K) ≠ 0 := Nat.cast_ne_zero.mpr (by omega)
    rw [show max 1 m = m by omega]
    field_simp
    ring

/-- Moving the centres to the means lowers the inertia by the squared moves. -/
theorem inertia_split (c : LCfg K) (hsp : c.spherical = false) (lab : Nat → Nat) (hl : ∀ i < c.n, lab i < c.k) (C D : Nat → K)
    (hD : ∀ a < c.k, ∀ f < c.nf, D (a + f * c.k) = centreOf c lab a f) :
    inertia c C lab = inertia c D lab + ∑ i ∈ Finset.range c.n, ∑ f ∈ Finset.range c.nf, (D (lab i + f * c.k) - C (lab i + f * c.k)) ^ 2 := by
  have hcross : ∑ i ∈ Finset.range c.n, ∑ f ∈ Finset.range c.nf, 2 * (D (lab i + f * c.k) - C (lab i + f * c.k)) * (sample c i f - D (lab i + f * c.k)) = 0 := by
    rw [sum_by_label c.n c.k lab hl fun i a => ∑ f ∈ Finset.range c.nf, 2 * (D (a + f * c.k) - C (a + f * c.k)) * (sample c i f - D (a + f * c.k))]
    refine Finset.sum_eq_zero fun a ha => ?_
    have ha' := Finset.mem_range.mp ha
    have : ∀ i, (if lab i = a then ∑ f ∈ Finset.range c.nf, 2 * (D (a + f * c.k) - C (a + f * c.k)) * (sample c i f - D (a + f * c.k)) else 0) =
        ∑ f ∈ Finset.range c.nf, 2 * (D (a + f * c.k) - C (a + f * c.k)) * if lab i = a then sample c i f - D (a + f * c.k) else 0 := fun i => by
      split <;> simp
    simp only [this]
    rw [Finset.sum_comm]
    refine Finset.sum_eq_zero fun f hf => ?_
    rw [← Finset.mul_sum, hD a ha' f (Finset.mem_range.mp hf), mean_zero c hsp, mul_zero]
  have hall : inertia c C lab = inertia c D lab + (∑ i ∈ Finset.range c.n, ∑ f ∈ Finset.range c.nf, (D (lab i + f * c.k) - C (lab i + f * c.k)) ^ 2) +
      ∑ i ∈ Finset.range c.n, ∑ f ∈ Finset.range c.nf, 2 * (D (lab i + f * c.k) - C (lab i + f * c.k)) * (sample c i f - D (lab i + f * c.k)) := by
    unfold inertia
    simp only [← Finset.sum_add_distrib]
    refine Finset.sum_congr rfl fun i _ => Finset.sum_congr rfl fun f _ => ?_
    ring
  rw [hall, hcross, add_zero]

theorem inertia_labels (c : LCfg K) (hc : LCfgOk c) (hsp : c.spherical = false) (C : Nat → K) (lab : Nat → Nat) (hl : ∀ i < c.n, lab i < c.k) :
    inertia c C (labOf c C) ≤ inertia c C lab := by
  unfold inertia
  refine Finset.sum_le_sum fun i hi => ?_
  have := (far_le c hc C i).2 (lab i) (hl i (Finset.mem_range.mp hi))
  unfold far at this
  simpa [hsp] using this

omit [LinearOrder K] [IsStrictOrderedRing K] in
theorem inertia_congr (c : LCfg K) {C D : Nat → K} {lab lab' : Nat → Nat} (h : SameC c C D) (hl : ∀ i < c.n, lab i = lab' i) (hlt : ∀ i < c.n, lab i < c.k) :
    inertia c C lab = inertia c D lab' := by
  unfold inertia
  refine Finset.sum_congr rfl fun i hi => Finset.sum_congr rfl fun f hf => ?_
  rw [← hl i (Finset.mem_range.mp hi), h _ (hlt i (Finset.mem_range.mp hi)) f (Finset.mem_range.mp hf)]

/-! ### Termination -/

section
variable {c : LCfg K} {S : Nat → LSt K}

omit [IsStrictOrderedRing K] in
theorem trace_lt (hc : LCfgOk c) (h : Trace c S) (t : Nat) : ∀ i < c.n, (S (t + 1)).curLab i < c.k := fun i hi => by
  rw [h.lab t i hi]
  exact labOf_lt c hc _ _

/-- `J t`, between the inertia of two iterations. -/
theorem trace_inertia (hc : LCfgOk c) (hsp : c.spherical = false) (h : Trace c S) (t : Nat) :
    inertia c (S t).cur (S (t + 1)).curLab = inertia c (S (t + 1)).cur (S (t + 1)).curLab +
      (∑ i ∈ Finset.range c.n, ∑ f ∈ Finset.range c.nf, ((S (t + 1)).cur ((S (t + 1)).curLab i + f * c.k) - (S t).cur ((S (t + 1)).curLab i + f * c.k)) ^ 2) ∧
    ∀ lab : Nat → Nat, (∀ i < c.n, lab i < c.k) → inertia c (S t).cur (S (t + 1)).curLab ≤ inertia c (S t).cur lab := by
  refine ⟨inertia_split c hsp _ (trace_lt hc h t) _ _ (h.cur t), fun lab hl => ?_⟩
  rw [inertia_congr c (fun _ _ _ _ => rfl) (h.lab t) (trace_lt hc h t)]
  exact inertia_labels c hc hsp _ _ hl

theorem trace_decreases (hc : LCfgOk c) (hsp : c.spherical = false) (h : Trace c S) (t : Nat) :
    inertia c (S (t + 2)).cur (S (t + 2)).curLab ≤ inertia c (S (t + 1)).cur (S (t + 1)).curLab := by
  have h1 := trace_inertia hc hsp h (t + 1)
  have h2 := h1.2 _ (trace_lt hc h t)
  have h3 : 0 ≤ ∑ i ∈ Finset.range c.n, ∑ f ∈ Finset.range c.nf, ((S (t + 1 + 1)).cur ((S (t + 1 + 1)).curLab i + f * c.k) - (S (t + 1)).cur ((S (t + 1 + 1)).curLab i + f * c.k)) ^ 2 :=
    Finset.sum_nonneg fun i _ => Finset.sum_nonneg fun f _ => sq_nonneg _
  have h4 := h1.1
  linarith

theorem trace_le (hc : LCfgOk c) (hsp : c.spherical = false) (h : Trace c S) {t u : Nat} (htu : t ≤ u) :
    inertia c (S (u + 1)).cur (S (u + 1)).curLab ≤ inertia c (S (t + 1)).cur (S (t + 1)).curLab := by
  induction u with
  | zero => rw [Nat.le_zero.mp htu]
  | succ u ih =>
    rcases Nat.lt_or_ge t (u + 1) with h' | h'
    · exact le_trans (trace_decreases hc hsp h u) (ih (by omega))
    · rw [show t = u + 1 by omega]

omit [IsStrictOrderedRing K] in
theorem empty_zero (lab : Nat → Nat) (a f : Nat) (he : ∀ i < c.n, lab i ≠ a) : centreOf c lab a f = 0 := by
  unfold centreOf
  simp only
  rw [Finset.sum_eq_zero fun i hi => if_neg (he i (Finset.mem_range.mp hi)), zero_mul]

/-- When the inertia stays, every centre stays or becomes the centre of an empty cluster. -/
theorem stays_or_zero (hc : LCfgOk c) (hsp : c.spherical = false) (h : Trace c S) (u : Nat)
    (he : inertia c (S (u + 1)).cur (S (u + 1)).curLab ≤ inertia c (S (u + 2)).cur (S (u + 2)).curLab) (a : Nat) (ha : a < c.k) :
    (∀ f < c.nf, (S (u + 2)).cur (a + f * c.k) = (S (u + 1)).cur (a + f * c.k)) ∨ ∀ f < c.nf, (S (u + 2)).cur (a + f * c.k) = 0 := by
  by_cases hmem : ∃ i < c.n, (S (u + 2)).curLab i = a
  · left
    obtain ⟨i, hi, hia⟩ := hmem
    intro f hf
    have h1 := trace_inertia hc hsp h (u + 1)
    have h2 := h1.2 _ (trace_lt hc h u)
    have hnn : ∀ i ∈ Finset.range c.n, 0 ≤ ∑ f ∈ Finset.range c.nf, ((S (u + 1 + 1)).cur ((S (u + 1 + 1)).curLab i + f * c.k) - (S (u + 1)).cur ((S (u + 1 + 1)).curLab i + f * c.k)) ^ 2 :=
      fun i _ => Finset.sum_nonneg fun f _ => sq_nonneg _
    have h3 : ∑ i ∈ Finset.range c.n, ∑ f ∈ Finset.range c.nf, ((S (u + 1 + 1)).cur ((S (u + 1 + 1)).curLab i + f * c.k) - (S (u + 1)).cur ((S (u + 1 + 1)).curLab i + f * c.k)) ^ 2 = 0 := by
      refine le_antisymm ?_ (Finset.sum_nonneg hnn)
      have h4 := h1.1
      linarith
    have h5 := (Finset.sum_eq_zero_iff_of_nonneg hnn).mp h3 i (Finset.mem_range.mpr hi)
    have h6 := (Finset.sum_eq_zero_iff_of_nonneg fun f _ => sq_nonneg _).mp h5 f (Finset.mem_range.mpr hf)
    rw [hia] at h6
    exact sub_eq_zero.mp (pow_eq_zero_iff (two_ne_zero) |>.mp h6)
  · right
    push Not at hmem
    intro f hf
    rw [h.cur (u + 1) a ha f hf]
    exact empty_zero _ _ _ hmem

/-- Labels that come back do so in the next iteration. -/
theorem labels_back (hc : LCfgOk c) (hsp : c.spherical = false) (h : Trace c S) {t u : Nat} (htu : t < u) (he : ∀ i < c.n, (S (u + 1)).curLab i = (S (t + 1)).curLab i) :
    ∀ i < c.n, (S (t + 2)).curLab i = (S (t + 1)).curLab i := by
  have hCu : SameC c (S (u + 1)).cur (S (t + 1)).cur := fun a ha f hf => by
    rw [h.cur u a ha f hf, h.cur t a ha f hf]
    exact centreOf_congr c he a f
  have hIu : inertia c (S (u + 1)).cur (S (u + 1)).curLab = inertia c (S (t + 1)).cur (S (t + 1)).curLab := inertia_congr c hCu he (trace_lt hc h u)
  have hstep : ∀ v, t ≤ v → v < u → inertia c (S (v + 1)).cur (S (v + 1)).curLab ≤ inertia c (S (v + 2)).cur (S (v + 2)).curLab := by
    intro v hv hvu
    have h1 := trace_le hc hsp h hv
    have h2 := trace_le hc hsp h (show v + 1 ≤ u by omega)
    linarith
  have hzero : ∀ a < c.k, ∀ v, v ≤ u → t ≤ v → (∀ f < c.nf, (S (v + 1)).cur (a + f * c.k) = 0) → ∀ w, v ≤ w → w ≤ u → ∀ f < c.nf, (S (w + 1)).cur (a + f * c.k) = 0 := by
    intro a ha v _ htv hz w hvw
    induction w with
    | zero => intro _ ; rw [show (0 : Nat) = v by omega]; exact hz
    | succ w ih =>
      intro hwu f hf
      rcases Nat.lt_or_ge v (w + 1) with h' | h'
      · rcases stays_or_zero hc hsp h w (hstep w (by omega) (by omega)) a ha with hs | hs
        · rw [hs f hf]; exact ih (by omega) (by omega) f hf
        · exact hs f hf
      · rw [show w + 1 = v by omega]; exact hz f hf
  have hsame : ∀ v, t ≤ v → v ≤ u → SameC c (S (v + 1)).cur (S (t + 1)).cur := by
    intro v hv
    induction v with
    | zero => intro _; rw [show t = 0 by omega]; exact fun _ _ _ _ => rfl
    | succ v ih =>
      intro hvu a ha
      rcases Nat.lt_or_ge t (v + 1) with h' | h'
      · rcases stays_or_zero hc hsp h v (hstep v (by omega) (by omega)) a ha with hs | hs
        · intro f hf
          rw [hs f hf]
          exact ih (by omega) (by omega) a ha f hf
        · intro f hf
          rw [hs f hf, ← hCu a ha f hf]
          exact (hzero a ha (v + 1) hvu (by omega) hs u hvu (le_refl _) f hf).symm
      · rw [show v + 1 = t by omega]; exact fun _ _ => rfl
  intro i hi
  obtain ⟨u', rfl⟩ : ∃ u', u = u' + 1 := ⟨u - 1, by omega⟩
  rw [← he i hi, h.lab (t + 1) i hi, h.lab (u' + 1) i hi]
  exact (labOf_congr c (hsame u' (by omega) (by omega)) i).symm

omit [IsStrictOrderedRing K] in
/-- Once the labels stay, they stay for good. -/
theorem labels_stay (h : Trace c S) {t : Nat} (he : ∀ i < c.n, (S (t + 2)).curLab i = (S (t + 1)).curLab i) :
    ∀ i < c.n, (S (t + 3)).curLab i = (S (t + 2)).curLab i := fun i hi => by
  rw [h.lab (t + 2) i hi, h.lab (t + 1) i hi]
  refine labOf_congr c (fun a ha f hf => ?_) i
  rw [h.cur (t + 1) a ha f hf, h.cur t a ha f hf]
  exact centreOf_congr c he a f

/-- Within as many iterations as there are labellings, the labels stay. -/
theorem labels_repeat (hc : LCfgOk c) (hsp : c.spherical = false) (h : Trace c S) : ∃ t < c.k ^ c.n, ∀ i < c.n, (S (t + 2)).curLab i = (S (t + 1)).curLab i := by
  let g : Fin (c.k ^ c.n + 1) → (Fin c.n → Fin c.k) := fun t i => ⟨(S (t.val + 1)).curLab i.val, trace_lt hc h t.val i.val i.isLt⟩
  have hcard : Fintype.card (Fin c.n → Fin c.k) < Fintype.card (Fin (c.k ^ c.n + 1)) := by simp
  obtain ⟨x, y, hxy, hg⟩ := Fintype.exists_ne_map_eq_of_card_lt g hcard
  have hlab : ∀ i < c.n, (S (x.val + 1)).curLab i = (S (y.val + 1)).curLab i := fun i hi => by
    have := congrFun hg ⟨i, hi⟩
    exact congrArg Fin.val this
  have hne : x.val ≠ y.val := fun e => hxy (Fin.ext e)
  rcases Nat.lt_or_ge x.val y.val with hlt | hge
  · exact ⟨x.val, by omega, labels_back hc hsp h hlt fun i hi => (hlab i hi).symm⟩
  · exact ⟨y.val, by omega, labels_back hc hsp h (show y.val < x.val by omega) fun i hi => hlab i hi⟩

end

end Verif.Kmeans
