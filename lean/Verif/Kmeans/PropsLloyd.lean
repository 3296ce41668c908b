import Verif.Kmeans.LloydSeq
import Mathlib.Data.Rat.Sqrt

/-
C87: Lloyd's k-means gives back labels that are nearest to the centres it gives back.
C88: its inertia never increases, and it stops by itself.
C89: its labels do not depend on the kernel chosen for the processor.
-/
namespace Verif.Kmeans

open Verif.HalfBlas (put forUp)

variable {K : Type} [Field K] [LinearOrder K] [IsStrictOrderedRing K]

/-! ### C87 -/

/-- Labels in range, and no centre nearer than the one of the label: by squared distance, or by the product for spherical
clustering.  Centre `b` and feature `f` are stored at `b + f * k`. -/
def LNearest (c : LCfg K) (C : Nat → K) (lab : Nat → Nat) : Prop :=
  ∀ i < c.n, lab i < c.k ∧ ∀ b < c.k,
    if c.spherical then (∑ f ∈ Finset.range c.nf, sample c i f * C (b + f * c.k)) ≤ ∑ f ∈ Finset.range c.nf, sample c i f * C (lab i + f * c.k)
    else (∑ f ∈ Finset.range c.nf, (sample c i f - C (lab i + f * c.k)) ^ 2) ≤ ∑ f ∈ Finset.range c.nf, (sample c i f - C (b + f * c.k)) ^ 2

omit [Field K] [LinearOrder K] [IsStrictOrderedRing K] in
theorem sample_def (c : LCfg K) (i f : Nat) : sample c i f = if c.colMajor then c.A (i + f * c.lda) else c.A (i * c.lda + f) := rfl

theorem nearest_of (c : LCfg K) (hc : LCfgOk c) (C D : Nat → K) (hCD : SameC c C D) (lab : Nat → Nat) (h : ∀ i < c.n, lab i = labOf c D i) : LNearest c C lab := by
  intro i hi
  have hf := far_le c hc D i
  rw [← h i hi] at hf
  refine ⟨hf.1, fun b hb => ?_⟩
  have h2 := hf.2 b hb
  rw [← far_congr c hCD i b hb, ← far_congr c hCD i _ hf.1] at h2
  unfold far at h2
  cases hs : c.spherical
  · rw [hs] at h2
    simpa using h2
  · rw [hs] at h2
    simpa using h2

/-- **C87**, the last labelling: for every number of threads, schedule, kernel, storage order, block size and number of
iterations, with any contents of the work arrays before (but infinity in the padding of `workc1`), the labels are those
of nearest centres and the centres are those of the last iteration. -/
theorem C87_nearest (c : LCfg K) (hc : LCfgOk c) (nThreads : Nat) (s : LSt K) (hp : Padded c s.workc1) (scheds : List Sched) (last : Sched)
    (hs : ∀ sch ∈ scheds, nThreads > 1 → LSchedAny c nThreads sch) (hl : nThreads > 1 → LSchedAny c nThreads last) :
    LNearest c (lloydRun c nThreads s scheds).cur (lloydFinal c nThreads last (lloydRun c nThreads s scheds)).curLab ∧
    (lloydFinal c nThreads last (lloydRun c nThreads s scheds)).cur = (lloydRun c nThreads s scheds).cur := by
  have hpad : Padded c (lloydRun c nThreads s scheds).workc1 := by
    unfold lloydRun
    induction scheds generalizing s with
    | nil => exact hp
    | cons x xs ih =>
      exact ih _ (step_facts c hc nThreads x (hs x (List.mem_cons_self ..)) s hp).2.2.2.2.2 fun sch h => hs sch (List.mem_cons_of_mem _ h)
  generalize lloydRun c nThreads s scheds = r at hpad ⊢
  have h := iteration_lloyd c hc nThreads last hl false (swapL r) hpad
  exact ⟨nearest_of c hc r.cur r.cur (fun _ _ _ _ => rfl) _ h.lab, h.kept rfl⟩

/-- The samples with label `a`. -/
def lmembers (c : LCfg K) (lab : Nat → Nat) (a : Nat) : Finset Nat := (Finset.range c.n).filter fun i => lab i = a

omit [LinearOrder K] [IsStrictOrderedRing K] in
theorem centreOf_members (c : LCfg K) (lab : Nat → Nat) (a f : Nat) :
    (∑ i ∈ Finset.range c.n, if lab i = a then term c i f else 0) = ∑ i ∈ lmembers c lab a, sample c i f * (if c.spherical && c.normalize then c.inv i else 1) := by
  rw [lmembers, Finset.sum_filter]
  rfl

/-- **C87**, one iteration: the labels are nearest to the centres before, every count is that of the label (one for an
empty cluster), the new centre is the mean of the samples of its label (or the sum of their unit vectors scaled), and
`previous_cluster_centres` holds the move. -/
theorem C87_iteration (c : LCfg K) (hc : LCfgOk c) (nThreads : Nat) (s : LSt K) (hp : Padded c s.workc1) (sch : Sched)
    (hs : nThreads > 1 → LSchedAny c nThreads sch) :
    let after := lloydIteration c nThreads sch true (swapL s)
    LNearest c s.cur after.curLab ∧ after.prevLab = s.curLab ∧
    ∀ a < c.k, after.count a = max 1 (lmembers c after.curLab a).card ∧
      (∀ f < c.nf, after.prev (a + f * c.k) = s.cur (a + f * c.k) - after.cur (a + f * c.k)) ∧
      (c.spherical = false → ∀ f < c.nf, after.cur (a + f * c.k) * (after.count a : K) = ∑ i ∈ lmembers c after.curLab a, sample c i f) ∧
      (c.spherical = true → ∃ r : K,
        ((c.sqrt (∑ f ∈ Finset.range c.nf, (∑ i ∈ lmembers c after.curLab a, sample c i f * (if c.normalize then c.inv i else 1)) ^ 2) = 0 ∧ r = 1) ∨
          r * c.sqrt (∑ f ∈ Finset.range c.nf, (∑ i ∈ lmembers c after.curLab a, sample c i f * (if c.normalize then c.inv i else 1)) ^ 2) = 1) ∧
        ∀ f < c.nf, after.cur (a + f * c.k) = (∑ i ∈ lmembers c after.curLab a, sample c i f * (if c.normalize then c.inv i else 1)) * r) := by
  intro after
  obtain ⟨h1, h2, h3, h4, h5, _⟩ := step_facts c hc nThreads sch hs s hp
  change (∀ i < c.n, after.curLab i = labOf c s.cur i) at h1
  change after.prevLab = s.curLab at h2
  change ∀ a < c.k, ∀ f < c.nf, after.cur (a + f * c.k) = centreOf c after.curLab a f at h3
  change ∀ a < c.k, after.count a = max 1 (∑ i ∈ Finset.range c.n, if after.curLab i = a then 1 else 0) at h4
  change ∀ a < c.k, ∀ f < c.nf, after.prev (a + f * c.k) = s.cur (a + f * c.k) - after.cur (a + f * c.k) at h5
  clear_value after
  have hcard : ∀ a, (∑ i ∈ Finset.range c.n, if after.curLab i = a then 1 else 0) = (lmembers c after.curLab a).card := fun a => by
    rw [lmembers, Finset.card_filter]
  refine ⟨nearest_of c hc _ _ (fun _ _ _ _ => rfl) _ h1, h2, fun a ha => ⟨by rw [h4 a ha, hcard], h5 a ha, fun hsp f hf => ?_, fun hsp => ?_⟩⟩
  · rw [h3 a ha f hf, h4 a ha]
    unfold centreOf
    simp only [centreOf_members]
    simp only [hsp, Bool.false_and, Bool.false_eq_true, if_false, mul_one]
    rw [mul_assoc, one_div_mul_cancel, mul_one]
    exact_mod_cast (by omega : max 1 (∑ i ∈ Finset.range c.n, if after.curLab i = a then 1 else 0) ≠ 0)
  · refine ⟨if c.sqrt (∑ f ∈ Finset.range c.nf, (∑ i ∈ lmembers c after.curLab a, sample c i f * (if c.normalize then c.inv i else 1)) ^ 2) = 0 then 1
      else 1 / c.sqrt (∑ f ∈ Finset.range c.nf, (∑ i ∈ lmembers c after.curLab a, sample c i f * (if c.normalize then c.inv i else 1)) ^ 2), ?_, fun f hf => ?_⟩
    rotate_left
    · rw [h3 a ha f hf]
      unfold centreOf
      simp only [centreOf_members]
      simp only [hsp, Bool.true_and, if_true, sq]
    · generalize c.sqrt (∑ f ∈ Finset.range c.nf, (∑ i ∈ lmembers c after.curLab a, sample c i f * (if c.normalize then c.inv i else 1)) ^ 2) = nrm
      by_cases hne : nrm = 0
      · exact Or.inl ⟨hne, if_pos hne⟩
      · rw [if_neg hne]
        exact Or.inr (one_div_mul_cancel hne)

omit [IsStrictOrderedRing K] in
/-- How the loop ends. -/
theorem loop_end (c : LCfg K) (nThreads : Nat) (sched : Nat → Sched) (bound : K) (s : LSt K) : ∀ fuel it,
    let r := lloydLoop c nThreads sched bound fuel it (states c nThreads sched s it)
    (r = (states c nThreads sched s (it + fuel), 0, it + fuel) ∧ ∀ t, it ≤ t → t < it + fuel → convergenceTest c bound t (states c nThreads sched s (t + 1)) = 0) ∨
    ∃ t, it ≤ t ∧ t < it + fuel ∧ r = (states c nThreads sched s (t + 1), convergenceTest c bound t (states c nThreads sched s (t + 1)), t) ∧
      convergenceTest c bound t (states c nThreads sched s (t + 1)) > 0 := by
  intro fuel
  induction fuel with
  | zero => intro it; exact Or.inl ⟨rfl, fun t h1 h2 => by omega⟩
  | succ fuel ih =>
    intro it
    unfold lloydLoop
    simp only
    have hst : lloydIteration c nThreads (sched it) true (swapL (states c nThreads sched s it)) = states c nThreads sched s (it + 1) := rfl
    rw [hst]
    by_cases hcv : convergenceTest c bound it (states c nThreads sched s (it + 1)) > 0
    · rw [if_pos hcv]
      exact Or.inr ⟨it, le_refl _, by omega, rfl, hcv⟩
    · rw [if_neg hcv]
      rcases ih (it + 1) with ⟨h1, h2⟩ | ⟨t, h1, h2, h3, h4⟩
      · left
        refine ⟨by rw [h1, show it + 1 + fuel = it + (fuel + 1) by omega], fun t ht1 ht2 => ?_⟩
        rcases Nat.lt_or_ge it t with h | h
        · exact h2 t (by omega) (by omega)
        · rw [show t = it by omega]; omega
      · right
        exact ⟨t, by omega, by omega, h3, h4⟩

omit [IsStrictOrderedRing K] in
theorem conv_two (c : LCfg K) (bound : K) (t : Nat) (s : LSt K) (h : convergenceTest c bound t s = 2) : 1 < t ∧ ∀ i < c.n, s.curLab i = s.prevLab i := by
  unfold convergenceTest at h
  split at h
  · rename_i hh
    refine ⟨hh.1, fun i hi => ?_⟩
    have := List.all_eq_true.mp hh.2 i (List.mem_range.mpr hi)
    exact beq_iff_eq.mp this
  · split at h <;> omega

omit [IsStrictOrderedRing K] in
theorem conv_cases (c : LCfg K) (bound : K) (t : Nat) (s : LSt K) : convergenceTest c bound t s = 0 ∨ convergenceTest c bound t s = 1 ∨ convergenceTest c bound t s = 2 := by
  unfold convergenceTest
  split
  · simp
  · split <;> simp

/-- **C87**, a whole run: however it ends (labels unchanged, centres hardly moved, or the limit of iterations), the
labels given back are nearest to the centres given back. -/
theorem C87_perform (c : LCfg K) (hc : LCfgOk c) (nThreads maxIter : Nat) (sched : Nat → Sched) (last : Sched) (bound : K) (s : LSt K) (hp : Padded c s.workc1)
    (hs : ∀ t, nThreads > 1 → LSchedAny c nThreads (sched t)) (hl : nThreads > 1 → LSchedAny c nThreads last) :
    LNearest c (lloydPerform c nThreads maxIter sched last bound s).1.cur (lloydPerform c nThreads maxIter sched last bound s).1.curLab := by
  have htr := states_trace c hc nThreads sched hs s hp
  have hfin : ∀ t, LNearest c (lloydFinal c nThreads last (states c nThreads sched s t)).cur (lloydFinal c nThreads last (states c nThreads sched s t)).curLab := fun t => by
    have h := iteration_lloyd c hc nThreads last hl false (swapL (states c nThreads sched s t)) (htr.padded t)
    refine nearest_of c hc _ (states c nThreads sched s t).cur (fun a _ f _ => ?_) _ h.lab
    exact congrFun (h.kept rfl) _
  unfold lloydPerform
  simp only
  rcases loop_end c nThreads sched bound s maxIter 0 with ⟨h1, _⟩ | ⟨t, _, h2, h3, h4⟩
  · rw [show lloydLoop c nThreads sched bound maxIter 0 s = _ from h1]
    simp only [Nat.zero_add]
    rw [if_pos (by simp)]
    exact hfin _
  · rw [show lloydLoop c nThreads sched bound maxIter 0 s = _ from h3]
    simp only
    by_cases hone : convergenceTest c bound t (states c nThreads sched s (t + 1)) = 1
    · rw [if_pos (Or.inl hone)]
      exact hfin _
    · rw [if_neg (by omega)]
      have htwo : convergenceTest c bound t (states c nThreads sched s (t + 1)) = 2 := by
        rcases conv_cases c bound t (states c nThreads sched s (t + 1)) with h | h | h <;> omega
      obtain ⟨hgt, hsame⟩ := conv_two c bound t _ htwo
      obtain ⟨t', rfl⟩ : ∃ t', t = t' + 1 := ⟨t - 1, by omega⟩
      have hlab : ∀ i < c.n, (states c nThreads sched s (t' + 1 + 1)).curLab i = (states c nThreads sched s (t' + 1)).curLab i := fun i hi => by
        rw [hsame i hi, htr.prevLab (t' + 1)]
      refine nearest_of c hc _ (states c nThreads sched s (t' + 1)).cur (fun a ha f hf => ?_) _ (htr.lab (t' + 1))
      rw [htr.cur (t' + 1) a ha f hf, htr.cur t' a ha f hf]
      exact centreOf_congr c hlab a f

/-! #### An example -/

/-- Five samples of one feature in blocks of two, two clusters, the kernel with four lanes. -/
def lCfg : LCfg ℚ := ⟨5, 2, 1, 5, 2, 4, false, false, true, false, some 4, Rat.sqrt, fun i => if i = 1 ∨ i = 3 then 10 else 0, fun _ => 1⟩

/-- Garbage in the work arrays; infinity in the padding. -/
def lSt (C : Nat → ℚ) : LSt ℚ := ⟨fun _ => 7, C, fun _ => 9, fun _ => 9, fun i => if i < 2 then some 5 else none, fun _ => 3, fun _ _ => 4, fun _ _ => 6, fun _ _ => 8⟩

/-- The first thread runs the last block and then the first one. -/
def lSched : Sched := ⟨[(0, 2), (0, 0), (1, 1)], [1, 0], [0, 1], []⟩

theorem lCfg_ok : LCfgOk lCfg := ⟨by decide, by decide, fun w h => by cases h; decide⟩

theorem lSched_ok : LSchedAny lCfg 2 lSched := ⟨by decide +kernel, by decide, by decide, by decide⟩

example : LNearest lCfg (lloydPerform lCfg 2 10 (fun _ => lSched) lSched 0 (lSt fun j => if j = 0 then 1 else 9)).1.cur
      (lloydPerform lCfg 2 10 (fun _ => lSched) lSched 0 (lSt fun j => if j = 0 then 1 else 9)).1.curLab ∧
    (let r := lloydPerform lCfg 2 10 (fun _ => lSched) lSched 0 (lSt fun j => if j = 0 then 1 else 9)
     ((List.range 5).map r.1.curLab, r.1.cur 0, r.1.cur 1, r.1.count 0, r.2)) = ([0, 1, 0, 1, 0], 0, 10, 3, 2, 2) :=
  ⟨C87_perform lCfg lCfg_ok 2 10 _ _ 0 _ (fun i h _ => if_neg (Nat.not_lt.mpr h)) (fun _ _ => lSched_ok) (fun _ => lSched_ok), by decide +kernel⟩

example : (let after := lloydIteration lCfg 2 lSched true (swapL (lSt fun j => if j = 0 then 4 else 9))
    ((List.range 5).map after.curLab, after.cur 0, after.cur 1, after.prev 0, after.prev 1, after.count 1)) = ([0, 1, 0, 1, 0], 0, 10, 4, -1, 2) := by decide +kernel

/-! ### C88 -/

/-- **C88**, the inertia: an iteration does not increase the sum of squared distances of the samples to the centres of
their labels, whatever labels and centres it starts from. -/
theorem C88_inertia (c : LCfg K) (hc : LCfgOk c) (hsp : c.spherical = false) (nThreads : Nat) (s : LSt K) (hp : Padded c s.workc1) (sch : Sched)
    (hs : nThreads > 1 → LSchedAny c nThreads sch) (lab : Nat → Nat) (hl : ∀ i < c.n, lab i < c.k) :
    let after := lloydIteration c nThreads sch true (swapL s)
    (∑ i ∈ Finset.range c.n, ∑ f ∈ Finset.range c.nf, (sample c i f - after.cur (after.curLab i + f * c.k)) ^ 2) ≤
      ∑ i ∈ Finset.range c.n, ∑ f ∈ Finset.range c.nf, (sample c i f - s.cur (lab i + f * c.k)) ^ 2 := by
  intro after
  obtain ⟨h1, _, h3, _⟩ := step_facts c hc nThreads sch hs s hp
  change ∀ i < c.n, after.curLab i = labOf c s.cur i at h1
  change ∀ a < c.k, ∀ f < c.nf, after.cur (a + f * c.k) = centreOf c after.curLab a f at h3
  clear_value after
  have hlt : ∀ i < c.n, after.curLab i < c.k := fun i hi => by rw [h1 i hi]; exact labOf_lt c hc _ _
  have h4 := inertia_split c hsp after.curLab hlt s.cur after.cur h3
  have h5 := inertia_labels c hc hsp s.cur lab hl
  rw [← inertia_congr c (fun _ _ _ _ => rfl) h1 hlt] at h5
  have h6 : 0 ≤ ∑ i ∈ Finset.range c.n, ∑ f ∈ Finset.range c.nf, (after.cur (after.curLab i + f * c.k) - s.cur (after.curLab i + f * c.k)) ^ 2 :=
    Finset.sum_nonneg fun i _ => Finset.sum_nonneg fun f _ => sq_nonneg _
  change inertia c after.cur after.curLab ≤ inertia c s.cur lab
  linarith

/-- The same for spherical clustering: the sum of the products of the samples with the centres of their labels does not
decrease, for centres no longer than one. -/
theorem C88_spherical (c : LCfg K) (hc : LCfgOk c) (hsp : c.spherical = true) (hsq : ∀ v : K, 0 ≤ v → 0 ≤ c.sqrt v ∧ c.sqrt v * c.sqrt v = v)
    (hinv : ∀ i < c.n, 0 ≤ c.inv i) (nThreads : Nat) (s : LSt K) (hp : Padded c s.workc1) (sch : Sched) (hs : nThreads > 1 → LSchedAny c nThreads sch)
    (hC : ∀ a < c.k, ∑ f ∈ Finset.range c.nf, s.cur (a + f * c.k) ^ 2 ≤ 1) (lab : Nat → Nat) (hl : ∀ i < c.n, lab i < c.k) :
    let after := lloydIteration c nThreads sch true (swapL s)
    (∑ i ∈ Finset.range c.n, ∑ f ∈ Finset.range c.nf, sample c i f * (if c.normalize then c.inv i else 1) * s.cur (lab i + f * c.k)) ≤
      (∑ i ∈ Finset.range c.n, ∑ f ∈ Finset.range c.nf, sample c i f * (if c.normalize then c.inv i else 1) * after.cur (after.curLab i + f * c.k)) ∧
    ∀ a < c.k, ∑ f ∈ Finset.range c.nf, after.cur (a + f * c.k) ^ 2 ≤ 1 := by
  intro after
  obtain ⟨h1, _, h3, _⟩ := step_facts c hc nThreads sch hs s hp
  change ∀ i < c.n, after.curLab i = labOf c s.cur i at h1
  change ∀ a < c.k, ∀ f < c.nf, after.cur (a + f * c.k) = centreOf c after.curLab a f at h3
  clear_value after
  have hlt : ∀ i < c.n, after.curLab i < c.k := fun i hi => by rw [h1 i hi]; exact labOf_lt c hc _ _
  have hterm : ∀ i f, sample c i f * (if c.normalize then c.inv i else 1) = term c i f := fun i f => by simp [term, hsp]
  simp only [hterm]
  -- the labels
  have hA : (∑ i ∈ Finset.range c.n, ∑ f ∈ Finset.range c.nf, term c i f * s.cur (lab i + f * c.k)) ≤
      ∑ i ∈ Finset.range c.n, ∑ f ∈ Finset.range c.nf, term c i f * s.cur (after.curLab i + f * c.k) := by
    refine Finset.sum_le_sum fun i hi => ?_
    have hi' := Finset.mem_range.mp hi
    have hfar := (far_le c hc s.cur i).2 (lab i) (hl i hi')
    rw [← h1 i hi'] at hfar
    unfold far at hfar
    rw [hsp] at hfar
    simp only [if_true, neg_le_neg_iff] at hfar
    have hw : 0 ≤ (if c.normalize then c.inv i else 1) := by
      split
      · exact hinv i hi'
      · exact zero_le_one
    have : ∀ C : Nat → K, ∀ j, ∑ f ∈ Finset.range c.nf, term c i f * C (j + f * c.k) =
        (if c.normalize then c.inv i else 1) * ∑ f ∈ Finset.range c.nf, sample c i f * C (j + f * c.k) := fun C j => by
      rw [Finset.mul_sum]
      exact Finset.sum_congr rfl fun f _ => by rw [← hterm]; ring
    rw [this, this]
    exact mul_le_mul_of_nonneg_left hfar hw
  -- by clusters
  have hby : ∀ C : Nat → K, (∑ i ∈ Finset.range c.n, ∑ f ∈ Finset.range c.nf, term c i f * C (after.curLab i + f * c.k)) =
      ∑ a ∈ Finset.range c.k, ∑ f ∈ Finset.range c.nf, (∑ i ∈ Finset.range c.n, if after.curLab i = a then term c i f else 0) * C (a + f * c.k) := fun C => by
    rw [sum_by_label c.n c.k after.curLab hlt fun i a => ∑ f ∈ Finset.range c.nf, term c i f * C (a + f * c.k)]
    refine Finset.sum_congr rfl fun a _ => ?_
    have : ∀ i, (if after.curLab i = a then ∑ f ∈ Finset.range c.nf, term c i f * C (a + f * c.k) else 0) =
        ∑ f ∈ Finset.range c.nf, (if after.curLab i = a then term c i f else 0) * C (a + f * c.k) := fun i => by split <;> simp
    simp only [this]
    rw [Finset.sum_comm]
    exact Finset.sum_congr rfl fun f _ => (Finset.sum_mul ..).symm
  -- one cluster
  have hone : ∀ a < c.k, (∑ f ∈ Finset.range c.nf, (∑ i ∈ Finset.range c.n, if after.curLab i = a then term c i f else 0) * s.cur (a + f * c.k)) ≤
      (∑ f ∈ Finset.range c.nf, (∑ i ∈ Finset.range c.n, if after.curLab i = a then term c i f else 0) * after.cur (a + f * c.k)) ∧
      ∑ f ∈ Finset.range c.nf, after.cur (a + f * c.k) ^ 2 ≤ 1 := by
    intro a ha
    have hnew : ∀ f ∈ Finset.range c.nf, after.cur (a + f * c.k) = centreOf c after.curLab a f := fun f hf => h3 a ha f (Finset.mem_range.mp hf)
    generalize hT : (fun f => ∑ i ∈ Finset.range c.n, if after.curLab i = a then term c i f else 0) = T
    have hT' : ∀ f, (∑ i ∈ Finset.range c.n, if after.curLab i = a then term c i f else 0) = T f := fun f => congrFun hT f
    unfold centreOf at hnew
    simp only [hT', hsp, if_true] at hnew ⊢
    have hv : 0 ≤ ∑ f ∈ Finset.range c.nf, T f * T f := Finset.sum_nonneg fun f _ => mul_self_nonneg _
    obtain ⟨q1, q2⟩ := hsq _ hv
    generalize hq : c.sqrt (∑ f ∈ Finset.range c.nf, T f * T f) = q at hnew q1 q2
    have hcs := Finset.sum_mul_sq_le_sq_mul_sq (Finset.range c.nf) T fun f => s.cur (a + f * c.k)
    have hss : ∑ f ∈ Finset.range c.nf, T f ^ 2 = q * q := by rw [q2]; exact Finset.sum_congr rfl fun f _ => sq _
    rw [hss] at hcs
    by_cases hq0 : q = 0
    · have hz : ∀ f ∈ Finset.range c.nf, T f = 0 := by
        intro f hf
        rw [hq0, mul_zero] at hss
        have := (Finset.sum_eq_zero_iff_of_nonneg fun f _ => sq_nonneg (T f)).mp hss f hf
        exact pow_eq_zero_iff (two_ne_zero) |>.mp this
      have e1 : (∑ f ∈ Finset.range c.nf, T f * s.cur (a + f * c.k)) = 0 := Finset.sum_eq_zero fun f hf => by rw [hz f hf, zero_mul]
      have e2 : (∑ f ∈ Finset.range c.nf, T f * after.cur (a + f * c.k)) = 0 := Finset.sum_eq_zero fun f hf => by rw [hz f hf, zero_mul]
      have e3 : ∑ f ∈ Finset.range c.nf, after.cur (a + f * c.k) ^ 2 = 0 := Finset.sum_eq_zero fun f hf => by rw [hnew f hf, hz f hf]; simp
      rw [e1, e2, e3]
      exact ⟨le_refl _, zero_le_one⟩
    · have hqpos : 0 < q := lt_of_le_of_ne q1 (Ne.symm hq0)
      have e2 : (∑ f ∈ Finset.range c.nf, T f * after.cur (a + f * c.k)) = q := by
        have : (∑ f ∈ Finset.range c.nf, T f * after.cur (a + f * c.k)) = (∑ f ∈ Finset.range c.nf, T f * T f) * (1 / q) := by
          rw [Finset.sum_mul]
          exact Finset.sum_congr rfl fun f hf => by rw [hnew f hf, if_neg hq0]; ring
        rw [this, ← q2]
        field_simp
      have e3 : ∑ f ∈ Finset.range c.nf, after.cur (a + f * c.k) ^ 2 = 1 := by
        have : (∑ f ∈ Finset.range c.nf, after.cur (a + f * c.k) ^ 2) = (∑ f ∈ Finset.range c.nf, T f * T f) * (1 / q) ^ 2 := by
          rw [Finset.sum_mul]
          exact Finset.sum_congr rfl fun f hf => by rw [hnew f hf, if_neg hq0]; ring
        rw [this, ← q2]
        field_simp
      rw [e2, e3]
      refine ⟨?_, le_refl _⟩
      have hle : (∑ f ∈ Finset.range c.nf, T f * s.cur (a + f * c.k)) ^ 2 ≤ q ^ 2 := by
        calc _ ≤ q * q * ∑ f ∈ Finset.range c.nf, s.cur (a + f * c.k) ^ 2 := hcs
          _ ≤ q * q * 1 := mul_le_mul_of_nonneg_left (hC a ha) (mul_nonneg q1 q1)
          _ = q ^ 2 := by ring
      exact le_trans (le_abs_self _) (abs_le_of_sq_le_sq hle q1)
  refine ⟨le_trans hA ?_, fun a ha => (hone a ha).2⟩
  rw [hby, hby]
  exact Finset.sum_le_sum fun a ha => (hone a (Finset.mem_range.mp ha)).1

/-- **C88**, the end: with at least `max 3 (k ^ n + 1)` iterations allowed, the run stops before the limit because the
labels stay or the centres hardly move; with a tolerance of zero the labels stay. -/
theorem C88_stops (c : LCfg K) (hc : LCfgOk c) (hsp : c.spherical = false) (nThreads maxIter : Nat) (sched : Nat → Sched) (last : Sched) (bound : K)
    (s : LSt K) (hp : Padded c s.workc1) (hs : ∀ t, nThreads > 1 → LSchedAny c nThreads (sched t)) (hm : 2 < maxIter ∧ c.k ^ c.n < maxIter) :
    let r := lloydPerform c nThreads maxIter sched last bound s
    r.2.2 ≤ max 2 (c.k ^ c.n) ∧ (r.2.1 = 1 ∨ r.2.1 = 2) ∧ ((∀ v, 0 ≤ c.sqrt v) → bound ≤ 0 → r.2.1 = 2) := by
  have htr := states_trace c hc nThreads sched hs s hp
  obtain ⟨t0, ht0, hrep⟩ := labels_repeat hc hsp htr
  -- the labels stay from then on
  have hstay : ∀ u, t0 ≤ u → ∀ i < c.n, (states c nThreads sched s (u + 2)).curLab i = (states c nThreads sched s (u + 1)).curLab i := by
    intro u hu
    induction u with
    | zero => rw [show t0 = 0 by omega] at hrep; exact hrep
    | succ u ih =>
      rcases Nat.lt_or_ge t0 (u + 1) with h | h
      · exact labels_stay htr (ih (by omega))
      · rw [show u + 1 = t0 by omega]; exact hrep
  have htest : ∀ u, 1 < u → t0 < u → convergenceTest c bound u (states c nThreads sched s (u + 1)) = 2 := by
    intro u h1 h2
    unfold convergenceTest
    refine if_pos ⟨h1, List.all_eq_true.mpr fun i hi => beq_iff_eq.mpr ?_⟩
    obtain ⟨u', rfl⟩ : ∃ u', u = u' + 1 := ⟨u - 1, by omega⟩
    rw [htr.prevLab (u' + 1)]
    exact hstay u' (by omega) i (List.mem_range.mp hi)
  intro r
  have hr : r = lloydPerform c nThreads maxIter sched last bound s := rfl
  clear_value r
  unfold lloydPerform at hr
  simp only at hr
  rcases loop_end c nThreads sched bound s maxIter 0 with ⟨_, h2⟩ | ⟨t, _, h2, h3, h4⟩
  · have h5 := htest (max 2 (t0 + 1)) (by omega) (by omega)
    have h6 := h2 (max 2 (t0 + 1)) (by omega) (by omega)
    omega
  · rw [show lloydLoop c nThreads sched bound maxIter 0 s = _ from h3] at hr
    have hr2 : r.2 = (convergenceTest c bound t (states c nThreads sched s (t + 1)), t) := by
      rw [hr]
      split <;> rfl
    rw [hr2]
    have hcc := conv_cases c bound t (states c nThreads sched s (t + 1))
    refine ⟨?_, by simp only; omega, fun hq hb => ?_⟩
    · -- the first time the test succeeds
      by_contra hgt
      simp only [not_le] at hgt
      have hfirst : convergenceTest c bound (max 2 (t0 + 1)) (states c nThreads sched s (max 2 (t0 + 1) + 1)) = 2 := htest _ (by omega) (by omega)
      have hlt : max 2 (t0 + 1) < t := by omega
      -- the loop would have stopped there
      have hstop : ∀ fuel it, it ≤ max 2 (t0 + 1) → (lloydLoop c nThreads sched bound fuel it (states c nThreads sched s it)).2.2 ≤ max 2 (t0 + 1) ∨
          it + fuel ≤ max 2 (t0 + 1) := by
        intro fuel
        induction fuel with
        | zero => intro it hit; exact Or.inr (by omega)
        | succ fuel ih =>
          intro it hit
          unfold lloydLoop
          simp only
          have hst : lloydIteration c nThreads (sched it) true (swapL (states c nThreads sched s it)) = states c nThreads sched s (it + 1) := rfl
          rw [hst]
          by_cases hcv : convergenceTest c bound it (states c nThreads sched s (it + 1)) > 0
          · rw [if_pos hcv]; exact Or.inl hit
          · rw [if_neg hcv]
            have hne : it ≠ max 2 (t0 + 1) := fun e => by rw [e, hfirst] at hcv; omega
            rcases ih (it + 1) (by omega) with h | h
            · exact Or.inl h
            · exact Or.inr (by omega)
      rcases hstop maxIter 0 (by omega) with h | h
      · rw [show lloydLoop c nThreads sched bound maxIter 0 (states c nThreads sched s 0) = _ from h3] at h
        simp only at h
        omega
      · omega
    · simp only
      rcases hcc with h | h | h
      · omega
      · exfalso
        unfold convergenceTest at h
        split at h
        · omega
        · split at h
          · rename_i hlt
            exact absurd (lt_of_lt_of_le hlt hb) (not_lt.mpr (hq _))
          · omega
      · exact h

example : (let r := lloydPerform lCfg 2 100 (fun _ => lSched) lSched 0 (lSt fun j => if j = 0 then -40 else -30)
    ((List.range 5).map r.1.curLab, r.1.cur 0, r.1.cur 1, r.2)) = ([0, 1, 0, 1, 0], 0, 10, 2, 2) := by decide +kernel

example : (let after := lloydIteration lCfg 2 lSched true (swapL (lSt fun j => if j = 0 then 4 else 9))
    (inertia lCfg after.cur after.curLab, inertia lCfg (fun j => if j = 0 then 4 else 9) after.curLab, inertia lCfg (fun j => if j = 0 then 4 else 9) fun _ => 0)) = (0, 50, 120) := by
  decide +kernel

/-! ### C89 -/

/-- The same computation with another kernel: `lanes` lanes and `pad` entries of padding. -/
def withKernel (c : LCfg K) (lanes : Option Nat) (pad : Nat) : LCfg K := { c with lanes := lanes, pad := pad }

/-- **C89**, the property as stated: the labels after any number of iterations do not depend on the kernel. -/
def C89_statement : Prop :=
  ∀ (K : Type) [Field K] [LinearOrder K] [IsStrictOrderedRing K] (c : LCfg K) (lanes : Option Nat) (pad : Nat), LCfgOk c → LCfgOk (withKernel c lanes pad) →
    ∀ (nThreads : Nat) (s : LSt K) (scheds : List Sched), Padded c s.workc1 → Padded (withKernel c lanes pad) s.workc1 →
      (∀ sch ∈ scheds, nThreads > 1 → LSchedAny c nThreads sch) → scheds ≠ [] →
        ∀ i < c.n, (lloydRun c nThreads s scheds).curLab i = (lloydRun (withKernel c lanes pad) nThreads s scheds).curLab i

/-- Four samples, three clusters; the first sample is as far from the second centre as from the third. -/
def tieCfg : LCfg ℚ := ⟨4, 3, 1, 4, 2, 0, false, false, true, false, none, Rat.sqrt, fun i => if i = 0 then 0 else if i = 1 then 100 else if i = 2 then -1 else 1, fun _ => 1⟩

def tieSt : LSt ℚ := ⟨fun _ => 0, fun j => if j = 0 then 100 else if j = 1 then -1 else 1, fun _ => 0, fun _ => 0, fun i => if i < 3 then some 0 else none, fun _ => 0, fun _ _ => 0, fun _ _ => 0, fun _ _ => 0⟩

/-- **C89 violated.**  On a tie the scalar kernel takes the first centre, the kernels with lanes the first lane: the same
data gives other labels and other centres on another processor. -/
theorem C89_violated : ¬ C89_statement := by
  intro h
  have := h ℚ tieCfg (some 2) 2 ⟨by decide, by decide, fun w h => by cases h⟩ ⟨by decide, by decide, fun w h => by cases h; decide⟩ 1 tieSt [lSched]
    (fun i h1 h2 => by simp only [tieCfg] at h1 h2; omega) (fun i h1 _ => if_neg (Nat.not_lt.mpr h1)) (fun _ _ h => by omega) (by simp) 0 (by decide)
  revert this
  decide +kernel

example : (let r := lloydRun tieCfg 1 tieSt [lSched, lSched, lSched]; let r' := lloydRun (withKernel tieCfg (some 2) 2) 1 tieSt [lSched, lSched, lSched]
    ((List.range 4).map r.curLab, (List.range 3).map r.cur, (List.range 4).map r'.curLab, (List.range 3).map r'.cur)) =
      ([1, 0, 1, 2], [100, -1 / 2, 1], [2, 0, 1, 2], [100, -1, 1 / 2]) := by decide +kernel

/-- The label every kernel gives: among the nearest centres, the one in the first lane (`j % w`), and there the lowest.
The scalar kernel is the one with `w = 1`. -/
theorem C89_exact (c : LCfg K) (hc : LCfgOk c) (nThreads : Nat) (s : LSt K) (hp : Padded c s.workc1) (sch : Sched) (hs : nThreads > 1 → LSchedAny c nThreads sch)
    (i : Nat) (hi : i < c.n) :
    let l := (lloydIteration c nThreads sch true (swapL s)).curLab i
    let w := c.lanes.getD 1
    l < c.k ∧ ∀ j < c.k, far c s.cur i l < far c s.cur i j ∨ (far c s.cur i l = far c s.cur i j ∧ (l % w < j % w ∨ (l % w = j % w ∧ l ≤ j))) := by
  intro l w
  have hl : l = labOf c s.cur i := (step_facts c hc nThreads sch hs s hp).1 i hi
  clear_value l
  subst hl
  have h := labOf_least c hc s.cur i
  refine ⟨h.lt, fun j hj => ?_⟩
  have h1 := h.least j hj
  have h2 := h.first j hj
  simp only [if_pos hj, if_pos h.lt] at h1 h2
  have h3 : score c s.cur i (labOf c s.cur i) ≤ score c s.cur i j := WithTop.coe_le_coe.mp h1
  rw [far_score, far_score]
  rcases lt_or_eq_of_le h3 with h4 | h4
  · left; linarith
  · right
    exact ⟨by rw [h4], h2 (by rw [h4])⟩

/-- **C89** when no sample has two nearest centres at any iteration: all kernels give the same labels and the same
centres.  Missing: ties, see `C89_violated` and `C89_exact`. -/
theorem C89_kernels_partial (c : LCfg K) (lanes : Option Nat) (pad : Nat) (hc : LCfgOk c) (hc' : LCfgOk (withKernel c lanes pad)) (nThreads : Nat) (s : LSt K)
    (sched : Nat → Sched) (hp : Padded c s.workc1) (hp' : Padded (withKernel c lanes pad) s.workc1) (hs : ∀ t, nThreads > 1 → LSchedAny c nThreads (sched t))
    (m : Nat) (htie : ∀ t < m, ∀ i < c.n, ∀ a < c.k, ∀ b < c.k, a ≠ b →
      (∀ j < c.k, far c (lloydRun c nThreads s ((List.range t).map sched)).cur i a ≤ far c (lloydRun c nThreads s ((List.range t).map sched)).cur i j) →
      far c (lloydRun c nThreads s ((List.range t).map sched)).cur i a ≠ far c (lloydRun c nThreads s ((List.range t).map sched)).cur i b) :
    let r := lloydRun c nThreads s ((List.range m).map sched)
    let r' := lloydRun (withKernel c lanes pad) nThreads s ((List.range m).map sched)
    (m ≠ 0 → ∀ i < c.n, r.curLab i = r'.curLab i) ∧ ∀ a < c.k, ∀ f < c.nf, r.cur (a + f * c.k) = r'.cur (a + f * c.k) := by
  simp only [← states_run] at htie ⊢
  have htr := states_trace c hc nThreads sched hs s hp
  have htr' := states_trace (withKernel c lanes pad) hc' nThreads sched (fun t h => ⟨(hs t h).assign, (hs t h).threads, (hs t h).counts, (hs t h).sums⟩) s hp'
  have hstart : (states (withKernel c lanes pad) nThreads sched s 0).cur = (states c nThreads sched s 0).cur := rfl
  generalize states c nThreads sched s = S at htr htie hstart ⊢
  generalize states (withKernel c lanes pad) nThreads sched s = S' at htr' hstart ⊢
  suffices hall : ∀ m', m' ≤ m → (m' ≠ 0 → ∀ i < c.n, (S m').curLab i = (S' m').curLab i) ∧ SameC c (S m').cur (S' m').cur from hall m (le_refl _)
  intro m'
  induction m' with
  | zero => exact fun _ => ⟨fun h => absurd rfl h, fun _ _ _ _ => by rw [hstart]⟩
  | succ t ih =>
    intro ht
    have hsame := (ih (by omega)).2
    have hlab : ∀ i < c.n, (S (t + 1)).curLab i = (S' (t + 1)).curLab i := by
      intro i hi
      rw [htr.lab t i hi, htr'.lab t i hi]
      have h1 := far_le c hc (S t).cur i
      have h2 := far_le (withKernel c lanes pad) hc' (S' t).cur i
      have h3 : ∀ j < c.k, far (withKernel c lanes pad) (S' t).cur i j = far c (S t).cur i j := fun j hj => (far_congr c hsame i j hj).symm
      change _ < c.k ∧ ∀ b < c.k, _ at h2
      by_contra hne
      refine htie t (by omega) i hi _ h1.1 _ h2.1 hne h1.2 (le_antisymm (h1.2 _ h2.1) ?_)
      have := h2.2 _ h1.1
      rwa [h3 _ h2.1, h3 _ h1.1] at this
    refine ⟨fun _ => hlab, fun a ha f hf => ?_⟩
    have h4 := htr'.cur t a ha f hf
    change _ = centreOf c (S' (t + 1)).curLab a f at h4
    rw [htr.cur t a ha f hf]
    exact (centreOf_congr c hlab a f).trans h4.symm

/-- Ties are the only difference: here there are none. -/
example : (let r := lloydRun lCfg 1 (lSt fun j => if j = 0 then 4 else 9) [lSched, lSched]
    let r' := lloydRun (withKernel lCfg none 0) 1 (lSt fun j => if j = 0 then 4 else 9) [lSched, lSched]
    ((List.range 5).map r.curLab, r.cur 0, (List.range 5).map r'.curLab, r'.cur 0)) = ([0, 1, 0, 1, 0], 0, [0, 1, 0, 1, 0], 0) := by decide +kernel

end Verif.Kmeans
