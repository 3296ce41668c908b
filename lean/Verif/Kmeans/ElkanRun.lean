import Verif.Kmeans.ElkanSteps

/-
The invariant of Elkan's method: valid bounds and valid half distances, kept by every iteration whose schedules
run the blocks of every thread in increasing order.
-/
namespace Verif.Kmeans

open Verif.HalfBlas (put forUp)

variable {K : Type} [Field K] [LinearOrder K] [IsStrictOrderedRing K]

/-! ### Initialization -/

structure InitInv (k base : Nat) (D l0 : Nat → K) (m : Nat) (r : Nat × K × (Nat → K)) : Prop where
  lab : r.1 < k
  small : r.2.1 = D r.1
  least : ∀ b, b ≤ m → r.2.1 ≤ D b
  lower : ∀ b, b ≤ m → r.2.2 (base + b) ≤ D b
  frame : ∀ p, (∀ j < k, p ≠ base + j) → r.2.2 p = l0 p

theorem initLoop_spec (c : Cfg K) (s : St K) (i : Nat) (hc : CfgOk c) (hn : ∀ j < c.k, 0 ≤ dS c s.cur i j)
    (ho : HalfOk c.k s.half s.workc1 (dS c s.cur i)) :
    InitInv c.k (i * c.ld) (dS c s.cur i) s.l (c.k - 1) (initLoop c s i (0, dS c s.cur i 0, put s.l (i * c.ld) (dS c s.cur i 0))) := by
  have hk := hc.k
  unfold initLoop
  refine forUp_inv (fun m r => InitInv c.k (i * c.ld) (dS c s.cur i) s.l m r) (c.k - 1) ⟨hk, rfl, fun b hb => ?_, fun b hb => ?_, fun p hp => ?_⟩ ?_
  · rw [Nat.le_zero.mp hb]
  · rw [Nat.le_zero.mp hb]; exact le_of_eq (put_same _ _ _)
  · exact put_ne _ _ (hp 0 hk)
  · intro j0 r hj0 hr
    obtain ⟨h1, h2, h3, h4, h5⟩ := hr
    have hj : j0 + 1 < c.k := by omega
    have hd : sampleDist c s.cur 0 i (j0 + 1) = dS c s.cur i (j0 + 1) := rfl
    have hlow : ∀ v, v ≤ dS c s.cur i (j0 + 1) → ∀ (m : Nat → K), (∀ b, b ≤ j0 → m (i * c.ld + b) ≤ dS c s.cur i b) →
        ∀ b, b ≤ j0 + 1 → put m (i * c.ld + (j0 + 1)) v (i * c.ld + b) ≤ dS c s.cur i b := by
      intro v hv m hm b hb
      by_cases he : b = j0 + 1
      · subst he; rw [put_same]; exact hv
      · rw [put_ne _ _ (by omega)]; exact hm b (by omega)
    have hfr : ∀ v (m : Nat → K), (∀ p, (∀ j < c.k, p ≠ i * c.ld + j) → m p = s.l p) →
        ∀ p, (∀ j < c.k, p ≠ i * c.ld + j) → put m (i * c.ld + (j0 + 1)) v p = s.l p := by
      intro v m hm p hp
      rw [put_ne _ _ (hp _ hj)]
      exact hm p hp
    have hlow0 := hlow 0 (hn _ hj) _ h4
    have hfr0 := hfr 0 _ h5
    simp only [hd]
    by_cases hg : r.2.1 > s.half (r.1 * c.k + (j0 + 1))
    · rw [if_pos hg]
      have hlow1 := hlow (dS c s.cur i (j0 + 1)) (le_refl _) _ fun b hb => hlow0 b (by omega)
      have hfr1 := hfr (dS c s.cur i (j0 + 1)) _ hfr0
      by_cases hlt : dS c s.cur i (j0 + 1) < r.2.1
      · rw [if_pos hlt]
        refine ⟨hj, rfl, fun b hb => ?_, hlow1, hfr1⟩
        by_cases he : b = j0 + 1
        · rw [he]
        · exact le_trans hlt.le (h3 b (by omega))
      · rw [if_neg hlt]
        refine ⟨h1, h2, fun b hb => ?_, hlow1, hfr1⟩
        by_cases he : b = j0 + 1
        · rw [he]; exact not_lt.mp hlt
        · exact h3 b (by omega)
    · rw [if_neg hg]
      refine ⟨h1, h2, fun b hb => ?_, hlow0, hfr0⟩
      by_cases he : b = j0 + 1
      · subst he
        simp only
        by_cases hl : r.1 = j0 + 1
        · rw [h2, hl]
        · have := ho.half r.1 h1 (j0 + 1) hj hl
          have := not_lt.mp hg
          rw [← h2] at *
          linarith
      · exact h3 b (by omega)

/-- What holds between the iterations: valid bounds and half distances for the current centres. -/
structure Inv (c : Cfg K) (Ok : (Nat → K) → Prop) (s : St K) : Prop where
  bounds : ∀ i < c.n, Bounds c.k (i * c.ld) (dS c s.cur i) (s.curLab i) (s.u i) s.l
  half : ∀ i < c.n, HalfOk c.k s.half s.workc1 (dS c s.cur i)
  ok : Ok s.cur

/-- The centres given by columns, stored by rows. -/
theorem byRows_spec {R : Type} (k nf : Nat) (C m0 : Nat → R) :
    ∀ a < k, ∀ f < nf, forUp k (fun a m => forUp nf (fun f m => put m (a * nf + f) (C (a + f * k))) m) m0 (a * nf + f) = C (a + f * k) := by
  have := forUp_inv (body := fun a m => forUp nf (fun f m => put m (a * nf + f) (C (a + f * k))) m)
    (fun a' (m : Nat → R) => ∀ a < a', ∀ f < nf, m (a * nf + f) = C (a + f * k)) (s := m0) k (fun a h => by omega) ?_
  · exact this
  · intro a' m ha' hm a ha f hf
    have hp := forUp_put (fun f => a' * nf + f) (fun f _ => C (a' + f * k)) m nf (fun _ _ _ _ h => by omega)
    by_cases he : a = a'
    · subst he; exact hp.1 f hf
    · rw [hp.2 _ fun f' hf' e => he (Interp.idx_inj e hf hf').1]
      exact hm a (by omega) f hf

theorem init_inv (c : Cfg K) (Ok : (Nat → K) → Prop) (hc : CfgOk c) (hm : Metric c Ok) (C rest : Nat → K) (order : List Nat)
    (hord : order.Perm (List.range c.n)) (s : St K)
    (hok : Ok (forUp c.k (fun a m => forUp c.nf (fun f m => put m (a * c.nf + f) (C (a + f * c.k))) m) s.prev)) :
    Inv c Ok (initElkan c C rest order s) := by
  unfold initElkan
  simp only
  generalize hcur : forUp c.k (fun a m => forUp c.nf (fun f m => put m (a * c.nf + f) (C (a + f * c.k))) m) s.prev = cur at hok ⊢
  have hhalf := half_ok c Ok hm rest { s with prev := fun _ => 0, cur := cur } hok
  generalize hs1 : halfDistances c rest { s with prev := fun _ => 0, cur := cur } = s1 at hhalf ⊢
  have hcur1 : s1.cur = cur := by rw [← hs1]; rfl
  have key : ∀ L : List Nat, L.Nodup → (∀ i ∈ L, i < c.n) →
      let s2 := L.foldl (fun s i => initSample c i s) s1
      s2.cur = cur ∧ s2.half = s1.half ∧ s2.workc1 = s1.workc1 ∧ ∀ i ∈ L, Bounds c.k (i * c.ld) (dS c cur i) (s2.curLab i) (s2.u i) s2.l := by
    intro L
    induction L using List.reverseRecOn with
    | nil => exact fun _ _ => ⟨hcur1, rfl, rfl, fun i hi => by cases hi⟩
    | append_singleton L x ih =>
      intro hnd hlt
      rw [List.nodup_append] at hnd
      obtain ⟨h1, h2, h3, h4⟩ := ih hnd.1 fun i hi => hlt i (by simp [hi])
      simp only [List.foldl_append, List.foldl_cons, List.foldl_nil] at h1 h2 h3 h4 ⊢
      generalize L.foldl (fun s i => initSample c i s) s1 = s2 at h1 h2 h3 h4 ⊢
      have hx := hlt x (by simp)
      have hi := initLoop_spec c s2 x hc (by rw [h1]; exact hm.nonneg cur hok x hx) (by rw [h1, h2, h3]; exact hhalf x hx)
      refine ⟨h1, h2, h3, fun i hi' => ?_⟩
      rw [List.mem_append, List.mem_singleton] at hi'
      unfold initSample
      simp only
      have hd0 : sampleDist c s2.cur 0 x 0 = dS c s2.cur x 0 := rfl
      rw [hd0]
      generalize initLoop c s2 x (0, dS c s2.cur x 0, put s2.l (x * c.ld) (dS c s2.cur x 0)) = r at hi
      by_cases he : i = x
      · subst he
        rw [put_same, put_same]
        rw [h1] at hi
        exact ⟨hi.lab, le_of_eq hi.small.symm, fun j hj => hi.lower j (by omega)⟩
      · have hb := h4 i (hi'.resolve_right he)
        rw [put_ne _ _ he, put_ne _ _ he]
        exact ⟨hb.labLt, hb.upper, fun j hj => by rw [hi.frame _ fun j' hj' => row_ne hc.ld hj hj' he]; exact hb.lower j hj⟩
  obtain ⟨h1, h2, h3, h4⟩ := key order (hord.nodup_iff.mpr List.nodup_range) fun i hi => List.mem_range.mp (hord.mem_iff.mp hi)
  refine ⟨fun i hi => ?_, fun i hi => ?_, ?_⟩
  · rw [h1]; exact h4 i (hord.mem_iff.mpr (List.mem_range.mpr hi))
  · rw [h1, h2, h3]; exact hhalf i hi
  · rw [h1]; exact hok

/-! ### The assignment -/

/-- What the runtime may choose, with blocks in increasing order on every thread. -/
structure SchedGood (c : Cfg K) (nThreads : Nat) (sch : Sched) : Prop where
  assign : SchedOk (nBlocks c.n c.bs) sch.assign
  update : SchedOk (nBlocks c.n c.bs) sch.update
  threads : ∀ e ∈ sch.assign, e.1 < nThreads
  counts : sch.counts.Perm (List.range nThreads)
  sums : sch.sums.Perm (List.range nThreads)

/-- What the assignment must give. -/
structure Assigned (c : Cfg K) (up : Bool) (s s' : St K) : Prop where
  same : s'.prev = s.prev ∧ s'.prevLab = s.prevLab ∧ s'.half = s.half ∧ s'.workc1 = s.workc1
  bounds : ∀ i < c.n, Bounds c.k (i * c.ld) (dS c s.prev i) (s'.curLab i) (s'.u i) s'.l
  near : ∀ i < c.n, ∀ b < c.k, dS c s.prev i (s'.curLab i) ≤ dS c s.prev i b
  count : up = true → ∀ a < c.k, s'.count a = ∑ i ∈ Finset.range c.n, if s'.curLab i = a then 1 else 0
  sums : up = true → ∀ a < c.k, ∀ f < c.nf, s'.cur (a * c.nf + f) = ∑ i ∈ Finset.range c.n, if s'.curLab i = a then addend c 0 i f else 0

omit [Field K] [LinearOrder K] [IsStrictOrderedRing K] in
theorem seq_ok (nb : Nat) : SchedOk nb ((List.range nb).map fun b => (0, b)) :=
  ⟨by rw [List.map_map]; exact List.Perm.of_eq (List.map_id _), by
    rw [List.pairwise_map]
    exact List.Pairwise.imp (S := fun a b => ((0, a) : Nat × Nat).1 = ((0, b) : Nat × Nat).1 → a < b) (fun h _ => h) List.pairwise_lt_range⟩

theorem assignPhase_spec (c : Cfg K) (hc : CfgOk c) (nThreads : Nat) (sch : Sched) (hg : nThreads > 1 → SchedGood c nThreads sch) (up : Bool) (s : St K)
    (hb : ∀ i < c.n, Bounds c.k (i * c.ld) (dS c s.prev i) (s.prevLab i) (s.u i) s.l)
    (hh : ∀ i < c.n, HalfOk c.k s.half s.workc1 (dS c s.prev i)) : Assigned c up s (assignPhase c nThreads sch up s) := by
  have hlt : ∀ a < c.k, ∀ f < c.nf, a * c.nf + f < c.k * c.nf := fun j hj f hf => by
    have := Nat.mul_le_mul_right c.nf (show j + 1 ≤ c.k by omega)
    rw [Nat.add_mul] at this
    omega
  -- the state after clearing
  obtain ⟨s1, hs1, e1, e2, e3, e4, e5, e6, ecount, ecur, ethd⟩ : ∃ s1 : St K,
      (if up ∧ nThreads > 1 then { (if up then { s with count := fun _ => 0, cur := fun _ => 0 } else s) with thdCount := fun _ _ => 0, thdSums := fun _ _ => 0 }
        else if up then { s with count := fun _ => 0, cur := fun _ => 0 } else s) = s1 ∧
      s1.prev = s.prev ∧ s1.prevLab = s.prevLab ∧ s1.half = s.half ∧ s1.workc1 = s.workc1 ∧ s1.u = s.u ∧ s1.l = s.l ∧
      (up = true → s1.count = fun _ => 0) ∧ (up = true → s1.cur = fun _ => 0) ∧
      (up = true → nThreads > 1 → s1.thdCount = (fun _ _ => 0) ∧ s1.thdSums = fun _ _ => 0) := by
    refine ⟨_, rfl, ?_⟩
    cases up
    · simp
    · by_cases h : nThreads > 1
      · simp [h]
      · simp [h]
  have hunf : assignPhase c nThreads sch up s = if nThreads > 1 then
      (let w := sch.assign.foldl (fun w e => assignBlock c s1 up (nBlocks c.n c.bs) (c.n % c.bs) e w) ⟨s1.u, s1.l, s1.curLab, fun _ => c.bs, s1.thdCount, s1.thdSums⟩
       let r := reduceThreads c w sch.counts sch.sums s1.count s1.cur
       { s1 with u := w.u, l := w.l, curLab := w.lab, count := r.1, cur := r.2, thdCount := w.count, thdSums := w.sums })
    else
      (let w := ((List.range (nBlocks c.n c.bs)).map fun b => (0, b)).foldl (fun w e => assignBlock c s1 up (nBlocks c.n c.bs) (c.n % c.bs) e w)
        ⟨s1.u, s1.l, s1.curLab, fun _ => c.bs, fun _ => s1.count, fun _ => s1.cur⟩
       { s1 with u := w.u, l := w.l, curLab := w.lab, count := w.count 0, cur := w.sums 0 }) := by
    rw [← hs1]; rfl
  rw [hunf]
  -- any schedule with increasing blocks
  have key : ∀ (sched : List (Nat × Nat)) (w : Work K), SchedOk (nBlocks c.n c.bs) sched → w.u = s.u → w.l = s.l → w.size = (fun _ => c.bs) →
      ∃ (L : List (Nat × Nat)) (w' : Work K) (z : Nat → Nat), sched.foldl (fun w e => assignBlock c s1 up (nBlocks c.n c.bs) (c.n % c.bs) e w) w = w'.withSize z ∧
        (L.map Prod.snd).Perm (List.range c.n) ∧ (∀ x ∈ L, ∃ e ∈ sched, e.1 = x.1) ∧ AssignPost c s1 up w L w' := by
    intro sched w hso hu hl hz
    obtain ⟨z, hz'⟩ := assignBlocks_flat c s1 up (nBlocks c.n c.bs) (c.n % c.bs) sched w
    rw [hz] at hz'
    have hperm := samplesOf_perm c hc.bs sched hso
    have hmem : ∀ i ∈ (samplesOf c (nBlocks c.n c.bs) (c.n % c.bs) sched fun _ => c.bs).map Prod.snd, i < c.n := fun i hi => List.mem_range.mp (hperm.mem_iff.mp hi)
    refine ⟨_, _, z, hz', hperm, samplesOf_thread c _ _ sched _, assign_post c s1 up w hc.ld _ (hperm.nodup_iff.mpr List.nodup_range) (fun i hi => ?_) fun i hi => ?_⟩
    · rw [e1, e3, e4]; exact hh i (hmem i hi)
    · rw [e1, e2, hu, hl]; exact hb i (hmem i hi)
  by_cases ht : nThreads > 1
  · rw [if_pos ht]
    have hg := hg ht
    obtain ⟨L, w', z, hw, hperm, hthr, hp⟩ := key sch.assign ⟨s1.u, s1.l, s1.curLab, fun _ => c.bs, s1.thdCount, s1.thdSums⟩ hg.assign e5 e6 rfl
    simp only [hw]
    have hin : ∀ i < c.n, i ∈ L.map Prod.snd := fun i hi => hperm.mem_iff.mpr (List.mem_range.mpr hi)
    refine ⟨⟨e1, e2, e3, e4⟩, fun i hi => ?_, fun i hi => ?_, fun hu a ha => ?_, fun hu a ha f hf => ?_⟩
    · rw [← e1]; exact hp.bounds i (hin i hi)
    · rw [← e1]; exact hp.near i (hin i hi)
    · show (reduceThreads c (w'.withSize z) sch.counts sch.sums s1.count s1.cur).1 a = _
      unfold reduceThreads
      simp only
      rw [fold_add c.k (fun t i => (w'.withSize z).count t i) sch.counts s1.count a ha, ecount hu, Nat.zero_add]
      have h1 : ∀ t, (w'.withSize z).count t a = (L.map fun x => if x.1 = t ∧ w'.lab x.2 = a then 1 else 0).sum := by
        intro t
        refine (hp.count t a).trans ?_
        rw [hu]
        simp only [(ethd hu ht).1, if_true, Nat.zero_add]
      simp only [h1]
      rw [sum_threads sch.counts (hg.counts.nodup_iff.mpr List.nodup_range) L
        (fun x hx => by
          obtain ⟨e, he, hex⟩ := hthr x hx
          exact hg.counts.mem_iff.mpr (List.mem_range.mpr (hex ▸ hg.threads e he))) (fun i => w'.lab i = a) (fun _ => 1)]
      exact sum_samples c.n L hperm fun i => if w'.lab i = a then 1 else 0
    · show (reduceThreads c (w'.withSize z) sch.counts sch.sums s1.count s1.cur).2 (a * c.nf + f) = _
      unfold reduceThreads
      simp only
      rw [fold_add (c.k * c.nf) (fun t i => (w'.withSize z).sums t i) sch.sums s1.cur _ (hlt a ha f hf), ecur hu, zero_add]
      have h1 : ∀ t, (w'.withSize z).sums t (a * c.nf + f) = (L.map fun x => if x.1 = t ∧ w'.lab x.2 = a then addend c 0 x.2 f else 0).sum := by
        intro t
        refine (hp.sums t a f hf).trans ?_
        rw [hu]
        simp only [(ethd hu ht).2, if_true, zero_add]
      simp only [h1]
      rw [sum_threads sch.sums (hg.sums.nodup_iff.mpr List.nodup_range) L
        (fun x hx => by
          obtain ⟨e, he, hex⟩ := hthr x hx
          exact hg.sums.mem_iff.mpr (List.mem_range.mpr (hex ▸ hg.threads e he))) (fun i => w'.lab i = a) (fun i => addend c 0 i f)]
      exact sum_samples c.n L hperm fun i => if w'.lab i = a then addend c 0 i f else 0
  · rw [if_neg ht]
    obtain ⟨L, w', z, hw, hperm, hthr, hp⟩ := key ((List.range (nBlocks c.n c.bs)).map fun b => (0, b))
      ⟨s1.u, s1.l, s1.curLab, fun _ => c.bs, fun _ => s1.count, fun _ => s1.cur⟩ (seq_ok _) e5 e6 rfl
    simp only [hw]
    have hin : ∀ i < c.n, i ∈ L.map Prod.snd := fun i hi => hperm.mem_iff.mpr (List.mem_range.mpr hi)
    have h0 : ∀ x ∈ L, x.1 = 0 := by
      intro x hx
      obtain ⟨e, he, hex⟩ := hthr x hx
      obtain ⟨b, _, rfl⟩ := List.mem_map.mp he
      exact hex.symm
    refine ⟨⟨e1, e2, e3, e4⟩, fun i hi => ?_, fun i hi => ?_, fun hu a ha => ?_, fun hu a ha f hf => ?_⟩
    · rw [← e1]; exact hp.bounds i (hin i hi)
    · rw [← e1]; exact hp.near i (hin i hi)
    · refine (hp.count 0 a).trans ?_
      rw [hu]
      simp only [ecount hu, if_true, Nat.zero_add]
      rw [List.map_congr_left (g := fun x => if w'.lab x.2 = a then 1 else 0) fun x hx => by simp [h0 x hx]]
      exact sum_samples c.n L hperm fun i => if w'.lab i = a then 1 else 0
    · refine (hp.sums 0 a f hf).trans ?_
      rw [hu]
      simp only [ecur hu, if_true, zero_add]
      rw [List.map_congr_left (g := fun x => if w'.lab x.2 = a then addend c 0 x.2 f else 0) fun x hx => by simp [h0 x hx]]
      exact sum_samples c.n L hperm fun i => if w'.lab i = a then addend c 0 i f else 0

/-! ### Moving the centres -/

omit [IsStrictOrderedRing K] in
theorem updatePhase_spec (c : Cfg K) (hc : CfgOk c) (nThreads : Nat) (sch : Sched) (hg : nThreads > 1 → SchedGood c nThreads sch)
    (w : Nat → Option K) (lab : Nat → Nat) (b : (Nat → K) × (Nat → K)) : ∀ i < c.n,
    let b' := if nThreads > 1 then updateBlocks c w lab (nBlocks c.n c.bs) (c.n % c.bs) sch.update b else updateKernel c w lab 0 c.n b
    b'.1 i = raised (b.1 i) (w (lab i)) ∧ ∀ j < c.k, b'.2 (i * c.ld + j) = lowered (b.2 (i * c.ld + j)) (w j) := by
  intro i hi
  simp only
  by_cases ht : nThreads > 1
  · rw [if_pos ht]
    have hperm := samplesOf_perm c hc.bs sch.update (hg ht).update
    exact (updateBlocks_spec c hc w lab (nBlocks c.n c.bs) (c.n % c.bs) sch.update (fun _ => c.bs) (hperm.nodup_iff.mpr List.nodup_range) b).done i
      (hperm.mem_iff.mpr (List.mem_range.mpr hi))
  · rw [if_neg ht]
    exact (updateKernel_spec c hc w lab 0 c.n b).done i (by rw [mem_blockList]; omega)

/-- One iteration: a nearest centre for every sample, the counts and the new centres, and the invariant again. -/
theorem iteration_spec (c : Cfg K) (Ok : (Nat → K) → Prop) (hc : CfgOk c) (hm : Metric c Ok) (nThreads : Nat) (sch : Sched)
    (hg : nThreads > 1 → SchedGood c nThreads sch) (rest : Nat → K) (s : St K) (hi : Inv c Ok s) :
    let s1 := assignPhase c nThreads sch true (swapSt s)
    let s2 := elkanIteration c nThreads sch rest true (swapSt s)
    Assigned c true (swapSt s) s1 ∧ s2.curLab = s1.curLab ∧ s2.cur = (scaleCentres c s1.count s1.cur).2 ∧ Inv c Ok s2 := by
  intro s1 s2
  have ha : Assigned c true (swapSt s) s1 := assignPhase_spec c hc nThreads sch hg true (swapSt s) hi.bounds hi.half
  have hcur : s2.cur = (scaleCentres c s1.count s1.cur).2 := rfl
  have hok : Ok s2.cur := hcur ▸ hm.scaled _ _
  refine ⟨ha, rfl, hcur, ⟨fun i hin => ?_, fun i hin => ?_, hok⟩⟩
  · have hu := updatePhase_spec c hc nThreads sch hg (shiftCentres c s1.prev (scaleCentres c s1.count s1.cur).2 s1.workc1).2 s1.curLab (s1.u, s1.l) i hin
    simp only at hu
    have hb := ha.bounds i hin
    have hsp := (shiftCentres_spec c s1.prev (scaleCentres c s1.count s1.cur).2 s1.workc1).1
    have hprev : s1.prev = s.cur := ha.same.1
    obtain ⟨hu1, hu2⟩ := hu
    have hsh := hm.shift s.cur s2.cur hi.ok hok i hin
    refine ⟨hb.labLt, ?_, fun j hj => ?_⟩
    · refine le_trans ?_ (le_of_eq hu1.symm)
      rw [hsp _ hb.labLt, hprev]
      show _ ≤ s1.u i + shiftOf c s.cur s2.cur (s1.curLab i)
      have h1 := (hsh (s1.curLab i) hb.labLt).1
      have h2 : dS c s.cur i (s1.curLab i) ≤ s1.u i := hb.upper
      exact le_trans h1 (by linarith)
    · refine le_trans (le_of_eq (hu2 j hj)) ?_
      rw [hsp j hj, hprev]
      show (if s1.l (i * c.ld + j) - shiftOf c s.cur s2.cur j < 0 then 0 else s1.l (i * c.ld + j) - shiftOf c s.cur s2.cur j) ≤ dS c s2.cur i j
      split
      · exact hm.nonneg s2.cur hok i hin j hj
      · have h1 := (hsh j hj).2
        have h2 : s1.l (i * c.ld + j) ≤ dS c s.cur i j := hb.lower j hj
        linarith
  · exact half_ok c Ok hm rest (movePhase c nThreads sch s1) hok i hin

/-- The invariant after any number of iterations. -/
theorem run_inv (c : Cfg K) (Ok : (Nat → K) → Prop) (hc : CfgOk c) (hm : Metric c Ok) (C rest : Nat → K) (nThreads : Nat) (order : List Nat)
    (hord : order.Perm (List.range c.n)) (s : St K)
    (hok : Ok (forUp c.k (fun a m => forUp c.nf (fun f m => put m (a * c.nf + f) (C (a + f * c.k))) m) s.prev))
    (scheds : List Sched) (hg : ∀ sch ∈ scheds, nThreads > 1 → SchedGood c nThreads sch) :
    Inv c Ok (elkanRun c C nThreads rest order s scheds) := by
  unfold elkanRun
  induction scheds using List.reverseRecOn with
  | nil => exact init_inv c Ok hc hm C rest order hord s hok
  | append_singleton l sch ih =>
    rw [List.foldl_append]
    exact (iteration_spec c Ok hc hm nThreads sch (hg sch (by simp)) rest _ (ih fun x hx => hg x (by simp [hx]))).2.2.2

end Verif.Kmeans
