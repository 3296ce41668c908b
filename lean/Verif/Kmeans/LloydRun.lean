import Verif.Kmeans.LloydProof
import Verif.Kmeans.ElkanReal

/-
An iteration of Lloyd's method: what is stored is a function of the centres, whatever the threads do.
-/
namespace Verif.Kmeans

open Verif.HalfBlas (put forUp)

variable {K : Type} [Field K] [LinearOrder K] [IsStrictOrderedRing K]

/-! ### All blocks -/

/-- After the samples `L`, each with its thread. -/
structure LPost (c : LCfg K) (C : Nat → K) (up : Bool) (L : List (Nat × Nat)) (w w' : LWork K) : Prop where
  lab : ∀ i ∈ L.map Prod.snd, w'.lab i = labOf c C i
  rest : ∀ i, i ∉ L.map Prod.snd → w'.lab i = w.lab i
  count : ∀ t a, w'.count t a = w.count t a + if up then (L.map fun x => if x.1 = t ∧ labOf c C x.2 = a then 1 else 0).sum else 0
  sums : ∀ t, ∀ a < c.k, ∀ f < c.nf, w'.sums t (a + f * c.k) = w.sums t (a + f * c.k) +
    if up then (L.map fun x => if x.1 = t ∧ labOf c C x.2 = a then term c x.2 f else 0).sum else 0

omit [IsStrictOrderedRing K] in
theorem lpost_append (c : LCfg K) (C : Nat → K) (up : Bool) {L L' : List (Nat × Nat)} {w w' w'' : LWork K} (h : LPost c C up L w w') (h' : LPost c C up L' w' w'') :
    LPost c C up (L ++ L') w w'' := by
  refine ⟨fun i hi => ?_, fun i hi => ?_, fun t a => ?_, fun t a ha f hf => ?_⟩
  · by_cases hi' : i ∈ L'.map Prod.snd
    · exact h'.lab i hi'
    · rw [h'.rest i hi']
      rw [List.map_append, List.mem_append] at hi
      exact h.lab i (hi.resolve_right hi')
  · rw [List.map_append, List.mem_append, not_or] at hi
    rw [h'.rest i hi.2, h.rest i hi.1]
  · rw [h'.count, h.count, List.map_append, List.sum_append]
    cases up <;> simp [Nat.add_assoc]
  · rw [h'.sums t a ha f hf, h.sums t a ha f hf, List.map_append, List.sum_append]
    cases up <;> simp [add_assoc]

theorem sum_blockList {M : Type} [AddCommMonoid M] (off size t : Nat) (g : Nat × Nat → M) :
    (((blockList off size).map fun i => (t, i)).map g).sum = ∑ i ∈ Finset.range size, g (t, off + i) := by
  unfold blockList
  rw [List.map_map, List.map_map]
  induction size with
  | zero => rfl
  | succ m ih => rw [List.range_succ, List.map_append, List.sum_append, ih, Finset.sum_range_succ]; simp

omit [IsStrictOrderedRing K] in
theorem block_post (c : LCfg K) (hc : LCfgOk c) (up : Bool) (C : Nat → K) (norms : Nat → Option K) (hn : NormsOk c C norms) (t off size : Nat) (w : LWork K) :
    LPost c C up ((blockList off size).map fun i => (t, i)) w (lloydBlock c up C norms t off size w) := by
  unfold lloydBlock
  have hk := kernelBlock_spec c hc C norms hn up off size (w.work t) (w.lab, w.count t)
  simp only at hk ⊢
  generalize kernelBlock c up off size norms (gemmBlock c C off size (w.work t)) (w.lab, w.count t) = r at hk ⊢
  obtain ⟨h1, h2, h3⟩ := hk
  have hmap : ((blockList off size).map fun i => (t, i)).map Prod.snd = blockList off size := by
    rw [List.map_map]; exact List.map_id _
  refine ⟨fun i hi => ?_, fun i hi => ?_, fun t' a => ?_, fun t' a ha f hf => ?_⟩
  · rw [hmap, mem_blockList] at hi
    have := h1 (i - off) (by omega)
    rwa [show off + (i - off) = i by omega] at this
  · rw [hmap, mem_blockList] at hi
    exact h2 i (by omega)
  · rw [sum_blockList]
    by_cases ht : t' = t
    · subst ht
      simp only
      rw [put_same, h3]
      simp
    · simp only
      rw [put_ne _ _ ht]
      simp [Ne.symm ht]
  · rw [sum_blockList]
    cases up
    · simp
    · simp only [if_true]
      by_cases ht : t' = t
      · subst ht
        rw [put_same, updateCentres_spec c off size r.1 (fun i hi => by rw [h1 i hi]; exact labOf_lt c hc C _) _ a ha f hf]
        congr 1
        refine Finset.sum_congr rfl fun i hi => ?_
        rw [h1 i (Finset.mem_range.mp hi)]
        simp
      · rw [put_ne _ _ ht]
        simp [Ne.symm ht]

/-- The samples of the blocks of a schedule, each with its thread. -/
def schedSamples (c : LCfg K) (sched : List (Nat × Nat)) : List (Nat × Nat) :=
  sched.flatMap fun e => (blockList (lloydBlockOf c (nBlocks c.n c.bs) (c.n % c.bs) e.2 c.bs).1 (lloydBlockOf c (nBlocks c.n c.bs) (c.n % c.bs) e.2 c.bs).2).map fun i => (e.1, i)

omit [IsStrictOrderedRing K] in
theorem sched_post (c : LCfg K) (hc : LCfgOk c) (up : Bool) (C : Nat → K) (norms : Nat → Option K) (hn : NormsOk c C norms) (sched : List (Nat × Nat)) (w : LWork K) :
    LPost c C up (schedSamples c sched) w
      (sched.foldl (fun w e => lloydBlock c up C norms e.1 (lloydBlockOf c (nBlocks c.n c.bs) (c.n % c.bs) e.2 c.bs).1 (lloydBlockOf c (nBlocks c.n c.bs) (c.n % c.bs) e.2 c.bs).2 w) w) := by
  induction sched generalizing w with
  | nil => exact ⟨(fun i h => by simp [schedSamples] at h), fun _ _ => rfl, (fun _ _ => by simp [schedSamples]), fun _ _ _ _ _ => by simp [schedSamples]⟩
  | cons e es ih => exact lpost_append c C up (block_post c hc up C norms hn e.1 _ _ w) (ih _)

/-- The configuration seen by the lemmas on blocks. -/
def LCfg.cfg (c : LCfg K) : Cfg K := ⟨c.n, c.k, c.nf, c.lda, c.k + c.pad, c.bs, c.spherical, c.normalize, c.lanes, c.sqrt, id, c.A, c.inv⟩

omit [Field K] [LinearOrder K] [IsStrictOrderedRing K] in
theorem schedSamples_perm (c : LCfg K) (hbs : 0 < c.bs) (sched : List (Nat × Nat)) (h : (sched.map Prod.snd).Perm (List.range (nBlocks c.n c.bs))) :
    ((schedSamples c sched).map Prod.snd).Perm (List.range c.n) := by
  have h1 : (schedSamples c sched).map Prod.snd = (sched.map Prod.snd).flatMap (blockSamples c.cfg (nBlocks c.n c.bs) (c.n % c.bs)) := by
    unfold schedSamples
    rw [List.map_flatMap, List.flatMap_map]
    refine List.flatMap_congr fun e _ => ?_
    rw [List.map_map]
    exact List.map_id _
  have h2 := blockSamples_range c.cfg hbs
  rw [h1]
  refine (List.Perm.flatMap_right _ h).trans (List.Perm.of_eq h2)

omit [IsStrictOrderedRing K] in
/-- The loop of one thread, which carries `block_size` along, does the blocks in order. -/
theorem seq_blocks (c : LCfg K) (up : Bool) (C : Nat → K) (norms : Nat → Option K) (w : LWork K) :
    (forUp (nBlocks c.n c.bs) (fun b (r : Nat × LWork K) =>
      let x := lloydBlockOf c (nBlocks c.n c.bs) (c.n % c.bs) b r.1
      (x.2, lloydBlock c up C norms 0 x.1 x.2 r.2)) (c.bs, w)).2 =
    ((List.range (nBlocks c.n c.bs)).map fun b => (0, b)).foldl (fun w e =>
      lloydBlock c up C norms e.1 (lloydBlockOf c (nBlocks c.n c.bs) (c.n % c.bs) e.2 c.bs).1 (lloydBlockOf c (nBlocks c.n c.bs) (c.n % c.bs) e.2 c.bs).2 w) w := by
  generalize hnb : nBlocks c.n c.bs = nb
  rw [List.foldl_map]
  refine (forUp_inv (fun m (r : Nat × LWork K) => r.2 = (List.range m).foldl (fun w b =>
      lloydBlock c up C norms 0 (lloydBlockOf c nb (c.n % c.bs) b c.bs).1 (lloydBlockOf c nb (c.n % c.bs) b c.bs).2 w) w ∧ (m < nb → r.1 = c.bs)) nb
    ⟨rfl, fun _ => rfl⟩ ?_).1
  rintro m r hm ⟨h1, h2⟩
  simp only
  rw [h2 hm, List.range_succ, List.foldl_append, h1]
  refine ⟨rfl, fun h => ?_⟩
  unfold lloydBlockOf
  rw [if_neg (by omega)]

/-! ### One iteration -/

/-- What the OpenMP runtime may choose. -/
structure LSchedAny (c : LCfg K) (nThreads : Nat) (sch : Sched) : Prop where
  assign : (sch.assign.map Prod.snd).Perm (List.range (nBlocks c.n c.bs))
  threads : ∀ e ∈ sch.assign, e.1 < nThreads
  counts : sch.counts.Perm (List.range nThreads)
  sums : sch.sums.Perm (List.range nThreads)

/-- The padding of `workc1` holds infinity (kmeans.cpp:614-617). -/
def Padded (c : LCfg K) (w : Nat → Option K) : Prop := ∀ i, c.k ≤ i → i < c.k + c.pad → w i = none

/-- The number of samples with label `a`. -/
def sizeOf' (c : LCfg K) (C : Nat → K) (a : Nat) : Nat := ∑ i ∈ Finset.range c.n, if labOf c C i = a then 1 else 0

/-- The sum of the samples with label `a`. -/
def total (c : LCfg K) (C : Nat → K) (a f : Nat) : K := ∑ i ∈ Finset.range c.n, if labOf c C i = a then term c i f else 0

/-- The factor that scales the sum to the new centre. -/
def factor (c : LCfg K) (C : Nat → K) (a : Nat) : K :=
  if c.spherical then
    (if c.sqrt (∑ f ∈ Finset.range c.nf, total c C a f * total c C a f) = 0 then 1 else 1 / c.sqrt (∑ f ∈ Finset.range c.nf, total c C a f * total c C a f))
  else 1 / ((max 1 (sizeOf' c C a) : Nat) : K)

structure Iterated (c : LCfg K) (up : Bool) (s s' : LSt K) : Prop where
  lab : ∀ i < c.n, s'.curLab i = labOf c s.prev i
  prevLab : s'.prevLab = s.prevLab
  padded : Padded c s'.workc1
  kept : up = false → s'.prev = s.prev
  count : up = true → ∀ a < c.k, s'.count a = max 1 (sizeOf' c s.prev a)
  cur : up = true → ∀ a < c.k, ∀ f < c.nf, s'.cur (a + f * c.k) = total c s.prev a f * factor c s.prev a
  shift : up = true → ∀ a < c.k, ∀ f < c.nf, s'.prev (a + f * c.k) = s.prev (a + f * c.k) - s'.cur (a + f * c.k)

theorem cols_put {R : Type} (nf k : Nat) (h : Nat → R → R) (m : Nat → R) : ∀ a < k, ∀ f < nf,
    forUp nf (fun f m => forUp k (fun i m => put m (i + f * k) (h i (m (i + f * k)))) m) m (a + f * k) = h a (m (a + f * k)) := by
  intro a ha f hf
  have := forUp_inv (body := fun f m => forUp k (fun i m => put m (i + f * k) (h i (m (i + f * k)))) m) (s := m)
    (fun b (m' : Nat → R) => ∀ a < k, ∀ f < nf, m' (a + f * k) = if f < b then h a (m (a + f * k)) else m (a + f * k)) nf (fun a _ f _ => by simp) ?_
  · have h := this a ha f hf
    rwa [if_pos hf] at h
  · intro b m' hb ih a ha f hf
    have hp := forUp_put (fun i => i + b * k) h m' k (fun _ _ _ _ h => by omega)
    by_cases he : f = b
    · subst he
      rw [hp.1 a ha, ih a ha f hf, if_neg (by omega), if_pos (by omega)]
    · rw [hp.2 _ fun a' ha' e => he (half_inj ha ha' e).1, ih a ha f hf]
      simp only [show (f < b + 1) = (f < b) from propext (by omega)]

omit [IsStrictOrderedRing K] in
theorem scaleColumns_spec (c : LCfg K) (count : Nat → Nat) (w : Nat → Option K) (cur : Nat → K) (hw : c.spherical = true → ∀ i < c.k, w i = some 0) :
    (∀ a < c.k, (scaleColumns c count w cur).1 a = max 1 (count a)) ∧
    (∀ i, c.k ≤ i → (scaleColumns c count w cur).2.1 i = w i) ∧
    ∀ a < c.k, ∀ f < c.nf, (scaleColumns c count w cur).2.2 (a + f * c.k) = cur (a + f * c.k) *
      if c.spherical then (if c.sqrt (∑ f ∈ Finset.range c.nf, cur (a + f * c.k) * cur (a + f * c.k)) = 0 then 1
        else 1 / c.sqrt (∑ f ∈ Finset.range c.nf, cur (a + f * c.k) * cur (a + f * c.k))) else 1 / ((max 1 (count a) : Nat) : K) := by
  unfold scaleColumns
  have hcnt := scale_counts c.k count
  generalize forUp c.k (fun i m => if m i = 0 then put m i 1 else m) count = count' at hcnt ⊢
  cases hs : c.spherical
  · simp only [Bool.false_eq_true, if_false]
    refine ⟨hcnt, fun _ _ => trivial, fun a ha f hf => ?_⟩
    rw [cols_put c.nf c.k (fun i v => v / (count' i : K)) cur a ha f hf, hcnt a ha, div_eq_mul_one_div]
  · simp only [if_true]
    have h1 := sumRows_spec c.nf c.k (fun i f => cur (i + f * c.k) * cur (i + f * c.k)) w
    simp only at h1
    generalize forUp c.nf (fun f m => forUp c.k (fun i m => put m i ((m i).map fun v => v + cur (i + f * c.k) * cur (i + f * c.k))) m) w = w1 at h1 ⊢
    have h2 := forUp_put (fun i => i) (fun _ (v : Option K) => v.map fun v => if c.sqrt v = 0 then 1 else 1 / c.sqrt v) w1 c.k (fun _ _ _ _ h => h)
    generalize forUp c.k (fun i m => put m i ((m i).map fun v => if c.sqrt v = 0 then 1 else 1 / c.sqrt v)) w1 = w2 at h2 ⊢
    refine ⟨hcnt, fun i hi => ?_, fun a ha f hf => ?_⟩
    · rw [h2.2 i fun j hj e => by omega]
      exact h1.2 i hi
    · rw [cols_put c.nf c.k (fun i v => v * (w2 i).getD 0) cur a ha f hf, h2.1 a ha, h1.1 a ha, hw hs a ha]
      simp

omit [IsStrictOrderedRing K] in
theorem iteration_lloyd (c : LCfg K) (hc : LCfgOk c) (nThreads : Nat) (sch : Sched) (hs : nThreads > 1 → LSchedAny c nThreads sch) (up : Bool) (s : LSt K)
    (hp : Padded c s.workc1) : Iterated c up s (lloydIteration c nThreads sch up s) := by
  have hn := lloydNorms_spec c s.prev s.workc1
  have hno : NormsOk c s.prev (lloydNorms c s.prev s.workc1) := ⟨hn.1, fun i h1 h2 => (hn.2 i h1).trans (hp i h1 h2)⟩
  -- the state after the blocks
  suffices hmid : ∀ m : LSt K, m.prev = s.prev → m.prevLab = s.prevLab → m.workc1 = lloydNorms c s.prev s.workc1 →
      (∀ i < c.n, m.curLab i = labOf c s.prev i) →
      (up = true → (∀ a < c.k, m.count a = sizeOf' c s.prev a) ∧ ∀ a < c.k, ∀ f < c.nf, m.cur (a + f * c.k) = total c s.prev a f) →
      Iterated c up s (if up then
        { m with count := (scaleColumns c m.count m.workc1 m.cur).1, workc1 := (scaleColumns c m.count m.workc1 m.cur).2.1, cur := (scaleColumns c m.count m.workc1 m.cur).2.2,
                 prev := forUp (c.k * c.nf) (fun i p => put p i (p i - (scaleColumns c m.count m.workc1 m.cur).2.2 i)) m.prev }
        else m) by
    unfold lloydIteration
    simp only
    by_cases ht : nThreads > 1
    · have hsc := hs ht
      rw [if_pos ht]
      have hpost := sched_post c hc up s.prev (lloydNorms c s.prev s.workc1) hno sch.assign
      have hperm := schedSamples_perm c hc.bs sch.assign hsc.assign
      have hthr : ∀ (o : List Nat), o.Perm (List.range nThreads) → ∀ x ∈ schedSamples c sch.assign, x.1 ∈ o := by
        intro o ho x hx
        unfold schedSamples at hx
        rw [List.mem_flatMap] at hx
        obtain ⟨e, he, hx⟩ := hx
        rw [List.mem_map] at hx
        obtain ⟨i, _, rfl⟩ := hx
        exact ho.mem_iff.mpr (List.mem_range.mpr (hsc.threads e he))
      have hnd : ∀ (o : List Nat), o.Perm (List.range nThreads) → o.Nodup := fun o ho => ho.nodup_iff.mpr List.nodup_range
      cases up
      · simp only [Bool.false_eq_true, if_false, false_and] at hmid ⊢
        have hq := hpost ⟨s.curLab, s.thdCount, s.thdSums, s.work⟩
        generalize List.foldl _ (LWork.mk s.curLab s.thdCount s.thdSums s.work) sch.assign = w at hq ⊢
        refine hmid _ ?_ ?_ ?_ (fun i hi => ?_) (fun h => by cases h) <;> try rfl
        exact hq.lab i (hperm.mem_iff.mpr (List.mem_range.mpr hi))
      · simp only [if_true, ht, and_self]
        have hq := hpost ⟨s.curLab, fun _ _ => 0, fun _ _ => 0, s.work⟩
        generalize List.foldl _ (LWork.mk s.curLab (fun _ _ => 0) (fun _ _ => (0 : K)) s.work) sch.assign = w at hq ⊢
        refine hmid { prev := s.prev, cur := sch.sums.foldl (fun m t => forUp (c.k * c.nf) (fun i m => put m i (m i + w.sums t i)) m) fun _ => 0, prevLab := s.prevLab, curLab := w.lab, workc1 := lloydNorms c s.prev s.workc1, count := sch.counts.foldl (fun m t => forUp c.k (fun i m => put m i (m i + w.count t i)) m) fun _ => 0, thdCount := w.count, thdSums := w.sums, work := w.work } ?_ ?_ ?_ (fun i hi => ?_) (fun _ => ⟨fun a ha => ?_, fun a ha f hf => ?_⟩)
        · rfl
        · rfl
        · rfl
        · exact hq.lab i (hperm.mem_iff.mpr (List.mem_range.mpr hi))
        · simp only
          rw [fold_add c.k (fun t i => w.count t i) sch.counts _ a ha]
          have : (sch.counts.map fun t => w.count t a) = sch.counts.map fun t => ((schedSamples c sch.assign).map fun x => if x.1 = t ∧ labOf c s.prev x.2 = a then 1 else 0).sum :=
            List.map_congr_left fun t _ => by rw [hq.count]; simp
          rw [this, sum_threads sch.counts (hnd _ hsc.counts) (schedSamples c sch.assign) (hthr _ hsc.counts) (fun i => labOf c s.prev i = a) (fun _ => 1),
            sum_samples c.n (schedSamples c sch.assign) hperm fun i => if labOf c s.prev i = a then 1 else 0, Nat.zero_add]
          rfl
        · simp only
          have hlt : a + f * c.k < c.k * c.nf := by
            have := Nat.mul_le_mul_right c.k (show f + 1 ≤ c.nf by omega)
            rw [Nat.add_mul] at this
            rw [Nat.mul_comm c.k]
            omega
          rw [fold_add (c.k * c.nf) (fun t i => w.sums t i) sch.sums _ _ hlt]
          have : (sch.sums.map fun t => w.sums t (a + f * c.k)) =
              sch.sums.map fun t => ((schedSamples c sch.assign).map fun x => if x.1 = t ∧ labOf c s.prev x.2 = a then term c x.2 f else 0).sum :=
            List.map_congr_left fun t _ => by rw [hq.sums t a ha f hf]; simp
          rw [this, sum_threads sch.sums (hnd _ hsc.sums) (schedSamples c sch.assign) (hthr _ hsc.sums) (fun i => labOf c s.prev i = a) (fun i => term c i f),
            sum_samples c.n (schedSamples c sch.assign) hperm fun i => if labOf c s.prev i = a then term c i f else 0, zero_add]
          rfl
    · rw [if_neg ht]
      have hperm := schedSamples_perm c hc.bs ((List.range (nBlocks c.n c.bs)).map fun b => (0, b)) (by rw [List.map_map]; exact List.Perm.of_eq (List.map_id _))
      have hone : ∀ x ∈ schedSamples c ((List.range (nBlocks c.n c.bs)).map fun b => (0, b)), x.1 ∈ [0] := by
        intro x hx
        unfold schedSamples at hx
        rw [List.mem_flatMap] at hx
        obtain ⟨e, he, hx⟩ := hx
        rw [List.mem_map] at he hx
        obtain ⟨i, _, rfl⟩ := hx
        obtain ⟨b, _, rfl⟩ := he
        exact List.mem_singleton.mpr rfl
      have hpost := sched_post c hc up s.prev (lloydNorms c s.prev s.workc1) hno ((List.range (nBlocks c.n c.bs)).map fun b => (0, b))
      cases up
      · simp only [Bool.false_eq_true, if_false, false_and] at hmid ⊢
        have hq := hpost ⟨s.curLab, fun _ => s.count, fun _ => s.cur, s.work⟩
        rw [← seq_blocks] at hq
        simp only at hq
        generalize forUp (nBlocks c.n c.bs) _ (c.bs, LWork.mk s.curLab (fun _ => s.count) (fun _ => s.cur) s.work) = w at hq ⊢
        refine hmid _ ?_ ?_ ?_ (fun i hi => ?_) (fun h => by cases h) <;> try rfl
        exact hq.lab i (hperm.mem_iff.mpr (List.mem_range.mpr hi))
      · simp only [if_true, ht, and_false, if_false]
        have hq := hpost ⟨s.curLab, fun _ _ => 0, fun _ _ => 0, s.work⟩
        rw [← seq_blocks] at hq
        simp only at hq
        generalize forUp (nBlocks c.n c.bs) _ (c.bs, LWork.mk s.curLab (fun _ _ => 0) (fun _ _ => (0 : K)) s.work) = w at hq ⊢
        refine hmid { prev := s.prev, cur := w.2.sums 0, prevLab := s.prevLab, curLab := w.2.lab, workc1 := lloydNorms c s.prev s.workc1, count := w.2.count 0, thdCount := s.thdCount, thdSums := s.thdSums, work := w.2.work } ?_ ?_ ?_ (fun i hi => ?_) (fun _ => ⟨fun a ha => ?_, fun a ha f hf => ?_⟩)
        · rfl
        · rfl
        · rfl
        · exact hq.lab i (hperm.mem_iff.mpr (List.mem_range.mpr hi))
        · simp only
          rw [hq.count]
          simp only [if_true]
          have h1 := sum_threads [0] (List.nodup_singleton 0) _ hone (fun i => labOf c s.prev i = a) (fun _ => 1)
          simp only [List.map_cons, List.map_nil, List.sum_cons, List.sum_nil, Nat.add_zero] at h1
          rw [h1, sum_samples c.n _ hperm fun i => if labOf c s.prev i = a then 1 else 0, Nat.zero_add]
          rfl
        · simp only
          rw [hq.sums 0 a ha f hf]
          simp only [if_true]
          have h1 := sum_threads [0] (List.nodup_singleton 0) _ hone (fun i => labOf c s.prev i = a) (fun i => term c i f)
          simp only [List.map_cons, List.map_nil, List.sum_cons, List.sum_nil, add_zero] at h1
          rw [h1, sum_samples c.n _ hperm fun i => if labOf c s.prev i = a then term c i f else 0, zero_add]
          rfl
  intro m h1 h2 h3 h4 h5
  cases up
  · simp only [Bool.false_eq_true, if_false]
    exact ⟨h4, h2, by rw [h3]; exact hno.2, fun _ => h1, (fun h => by cases h), (fun h => by cases h), (fun h => by cases h)⟩
  · simp only [if_true]
    obtain ⟨h6, h7⟩ := h5 rfl
    have hsp := scaleColumns_spec c m.count m.workc1 m.cur (fun hsph i hi => by rw [h3, hn.1 i hi, hsph]; rfl)
    generalize scaleColumns c m.count m.workc1 m.cur = r at hsp ⊢
    obtain ⟨g1, g2, g3⟩ := hsp
    refine ⟨h4, h2, fun i a b => (g2 i a).trans (by rw [h3]; exact hno.2 i a b), (fun h => by cases h), fun _ a ha => by rw [← h6 a ha]; exact g1 a ha, fun _ a ha f hf => ?_, fun _ a ha f hf => ?_⟩
    · simp only
      rw [g3 a ha f hf, h7 a ha f hf, h6 a ha]
      unfold factor
      have : ∑ f ∈ Finset.range c.nf, m.cur (a + f * c.k) * m.cur (a + f * c.k) = ∑ f ∈ Finset.range c.nf, total c s.prev a f * total c s.prev a f :=
        Finset.sum_congr rfl fun f hf => by rw [h7 a ha f (Finset.mem_range.mp hf)]
      rw [this]
    · simp only
      have hlt : a + f * c.k < c.k * c.nf := by
        have := Nat.mul_le_mul_right c.k (show f + 1 ≤ c.nf by omega)
        rw [Nat.add_mul] at this
        rw [Nat.mul_comm c.k]
        omega
      rw [(forUp_put (fun i => i) (fun i v => v - r.2.2 i) m.prev (c.k * c.nf) (fun _ _ _ _ h => h)).1 _ hlt, h1]

end Verif.Kmeans
