import Verif.Kmeans.ElkanReal
import Mathlib.Data.Rat.Sqrt

/-
C86: k-means by Elkan's method gives every sample a nearest centre, in spite of the distances it skips.
-/
namespace Verif.Kmeans

open Verif.HalfBlas (put forUp)

variable {K : Type} [Field K] [LinearOrder K] [IsStrictOrderedRing K]

/-! ### What a user expects -/

/-- The distance of sample `i` to centre `j`, both stored by rows. -/
def distTo (c : Cfg K) (C : Nat → K) (i j : Nat) : K :=
  if c.spherical then
    c.acos (max (-1) (min 1 (if c.normalize then (∑ f ∈ Finset.range c.nf, c.A (i * c.lda + f) * C (j * c.nf + f)) * c.inv i
      else ∑ f ∈ Finset.range c.nf, c.A (i * c.lda + f) * C (j * c.nf + f))))
  else c.sqrt (∑ f ∈ Finset.range c.nf, (c.A (i * c.lda + f) - C (j * c.nf + f)) * (c.A (i * c.lda + f) - C (j * c.nf + f)))

/-- What the OpenMP runtime may choose: every block once, each on one of the threads, and any order at the locks. -/
structure SchedAny (c : Cfg K) (nThreads : Nat) (sch : Sched) : Prop where
  assign : (sch.assign.map Prod.snd).Perm (List.range (nBlocks c.n c.bs))
  update : (sch.update.map Prod.snd).Perm (List.range (nBlocks c.n c.bs))
  threads : ∀ e ∈ sch.assign, e.1 < nThreads
  counts : sch.counts.Perm (List.range nThreads)
  sums : sch.sums.Perm (List.range nThreads)

/-- Every thread runs its blocks in increasing order. -/
def Increasing (sch : Sched) : Prop :=
  sch.assign.Pairwise (fun e e' => e.1 = e'.1 → e.2 < e'.2) ∧ sch.update.Pairwise (fun e e' => e.1 = e'.1 → e.2 < e'.2)

/-- Labels in range, and no centre nearer than the one of the label. -/
def Nearest (c : Cfg K) (C : Nat → K) (lab : Nat → Nat) : Prop :=
  ∀ i < c.n, lab i < c.k ∧ ∀ b < c.k, distTo c C i (lab i) ≤ distTo c C i b

/-- **C86**, the property as stated: whatever the threads do, the labels given back are those of nearest centres. -/
def C86_statement : Prop :=
  ∀ (K : Type) [Field K] [LinearOrder K] [IsStrictOrderedRing K] (c : Cfg K) (Ok : (Nat → K) → Prop), CfgOk c → Metric c Ok →
    ∀ (C rest : Nat → K) (nThreads : Nat) (order : List Nat) (s : St K), order.Perm (List.range c.n) →
      (∀ D : Nat → K, (∀ a < c.k, ∀ f < c.nf, D (a * c.nf + f) = C (a + f * c.k)) → Ok D) →
      ∀ (scheds : List Sched) (last : Sched), (∀ sch ∈ scheds, SchedAny c nThreads sch) → SchedAny c nThreads last →
        Nearest c (elkanRun c C nThreads rest order s scheds).cur (elkanFinal c nThreads last rest (elkanRun c C nThreads rest order s scheds)).curLab

/-! ### It fails when a thread runs a block after the last one -/

/-- Five samples of one feature in blocks of two; two clusters. -/
def badCfg : Cfg ℚ := ⟨5, 2, 1, 1, 2, 2, false, false, none, Rat.sqrt, id, fun i => if i = 1 ∨ i = 3 then 10 else 0, fun _ => 1⟩

def badSt : St ℚ := ⟨fun _ => 0, fun _ => 0, fun _ => 0, fun _ => 0, fun _ => 0, fun _ => 0, fun _ => 0, fun _ => none, fun _ => 0, fun _ _ => 0, fun _ _ => 0⟩

/-- The first thread runs the last block and then the first one. -/
def badSched : Sched := ⟨[(0, 2), (0, 0), (1, 1)], [0, 1], [0, 1], [(0, 0), (1, 1), (0, 2)]⟩

def goodSched : Sched := ⟨[(0, 0), (1, 1), (0, 2)], [0, 1], [0, 1], [(0, 0), (1, 1), (0, 2)]⟩

def badRun : St ℚ := elkanRun badCfg (fun j => if j = 0 then 0 else 10) 2 (fun _ => 0) (List.range 5) badSt [badSched]

omit [IsStrictOrderedRing K] in
theorem dS_distTo (c : Cfg K) (C : Nat → K) (i j : Nat) : dS c C i j = distTo c C i j := by
  unfold dS sampleDist distTo reduceScalar clampCos
  cases c.spherical
  · simp only [Bool.false_eq_true, if_false, Nat.zero_mul, Nat.zero_add, sumTo_eq]
  · simp only [if_true, Nat.zero_mul, Nat.zero_add, sumTo_eq]

/-- One feature: the distance is the absolute difference. -/
theorem bad_metric : Metric badCfg fun _ => True := by
  have h1 : ∀ C i j, dS badCfg C i j = |badCfg.A i - C j| := fun C i j => by
    rw [dS_distTo, ← Rat.sqrt_eq]
    simp [distTo, badCfg]
  have h2 : ∀ C a b, centreDist badCfg C a b = |C a - C b| := fun C a b => by
    rw [← Rat.sqrt_eq]
    simp [centreDist, reduceScalar, sumTo_eq, badCfg]
  have h3 : ∀ C C' j, shiftOf badCfg C C' j = |C j - C' j| := fun C C' j => by
    rw [← Rat.sqrt_eq]
    simp [shiftOf, sumTo_eq, badCfg]
  refine ⟨fun C _ i _ j _ => ?_, fun C _ i _ a _ b _ _ => ?_, fun C C' _ _ i _ j _ => ?_, fun _ _ => trivial⟩
  · rw [h1]; exact abs_nonneg _
  · rw [h1, h1, h2]
    have := abs_sub_le (C a) (badCfg.A i) (C b)
    rw [abs_sub_comm (C a) (badCfg.A i)] at this
    exact this
  · rw [h1, h1, h3]
    refine ⟨abs_sub_le _ _ _, ?_⟩
    have := abs_sub_le (badCfg.A i) (C' j) (C j)
    rw [abs_sub_comm (C' j) (C j)] at this
    exact this

/-- **C86 violated.**  `block_size` is private to a thread and is set for the last block only, so a thread that runs
another block after the last one leaves samples of that block without a label; OpenMP allows this for
`schedule(dynamic)`. -/
theorem C86_violated : ¬ C86_statement := by
  intro h
  have hgood : SchedAny badCfg 2 goodSched := ⟨by decide +kernel, by decide +kernel, by decide, by decide, by decide⟩
  have hbad : SchedAny badCfg 2 badSched := ⟨by decide +kernel, by decide +kernel, by decide, by decide, by decide⟩
  have := h ℚ badCfg (fun _ => True) ⟨by decide, by decide, by decide, by decide⟩ bad_metric (fun j => if j = 0 then 0 else 10) (fun _ => 0) 2 (List.range 5) badSt
    (List.Perm.refl _) (fun _ _ => trivial) [badSched] goodSched (fun sch hs => by rw [List.mem_singleton] at hs; exact hs ▸ hbad) hgood 1 (by decide)
  have h2 := this.2 1 (by decide)
  revert h2
  decide +kernel

/-! ### What holds -/

omit [Field K] [LinearOrder K] [IsStrictOrderedRing K] in
theorem schedGood (c : Cfg K) (nThreads : Nat) (sch : Sched) (h : SchedAny c nThreads sch) (hi : Increasing sch) : SchedGood c nThreads sch :=
  ⟨⟨h.assign, hi.1⟩, ⟨h.update, hi.2⟩, h.threads, h.counts, h.sums⟩

omit [Field K] [LinearOrder K] [IsStrictOrderedRing K] in
theorem start_ok (c : Cfg K) (Ok : (Nat → K) → Prop) (C : Nat → K) (s : St K)
    (hok : ∀ D : Nat → K, (∀ a < c.k, ∀ f < c.nf, D (a * c.nf + f) = C (a + f * c.k)) → Ok D) :
    Ok (forUp c.k (fun a m => forUp c.nf (fun f m => put m (a * c.nf + f) (C (a + f * c.k))) m) s.prev) :=
  hok _ (byRows_spec c.k c.nf C s.prev)

/-- **C86**, with blocks in increasing order on every thread: any number of threads, blocks, iterations and clusters,
every kernel, any orders at the locks, any contents of the work arrays before.  Missing: schedules in which a thread
runs a block after the last one (see `C86_violated`). -/
theorem C86_nearest_partial (c : Cfg K) (Ok : (Nat → K) → Prop) (hc : CfgOk c) (hm : Metric c Ok) (C rest : Nat → K) (nThreads : Nat)
    (order : List Nat) (s : St K) (hord : order.Perm (List.range c.n))
    (hok : ∀ D : Nat → K, (∀ a < c.k, ∀ f < c.nf, D (a * c.nf + f) = C (a + f * c.k)) → Ok D)
    (scheds : List Sched) (last : Sched) (hs : ∀ sch ∈ scheds, SchedAny c nThreads sch ∧ Increasing sch) (hl : SchedAny c nThreads last ∧ Increasing last) :
    Nearest c (elkanRun c C nThreads rest order s scheds).cur (elkanFinal c nThreads last rest (elkanRun c C nThreads rest order s scheds)).curLab ∧
    (elkanFinal c nThreads last rest (elkanRun c C nThreads rest order s scheds)).cur = (elkanRun c C nThreads rest order s scheds).cur := by
  have hi := run_inv c Ok hc hm C rest nThreads order hord s (start_ok c Ok C s hok) scheds fun sch h _ => schedGood c nThreads sch (hs sch h).1 (hs sch h).2
  generalize elkanRun c C nThreads rest order s scheds = r at hi ⊢
  have ha := assignPhase_spec c hc nThreads last (fun _ => schedGood c nThreads last hl.1 hl.2) false (swapSt r) hi.bounds hi.half
  refine ⟨fun i hin => ⟨(ha.bounds i hin).labLt, fun b hb => ?_⟩, ha.same.1⟩
  rw [← dS_distTo, ← dS_distTo]
  exact ha.near i hin b hb

example : Nearest badCfg badRun.cur (fun i => if i = 1 ∨ i = 3 then 1 else 0) ∧
    (List.range 5).map (elkanFinal badCfg 2 goodSched (fun _ => 0) (elkanRun badCfg (fun j => if j = 0 then 0 else 10) 2 (fun _ => 0) (List.range 5) badSt [goodSched])).curLab
      = [0, 1, 0, 1, 0] := by
  refine ⟨fun i hi => ⟨by simp only [badCfg]; split <;> omega, ?_⟩, by decide +kernel⟩
  revert i
  decide +kernel

/-- The samples with label `a`. -/
def members (c : Cfg K) (lab : Nat → Nat) (a : Nat) : Finset Nat := (Finset.range c.n).filter fun i => lab i = a

/-- One iteration: the labels are nearest to the centres before, every count is that of the label (one for an empty
cluster), and the new centre is the mean of the samples of its label, or the sum of their unit vectors scaled.
The same restriction to increasing blocks. -/
theorem C86_iteration_partial (c : Cfg K) (Ok : (Nat → K) → Prop) (hc : CfgOk c) (hm : Metric c Ok) (C rest : Nat → K) (nThreads : Nat)
    (order : List Nat) (s : St K) (hord : order.Perm (List.range c.n))
    (hok : ∀ D : Nat → K, (∀ a < c.k, ∀ f < c.nf, D (a * c.nf + f) = C (a + f * c.k)) → Ok D)
    (scheds : List Sched) (sch : Sched) (hs : ∀ x ∈ scheds, SchedAny c nThreads x ∧ Increasing x) (hl : SchedAny c nThreads sch ∧ Increasing sch) :
    let before := elkanRun c C nThreads rest order s scheds
    let after := elkanRun c C nThreads rest order s (scheds ++ [sch])
    Nearest c before.cur after.curLab ∧
    ∀ a < c.k, after.count a = max 1 (members c after.curLab a).card ∧
      (c.spherical = false → ∀ f < c.nf, after.cur (a * c.nf + f) * (after.count a : K) = ∑ i ∈ members c after.curLab a, c.A (i * c.lda + f)) ∧
      (c.spherical = true → ∃ r : K, ((c.sqrt (∑ f ∈ Finset.range c.nf, (∑ i ∈ members c after.curLab a, c.A (i * c.lda + f) * (if c.normalize then c.inv i else 1)) ^ 2) = 0 ∧ r = 1) ∨
        r * c.sqrt (∑ f ∈ Finset.range c.nf, (∑ i ∈ members c after.curLab a, c.A (i * c.lda + f) * (if c.normalize then c.inv i else 1)) ^ 2) = 1) ∧
        ∀ f < c.nf, after.cur (a * c.nf + f) = (∑ i ∈ members c after.curLab a, c.A (i * c.lda + f) * (if c.normalize then c.inv i else 1)) * r) := by
  intro before after
  have hi : Inv c Ok before := run_inv c Ok hc hm C rest nThreads order hord s (start_ok c Ok C s hok) scheds fun x h _ => schedGood c nThreads x (hs x h).1 (hs x h).2
  have hafter : after = elkanIteration c nThreads sch rest true (swapSt before) := by
    show elkanRun c C nThreads rest order s (scheds ++ [sch]) = _
    unfold elkanRun
    rw [List.foldl_append]
    rfl
  clear_value before after
  obtain ⟨ha, h1, h2, h3⟩ := iteration_spec c Ok hc hm nThreads sch (fun _ => schedGood c nThreads sch hl.1 hl.2) rest before hi
  have hcount : after.count = (scaleCentres c (assignPhase c nThreads sch true (swapSt before)).count (assignPhase c nThreads sch true (swapSt before)).cur).1 := by
    rw [hafter]; rfl
  rw [← hafter] at h1 h2 h3
  generalize assignPhase c nThreads sch true (swapSt before) = m at ha h1 h2 h3 hcount
  have hc1 : ∀ a < c.k, m.count a = (members c after.curLab a).card := fun a hak => by
    rw [ha.count rfl a hak, h1]
    simp [members]
  have hs1 : ∀ a < c.k, ∀ f < c.nf, m.cur (a * c.nf + f) = ∑ i ∈ members c after.curLab a, addend c 0 i f := fun a hak f hf => by
    rw [ha.sums rfl a hak f hf, h1, members, Finset.sum_filter]
  refine ⟨fun i hin => ⟨by rw [h1]; exact (ha.bounds i hin).labLt, fun b hb => ?_⟩, fun a hak => ⟨?_, fun hsp f hf => ?_, fun hsp => ?_⟩⟩
  · rw [← dS_distTo, ← dS_distTo, h1]
    exact ha.near i hin b hb
  · rw [hcount]
    cases hsp : c.spherical
    · rw [(scaleCentres_euclid c hsp _ _ a hak).1, hc1 a hak]
    · rw [(scaleCentres_spherical c hsp _ _ a hak).1, hc1 a hak]
  · rw [h2, hcount, (scaleCentres_euclid c hsp _ _ a hak).1, (scaleCentres_euclid c hsp _ _ a hak).2 f hf, div_mul_cancel₀, hs1 a hak f hf]
    · refine Finset.sum_congr rfl fun i _ => ?_
      simp [addend, hsp]
    · have : (1 : Nat) ≤ max 1 (m.count a) := le_max_left _ _
      exact_mod_cast (by omega : max 1 (m.count a) ≠ 0)
  · have hadd : ∀ f < c.nf, m.cur (a * c.nf + f) = ∑ i ∈ members c after.curLab a, c.A (i * c.lda + f) * (if c.normalize then c.inv i else 1) := fun f hf => by
      rw [hs1 a hak f hf]
      refine Finset.sum_congr rfl fun i _ => ?_
      cases hn : c.normalize <;> simp [addend, hsp, hn]
    have hsq : ∑ f ∈ Finset.range c.nf, m.cur (a * c.nf + f) * m.cur (a * c.nf + f) =
        ∑ f ∈ Finset.range c.nf, (∑ i ∈ members c after.curLab a, c.A (i * c.lda + f) * (if c.normalize then c.inv i else 1)) ^ 2 :=
      Finset.sum_congr rfl fun f hf => by rw [hadd f (Finset.mem_range.mp hf), sq]
    refine ⟨_, ?_, fun f hf => by rw [h2, (scaleCentres_spherical c hsp _ _ a hak).2 f hf, hadd f hf]⟩
    rw [hsq]
    generalize c.sqrt (∑ f ∈ Finset.range c.nf, (∑ i ∈ members c after.curLab a, c.A (i * c.lda + f) * (if c.normalize then c.inv i else 1)) ^ 2) = nrm
    by_cases hne : nrm = 0
    · exact Or.inl ⟨hne, if_pos hne⟩
    · rw [if_neg hne]
      exact Or.inr (one_div_mul_cancel hne)

example : (let after := elkanRun badCfg (fun j => if j = 0 then 1 else 9) 2 (fun _ => 0) (List.range 5) badSt [goodSched]
    (after.count 0, after.count 1, after.cur 0, after.cur 1)) = (3, 2, 0, 10) := by decide +kernel

/-- When an iteration after the first gives the labels it started from, its new centres are the old ones, so the labels
are nearest to the centres given back although they are not found again (`converged == 2`). -/
theorem C86_same_labels_partial (c : Cfg K) (Ok : (Nat → K) → Prop) (hc : CfgOk c) (hm : Metric c Ok) (C rest : Nat → K) (nThreads : Nat)
    (order : List Nat) (s : St K) (hord : order.Perm (List.range c.n))
    (hok : ∀ D : Nat → K, (∀ a < c.k, ∀ f < c.nf, D (a * c.nf + f) = C (a + f * c.k)) → Ok D)
    (scheds : List Sched) (sch sch' : Sched) (hs : ∀ x ∈ scheds, SchedAny c nThreads x ∧ Increasing x) (hl : SchedAny c nThreads sch ∧ Increasing sch)
    (hl' : SchedAny c nThreads sch' ∧ Increasing sch')
    (hsame : ∀ i < c.n, (elkanRun c C nThreads rest order s (scheds ++ [sch, sch'])).curLab i = (elkanRun c C nThreads rest order s (scheds ++ [sch])).curLab i) :
    Nearest c (elkanRun c C nThreads rest order s (scheds ++ [sch, sch'])).cur (elkanRun c C nThreads rest order s (scheds ++ [sch, sch'])).curLab := by
  have hi : Inv c Ok (elkanRun c C nThreads rest order s scheds) :=
    run_inv c Ok hc hm C rest nThreads order hord s (start_ok c Ok C s hok) scheds fun x h _ => schedGood c nThreads x (hs x h).1 (hs x h).2
  have e1 : elkanRun c C nThreads rest order s (scheds ++ [sch]) = elkanIteration c nThreads sch rest true (swapSt (elkanRun c C nThreads rest order s scheds)) := by
    unfold elkanRun
    rw [List.foldl_append]
    rfl
  have e2 : elkanRun c C nThreads rest order s (scheds ++ [sch, sch']) =
      elkanIteration c nThreads sch' rest true (swapSt (elkanRun c C nThreads rest order s (scheds ++ [sch]))) := by
    unfold elkanRun
    rw [List.foldl_append, List.foldl_append]
    rfl
  rw [e2] at hsame ⊢
  obtain ⟨ha, h1, h2, h3⟩ := iteration_spec c Ok hc hm nThreads sch (fun _ => schedGood c nThreads sch hl.1 hl.2) rest _ hi
  rw [← e1] at h1 h2 h3
  generalize elkanRun c C nThreads rest order s (scheds ++ [sch]) = r1 at hsame h1 h2 h3 ⊢
  obtain ⟨ha', h1', h2', h3'⟩ := iteration_spec c Ok hc hm nThreads sch' (fun _ => schedGood c nThreads sch' hl'.1 hl'.2) rest r1 h3
  generalize assignPhase c nThreads sch true (swapSt (elkanRun c C nThreads rest order s scheds)) = m at ha h1 h2
  generalize assignPhase c nThreads sch' true (swapSt r1) = m' at ha' h1' h2'
  generalize elkanIteration c nThreads sch' rest true (swapSt r1) = r2 at hsame h1' h2' h3' ⊢
  have hlab : ∀ i < c.n, m'.curLab i = m.curLab i := fun i hin => by rw [← h1, ← h1']; exact hsame i hin
  have hcen : ∀ a < c.k, ∀ f < c.nf, r2.cur (a * c.nf + f) = r1.cur (a * c.nf + f) := by
    rw [h2, h2']
    refine scaleCentres_congr c _ _ _ _ (fun a hak => ?_) fun a hak f hf => ?_
    · rw [ha.count rfl a hak, ha'.count rfl a hak]
      exact Finset.sum_congr rfl fun i hin => by rw [hlab i (Finset.mem_range.mp hin)]
    · rw [ha.sums rfl a hak f hf, ha'.sums rfl a hak f hf]
      exact Finset.sum_congr rfl fun i hin => by rw [hlab i (Finset.mem_range.mp hin)]
  have hdist : ∀ i, ∀ b < c.k, distTo c r2.cur i b = dS c r1.cur i b := by
    intro i b hb
    rw [dS_distTo]
    have g1 : ∑ f ∈ Finset.range c.nf, c.A (i * c.lda + f) * r2.cur (b * c.nf + f) = ∑ f ∈ Finset.range c.nf, c.A (i * c.lda + f) * r1.cur (b * c.nf + f) :=
      Finset.sum_congr rfl fun f hf => by rw [hcen b hb f (Finset.mem_range.mp hf)]
    have g2 : ∑ f ∈ Finset.range c.nf, (c.A (i * c.lda + f) - r2.cur (b * c.nf + f)) * (c.A (i * c.lda + f) - r2.cur (b * c.nf + f)) =
        ∑ f ∈ Finset.range c.nf, (c.A (i * c.lda + f) - r1.cur (b * c.nf + f)) * (c.A (i * c.lda + f) - r1.cur (b * c.nf + f)) :=
      Finset.sum_congr rfl fun f hf => by rw [hcen b hb f (Finset.mem_range.mp hf)]
    unfold distTo
    rw [g1, g2]
  intro i hin
  have hlt := (ha'.bounds i hin).labLt
  rw [h1']
  refine ⟨hlt, fun b hb => ?_⟩
  rw [hdist i _ hlt, hdist i b hb]
  exact ha'.near i hin b hb

example : (let r := elkanRun badCfg (fun j => if j = 0 then 1 else 9) 2 (fun _ => 0) (List.range 5) badSt
    ((List.range 5).map (r [goodSched]).curLab, (List.range 5).map (r [goodSched, goodSched]).curLab)) = ([0, 1, 0, 1, 0], [0, 1, 0, 1, 0]) := by decide +kernel

/-! ### The two distances of the code -/

/-- **C86** for Euclidean distances of real numbers: no condition on the data or on the initial centres. -/
theorem C86_euclidean_partial (c : Cfg ℝ) (hc : CfgOk c) (hsph : c.spherical = false) (hq : c.sqrt = Real.sqrt) (C rest : Nat → ℝ) (nThreads : Nat)
    (order : List Nat) (s : St ℝ) (hord : order.Perm (List.range c.n)) (scheds : List Sched) (last : Sched)
    (hs : ∀ sch ∈ scheds, SchedAny c nThreads sch ∧ Increasing sch) (hl : SchedAny c nThreads last ∧ Increasing last) :
    let r := elkanRun c C nThreads rest order s scheds
    let lab := (elkanFinal c nThreads last rest r).curLab
    ∀ i < c.n, lab i < c.k ∧ ∀ b < c.k, (∑ f ∈ Finset.range c.nf, (c.A (i * c.lda + f) - r.cur (lab i * c.nf + f)) ^ 2) ≤
      ∑ f ∈ Finset.range c.nf, (c.A (i * c.lda + f) - r.cur (b * c.nf + f)) ^ 2 := by
  intro r lab i hi
  have h := (C86_nearest_partial c (fun _ => True) hc (metric_euclid c hsph hq) C rest nThreads order s hord (fun _ _ => trivial) scheds last hs hl).1 i hi
  refine ⟨h.1, fun b hb => ?_⟩
  have h2 := h.2 b hb
  unfold distTo at h2
  rw [hsph, hq] at h2
  simp only [Bool.false_eq_true, if_false] at h2
  rw [Real.sqrt_le_sqrt_iff (Finset.sum_nonneg fun f _ => mul_self_nonneg _)] at h2
  simp only [← sq] at h2
  exact h2

/-- **C86** for spherical clustering of real numbers, for samples and initial centres of length one or zero. -/
theorem C86_spherical_partial (c : Cfg ℝ) (hc : CfgOk c) (hsph : c.spherical = true) (hq : c.sqrt = Real.sqrt) (hacos : c.acos = Real.arccos)
    (hrows : ∀ i < c.n, UnitOrZero c.nf (scaledRow c i)) (C rest : Nat → ℝ) (hC : ∀ a < c.k, UnitOrZero c.nf fun f => C (a + f * c.k)) (nThreads : Nat)
    (order : List Nat) (s : St ℝ) (hord : order.Perm (List.range c.n)) (scheds : List Sched) (last : Sched)
    (hs : ∀ sch ∈ scheds, SchedAny c nThreads sch ∧ Increasing sch) (hl : SchedAny c nThreads last ∧ Increasing last) :
    let r := elkanRun c C nThreads rest order s scheds
    let lab := (elkanFinal c nThreads last rest r).curLab
    ∀ i < c.n, lab i < c.k ∧ ∀ b < c.k, (∑ f ∈ Finset.range c.nf, scaledRow c i f * r.cur (b * c.nf + f)) ≤
      ∑ f ∈ Finset.range c.nf, scaledRow c i f * r.cur (lab i * c.nf + f) := by
  intro r lab i hi
  have hm := metric_spherical c hsph hq hacos hrows
  have hok : ∀ D : Nat → ℝ, (∀ a < c.k, ∀ f < c.nf, D (a * c.nf + f) = C (a + f * c.k)) → ∀ a < c.k, UnitOrZero c.nf fun f => D (a * c.nf + f) := by
    intro D hD a ha
    rcases hC a ha with h | h
    · left
      rw [← h]
      exact Finset.sum_congr rfl fun f hf => by simp only; rw [hD a ha f (Finset.mem_range.mp hf)]
    · right
      intro f hf
      simp only
      rw [hD a ha f hf]
      exact h f hf
  have hinv := run_inv c _ hc hm C rest nThreads order hord s (start_ok c _ C s hok) scheds fun sch h _ => schedGood c nThreads sch (hs sch h).1 (hs sch h).2
  have h := (C86_nearest_partial c _ hc hm C rest nThreads order s hord hok scheds last hs hl).1 i hi
  refine ⟨h.1, fun b hb => ?_⟩
  have h2 := h.2 b hb
  have hd : ∀ j < c.k, distTo c r.cur i j = Real.arccos (∑ f ∈ Finset.range c.nf, scaledRow c i f * r.cur (j * c.nf + f)) ∧
      -1 ≤ (∑ f ∈ Finset.range c.nf, scaledRow c i f * r.cur (j * c.nf + f)) ∧ (∑ f ∈ Finset.range c.nf, scaledRow c i f * r.cur (j * c.nf + f)) ≤ 1 := by
    intro j hj
    have hb := inner_unit c.nf _ _ (hrows i hi) (hinv.ok j hj)
    refine ⟨?_, hb⟩
    have : distTo c r.cur i j = Real.arccos (max (-1) (min 1 (∑ f ∈ Finset.range c.nf, scaledRow c i f * r.cur (j * c.nf + f)))) := by
      unfold distTo
      rw [hsph, hacos]
      simp only [if_true]
      congr 3
      unfold scaledRow
      cases c.normalize
      · rfl
      · simp only [if_true]
        rw [Finset.sum_mul]
        exact Finset.sum_congr rfl fun f _ => by ring
    rw [this, min_eq_right hb.2, max_eq_right hb.1]
  have hl' := hd (lab i) h.1
  have hb' := hd b hb
  have h3 : Real.arccos (∑ f ∈ Finset.range c.nf, scaledRow c i f * r.cur (lab i * c.nf + f)) ≤
      Real.arccos (∑ f ∈ Finset.range c.nf, scaledRow c i f * r.cur (b * c.nf + f)) := by
    rw [← hl'.1, ← hb'.1]; exact h2
  exact (Real.strictAntiOn_arccos.le_iff_ge ⟨hl'.2.1, hl'.2.2⟩ ⟨hb'.2.1, hb'.2.2⟩).mp h3

/-- A sample of length one. -/
example : UnitOrZero 2 (scaledRow ⟨1, 2, 2, 2, 2, 1, true, true, none, Real.sqrt, Real.arccos, fun i => if i = 0 then 3 else 4, fun _ => 1 / 5⟩ 0) := by
  left
  rw [Finset.sum_range_succ, Finset.sum_range_one]
  norm_num [scaledRow]

omit [LinearOrder K] [IsStrictOrderedRing K] in
/-- The vector reduction sums what the scalar one sums, for every number of lanes. -/
theorem C86_reduction (w m : Nat) (x y : Nat → K) : reduceKt w m x y = ∑ f ∈ Finset.range m, (x f - y f) * (x f - y f) := by
  unfold reduceKt
  simp only
  have hv : ∀ q i, forUp q (fun b v => fun i => (x (b * w + i) - y (b * w + i)) * (x (b * w + i) - y (b * w + i)) + v i) (fun _ => (0 : K)) i =
      ∑ b ∈ Finset.range q, (x (b * w + i) - y (b * w + i)) * (x (b * w + i) - y (b * w + i)) := by
    intro q i
    refine forUp_inv (fun q (v : Nat → K) => v i = ∑ b ∈ Finset.range q, (x (b * w + i) - y (b * w + i)) * (x (b * w + i) - y (b * w + i))) q rfl fun j s _ hs => ?_
    rw [Finset.sum_range_succ, hs, add_comm]
  have hq : ∀ q, (∑ i ∈ Finset.range w, ∑ b ∈ Finset.range q, (x (b * w + i) - y (b * w + i)) * (x (b * w + i) - y (b * w + i))) =
      ∑ f ∈ Finset.range (q * w), (x f - y f) * (x f - y f) := by
    intro q
    rw [Finset.sum_comm]
    induction q with
    | zero => simp
    | succ q ih => rw [Finset.sum_range_succ, ih, Nat.succ_mul, Finset.sum_range_add]
  have hr : ∀ r p a, forUp r (fun r acc => acc + (x (p + r) - y (p + r)) * (x (p + r) - y (p + r))) a =
      a + ∑ r ∈ Finset.range r, (x (p + r) - y (p + r)) * (x (p + r) - y (p + r)) := by
    intro r p a
    refine forUp_inv (fun r v => v = a + ∑ r ∈ Finset.range r, (x (p + r) - y (p + r)) * (x (p + r) - y (p + r))) r (by simp) fun j s _ hs => ?_
    rw [Finset.sum_range_succ, hs, add_assoc]
  have hfull : (m - m % w) / w * w = m - m % w := Nat.div_mul_cancel (Nat.dvd_sub_mod m)
  rw [hr, sumTo_eq, Finset.sum_congr rfl fun i _ => hv _ i, hq, hfull, ← Finset.sum_range_add]
  congr 2
  have := Nat.mod_le m w
  omega

example : reduceKt 4 7 (fun f => (f : ℚ)) (fun _ => 0) = 91 := by decide +kernel

end Verif.Kmeans
