import Verif.Tree.Separation
import Verif.TreeSplit.PropsCat
import Verif.Histogram.Props

/-!
# When training and prediction agree on a split
-/

namespace Verif.Tree

open Verif.TreeSplit (Samples Nd)

theorem partition_agrees (L R : Nat → Bool) (samp samp' : Nat → Nat) (start end_ : Nat) (m : Int)
    (h : start ≤ end_) (hR : ∀ i, start ≤ i → i ≤ end_ → R (samp i) = !L (samp i))
    (hne : ∃ i, start ≤ i ∧ i ≤ end_ ∧ L (samp i) = false)
    (e : Partition.partition L R (2 * (end_ - start) + 2) samp start end_ = some (samp', m)) :
    ∀ p : Nat, start ≤ p → p ≤ end_ → ((p : Int) ≤ m ↔ L (samp' p) = true) := by
  obtain ⟨s', m', e1, e2, e3, e4, e5, e6⟩ := Partition.partition_spec L R samp start end_ h hR
    (2 * (end_ - start) + 2) (by omega)
  rw [e] at e1
  cases e1
  intro p h1 h2
  refine ⟨e5 p h1, fun hp => ?_⟩
  by_contra hc
  by_cases c : m + 1 < end_ ∨ p < end_
  · rw [e6 p (by omega) h2 c] at hp
    cases hp
  · obtain ⟨j, j1, j2, j3⟩ := hne
    obtain ⟨q, q1, q2, q3⟩ := (shuf_of_rearr e2 rfl).mem' j1 (Nat.lt_succ_of_le j2)
    rw [q3] at j3
    by_cases hq : q = p
    · rw [hq, hp] at j3; cases j3
    · rw [e5 q q1 (by omega)] at j3; cases j3

variable {α S : Type} (cfg : Cfg α S)

theorem addAll_fst (sm : Samples) (samp : Nat → Nat) : ∀ (l : List Nat) (r : Int × (Nat → Int)),
    (TreeSplit.addAll sm samp l r).1 = r.1 + (l.map fun i => (sm.w (samp i) : Int)).sum
  | [], r => by simp [TreeSplit.addAll]
  | i :: l, r => by
    rw [TreeSplit.addAll, addAll_fst sm samp l]
    simp only [List.map_cons, List.sum_cons]
    omega

theorem addAll_snd (sm : Samples) (samp : Nat → Nat) (k : Nat) :
    ∀ (l : List Nat) (r : Int × (Nat → Int)), (TreeSplit.addAll sm samp l r).2 k =
      r.2 k + (l.map fun i => if sm.y (samp i) = k then (sm.w (samp i) : Int) else 0).sum
  | [], r => by simp [TreeSplit.addAll]
  | i :: l, r => by
    rw [TreeSplit.addAll, addAll_snd sm samp k l]
    simp only [List.map_cons, List.sum_cons, TreeSplit.addClass]
    by_cases h : sm.y (samp i) = k
    · rw [if_pos h.symm, if_pos h]; omega
    · rw [if_neg (fun e => h e.symm), if_neg h]; omega

/-- The counts the search works with are those of the samples. -/
theorem view_counts (nd : Node α S) (samp order : Nat → Nat) (s0 : S) (hlt : nd.start < nd.stop)
    (hns : nd.ns = weightOf cfg.sm samp nd.start nd.stop) (ho : Shuf nd.start nd.stop samp order)
    (hy : ∀ i, nd.start ≤ i → i < nd.stop → cfg.sm.y (order i) < cfg.nClass) :
    TreeSplit.Counts cfg.sm order cfg.nClass (view cfg samp nd s0) := by
  have e : nd.stop - 1 + 1 - nd.start = nd.stop - nd.start := by omega
  refine ⟨?_, fun k => ?_, fun i h1 h2 => hy i h1 ?_⟩
  · show nd.ns = _
    rw [hns, ← weightOf_perm cfg.sm ho.1]
    unfold weightOf TreeSplit.weightIf view
    rw [addAll_fst, e]
    simp
  · show classCounts cfg.sm samp nd.start nd.stop k = _
    rw [← classCounts_perm cfg.sm ho.1]
    unfold classCounts TreeSplit.classWeightIf view
    rw [addAll_snd, e]
    simp
  · have h2 : i ≤ nd.stop - 1 := h2
    omega

/-- A positive weight means that there is a sample. -/
theorem weightIf_pos (sm : Samples) (samp : Nat → Nat) (nd : Nd S) (P : Nat → Prop) [DecidablePred P]
    (h : 1 ≤ TreeSplit.weightIf sm samp nd P) : ∃ i, nd.start ≤ i ∧ i ≤ nd.end_ ∧ P i := by
  obtain ⟨i, hi, hp⟩ := TreeSplit.sumIf_pos (List.range' nd.start (nd.end_ + 1 - nd.start))
    (fun i => decide (P i)) (fun i => (sm.w (samp i) : Int)) (by
      unfold TreeSplit.weightIf at h
      unfold TreeSplit.sumIf
      simpa using h)
  rw [List.mem_range'_1] at hi
  exact ⟨i, hi.1, by omega, of_decide_eq_true hp⟩

/-! ### The four kinds of split -/

theorem agrees_category (nd : Node α S) (samp order : Nat → Nat) (f : Nat) (b : TreeSplit.BestCat S)
    (hlt : nd.start < nd.stop) (hm : 1 ≤ cfg.minNode)
    (hns : nd.ns = weightOf cfg.sm samp nd.start nd.stop)
    (ho : Shuf nd.start nd.stop samp order)
    (hy : ∀ i, nd.start ≤ i → i < nd.stop → cfg.sm.y (order i) < cfg.nClass)
    (hw : ∀ i, nd.start ≤ i → i < nd.stop → cfg.sm.w (order i) = 1)
    (hc : ∀ i, nd.start ≤ i → i < nd.stop → 0 ≤ cfg.ops.round (value cfg f (order i)))
    (h : TreeSplit.splitOnevall (critAt cfg nd) cfg.sm order
        (fun i => (cfg.ops.round (value cfg f (order i))).toNat) cfg.nClass (cfg.nCat f)
        (view cfg samp nd nd.score) cfg.minNode = some b) :
    Agrees cfg nd samp (.category f b.cat) := by
  obtain ⟨_, _, _, _, _, h6⟩ := TreeSplit.C53_onevall_partial (critAt cfg nd) cfg.sm order _ cfg.nClass
    (cfg.nCat f) (view cfg samp nd nd.score) cfg.minNode (view_counts cfg nd samp order _ hlt hns ho hy)
    (fun i h1 h2 => hw i h1 (by have h2 : i ≤ nd.stop - 1 := h2; omega)) b h
  obtain ⟨i, i1, i2, i3⟩ := weightIf_pos cfg.sm order (view cfg samp nd nd.score) _
    (Int.le_trans (by omega : (1 : Int) ≤ cfg.minNode) h6)
  have i1 : nd.start ≤ i := i1
  have i3 : ¬ (cfg.ops.round (value cfg f (order i))).toNat = b.cat := i3
  have i2 : i ≤ nd.stop - 1 := i2
  have := hc i i1 (by omega)
  intro samp1 samp2 m hsh hrun p hp1 hp2
  refine partition_agrees _ _ samp1 samp2 nd.start (nd.stop - 1) m (by omega) (fun _ _ _ => rfl) ?_ hrun
    p hp1 (by omega)
  obtain ⟨q, q1, q2, q3⟩ := ho.mem i1 (show i < nd.stop by omega)
  obtain ⟨t, t1, t2, t3⟩ := hsh.mem' q1 q2
  refine ⟨t, t1, by omega, ?_⟩
  rw [← t3, ← q3]
  refine decide_eq_false fun hh => i3 ?_
  have hh : cfg.ops.round (value cfg f (order i)) = b.cat := hh
  rw [hh]; rfl

theorem agrees_oneBin (nd : Node α S) (samp : Nat → Nat) (f : Nat) (s0 : S) (b : TreeSplit.BestCat S)
    (hlt : nd.start < nd.stop) (hm : 1 ≤ cfg.minNode) (hld : cfg.data.ldx = cfg.data.nSamples)
    (hns : nd.ns = weightOf cfg.sm samp nd.start nd.stop)
    (hy : ∀ i, nd.start ≤ i → i < nd.stop → cfg.sm.y (samp i) < cfg.nClass)
    (hbin : ∀ i, nd.start ≤ i → i < nd.stop →
      cfg.ops.round (value cfg f (samp i)) = Partition.binOf cfg.data f (samp i))
    (h : TreeSplit.splitHist (critAt cfg nd) cfg.sm samp (fun i => Partition.binOf cfg.data f (samp i))
        cfg.nClass (cfg.nBins f) (view cfg samp nd s0) cfg.minNode true = some b) :
    Agrees cfg nd samp (.oneBin f b.cat) := by
  obtain ⟨_, _, _, _, _, h6⟩ := (TreeSplit.C53_hist (critAt cfg nd) cfg.sm samp _ cfg.nClass
    (cfg.nBins f) (view cfg samp nd s0) cfg.minNode
    (view_counts cfg nd samp samp _ hlt hns (Shuf.refl _ _ _) hy) b).2 h
  obtain ⟨i, i1, i2, i3⟩ := weightIf_pos cfg.sm samp (view cfg samp nd s0) _
    (Int.le_trans (by omega : (1 : Int) ≤ cfg.minNode) h6)
  have i1 : nd.start ≤ i := i1
  have i3 : ¬ Partition.binOf cfg.data f (samp i) = b.cat := i3
  have i2 : i ≤ nd.stop - 1 := i2
  intro samp1 samp2 m hsh hrun p hp1 hp2
  have key := partition_agrees _ _ samp1 samp2 nd.start (nd.stop - 1) m (by omega)
    (fun i _ _ => by simp) (by
      obtain ⟨t, t1, t2, t3⟩ := hsh.mem' i1 (show i < nd.stop by omega)
      refine ⟨t, t1, by omega, ?_⟩
      rw [← t3]
      refine decide_eq_false fun hh => i3 ?_
      rw [Partition.binOf, ← hh, hld, Nat.mul_comm]) hrun p hp1 (by omega)
  rw [key]
  obtain ⟨a, _, _⟩ := runPartition_rearr cfg (.oneBin f b.cat) samp1 samp2 nd.start (nd.stop - 1) m
    (by omega) hrun
  obtain ⟨q, q1, q2, q3⟩ := (hsh.trans (shuf_of_rearr a (by omega))).mem hp1 hp2
  have e := hbin q q1 q2
  rw [q3]
  unfold Partition.binOf at e
  simp only [goLeft, sampleValues, decide_eq_true_eq, e]
  rw [hld, Nat.mul_comm]
  omega

section order
variable [LinearOrder α]

theorem agrees_ordered (nd : Node α S) (samp : Nat → Nat) (f : Nat) (s0 : S) (b : TreeSplit.BestCat S)
    (hlt : nd.start < nd.stop) (hm : 1 ≤ cfg.minNode) (hld : cfg.data.ldx = cfg.data.nSamples)
    (hops : ∀ a b, cfg.ops.lt a b = decide (a < b))
    (hns : nd.ns = weightOf cfg.sm samp nd.start nd.stop)
    (hy : ∀ i, nd.start ≤ i → i < nd.stop → cfg.sm.y (samp i) < cfg.nClass)
    (hthr : ∀ i j, i ≤ j → j < cfg.nBins f - 1 → cfg.thr f i ≤ cfg.thr f j)
    (hbin : ∀ i, nd.start ≤ i → i < nd.stop → Partition.binOf cfg.data f (samp i) =
      Histogram.binSearch (fun t => cfg.ops.lt (value cfg f (samp i)) (cfg.thr f t)) 0 (cfg.nBins f - 1))
    (h : TreeSplit.splitHist (critAt cfg nd) cfg.sm samp (fun i => Partition.binOf cfg.data f (samp i))
        cfg.nClass (cfg.nBins f) (view cfg samp nd s0) cfg.minNode false = some b) :
    Agrees cfg nd samp (.ordered f b.cat (cfg.thr f b.cat)) := by
  obtain ⟨_, _, _, _, _, h6⟩ := (TreeSplit.C53_hist (critAt cfg nd) cfg.sm samp _ cfg.nClass
    (cfg.nBins f) (view cfg samp nd s0) cfg.minNode
    (view_counts cfg nd samp samp _ hlt hns (Shuf.refl _ _ _) hy) b).1 h
  obtain ⟨i, i1, i2, i3⟩ := weightIf_pos cfg.sm samp (view cfg samp nd s0) _
    (Int.le_trans (by omega : (1 : Int) ≤ cfg.minNode) h6)
  have i1 : nd.start ≤ i := i1
  have i3 : ¬ Partition.binOf cfg.data f (samp i) ≤ b.cat := i3
  have i2 : i ≤ nd.stop - 1 := i2
  have le : ∀ q, nd.start ≤ q → q < nd.stop → Partition.binOf cfg.data f (samp q) ≤ cfg.nBins f - 1 ∧
      ∀ c, c < cfg.nBins f - 1 →
        (Partition.binOf cfg.data f (samp q) ≤ c ↔ value cfg f (samp q) < cfg.thr f c) := by
    intro q q1 q2
    rw [hbin q q1 q2]
    have e : (fun t => cfg.ops.lt (value cfg f (samp q)) (cfg.thr f t)) =
        fun t => decide (value cfg f (samp q) < cfg.thr f t) := funext fun t => hops _ _
    rw [e]
    obtain ⟨a, b⟩ := Histogram.C27_bin (cfg.thr f) (cfg.nBins f - 1) hthr (value cfg f (samp q))
    refine ⟨?_, b⟩
    rw [a]
    refine Nat.le_trans List.countP_le_length ?_
    simp
  have hk : b.cat < cfg.nBins f - 1 := by
    have := (le i i1 (by omega)).1
    omega
  intro samp1 samp2 m hsh hrun p hp1 hp2
  have key := partition_agrees _ _ samp1 samp2 nd.start (nd.stop - 1) m (by omega)
    (fun i _ _ => Bool.eq_iff_iff.2 (by simp)) (by
      obtain ⟨t, t1, t2, t3⟩ := hsh.mem' i1 (show i < nd.stop by omega)
      refine ⟨t, t1, by omega, ?_⟩
      rw [← t3]
      refine decide_eq_false fun hh => i3 ?_
      rw [Partition.binOf, ← hld, Nat.mul_comm]
      exact hh) hrun p hp1 (by omega)
  rw [key]
  obtain ⟨a, _, _⟩ := runPartition_rearr cfg (.ordered f b.cat (cfg.thr f b.cat)) samp1 samp2 nd.start
    (nd.stop - 1) m (by omega) hrun
  obtain ⟨q, q1, q2, q3⟩ := (hsh.trans (shuf_of_rearr a (by omega))).mem hp1 hp2
  have e := (le q q1 q2).2 b.cat hk
  rw [q3]
  unfold Partition.binOf at e
  simp only [goLeft, sampleValues, decide_eq_true_eq, hops]
  rw [hld, Nat.mul_comm]
  exact e

theorem agrees_continuous (nd : Node α S) (samp sorted : Nat → Nat) (f : Nat) (b : TreeSplit.Best α S)
    (hlt : nd.start < nd.stop) (hm : 1 ≤ cfg.minNode)
    (hops : ∀ a b, cfg.ops.lt a b = decide (a < b)) (hle : ∀ a b, cfg.ops.le a b = decide (a ≤ b))
    (hirr : ∀ a, cfg.crit.lt a a = false)
    (hnear : ∀ a, cfg.ops.num.near a a = true)
    (hmid : ∀ a b, a < b → a < cfg.ops.num.mid a b ∧ cfg.ops.num.mid a b < b)
    (ho : Shuf nd.start nd.stop samp sorted)
    (hs : ∀ i j, nd.start ≤ i → i ≤ j → j < nd.stop →
        cfg.ops.lt (value cfg f (sorted j)) (value cfg f (sorted i)) = false)
    (h : TreeSplit.splitRaw cfg.ops.num (critAt cfg nd) cfg.sm sorted (fun i => value cfg f (sorted i))
        (view cfg samp nd nd.score) cfg.minNode = some b) :
    Agrees cfg nd samp (.continuous f b.thr) := by
  have hs : ∀ i j, nd.start ≤ i → i ≤ j → j < nd.stop →
      value cfg f (sorted i) ≤ value cfg f (sorted j) := by
    intro i j a b c
    have := hs i j a b c
    rw [hops] at this
    exact not_lt.1 (of_decide_eq_false this)
  unfold TreeSplit.splitRaw at h
  obtain ⟨h1, h2, h3, s, s1, s2, s3, s4⟩ := TreeSplit.loop_placed cfg.ops.num (critAt cfg nd) cfg.sm
    sorted (fun i => value cfg f (sorted i)) (view cfg samp nd nd.score) cfg.minNode hirr _ _ _ none
    (Nat.le_refl _) (Or.inl (by show (0 : Int) < cfg.minNode; omega)) (fun b hb => by cases hb) b h
  have h1 : nd.start ≤ b.next := h1
  have h2 : b.next < nd.stop - 1 := h2
  dsimp only at h3 s3 s4
  have hne : value cfg f (sorted b.next) < value cfg f (sorted (b.next + 1)) := by
    refine lt_of_le_of_ne (hs _ _ h1 (by omega) (by omega)) fun e => ?_
    rw [← e] at s3
    by_cases c : s < b.next
    · rw [s4 c] at s3; cases s3
    · have : s = b.next := by omega
      rw [this, hnear] at s3
      cases s3
  obtain ⟨m1, m2⟩ := hmid _ _ hne
  rw [← h3] at m1 m2
  -- no sample of the node has the threshold as its value
  have side : ∀ q, nd.start ≤ q → q < nd.stop →
      (value cfg f (samp q) ≤ b.thr ↔ value cfg f (samp q) < b.thr) := by
    intro q q1 q2
    obtain ⟨t, t1, t2, t3⟩ := ho.mem' q1 q2
    rw [t3]
    refine ⟨fun hh => ?_, fun hh => hh.le⟩
    by_cases c : t ≤ b.next
    · exact lt_of_le_of_lt (hs t b.next t1 c (by omega)) m1
    · exact absurd (lt_of_lt_of_le m2 (hs (b.next + 1) t (by omega) (by omega) t2)) (not_lt.2 hh)
  intro samp1 samp2 m hsh hrun p hp1 hp2
  have key := partition_agrees _ _ samp1 samp2 nd.start (nd.stop - 1) m (by omega)
    (fun i _ _ => by
      rw [hops, hle]
      exact Bool.eq_iff_iff.2 (by simp)) (by
      obtain ⟨q, q1, q2, q3⟩ := ho.mem (show nd.start ≤ b.next + 1 by omega)
        (show b.next + 1 < nd.stop by omega)
      obtain ⟨t, t1, t2, t3⟩ := hsh.mem' q1 q2
      refine ⟨t, t1, by omega, ?_⟩
      rw [← t3, ← q3, hle]
      exact decide_eq_false (not_le.2 m2)) hrun p hp1 (by omega)
  rw [key]
  obtain ⟨a, _, _⟩ := runPartition_rearr cfg (.continuous f b.thr) samp1 samp2 nd.start
    (nd.stop - 1) m (by omega) hrun
  obtain ⟨q, q1, q2, q3⟩ := (hsh.trans (shuf_of_rearr a (by omega))).mem hp1 hp2
  have e := side q q1 q2
  rw [q3]
  simp only [goLeft, sampleValues, hops, hle, decide_eq_true_eq]
  exact e

end order

/-- The samples stay those the fit started with. -/
theorem reach_shuf (hm : 1 ≤ cfg.minNode) (samp0 : Nat → Nat) (nObs depth0 : Nat) (h0 : 0 < nObs)
    (st : State α S) (h : Reach cfg samp0 nObs depth0 st) : Shuf 0 nObs samp0 st.samp := by
  induction h with
  | init => exact Shuf.refl _ _ _
  | leaf st i rest nd samp' st' hr hs hn hsh ht ih =>
    have hI := reach_inv cfg hm samp0 nObs depth0 h0 st hr
    have hr := hI.range i nd hn
    have e := treat_leaf cfg { st with stack := rest, samp := samp' } st' i nd hn ht
    rw [e]
    exact ih.trans (Shuf.widen hsh (Nat.zero_le _) hr.2 hr.1)
  | split st i rest nd samp' s ls rs st' hr hs hn hsh _ ht ih =>
    have hI := reach_inv cfg hm samp0 nObs depth0 h0 st hr
    obtain ⟨a, ha, hl, hlt⟩ := hI.stack i (by rw [hs]; exact List.mem_cons_self)
    rw [hn] at ha
    cases ha
    have hr := hI.range i nd hn
    obtain ⟨samp2, cut, _, h2, h3, h4, e⟩ :=
      treat_split cfg { st with stack := rest, samp := samp' } st' i nd s ls rs hn hlt ht
    rw [e]
    exact (ih.trans (Shuf.widen hsh (Nat.zero_le _) hr.2 hr.1)).trans
      (Shuf.widen h2 (Nat.zero_le _) hr.2 hr.1)

end Verif.Tree
