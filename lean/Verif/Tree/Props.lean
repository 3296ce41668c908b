import Verif.Tree.Sound

/-!
# C28, C52, C54, C55: fitted trees
-/

namespace Verif.Tree

open Verif.TreeSplit (Samples)

variable {α S : Type}

/-- The values of a training sample. -/
def row (cfg : Cfg α S) (s : Nat) : Nat → α := fun f => cfg.data.x (cfg.data.ldx * f + s)

/-- C28 for one training set: when training ends, following the tree from the root with the sample at
position `p` leads to a leaf whose range contains `p`, and no other leaf's range does; and the walk from
the root ends in a leaf for any point. -/
def Home (cfg : Cfg α S) (samp0 : Nat → Nat) (nObs : Nat) : Prop :=
  ∀ (depth0 : Nat) (st : State α S), Reach cfg samp0 nObs depth0 st → st.stack = [] →
    (∀ p, p < nObs → ∃ k, follow st.nodes (goLeft cfg.ops (row cfg (st.samp p))) st.nodes.length 0 = some k ∧
      (∃ x, st.nodes[k]? = some x ∧ x.inner = none ∧ x.start ≤ p ∧ p < x.stop) ∧
      ∀ j x, st.nodes[j]? = some x → x.inner = none → x.start ≤ p → p < x.stop → j = k) ∧
    ∀ point : Nat → α, ∃ k x, follow st.nodes (goLeft cfg.ops point) st.nodes.length 0 = some k ∧
      st.nodes[k]? = some x ∧ x.inner = none

/-- What is given: values in a total order (no NaN), labels below `n_class`, at least one sample, each
drawn at least once, the options within their bounds, a rounded midpoint not outside its interval, and
bins computed from sorted thresholds (C27, C51). -/
structure Sane [LinearOrder α] (cfg : Cfg α S) (samp0 : Nat → Nat) (nObs : Nat) : Prop where
  obs : 0 < nObs
  minNode : 1 ≤ cfg.minNode
  classes : 1 ≤ cfg.nClass
  lt : ∀ a b, cfg.ops.lt a b = decide (a < b)
  le : ∀ a b, cfg.ops.le a b = decide (a ≤ b)
  irrefl : ∀ a, cfg.crit.lt a a = false
  mid : ∀ a b, a < b → a ≤ cfg.ops.num.mid a b ∧ cfg.ops.num.mid a b ≤ b
  labels : ∀ p, p < nObs → cfg.sm.y (samp0 p) < cfg.nClass
  drawn : ∀ p, p < nObs → 1 ≤ cfg.sm.w (samp0 p)
  ldx : cfg.data.nSamples ≤ cfg.data.ldx
  thr : cfg.useHist = true → ∀ f i j, i ≤ j → j < cfg.nBins f - 1 → cfg.thr f i ≤ cfg.thr f j
  bins : cfg.useHist = true → ∀ f p, p < nObs → cfg.data.binned (f * cfg.data.nSamples + samp0 p) =
    Histogram.binSearch (fun t => decide (row cfg (samp0 p) f < cfg.thr f t)) 0 (cfg.nBins f - 1)

/-- C28 in full. -/
def C28_statement : Prop :=
  ∀ (α S : Type) (_ : LinearOrder α) (cfg : Cfg α S) (samp0 : Nat → Nat) (nObs : Nat),
    Sane cfg samp0 nObs → Home cfg samp0 nObs

/-- What is missing:
* raw continuous values: `feature threshold` above 0, and midpoints that differ from both values;
* raw categories split one-vs-all: no sample drawn twice;
* histograms: a leading dimension equal to the number of samples, and for one-vs-all that the values
  are the bin numbers. -/
structure Regular [LinearOrder α] (cfg : Cfg α S) (samp0 : Nat → Nat) (nObs : Nat) : Prop where
  near : cfg.useHist = false → ∀ a, cfg.ops.num.near a a = true
  mid : cfg.useHist = false → ∀ a b, a < b → a < cfg.ops.num.mid a b ∧ cfg.ops.num.mid a b < b
  once : cfg.useHist = false → ∀ f, cfg.onevall f = true → ∀ p, p < nObs → cfg.sm.w (samp0 p) = 1
  ldx : cfg.useHist = true → cfg.data.ldx = cfg.data.nSamples
  codes : cfg.useHist = true → ∀ f, cfg.onevall f = true → ∀ p, p < nObs →
    cfg.ops.round (row cfg (samp0 p) f) = cfg.data.binned (f * cfg.data.nSamples + samp0 p)

theorem C28_partial [LinearOrder α] (cfg : Cfg α S) (samp0 : Nat → Nat) (nObs : Nat)
    (h : Sane cfg samp0 nObs) (hr : Regular cfg samp0 nObs) : Home cfg samp0 nObs := by
  intro depth0 st hst _
  have hI := reach_inv cfg h.minNode samp0 nObs depth0 h.obs st hst
  have hS : Separated cfg st := by
    refine reach_separated cfg h.minNode samp0 nObs depth0 h.obs ?_ st hst
    intro st i nd s ls rs hst hI hn hlt hf
    have rng := hI.range i nd hn
    have hns := (hI.counted i nd hn).1
    have shuf := reach_shuf cfg h.minNode samp0 nObs depth0 h.obs st hst
    have hmem : ∀ (order : Nat → Nat), Shuf nd.start nd.stop st.samp order → ∀ q, nd.start ≤ q →
        q < nd.stop → ∃ p, p < nObs ∧ order q = samp0 p := by
      intro order ho q q1 q2
      obtain ⟨t, t1, t2, t3⟩ := ho.mem q1 q2
      obtain ⟨u, u1, u2, u3⟩ := shuf.mem (Nat.zero_le t) (by omega)
      exact ⟨u, u2, t3.trans u3⟩
    have hy : ∀ (order : Nat → Nat), Shuf nd.start nd.stop st.samp order → ∀ q, nd.start ≤ q →
        q < nd.stop → cfg.sm.y (order q) < cfg.nClass := by
      intro order ho q q1 q2
      obtain ⟨p, hp, e⟩ := hmem order ho q q1 q2
      rw [e]; exact h.labels p hp
    have refl := Shuf.refl nd.start nd.stop st.samp
    cases hf with
    | continuous f sorted b h1 h2 h3 h4 h5 h6 =>
      exact agrees_continuous cfg nd st.samp sorted f b hlt h.minNode h.lt h.le h.irrefl
        (hr.near h1) (hr.mid h1) h3 h4 h6
    | category f order b h1 h2 h3 h4 h5 =>
      refine agrees_category cfg nd st.samp order f b hlt h.minNode hns h3 (hy order h3) ?_
        (fun q q1 q2 => (h4 q q1 q2).1) h5
      intro q q1 q2
      obtain ⟨p, hp, e⟩ := hmem order h3 q q1 q2
      rw [e]; exact hr.once h1 f h2 p hp
    | ordered f s0 b h1 h2 h3 h4 =>
      refine agrees_ordered cfg nd st.samp f s0 b hlt h.minNode (hr.ldx h1) h.lt hns (hy _ refl)
        (h.thr h1 f) ?_ h4
      intro q q1 q2
      obtain ⟨p, hp, e⟩ := hmem _ refl q q1 q2
      rw [e]
      unfold Partition.binOf
      rw [h.bins h1 f p hp]
      congr 1
      funext t
      exact (h.lt _ _).symm
    | oneBin f s0 b h1 h2 h3 h4 =>
      refine agrees_oneBin cfg nd st.samp f s0 b hlt h.minNode (hr.ldx h1) hns (hy _ refl) ?_ h4
      intro q q1 q2
      obtain ⟨p, hp, e⟩ := hmem _ refl q q1 q2
      rw [e]
      exact hr.codes h1 f h2 p hp
  obtain ⟨r, r1, r2, r3⟩ := hI.top
  have h0 : 0 < st.nodes.length := (List.getElem?_eq_some_iff.1 r1).1
  refine ⟨fun p hp => ?_, fun point => ?_⟩
  · obtain ⟨k, x, e1, e2, e3, e4, e5⟩ := follow_home cfg nObs depth0 st hI hS p st.nodes.length 0 r r1
      (by omega) (by omega) (by omega)
    refine ⟨k, e1, ⟨x, e2, e3, e4, e5⟩, fun j y a b c d => ?_⟩
    by_contra hne
    have := hI.apart j k y x hne a b e2 e3
    omega
  · obtain ⟨k, x, e⟩ := follow_leaf cfg nObs depth0 st hI (goLeft cfg.ops point) st.nodes.length 0 h0
      (by omega)
    exact ⟨k, x, e⟩

theorem covered (cfg : Cfg α S) (nObs depth0 : Nat) (st : State α S) (hI : Inv cfg nObs depth0 st)
    (p : Nat) : ∀ (fuel i : Nat) (x : Node α S), st.nodes[i]? = some x → x.start ≤ p → p < x.stop →
    st.nodes.length - i ≤ fuel →
    ∃ (k : Nat) (y : Node α S), st.nodes[k]? = some y ∧ y.inner = none ∧ y.start ≤ p ∧ p < y.stop
  | 0, i, x, e, _, _, h => by have := (List.getElem?_eq_some_iff.1 e).1; omega
  | fuel + 1, i, x, e, h1, h2, h => by
    cases hin : x.inner with
    | none => exact ⟨i, x, e, hin, h1, h2⟩
    | some t =>
      obtain ⟨s, l, r⟩ := t
      obtain ⟨a, b, xl, xr, c, d, e1, e2, e3, _⟩ := hI.inner i x s l r e hin
      by_cases hp : p < xl.stop
      · exact covered cfg nObs depth0 st hI p fuel l xl c (by omega) hp (by omega)
      · exact covered cfg nObs depth0 st hI p fuel r xr d (by omega) (by omega) (by omega)

/-- What holds of C28 without any condition on the values, at every moment: every walk from the root,
whatever the tests at the inner nodes give, ends in a leaf; the samples are those given, in some order;
and each position is in the range of exactly one leaf. -/
theorem C28_ends (cfg : Cfg α S) (samp0 : Nat → Nat) (nObs depth0 : Nat) (h0 : 0 < nObs)
    (hm : 1 ≤ cfg.minNode) (st : State α S) (h : Reach cfg samp0 nObs depth0 st) :
    (∀ test : Split α → Bool, ∃ k x, follow st.nodes test st.nodes.length 0 = some k ∧
      st.nodes[k]? = some x ∧ x.inner = none) ∧
    (((List.range nObs).map st.samp).Perm ((List.range nObs).map samp0)) ∧
    ∀ p, p < nObs → ∃ k : Nat, (∃ x : Node α S, st.nodes[k]? = some x ∧ x.inner = none ∧ x.start ≤ p ∧
      p < x.stop) ∧
      ∀ (j : Nat) (x : Node α S), st.nodes[j]? = some x → x.inner = none → x.start ≤ p → p < x.stop →
        j = k := by
  have hI := reach_inv cfg hm samp0 nObs depth0 h0 st h
  obtain ⟨r, r1, r2, r3⟩ := hI.top
  refine ⟨fun test => ?_, ?_, fun p hp => ?_⟩
  · obtain ⟨k, x, e⟩ := follow_leaf cfg nObs depth0 st hI test st.nodes.length 0
      (List.getElem?_eq_some_iff.1 r1).1 (by omega)
    exact ⟨k, x, e⟩
  · have := (reach_shuf cfg hm samp0 nObs depth0 h0 st h).1
    rw [Nat.sub_zero, ← List.range_eq_range'] at this
    exact this
  · obtain ⟨k, x, e1, e2, e3, e4⟩ := covered cfg nObs depth0 st hI p st.nodes.length 0 r r1 (by omega)
      (by omega) (by omega)
    refine ⟨k, ⟨x, e1, e2, e3, e4⟩, fun j y a b c d => ?_⟩
    by_contra hne
    have := hI.apart j k y x hne a b e1 e2
    omega

/-! ### C54: the numbers in a leaf -/

/-- Weight of one class, and of all, in the samples at positions `start .. stop - 1`. -/
def classTotal (sm : Samples) (samp : Nat → Nat) (k start stop : Nat) : Int :=
  ((List.range' start (stop - start)).map fun i => if sm.y (samp i) = k then (sm.w (samp i) : Int) else 0).sum

def total (sm : Samples) (samp : Nat → Nat) (start stop : Nat) : Int :=
  ((List.range' start (stop - start)).map fun i => (sm.w (samp i) : Int)).sum

theorem argmax_spec (f : Nat → Int) : ∀ n, 1 ≤ n → argmax f n < n ∧ (∀ k, k < n → f k ≤ f (argmax f n)) ∧
    ∀ k, k < argmax f n → f k < f (argmax f n)
  | 0, h => by omega
  | 1, _ => by
    have e : argmax f 1 = 0 := by simp [argmax]
    rw [e]
    refine ⟨by omega, fun k hk => ?_, fun k hk => by omega⟩
    have : k = 0 := by omega
    rw [this]
  | n + 2, _ => by
    obtain ⟨h1, h2, h3⟩ := argmax_spec f (n + 1) (by omega)
    rw [argmax]
    generalize argmax f (n + 1) = a at *
    by_cases c : f a < f (n + 1)
    · rw [if_pos c]
      refine ⟨by omega, fun k hk => ?_, fun k hk => ?_⟩
      · by_cases e : k = n + 1
        · rw [e]
        · have := h2 k (by omega); omega
      · have := h2 k hk; omega
    · rw [if_neg c]
      refine ⟨by omega, fun k hk => ?_, h3⟩
      by_cases e : k = n + 1
      · rw [e]; omega
      · exact h2 k (by omega)

/-- C54: at the end of training, with any comparisons of values whatever (NaN, ties, rounding), the
class stored in a node is the smallest among the most frequent classes of the samples in its range, and
the proportions stored are those of its classes. -/
theorem C54_leaf (cfg : Cfg α S) (samp0 : Nat → Nat) (nObs depth0 : Nat) (h0 : 0 < nObs)
    (hm : 1 ≤ cfg.minNode) (hc : 1 ≤ cfg.nClass) (st : State α S) (h : Reach cfg samp0 nObs depth0 st)
    (j : Nat) (x : Node α S) (hx : st.nodes[j]? = some x) :
    x.ns = total cfg.sm st.samp x.start x.stop ∧
    (∀ k, x.counts k = classTotal cfg.sm st.samp k x.start x.stop) ∧
    x.pred < cfg.nClass ∧
    (∀ k, k < cfg.nClass →
      classTotal cfg.sm st.samp k x.start x.stop ≤ classTotal cfg.sm st.samp x.pred x.start x.stop) ∧
    ∀ k, k < x.pred →
      classTotal cfg.sm st.samp k x.start x.stop < classTotal cfg.sm st.samp x.pred x.start x.stop := by
  obtain ⟨h1, h2, h3⟩ := (reach_inv cfg hm samp0 nObs depth0 h0 st h).counted j x hx
  have e : ∀ k, x.counts k = classTotal cfg.sm st.samp k x.start x.stop := by
    intro k
    rw [h2]
    unfold classCounts classTotal
    rw [addAll_snd]
    simp
  obtain ⟨a, b, c⟩ := argmax_spec x.counts cfg.nClass hc
  rw [← h3] at a b c
  refine ⟨?_, e, a, fun k hk => ?_, fun k hk => ?_⟩
  · rw [h1]
    unfold weightOf total
    rw [addAll_fst]
    simp
  · rw [← e, ← e]; exact b k hk
  · rw [← e, ← e]; exact c k hk

/-! ### C55: the numbers reported for a tree -/

/-- C55 for one training set and one value of `depth` left by an earlier fit. -/
def Reported (cfg : Cfg α S) (samp0 : Nat → Nat) (nObs depth0 : Nat) : Prop :=
  ∀ st : State α S, Reach cfg samp0 nObs depth0 st → st.stack = [] →
    st.nLeaves = st.nodes.countP (fun x => x.inner.isNone) ∧
    (∀ (j : Nat) (x : Node α S), st.nodes[j]? = some x → x.depth ≤ st.depth) ∧
    ∃ (j : Nat) (x : Node α S), st.nodes[j]? = some x ∧ x.depth = st.depth

/-- C55: the reported numbers of leaves and of levels are those of the tree, unless the maximum depth is
0 or the handle was fitted before. -/
theorem C55_partial (cfg : Cfg α S) (samp0 : Nat → Nat) (nObs : Nat) (h0 : 0 < nObs)
    (hm : 1 ≤ cfg.minNode) (hd : 0 < cfg.maxDepth) : Reported cfg samp0 nObs 0 := by
  intro st h hs
  have hI := reach_inv cfg hm samp0 nObs 0 h0 st h
  refine ⟨?_, hI.deep, ?_⟩
  · have := reach_leaves cfg hm samp0 nObs 0 h0 hd st h
    rw [hs] at this
    exact this
  · rcases hI.attained with e | e
    · obtain ⟨r, r1, _⟩ := hI.top
      have := hI.deep 0 r r1
      exact ⟨0, r, r1, by omega⟩
    · exact e

/-! ### C52: probabilities -/

/-- C52 for one training set: `predict_proba` ends in the leaf of `predict`, for any point. -/
def SameLeaf (cfg : Cfg α S) (samp0 : Nat → Nat) (nObs : Nat) : Prop :=
  ∀ (depth0 : Nat) (st : State α S), Reach cfg samp0 nObs depth0 st → st.stack = [] →
    ∀ point : Nat → α, follow st.nodes (goLeftProba cfg.ops point) st.nodes.length 0 =
      follow st.nodes (goLeft cfg.ops point) st.nodes.length 0

/-- C52 in full. -/
def C52_statement : Prop :=
  ∀ (α S : Type) (_ : LinearOrder α) (cfg : Cfg α S) (samp0 : Nat → Nat) (nObs : Nat),
    Sane cfg samp0 nObs → SameLeaf cfg samp0 nObs

theorem follow_congr (nodes : List (Node α S)) (t t' : Split α → Bool)
    (h : ∀ x ∈ nodes, ∀ s l r, x.inner = some (s, l, r) → t s = t' s) :
    ∀ fuel i, follow nodes t fuel i = follow nodes t' fuel i
  | 0, _ => rfl
  | fuel + 1, i => by
    rw [follow, follow]
    cases e : nodes[i]? with
    | none => rfl
    | some x =>
      dsimp only
      cases e' : x.inner with
      | none => rfl
      | some t =>
        obtain ⟨s, l, r⟩ := t
        dsimp only
        rw [h x (List.mem_of_getElem? e) s l r e', follow_congr nodes _ _ h fuel]

/-- C52 for a tree without one-vs-all splits. -/
theorem C52_partial (cfg : Cfg α S) (samp0 : Nat → Nat) (nObs : Nat) (h0 : 0 < nObs)
    (hm : 1 ≤ cfg.minNode) (hv : ∀ f, cfg.onevall f = false) : SameLeaf cfg samp0 nObs := by
  intro depth0 st hst _ point
  apply follow_congr
  have key : ∀ (j : Nat) (x : Node α S), st.nodes[j]? = some x → ∀ s l r, x.inner = some (s, l, r) →
      goLeftProba cfg.ops point s = goLeft cfg.ops point s := by
    clear * - hst h0 hm hv
    induction hst with
    | init =>
      intro j x hx s l r hin
      have : x = root cfg samp0 nObs := by
        cases j with
        | zero => cases hx; rfl
        | succ j => simp [init] at hx
      subst this
      cases hin
    | leaf st i rest nd samp' st' hr hs hn hsh ht ih =>
      have e := treat_leaf cfg { st with stack := rest, samp := samp' } st' i nd hn ht
      rw [e]
      exact ih
    | split st i rest nd samp' s ls rs st' hr hs hn hsh hf ht ih =>
      have hI := reach_inv cfg hm samp0 nObs depth0 h0 st hr
      obtain ⟨a, ha, hl, hlt⟩ := hI.stack i (by rw [hs]; exact List.mem_cons_self)
      rw [hn] at ha
      cases ha
      obtain ⟨samp2, cut, _, h2, h3, h4, e⟩ :=
        treat_split cfg { st with stack := rest, samp := samp' } st' i nd s ls rs hn hlt ht
      rw [e]
      intro j x hx s' l r hin
      rcases after_nodes cfg { st with stack := rest, samp := samp' } i nd s ls rs samp2 cut hn j x hx
        with ⟨_, _, h⟩ | ⟨rfl, rfl⟩ | ⟨_, rfl⟩ | ⟨_, rfl⟩
      · exact ih j x h s' l r hin
      · cases hin
        cases hf with
        | continuous => rfl
        | category f _ _ _ h => rw [hv f] at h; cases h
        | ordered => rfl
        | oneBin f _ _ _ h => rw [hv f] at h; cases h
      · cases hin
      · cases hin
  intro x hx s l r hin
  obtain ⟨j, hj⟩ := List.getElem?_of_mem hx
  exact key j x hj s l r hin

end Verif.Tree
