import Verif.Tree.Proof
import Mathlib.Data.List.Count

/-!
# Proofs about the growth of a tree: prediction follows training
-/

namespace Verif.Tree

variable {α S : Type} (cfg : Cfg α S)

theorem reach_inv (hm : 1 ≤ cfg.minNode) (samp0 : Nat → Nat) (nObs depth0 : Nat) (h0 : 0 < nObs)
    (st : State α S) (h : Reach cfg samp0 nObs depth0 st) : Inv cfg nObs depth0 st := by
  induction h with
  | init => exact inv_init cfg samp0 nObs depth0 h0
  | leaf st i rest nd samp' st' _ hs hn hsh ht ih =>
    have e := treat_leaf cfg { st with stack := rest, samp := samp' } st' i nd hn ht
    rw [e]
    exact inv_leaf cfg nObs depth0 st i rest nd samp' ih hs hn hsh _
  | split st i rest nd samp' s ls rs st' _ hs hn hsh _ ht ih =>
    obtain ⟨a, ha, hl, hlt⟩ := ih.stack i (by rw [hs]; exact List.mem_cons_self)
    rw [hn] at ha
    cases ha
    have ih1 := inv_leaf cfg nObs depth0 st i rest nd samp' ih hs hn hsh st.nLeaves
    obtain ⟨samp2, cut, _, h2, h3, h4, e⟩ := treat_split cfg { st with stack := rest, samp := samp' } st' i nd s ls rs hn hlt ht
    rw [e]
    refine inv_split cfg nObs depth0 hm { st with stack := rest, samp := samp' } i nd samp2 cut s ls rs ih1 hn hl ?_ h2 h3 h4
    have := ih.nodup
    rw [hs] at this
    exact (List.nodup_cons.1 this).1

/-- The values of a sample. -/
def sampleValues (s : Nat) : Nat → α := fun f => value cfg f s

/-- A split whose partition agrees with prediction on the samples of the node. -/
def Agrees (nd : Node α S) (samp : Nat → Nat) (s : Split α) : Prop :=
  ∀ samp1 samp2 (m : Int), Shuf nd.start nd.stop samp samp1 →
    runPartition cfg s samp1 nd.start (nd.stop - 1) = some (samp2, m) →
    ∀ p : Nat, nd.start ≤ p → p < nd.stop →
      ((p : Int) ≤ m ↔ goLeft cfg.ops (sampleValues cfg (samp2 p)) s = true)

/-- In every inner node the samples of the left child pass its test and those of the right do not. -/
def Separated (st : State α S) : Prop :=
  ∀ (j : Nat) (x xl xr : Node α S) (s : Split α) (l r : Nat), st.nodes[j]? = some x →
    x.inner = some (s, l, r) → st.nodes[l]? = some xl → st.nodes[r]? = some xr →
    (∀ p, xl.start ≤ p → p < xl.stop → goLeft cfg.ops (sampleValues cfg (st.samp p)) s = true) ∧
    (∀ p, xr.start ≤ p → p < xr.stop → goLeft cfg.ops (sampleValues cfg (st.samp p)) s = false)

/-- A statement about all samples of a range is not changed by a rearrangement within it or apart. -/
theorem all_shuf {lo hi lo' hi' : Nat} {a b : Nat → Nat} (P : Nat → Prop) (h : Shuf lo hi a b)
    (h3 : lo ≤ hi) (h1 : (lo' ≤ lo ∧ hi ≤ hi') ∨ hi ≤ lo' ∨ hi' ≤ lo)
    (hP : ∀ p, lo' ≤ p → p < hi' → P (a p)) : ∀ p, lo' ≤ p → p < hi' → P (b p) := by
  intro p hp hp'
  rcases h1 with ⟨x, y⟩ | h1
  · obtain ⟨q, q1, q2, q3⟩ := (h.widen x y h3).mem hp hp'
    rw [q3]
    exact hP q q1 q2
  · rw [h.2 p (by omega)]
    exact hP p hp hp'

theorem separated_leaf (nObs depth0 : Nat) (st : State α S) (i : Nat) (rest : List Nat) (nd : Node α S)
    (samp' : Nat → Nat) (hI : Inv cfg nObs depth0 st) (hn : st.nodes[i]? = some nd)
    (hl : nd.inner = none) (hlt : nd.start < nd.stop)
    (hsh : Shuf nd.start nd.stop st.samp samp') (k : Nat) (hS : Separated cfg st) :
    Separated cfg { st with stack := rest, samp := samp', nLeaves := k } := by
  intro j x xl xr s l r hx hin hxl hxr
  obtain ⟨h1, h2⟩ := hS j x xl xr s l r hx hin hxl hxr
  exact ⟨all_shuf (fun q => goLeft cfg.ops (sampleValues cfg q) s = true) hsh (by omega)
      (hI.within i l nd xl hn hl hxl) h1,
    all_shuf (fun q => goLeft cfg.ops (sampleValues cfg q) s = false) hsh (by omega)
      (hI.within i r nd xr hn hl hxr) h2⟩

theorem separated_split (nObs depth0 : Nat) (st : State α S) (i : Nat)
    (nd : Node α S) (samp0 samp' : Nat → Nat) (cut : Nat) (s : Split α) (ls rs : S)
    (hI : Inv cfg nObs depth0 st) (hn : st.nodes[i]? = some nd) (hl : nd.inner = none)
    (hsh : Shuf nd.start nd.stop st.samp samp') (h1 : nd.start ≤ cut)
    (h2 : cut < nd.stop) (h0 : Shuf nd.start nd.stop samp0 st.samp)
    (hA : Agrees cfg nd samp0 s)
    (hrun : runPartition cfg s st.samp nd.start (nd.stop - 1) = some (samp', (cut : Int) - 1))
    (hS : Separated cfg st) : Separated cfg (after cfg st i nd s ls rs samp' cut) := by
  have cases := after_nodes cfg st i nd s ls rs samp' cut hn
  have right := after_right cfg st i nd s ls rs samp' cut
  have left := after_left cfg st i nd s ls rs samp' cut
  intro j x xl xr s' l r hx hin hxl hxr
  show (∀ p, xl.start ≤ p → p < xl.stop → goLeft cfg.ops (sampleValues cfg (samp' p)) s' = true) ∧
    (∀ p, xr.start ≤ p → p < xr.stop → goLeft cfg.ops (sampleValues cfg (samp' p)) s' = false)
  rcases cases j x hx with ⟨_, _, h⟩ | ⟨rfl, rfl⟩ | ⟨_, rfl⟩ | ⟨_, rfl⟩
  · obtain ⟨_, _, yl, yr, e1, e2, _⟩ := hI.inner j x s' l r h hin
    obtain ⟨h5, h6⟩ := hS j x yl yr s' l r h hin e1 e2
    have same : ∀ (k : Nat) (y y' : Node α S), st.nodes[k]? = some y →
        (after cfg st i nd s ls rs samp' cut).nodes[k]? = some y' →
        y'.start = y.start ∧ y'.stop = y.stop := by
      intro k y y' hy hy'
      have hk : k < st.nodes.length := (List.getElem?_eq_some_iff.1 hy).1
      rcases cases k y' hy' with ⟨_, _, h⟩ | ⟨rfl, rfl⟩ | ⟨rfl, rfl⟩ | ⟨rfl, rfl⟩
      · rw [hy] at h; cases h; exact ⟨rfl, rfl⟩
      · rw [hn] at hy; cases hy; exact ⟨rfl, rfl⟩
      · omega
      · omega
    obtain ⟨a1, a2⟩ := same l yl xl e1 hxl
    obtain ⟨b1, b2⟩ := same r yr xr e2 hxr
    rw [a1, a2, b1, b2]
    exact ⟨all_shuf (fun q => goLeft cfg.ops (sampleValues cfg q) s' = true) hsh (by omega)
        (hI.within i l nd yl hn hl e1) h5,
      all_shuf (fun q => goLeft cfg.ops (sampleValues cfg q) s' = false) hsh (by omega)
        (hI.within i r nd yr hn hl e2) h6⟩
  · cases hin
    rw [left] at hxl
    rw [right] at hxr
    cases hxl
    cases hxr
    have key := hA st.samp samp' ((cut : Int) - 1) h0 hrun
    refine ⟨fun p hp hp' => ?_, fun p hp hp' => ?_⟩
    · have hp : nd.start ≤ p := hp
      have hp' : p < cut := hp'
      exact (key p hp (by omega)).1 (by omega)
    · have hp : cut ≤ p := hp
      have hp' : p < nd.stop := hp'
      have := (key p (by omega) hp').not
      rw [Bool.not_eq_true] at this
      exact this.1 (by omega)
  · cases hin
  · cases hin

/-- When every split found agrees with prediction, the tree separates the training samples. -/
theorem reach_separated (hm : 1 ≤ cfg.minNode) (samp0 : Nat → Nat) (nObs depth0 : Nat) (h0 : 0 < nObs)
    (hF : ∀ (st : State α S) (i : Nat) (nd : Node α S) (s : Split α) (ls rs : S),
      Reach cfg samp0 nObs depth0 st → Inv cfg nObs depth0 st → st.nodes[i]? = some nd →
      nd.start < nd.stop → Found cfg st.samp nd s ls rs → Agrees cfg nd st.samp s)
    (st : State α S) (h : Reach cfg samp0 nObs depth0 st) : Separated cfg st := by
  induction h with
  | init =>
    intro j x xl xr s l r hx hin
    have : x = root cfg samp0 nObs := by
      cases j with
      | zero => cases hx; rfl
      | succ j => simp [init] at hx
    subst this
    cases hin
  | leaf st i rest nd samp' st' hr hs hn hsh ht ih =>
    have hI := reach_inv cfg hm samp0 nObs depth0 h0 st hr
    obtain ⟨a, ha, hl, hlt⟩ := hI.stack i (by rw [hs]; exact List.mem_cons_self)
    rw [hn] at ha
    cases ha
    have e := treat_leaf cfg { st with stack := rest, samp := samp' } st' i nd hn ht
    rw [e]
    exact separated_leaf cfg nObs depth0 st i rest nd samp' hI hn hl hlt hsh _ ih
  | split st i rest nd samp' s ls rs st' hr hs hn hsh hf ht ih =>
    have hI := reach_inv cfg hm samp0 nObs depth0 h0 st hr
    obtain ⟨a, ha, hl, hlt⟩ := hI.stack i (by rw [hs]; exact List.mem_cons_self)
    rw [hn] at ha
    cases ha
    have ih1 := inv_leaf cfg nObs depth0 st i rest nd samp' hI hs hn hsh st.nLeaves
    have ih2 := separated_leaf cfg nObs depth0 st i rest nd samp' hI hn hl hlt hsh st.nLeaves ih
    obtain ⟨samp2, cut, hrun, h2, h3, h4, e⟩ := treat_split cfg { st with stack := rest, samp := samp' } st' i nd s ls rs hn hlt ht
    rw [e]
    exact separated_split cfg nObs depth0 { st with stack := rest, samp := samp' } i nd st.samp samp2 cut s ls rs ih1 hn hl h2 h3 h4 hsh
      (hF st i nd s ls rs hr hI hn hlt hf) hrun ih2

/-! ### The walk -/

/-- Every walk ends in a leaf. -/
theorem follow_leaf (nObs depth0 : Nat) (st : State α S) (hI : Inv cfg nObs depth0 st)
    (test : Split α → Bool) : ∀ (fuel i : Nat), i < st.nodes.length → st.nodes.length - i ≤ fuel →
    ∃ k x, follow st.nodes test fuel i = some k ∧ st.nodes[k]? = some x ∧ x.inner = none
  | 0, i, h1, h2 => by omega
  | fuel + 1, i, h1, h2 => by
    rw [follow]
    have e : st.nodes[i]? = some st.nodes[i] := List.getElem?_eq_getElem h1
    generalize st.nodes[i] = x at e
    rw [e]
    dsimp only
    cases hin : x.inner with
    | none => exact ⟨i, x, rfl, e, hin⟩
    | some t =>
      obtain ⟨s, l, r⟩ := t
      obtain ⟨a, b, xl, xr, c, d, _⟩ := hI.inner i x s l r e hin
      have c' := (List.getElem?_eq_some_iff.1 c).1
      have d' := (List.getElem?_eq_some_iff.1 d).1
      dsimp only
      by_cases ht : test s = true
      · rw [if_pos ht]
        exact follow_leaf nObs depth0 st hI test fuel l c' (by omega)
      · rw [if_neg ht]
        exact follow_leaf nObs depth0 st hI test fuel r d' (by omega)

/-- A training sample stays within the range that contains it. -/
theorem follow_home (nObs depth0 : Nat) (st : State α S) (hI : Inv cfg nObs depth0 st)
    (hS : Separated cfg st) (p : Nat) : ∀ (fuel i : Nat) (x : Node α S), st.nodes[i]? = some x →
    x.start ≤ p → p < x.stop → st.nodes.length - i ≤ fuel →
    ∃ k y, follow st.nodes (goLeft cfg.ops (sampleValues cfg (st.samp p))) fuel i = some k ∧
      st.nodes[k]? = some y ∧ y.inner = none ∧ y.start ≤ p ∧ p < y.stop
  | 0, i, x, e, _, _, h2 => by
    have := (List.getElem?_eq_some_iff.1 e).1
    omega
  | fuel + 1, i, x, e, h1, h2, h3 => by
    rw [follow, e]
    dsimp only
    cases hin : x.inner with
    | none => exact ⟨i, x, rfl, e, hin, h1, h2⟩
    | some t =>
      obtain ⟨s, l, r⟩ := t
      obtain ⟨a, b, xl, xr, c, d, e1, e2, e3, _⟩ := hI.inner i x s l r e hin
      obtain ⟨sl, sr⟩ := hS i x xl xr s l r e hin c d
      dsimp only
      by_cases hp : p < xl.stop
      · rw [if_pos (sl p (by omega) hp)]
        exact follow_home nObs depth0 st hI hS p fuel l xl c (by omega) hp (by omega)
      · have := sr p (by omega) (by omega)
        rw [if_neg (by rw [this]; decide)]
        exact follow_home nObs depth0 st hI hS p fuel r xr d (by omega) (by omega) (by omega)

/-! ### The number of leaves -/

def leafCount (nodes : List (Node α S)) : Nat := nodes.countP fun x => x.inner.isNone

theorem leafCount_after (st : State α S) (i : Nat) (nd : Node α S) (s : Split α) (ls rs : S)
    (samp' : Nat → Nat) (cut : Nat) (hn : st.nodes[i]? = some nd) (hl : nd.inner = none) :
    leafCount (after cfg st i nd s ls rs samp' cut).nodes = leafCount st.nodes + 1 := by
  obtain ⟨hlt, e⟩ := List.getElem?_eq_some_iff.1 hn
  have hpos : 0 < st.nodes.countP fun x => x.inner.isNone := by
    rw [List.countP_pos_iff]
    exact ⟨nd, List.mem_of_getElem? hn, by rw [hl]; rfl⟩
  unfold leafCount after
  dsimp only
  rw [List.countP_append, List.countP_set hlt, e, hl]
  simp [child]
  omega

theorem reach_leaves (hm : 1 ≤ cfg.minNode) (samp0 : Nat → Nat) (nObs depth0 : Nat) (h0 : 0 < nObs)
    (hd : 0 < cfg.maxDepth) (st : State α S) (h : Reach cfg samp0 nObs depth0 st) :
    st.nLeaves + st.stack.length = leafCount st.nodes := by
  induction h with
  | init => simp [init, hd, leafCount, root]
  | leaf st i rest nd samp' st' _ hs hn hsh ht ih =>
    have e := treat_leaf cfg { st with stack := rest, samp := samp' } st' i nd hn ht
    rw [hs] at ih
    rw [e]
    simp only [List.length_cons] at ih ⊢
    omega
  | split st i rest nd samp' s ls rs st' hr hs hn hsh _ ht ih =>
    have hI := reach_inv cfg hm samp0 nObs depth0 h0 st hr
    obtain ⟨a, ha, hl, hlt⟩ := hI.stack i (by rw [hs]; exact List.mem_cons_self)
    rw [hn] at ha
    cases ha
    obtain ⟨samp2, cut, _, h2, h3, h4, e⟩ := treat_split cfg { st with stack := rest, samp := samp' } st' i nd s ls rs hn hlt ht
    rw [e, leafCount_after cfg { st with stack := rest, samp := samp' } i nd s ls rs samp2 cut hn hl]
    rw [hs] at ih
    simp only [List.length_cons] at ih
    unfold after
    dsimp only
    rw [List.length_append, List.length_append]
    split <;> split <;> simp <;> omega

end Verif.Tree
