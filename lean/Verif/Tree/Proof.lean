import Verif.Tree.Model
import Verif.Partition.Proof

/-!
# Proofs about the growth of a tree: the nodes and their ranges
-/

namespace Verif.Tree

open Verif.Partition (Rearr)

/-! ### Rearrangements of a range -/

/-- `b` is `a` with the entries of `[lo, hi)` rearranged. -/
def Shuf (lo hi : Nat) (a b : Nat → Nat) : Prop :=
  ((List.range' lo (hi - lo)).map b).Perm ((List.range' lo (hi - lo)).map a) ∧
  ∀ i, i < lo ∨ hi ≤ i → b i = a i

theorem Shuf.trans {lo hi : Nat} {a b c : Nat → Nat} (h1 : Shuf lo hi a b) (h2 : Shuf lo hi b c) :
    Shuf lo hi a c :=
  ⟨h2.1.trans h1.1, fun i hi => (h2.2 i hi).trans (h1.2 i hi)⟩

theorem Shuf.refl (lo hi : Nat) (a : Nat → Nat) : Shuf lo hi a a := ⟨List.Perm.refl _, fun _ _ => rfl⟩

theorem shuf_of_rearr {lo end_ hi : Nat} {a b : Nat → Nat} (h : Rearr lo end_ a b) (e : end_ + 1 = hi) :
    Shuf lo hi a b := by
  subst e
  exact ⟨h.perm, fun i hi => h.outside (by omega)⟩

theorem Shuf.mem {lo hi : Nat} {a b : Nat → Nat} (h : Shuf lo hi a b) {p : Nat} (h1 : lo ≤ p)
    (h2 : p < hi) : ∃ q, lo ≤ q ∧ q < hi ∧ b p = a q := by
  have : b p ∈ (List.range' lo (hi - lo)).map a :=
    h.1.mem_iff.1 (List.mem_map.2 ⟨p, List.mem_range'_1.2 (by omega), rfl⟩)
  obtain ⟨q, hq, e⟩ := List.mem_map.1 this
  rw [List.mem_range'_1] at hq
  exact ⟨q, hq.1, by omega, e.symm⟩

theorem Shuf.mem' {lo hi : Nat} {a b : Nat → Nat} (h : Shuf lo hi a b) {p : Nat} (h1 : lo ≤ p)
    (h2 : p < hi) : ∃ q, lo ≤ q ∧ q < hi ∧ a p = b q := by
  have : a p ∈ (List.range' lo (hi - lo)).map b :=
    h.1.mem_iff.2 (List.mem_map.2 ⟨p, List.mem_range'_1.2 (by omega), rfl⟩)
  obtain ⟨q, hq, e⟩ := List.mem_map.1 this
  rw [List.mem_range'_1] at hq
  exact ⟨q, hq.1, by omega, e.symm⟩

/-- A rearrangement of a part is one of the whole. -/
theorem Shuf.widen {lo hi lo' hi' : Nat} {a b : Nat → Nat} (h : Shuf lo hi a b) (h1 : lo' ≤ lo)
    (h2 : hi ≤ hi') (h3 : lo ≤ hi) : Shuf lo' hi' a b := by
  refine ⟨?_, fun i hi => h.2 i (by omega)⟩
  have e : List.range' lo' (hi' - lo') =
      List.range' lo' (lo - lo') ++ (List.range' lo (hi - lo) ++ List.range' hi (hi' - hi)) := by
    have e1 := @List.range'_append_1 lo (hi - lo) (hi' - hi)
    rw [show lo + (hi - lo) = hi by omega] at e1
    rw [e1]
    have e2 := @List.range'_append_1 lo' (lo - lo') (hi - lo + (hi' - hi))
    rw [show lo' + (lo - lo') = lo by omega] at e2
    rw [e2]
    congr 1
    omega
  rw [e]
  simp only [List.map_append]
  refine List.Perm.append ?_ (List.Perm.append h.1 ?_)
  · refine List.Perm.of_eq (List.map_congr_left fun i hi => h.2 i ?_)
    rw [List.mem_range'_1] at hi
    omega
  · refine List.Perm.of_eq (List.map_congr_left fun i hi => h.2 i ?_)
    rw [List.mem_range'_1] at hi
    omega

/-- The samples of a range that contains the rearranged one, or is apart from it, stay the same. -/
theorem Shuf.perm {lo hi lo' hi' : Nat} {a b : Nat → Nat} (h : Shuf lo hi a b) (h3 : lo ≤ hi)
    (h1 : (lo' ≤ lo ∧ hi ≤ hi') ∨ hi ≤ lo' ∨ hi' ≤ lo) :
    ((List.range' lo' (hi' - lo')).map b).Perm ((List.range' lo' (hi' - lo')).map a) := by
  rcases h1 with ⟨x, y⟩ | h1
  · exact (h.widen x y h3).1
  · refine List.Perm.of_eq (List.map_congr_left fun i hi => h.2 i ?_)
    rw [List.mem_range'_1] at hi
    omega

/-! ### Counting -/

theorem addAll_map (sm : TreeSplit.Samples) (samp : Nat → Nat) :
    ∀ (l : List Nat) (r : Int × (Nat → Int)),
    TreeSplit.addAll sm samp l r = TreeSplit.addAll sm id (l.map samp) r
  | [], _ => rfl
  | i :: l, r => by
    rw [TreeSplit.addAll, addAll_map sm samp l]
    rfl

theorem addAll_perm (sm : TreeSplit.Samples) {l l' : List Nat} (h : l.Perm l') :
    ∀ r : Int × (Nat → Int), TreeSplit.addAll sm id l r = TreeSplit.addAll sm id l' r := by
  induction h with
  | nil => intro _; rfl
  | cons x _ ih => intro r; exact ih _
  | swap x y l =>
    intro r
    simp only [TreeSplit.addAll, id]
    congr 1
    refine Prod.ext ?_ ?_
    · show r.1 + _ + _ = r.1 + _ + _
      omega
    · funext k
      show TreeSplit.addClass _ _ _ k = TreeSplit.addClass _ _ _ k
      simp only [TreeSplit.addClass]
      by_cases h1 : k = sm.y x <;> by_cases h2 : k = sm.y y
      · rw [if_pos h1, if_pos h2, if_pos h2, if_pos h1]; omega
      · rw [if_pos h1, if_neg h2, if_neg h2, if_pos h1]
      · rw [if_neg h1, if_pos h2, if_pos h2, if_neg h1]
      · rw [if_neg h1, if_neg h2, if_neg h2, if_neg h1]
  | trans _ _ ih1 ih2 => intro r; exact (ih1 r).trans (ih2 r)

theorem classCounts_perm (sm : TreeSplit.Samples) {a b : Nat → Nat} {lo hi : Nat}
    (h : ((List.range' lo (hi - lo)).map b).Perm ((List.range' lo (hi - lo)).map a)) :
    classCounts sm b lo hi = classCounts sm a lo hi := by
  unfold classCounts
  rw [addAll_map, addAll_perm sm h, ← addAll_map]

theorem weightOf_perm (sm : TreeSplit.Samples) {a b : Nat → Nat} {lo hi : Nat}
    (h : ((List.range' lo (hi - lo)).map b).Perm ((List.range' lo (hi - lo)).map a)) :
    weightOf sm b lo hi = weightOf sm a lo hi := by
  unfold weightOf
  rw [addAll_map, addAll_perm sm h, ← addAll_map]

/-! ### The partition, whatever the tests -/

theorem loop_rearr (L R : Nat → Bool) (lo hi : Nat) : ∀ (fuel : Nat) (samp : Nat → Nat) (head tail : Nat)
    (r : (Nat → Nat) × Nat), lo ≤ head → head ≤ tail → tail ≤ hi →
    Partition.loop L R fuel samp head tail = some r →
    Rearr lo hi samp r.1 ∧ lo ≤ r.2 ∧ r.2 ≤ hi
  | 0, _, _, _, _, _, _, _, h => by cases h
  | fuel + 1, samp, head, tail, r, h1, h2, h3, h => by
    rw [Partition.loop] at h
    by_cases c : head < tail
    · rw [if_pos c] at h
      split at h
      · exact loop_rearr L R lo hi fuel samp (head + 1) tail r (by omega) (by omega) h3 h
      · split at h
        · exact loop_rearr L R lo hi fuel samp head (tail - 1) r h1 (by omega) (by omega) h
        · obtain ⟨a, b⟩ := loop_rearr L R lo hi fuel _ head tail r h1 h2 h3 h
          exact ⟨(Partition.swapAt_rearr samp h1 (by omega) (by omega) h3).trans a, b⟩
    · rw [if_neg c] at h
      cases h
      exact ⟨Rearr.refl _ _ _, h1, by show head ≤ hi; omega⟩

theorem partition_rearr (L R : Nat → Bool) (fuel : Nat) (samp samp' : Nat → Nat) (start end_ : Nat)
    (m : Int) (h : start ≤ end_) (e : Partition.partition L R fuel samp start end_ = some (samp', m)) :
    Rearr start end_ samp samp' ∧ (start : Int) ≤ m + 1 ∧ m + 1 ≤ end_ := by
  unfold Partition.partition at e
  obtain ⟨r, e1, e2⟩ := Option.map_eq_some_iff.1 e
  obtain ⟨a, b, c⟩ := loop_rearr L R start end_ fuel samp start end_ r (Nat.le_refl _) h
    (Nat.le_refl _) e1
  cases e2
  exact ⟨a, by omega, by omega⟩

variable {α S : Type} (cfg : Cfg α S)

theorem runPartition_rearr (s : Split α) (samp samp' : Nat → Nat) (start end_ : Nat)
    (m : Int) (h : start ≤ end_) (e : runPartition cfg s samp start end_ = some (samp', m)) :
    Rearr start end_ samp samp' ∧ (start : Int) ≤ m + 1 ∧ m + 1 ≤ end_ := by
  cases s <;> exact partition_rearr _ _ _ _ _ _ _ _ h e

/-! ### The shape of a step -/

/-- The state after a split. -/
def after (st : State α S) (i : Nat) (nd : Node α S) (s : Split α) (ls rs : S) (samp' : Nat → Nat)
    (cut : Nat) : State α S :=
  let n := st.nodes.length
  let r := child cfg samp' nd cut nd.stop rs
  let l := child cfg samp' nd nd.start cut ls
  { nodes := st.nodes.set i { nd with inner := some (s, n + 1, n) } ++ [r, l]
    stack := (if worth cfg l then [n + 1] else []) ++ ((if worth cfg r then [n] else []) ++ st.stack)
    samp := samp'
    nLeaves := st.nLeaves + (if worth cfg r then 0 else 1) + (if worth cfg l then 0 else 1)
    depth := max st.depth (nd.depth + 1) }

theorem treat_split (st st' : State α S) (i : Nat) (nd : Node α S) (s : Split α) (ls rs : S)
    (hn : st.nodes[i]? = some nd) (hne : nd.start < nd.stop)
    (h : treat cfg st i (some (s, ls, rs)) = some st') :
    ∃ (samp' : Nat → Nat) (cut : Nat), runPartition cfg s st.samp nd.start (nd.stop - 1) = some (samp', (cut : Int) - 1) ∧
      Shuf nd.start nd.stop st.samp samp' ∧ nd.start ≤ cut ∧ cut < nd.stop ∧
      st' = after cfg st i nd s ls rs samp' cut := by
  unfold treat at h
  rw [hn] at h
  dsimp only at h
  split at h
  · cases h
  · rename_i samp' m e
    obtain ⟨a, b, c⟩ := runPartition_rearr cfg s st.samp samp' nd.start (nd.stop - 1) m (by omega) e
    refine ⟨samp', (m + 1).toNat, ?_, shuf_of_rearr a (by omega), by omega, by omega, ?_⟩
    · rw [e]
      congr 2
      omega
    · cases h
      rfl

theorem treat_leaf (st st' : State α S) (i : Nat) (nd : Node α S)
    (hn : st.nodes[i]? = some nd) (h : treat cfg st i none = some st') :
    st' = { st with nLeaves := st.nLeaves + 1 } := by
  unfold treat at h
  rw [hn] at h
  cases h
  rfl

/-- The nodes after a split. -/
theorem after_nodes (st : State α S) (i : Nat) (nd : Node α S) (s : Split α) (ls rs : S)
    (samp' : Nat → Nat) (cut : Nat) (hn : st.nodes[i]? = some nd) (j : Nat) (x : Node α S)
    (h : (after cfg st i nd s ls rs samp' cut).nodes[j]? = some x) :
    (j ≠ i ∧ j < st.nodes.length ∧ st.nodes[j]? = some x) ∨
    (j = i ∧ x = { nd with inner := some (s, st.nodes.length + 1, st.nodes.length) }) ∨
    (j = st.nodes.length ∧ x = child cfg samp' nd cut nd.stop rs) ∨
    (j = st.nodes.length + 1 ∧ x = child cfg samp' nd nd.start cut ls) := by
  have hi : i < st.nodes.length := by
    rw [List.getElem?_eq_some_iff] at hn
    exact hn.1
  unfold after at h
  dsimp only at h
  by_cases h1 : j < st.nodes.length
  · rw [List.getElem?_append_left (by simpa using h1)] at h
    by_cases h2 : j = i
    · subst h2
      rw [List.getElem?_set_self (by simpa using h1)] at h
      cases h
      exact Or.inr (Or.inl ⟨rfl, rfl⟩)
    · rw [List.getElem?_set_ne (fun e => h2 e.symm)] at h
      exact Or.inl ⟨h2, h1, h⟩
  · rw [List.getElem?_append_right (by simpa using h1)] at h
    rw [List.length_set] at h
    obtain ⟨k, rfl⟩ : ∃ k, j = st.nodes.length + k := ⟨j - st.nodes.length, by omega⟩
    rw [Nat.add_sub_cancel_left] at h
    match k, h with
    | 0, h => cases h; exact Or.inr (Or.inr (Or.inl ⟨rfl, rfl⟩))
    | 1, h => cases h; exact Or.inr (Or.inr (Or.inr ⟨rfl, rfl⟩))
    | k + 2, h => simp at h

theorem after_old (st : State α S) (i : Nat) (nd : Node α S) (s : Split α) (ls rs : S)
    (samp' : Nat → Nat) (cut : Nat) (j : Nat) (x : Node α S) (h1 : j ≠ i)
    (h : st.nodes[j]? = some x) : (after cfg st i nd s ls rs samp' cut).nodes[j]? = some x := by
  have hj : j < st.nodes.length := (List.getElem?_eq_some_iff.1 h).1
  unfold after
  dsimp only
  rw [List.getElem?_append_left (by simpa using hj), List.getElem?_set_ne (fun e => h1 e.symm)]
  exact h

theorem after_self (st : State α S) (i : Nat) (nd : Node α S) (s : Split α) (ls rs : S)
    (samp' : Nat → Nat) (cut : Nat) (hn : st.nodes[i]? = some nd) :
    (after cfg st i nd s ls rs samp' cut).nodes[i]? =
      some { nd with inner := some (s, st.nodes.length + 1, st.nodes.length) } := by
  have hi : i < st.nodes.length := (List.getElem?_eq_some_iff.1 hn).1
  unfold after
  dsimp only
  rw [List.getElem?_append_left (by simpa using hi), List.getElem?_set_self (by simpa using hi)]

theorem after_right (st : State α S) (i : Nat) (nd : Node α S) (s : Split α) (ls rs : S)
    (samp' : Nat → Nat) (cut : Nat) :
    (after cfg st i nd s ls rs samp' cut).nodes[st.nodes.length]? =
      some (child cfg samp' nd cut nd.stop rs) := by
  unfold after
  dsimp only
  rw [List.getElem?_append_right (by simp)]
  simp

theorem after_left (st : State α S) (i : Nat) (nd : Node α S) (s : Split α) (ls rs : S)
    (samp' : Nat → Nat) (cut : Nat) :
    (after cfg st i nd s ls rs samp' cut).nodes[st.nodes.length + 1]? =
      some (child cfg samp' nd nd.start cut ls) := by
  unfold after
  dsimp only
  rw [List.getElem?_append_right (by simp)]
  simp

/-! ### The invariant -/

/-- `a` lies within `b` or apart from it. -/
def Within (a b : Node α S) : Prop :=
  (b.start ≤ a.start ∧ a.stop ≤ b.stop) ∨ a.stop ≤ b.start ∨ b.stop ≤ a.start

structure Inv (nObs depth0 : Nat) (st : State α S) : Prop where
  range : ∀ (j : Nat) (x : Node α S), st.nodes[j]? = some x → x.start ≤ x.stop ∧ x.stop ≤ nObs
  top : ∃ r : Node α S, st.nodes[0]? = some r ∧ r.start = 0 ∧ r.stop = nObs
  inner : ∀ (j : Nat) (x : Node α S) (s : Split α) (l r : Nat), st.nodes[j]? = some x → x.inner = some (s, l, r) → j < l ∧ j < r ∧
    ∃ xl xr : Node α S, st.nodes[l]? = some xl ∧ st.nodes[r]? = some xr ∧ xl.start = x.start ∧
      xl.stop = xr.start ∧ xr.stop = x.stop ∧ xl.depth = x.depth + 1 ∧ xr.depth = x.depth + 1
  within : ∀ (i j : Nat) (a b : Node α S), st.nodes[i]? = some a → a.inner = none → st.nodes[j]? = some b → Within a b
  apart : ∀ (i j : Nat) (a b : Node α S), i ≠ j → st.nodes[i]? = some a → a.inner = none → st.nodes[j]? = some b →
    b.inner = none → a.stop ≤ b.start ∨ b.stop ≤ a.start
  stack : ∀ i ∈ st.stack, ∃ a : Node α S, st.nodes[i]? = some a ∧ a.inner = none ∧ a.start < a.stop
  nodup : st.stack.Nodup
  counted : ∀ (j : Nat) (x : Node α S), st.nodes[j]? = some x → x.ns = weightOf cfg.sm st.samp x.start x.stop ∧
    x.counts = classCounts cfg.sm st.samp x.start x.stop ∧ x.pred = argmax x.counts cfg.nClass
  deep : ∀ (j : Nat) (x : Node α S), st.nodes[j]? = some x → x.depth ≤ st.depth
  attained : st.depth = depth0 ∨ ∃ (j : Nat) (x : Node α S), st.nodes[j]? = some x ∧ x.depth = st.depth

theorem inv_init (samp : Nat → Nat) (nObs depth0 : Nat) (h : 0 < nObs) :
    Inv cfg nObs depth0 (init cfg samp nObs depth0) := by
  have key : ∀ j x, (init cfg samp nObs depth0).nodes[j]? = some x → j = 0 ∧ x = root cfg samp nObs := by
    intro j x hx
    cases j with
    | zero => cases hx; exact ⟨rfl, rfl⟩
    | succ j => simp [init] at hx
  refine ⟨?_, ⟨_, rfl, rfl, rfl⟩, ?_, ?_, ?_, ?_, ?_, ?_, ?_, Or.inl rfl⟩
  · intro j x hx
    obtain ⟨rfl, rfl⟩ := key j x hx
    exact ⟨Nat.zero_le _, Nat.le_refl _⟩
  · intro j x s l r hx hi
    obtain ⟨rfl, rfl⟩ := key j x hx
    cases hi
  · intro i j a b ha _ hb
    obtain ⟨rfl, rfl⟩ := key i a ha
    obtain ⟨rfl, rfl⟩ := key j b hb
    exact Or.inl ⟨Nat.le_refl _, Nat.le_refl _⟩
  · intro i j a b hij ha _ hb _
    obtain ⟨rfl, rfl⟩ := key i a ha
    obtain ⟨rfl, rfl⟩ := key j b hb
    exact absurd rfl hij
  · intro i hi
    have : i = 0 := by
      unfold init at hi
      dsimp only at hi
      split at hi <;> simp at hi
      exact hi
    subst this
    exact ⟨_, rfl, rfl, h⟩
  · unfold init
    dsimp only
    split <;> simp
  · intro j x hx
    obtain ⟨rfl, rfl⟩ := key j x hx
    exact ⟨rfl, rfl, rfl⟩
  · intro j x hx
    obtain ⟨rfl, rfl⟩ := key j x hx
    exact Nat.zero_le _

theorem counted_shuf {lo hi : Nat} {a b : Nat → Nat} (h : Shuf lo hi a b) (h3 : lo ≤ hi) (x : Node α S)
    (h1 : (x.start ≤ lo ∧ hi ≤ x.stop) ∨ hi ≤ x.start ∨ x.stop ≤ lo)
    (hc : x.ns = weightOf cfg.sm a x.start x.stop ∧ x.counts = classCounts cfg.sm a x.start x.stop ∧
      x.pred = argmax x.counts cfg.nClass) :
    x.ns = weightOf cfg.sm b x.start x.stop ∧ x.counts = classCounts cfg.sm b x.start x.stop ∧
      x.pred = argmax x.counts cfg.nClass := by
  have hp := h.perm h3 h1
  rw [weightOf_perm cfg.sm hp, classCounts_perm cfg.sm hp]
  exact hc

theorem inv_leaf (nObs depth0 : Nat) (st : State α S) (i : Nat) (rest : List Nat) (nd : Node α S)
    (samp' : Nat → Nat) (hI : Inv cfg nObs depth0 st) (hs : st.stack = i :: rest)
    (hn : st.nodes[i]? = some nd) (hsh : Shuf nd.start nd.stop st.samp samp') (k : Nat) :
    Inv cfg nObs depth0 { st with stack := rest, samp := samp', nLeaves := k } := by
  obtain ⟨a, ha, hl, hlt⟩ := hI.stack i (by rw [hs]; exact List.mem_cons_self)
  rw [hn] at ha
  cases ha
  exact
  { range := hI.range
    top := hI.top
    inner := hI.inner
    within := hI.within
    apart := hI.apart
    stack := fun j hj => hI.stack j (by rw [hs]; exact List.mem_cons_of_mem _ hj)
    nodup := by
      have := hI.nodup
      rw [hs] at this
      exact (List.nodup_cons.1 this).2
    counted := fun j x hx => counted_shuf cfg hsh (by omega) x (hI.within i j nd x hn hl hx) (hI.counted j x hx)
    deep := hI.deep
    attained := hI.attained }

theorem worth_pos {samp : Nat → Nat} (h : 1 ≤ cfg.minNode) (nd : Node α S)
    (hw : nd.ns = weightOf cfg.sm samp nd.start nd.stop) (hh : worth cfg nd = true) :
    nd.start < nd.stop := by
  by_cases hc : nd.start < nd.stop
  · exact hc
  · exfalso
    have : nd.stop - nd.start = 0 := by omega
    unfold weightOf at hw
    rw [this] at hw
    have : nd.ns = 0 := hw
    unfold worth at hh
    simp only [Bool.and_eq_true, decide_eq_true_eq] at hh
    omega

theorem inv_split (nObs depth0 : Nat) (hm : 1 ≤ cfg.minNode) (st : State α S) (i : Nat)
    (nd : Node α S) (samp' : Nat → Nat) (cut : Nat) (s : Split α) (ls rs : S)
    (hI : Inv cfg nObs depth0 st) (hn : st.nodes[i]? = some nd) (hl : nd.inner = none)
    (hi : i ∉ st.stack) (hsh : Shuf nd.start nd.stop st.samp samp') (h1 : nd.start ≤ cut)
    (h2 : cut < nd.stop) : Inv cfg nObs depth0 (after cfg st i nd s ls rs samp' cut) := by
  have hlen : i < st.nodes.length := (List.getElem?_eq_some_iff.1 hn).1
  have hlt : ∀ (j : Nat) (x : Node α S), st.nodes[j]? = some x → j < st.nodes.length :=
    fun j x h => (List.getElem?_eq_some_iff.1 h).1
  have cases := after_nodes cfg st i nd s ls rs samp' cut hn
  have old := after_old cfg st i nd s ls rs samp' cut
  have self := after_self cfg st i nd s ls rs samp' cut hn
  have right := after_right cfg st i nd s ls rs samp' cut
  have left := after_left cfg st i nd s ls rs samp' cut
  have rng := hI.range i nd hn
  refine ⟨?_, ?_, ?_, ?_, ?_, ?_, ?_, ?_, ?_, ?_⟩
  · intro j x hx
    rcases cases j x hx with ⟨_, _, h⟩ | ⟨_, rfl⟩ | ⟨_, rfl⟩ | ⟨_, rfl⟩
    · exact hI.range j x h
    · exact rng
    · exact ⟨by show cut ≤ nd.stop; omega, rng.2⟩
    · exact ⟨h1, by show cut ≤ nObs; omega⟩
  · obtain ⟨r, e1, e2, e3⟩ := hI.top
    by_cases h0 : 0 = i
    · subst h0
      rw [e1] at hn
      cases hn
      exact ⟨_, self, e2, e3⟩
    · exact ⟨r, old 0 r h0 e1, e2, e3⟩
  · intro j x s' l r hx hin
    -- the child of an old inner node, changed or not
    have kid : ∀ (k : Nat) (y : Node α S), st.nodes[k]? = some y → ∃ y' : Node α S, (after cfg st i nd s ls rs samp' cut).nodes[k]? =
        some y' ∧ y'.start = y.start ∧ y'.stop = y.stop ∧ y'.depth = y.depth := by
      intro k y hy
      by_cases hk : k = i
      · subst hk
        rw [hn] at hy
        cases hy
        exact ⟨_, self, rfl, rfl, rfl⟩
      · exact ⟨y, old k y hk hy, rfl, rfl, rfl⟩
    rcases cases j x hx with ⟨_, _, h⟩ | ⟨rfl, rfl⟩ | ⟨_, rfl⟩ | ⟨_, rfl⟩
    · obtain ⟨a, b, xl, xr, c, d, e1, e2, e3, e4, e5⟩ := hI.inner j x s' l r h hin
      obtain ⟨yl, f1, f2, f3, f4⟩ := kid l xl c
      obtain ⟨yr, g1, g2, g3, g4⟩ := kid r xr d
      exact ⟨a, b, yl, yr, f1, g1, by omega, by omega, by omega, by omega, by omega⟩
    · cases hin
      exact ⟨by omega, by omega, _, _, left, right, rfl, rfl, rfl, rfl, rfl⟩
    · cases hin
    · cases hin
  · intro k j a b ha hla hb
    have wi := fun (j : Nat) (b : Node α S) hb => hI.within i j nd b hn hl hb
    -- a leaf `a` with respect to the nodes with the range of `b`
    have key : ∀ b : Node α S, (Within nd b ∨ (b.start = cut ∧ b.stop = nd.stop) ∨
        (b.start = nd.start ∧ b.stop = cut)) →
        (∀ a : Node α S, st.nodes[k]? = some a → a.inner = none → k ≠ i → Within a b) → Within a b := by
      intro b hb hold
      rcases cases k a ha with ⟨hk, _, h⟩ | ⟨_, rfl⟩ | ⟨_, rfl⟩ | ⟨_, rfl⟩
      · exact hold a h hla hk
      · cases hla
      · have e1 : (child cfg samp' nd cut nd.stop rs).start = cut := rfl
        have e2 : (child cfg samp' nd cut nd.stop rs).stop = nd.stop := rfl
        unfold Within at *
        omega
      · have e1 : (child cfg samp' nd nd.start cut ls).start = nd.start := rfl
        have e2 : (child cfg samp' nd nd.start cut ls).stop = cut := rfl
        unfold Within at *
        omega
    rcases cases j b hb with ⟨hj, _, h⟩ | ⟨_, rfl⟩ | ⟨_, rfl⟩ | ⟨_, rfl⟩
    · exact key b (Or.inl (wi j b h)) fun a ha hl _ => hI.within k j a b ha hl h
    · refine key _ (Or.inl (Or.inl ⟨Nat.le_refl _, Nat.le_refl _⟩)) fun a ha hl' hk => ?_
      exact hI.within k i a nd ha hl' hn
    · refine key _ (Or.inr (Or.inl ⟨rfl, rfl⟩)) fun a ha hl' hk => ?_
      have := hI.apart k i a nd hk ha hl' hn hl
      have e1 : (child cfg samp' nd cut nd.stop rs).start = cut := rfl
      have e2 : (child cfg samp' nd cut nd.stop rs).stop = nd.stop := rfl
      unfold Within
      omega
    · refine key _ (Or.inr (Or.inr ⟨rfl, rfl⟩)) fun a ha hl' hk => ?_
      have := hI.apart k i a nd hk ha hl' hn hl
      have e1 : (child cfg samp' nd nd.start cut ls).start = nd.start := rfl
      have e2 : (child cfg samp' nd nd.start cut ls).stop = cut := rfl
      unfold Within
      omega
  · intro k j a b hkj ha hla hb hlb
    have er1 : (child cfg samp' nd cut nd.stop rs).start = cut := rfl
    have er2 : (child cfg samp' nd cut nd.stop rs).stop = nd.stop := rfl
    have el1 : (child cfg samp' nd nd.start cut ls).start = nd.start := rfl
    have el2 : (child cfg samp' nd nd.start cut ls).stop = cut := rfl
    rcases cases k a ha with ⟨hk, _, h⟩ | ⟨_, rfl⟩ | ⟨hk, rfl⟩ | ⟨hk, rfl⟩ <;>
    rcases cases j b hb with ⟨hj, _, h'⟩ | ⟨_, rfl⟩ | ⟨hj, rfl⟩ | ⟨hj, rfl⟩
    · exact hI.apart k j a b hkj h hla h' hlb
    · cases hlb
    · have := hI.apart k i a nd hk h hla hn hl; omega
    · have := hI.apart k i a nd hk h hla hn hl; omega
    · cases hla
    · cases hla
    · cases hla
    · cases hla
    · have := hI.apart j i b nd hj h' hlb hn hl; omega
    · cases hlb
    · omega
    · omega
    · have := hI.apart j i b nd hj h' hlb hn hl; omega
    · cases hlb
    · omega
    · omega
  · intro j hj
    have hj : j ∈ (if worth cfg (child cfg samp' nd nd.start cut ls) then [st.nodes.length + 1] else []) ++
      ((if worth cfg (child cfg samp' nd cut nd.stop rs) then [st.nodes.length] else []) ++ st.stack) := hj
    rw [List.mem_append, List.mem_append] at hj
    rcases hj with hj | hj | hj
    · split at hj
      · rename_i hw
        rw [List.mem_singleton] at hj
        subst hj
        exact ⟨_, left, rfl, worth_pos cfg hm _ rfl hw⟩
      · cases hj
    · split at hj
      · rename_i hw
        rw [List.mem_singleton] at hj
        subst hj
        exact ⟨_, right, rfl, worth_pos cfg hm _ rfl hw⟩
      · cases hj
    · obtain ⟨a, b, c⟩ := hI.stack j hj
      exact ⟨a, old j a (fun e => hi (e ▸ hj)) b, c⟩
  · show ((if worth cfg (child cfg samp' nd nd.start cut ls) then [st.nodes.length + 1] else []) ++
      ((if worth cfg (child cfg samp' nd cut nd.stop rs) then [st.nodes.length] else []) ++ st.stack)).Nodup
    have hb : ∀ j ∈ st.stack, j < st.nodes.length := by
      intro j hj
      obtain ⟨a, b, _⟩ := hI.stack j hj
      exact hlt j a b
    have n1 : st.nodes.length ∉ st.stack := fun h => by have := hb _ h; omega
    have n2 : st.nodes.length + 1 ∉ st.stack := fun h => by have := hb _ h; omega
    split <;> split <;> simp [hI.nodup, n1, n2]
  · intro j x hx
    rcases cases j x hx with ⟨_, _, h⟩ | ⟨_, rfl⟩ | ⟨_, rfl⟩ | ⟨_, rfl⟩
    · exact counted_shuf cfg hsh (by omega) x (hI.within i j nd x hn hl h) (hI.counted j x h)
    · exact counted_shuf cfg hsh (by omega) nd (Or.inl ⟨Nat.le_refl _, Nat.le_refl _⟩)
        (hI.counted i nd hn)
    · exact ⟨rfl, rfl, rfl⟩
    · exact ⟨rfl, rfl, rfl⟩
  · intro j x hx
    show x.depth ≤ max st.depth (nd.depth + 1)
    rcases cases j x hx with ⟨_, _, h⟩ | ⟨_, rfl⟩ | ⟨_, rfl⟩ | ⟨_, rfl⟩
    · exact Nat.le_trans (hI.deep j x h) (Nat.le_max_left _ _)
    · exact Nat.le_trans (Nat.le_succ _) (Nat.le_max_right _ _)
    · exact Nat.le_max_right _ _
    · exact Nat.le_max_right _ _
  · by_cases h : st.depth ≤ nd.depth + 1
    · refine Or.inr ⟨_, _, left, ?_⟩
      show nd.depth + 1 = max st.depth (nd.depth + 1)
      omega
    · have e : (after cfg st i nd s ls rs samp' cut).depth = st.depth := by
        show max st.depth (nd.depth + 1) = st.depth
        omega
      rw [e]
      rcases hI.attained with h | ⟨j, x, a, b⟩
      · exact Or.inl h
      · refine Or.inr ?_
        by_cases hj : j = i
        · subst hj
          rw [hn] at a
          cases a
          exact ⟨_, _, self, b⟩
        · exact ⟨j, x, old j x hj a, b⟩

end Verif.Tree
