import Verif.KSelect.Model
import Verif.Blocking.Props
import Mathlib.Tactic.Linarith
import Mathlib.Data.List.Perm.Basic
namespace Verif.KSelect

variable {K : Type} [LinearOrder K]

theorem le_refl' (inner : Bool) (a : K) : le inner a a := by unfold le; split <;> exact le_refl a
theorem le_trans' {inner : Bool} {a b c : K} (h : le inner a b) (h' : le inner b c) : le inner a c := by
  unfold le at *; split <;> simp_all <;> exact le_trans (by assumption) (by assumption)
theorem le_of_not {inner : Bool} {a b : K} (h : ¬ le inner a b) : le inner b a := by
  unfold le at *; split <;> simp_all <;> exact le_of_lt h

/-- `buf` holds the `min k |seen|` best of the pairs `seen`. -/
def KBest (inner : Bool) (k : Nat) (seen buf : List (Nat × K)) : Prop :=
  buf.length = min k seen.length ∧ ∃ rest, (buf ++ rest).Perm seen ∧ ∀ a ∈ buf, ∀ b ∈ rest, le inner a.2 b.2

theorem iaLoop_spec (inner : Bool) (xs : List K) : ∀ (pre : List K) (idx : Nat) (m : K), pre[idx]? = some m →
    (∀ y ∈ pre, le inner y m) → ∃ v, (pre ++ xs)[iaLoop inner idx m pre.length xs]? = some v ∧ ∀ y ∈ pre ++ xs, le inner y v := by
  induction xs with
  | nil => intro pre idx m h1 h2; exact ⟨m, by simpa [iaLoop] using h1, by simpa using h2⟩
  | cons x xs ih =>
    intro pre idx m h1 h2
    have e : pre ++ x :: xs = (pre ++ [x]) ++ xs := by simp
    have el : pre.length + 1 = (pre ++ [x]).length := by simp
    rw [iaLoop]
    split
    · rename_i hx
      rw [e, el]
      refine ih (pre ++ [x]) pre.length x (by simp) ?_
      intro y hy
      rcases List.mem_append.mp hy with hy | hy
      · exact le_trans' (h2 y hy) (le_of_not hx)
      · simp at hy; subst hy; exact le_refl' _ _
    · rename_i hx
      push Not at hx
      rw [e, el]
      refine ih (pre ++ [x]) idx m ?_ ?_
      · rw [List.getElem?_append_left]; exact h1
        exact (List.getElem?_eq_some_iff.mp h1).1
      · intro y hy
        rcases List.mem_append.mp hy with hy | hy
        · exact h2 y hy
        · simp at hy; subst hy; exact hx

/-- The state is consistent: `maxVal` is the worst of the buffer, at `maxIndex`. -/
def Good (inner : Bool) (s : Top K) : Prop :=
  ∃ x, s.buf[s.maxIndex]? = some x ∧ x.2 = s.maxVal ∧ ∀ y ∈ s.buf, le inner y.2 s.maxVal

theorem topOf_spec (inner : Bool) {buf : List (Nat × K)} (h : buf ≠ []) :
    ∃ s, Top.of inner buf = some s ∧ s.buf = buf ∧ Good inner s := by
  obtain ⟨b, bs, rfl⟩ := List.exists_cons_of_ne_nil h
  obtain ⟨v, h1, h2⟩ := iaLoop_spec inner (bs.map (·.2)) [b.2] 0 b.2 rfl (by simp [le_refl'])
  unfold Top.of
  simp only [List.map_cons, iamax]
  generalize hm : iaLoop inner 0 b.2 1 (bs.map (·.2)) = m
  simp only [List.length_singleton, hm] at h1
  have e : [b.2] ++ bs.map (·.2) = (b :: bs).map (·.2) := rfl
  rw [e] at h1 h2
  rw [List.getElem?_map] at h1
  obtain ⟨x, hx, hxv⟩ := Option.map_eq_some_iff.mp h1
  refine ⟨⟨b :: bs, m, x.2⟩, by simp [hx], rfl, x, hx, rfl, ?_⟩
  intro y hy
  show le inner y.2 x.2
  rw [hxv]
  exact h2 y.2 (List.mem_map.mpr ⟨y, hy, rfl⟩)

theorem set_perm {α : Type} (l : List α) (i : Nat) (x y : α) (h : l[i]? = some x) : (y :: l).Perm (x :: l.set i y) := by
  obtain ⟨hi, rfl⟩ := List.getElem?_eq_some_iff.mp h
  rw [List.set_eq_take_append_cons_drop, if_pos hi]
  have e : l = l.take i ++ l[i] :: l.drop (i + 1) := by rw [List.getElem_cons_drop, List.take_append_drop]
  conv_lhs => rw [e]
  refine (List.perm_middle.cons y).trans ?_
  refine (List.Perm.swap _ _ _).trans ?_
  exact (List.perm_middle.symm).cons _

theorem offer_spec (inner : Bool) {k : Nat} {seen : List (Nat × K)} {s : Top K} (hk : 0 < k) (hg : Good inner s)
    (hb : KBest inner k seen s.buf) (hl : s.buf.length = k) (c : Nat × K) :
    ∃ s', offer inner s c = some s' ∧ Good inner s' ∧ KBest inner k (seen ++ [c]) s'.buf ∧ s'.buf.length = k ∧
      le inner s'.maxVal s.maxVal ∧ (¬ le inner c.2 s.maxVal → s' = s) := by
  obtain ⟨x, hx1, hx2, hx3⟩ := hg
  obtain ⟨hb1, rest, hb2, hb3⟩ := hb
  unfold offer
  split
  · rename_i hc
    obtain ⟨s', h1, h2, h3⟩ := topOf_spec inner (buf := s.buf.set s.maxIndex c) (by
      intro h0; have := congrArg List.length h0; simp at this; rw [this] at hl; simp at hl; omega)
    refine ⟨s', h1, h3, ⟨?_, x :: rest, ?_, ?_⟩, by rw [h2]; simpa using hl, ?_, fun h => absurd hc h⟩
    · rw [h2, List.length_set, List.length_append, List.length_singleton]; omega
    · rw [h2]
      have := set_perm s.buf s.maxIndex x c hx1
      refine List.perm_middle.trans ?_
      refine (List.Perm.append_right rest this.symm).trans ?_
      simp only [List.cons_append]
      exact (List.perm_cons_append_cons (l₁ := seen) (l₂ := []) c (by simpa using hb2)).trans (by simp)
    · intro a ha b hbm
      rw [h2] at ha
      have ha' : le inner a.2 x.2 := by
        rcases List.mem_or_eq_of_mem_set ha with h | rfl
        · rw [hx2]; exact hx3 a h
        · rw [hx2]; exact hc
      rcases List.mem_cons.mp hbm with rfl | hbm
      · exact ha'
      · exact le_trans' ha' (hb3 x (List.mem_of_getElem? hx1) b hbm)
    · obtain ⟨y, hy1, hy2, hy3⟩ := h3
      rw [← hy2]
      have hy := List.mem_of_getElem? hy1
      rw [h2] at hy
      rcases List.mem_or_eq_of_mem_set hy with h | rfl
      · exact hx3 y h
      · exact hc
  · rename_i hc
    refine ⟨s, rfl, ⟨x, hx1, hx2, hx3⟩, ⟨by simp; omega, c :: rest, ?_, ?_⟩, hl, le_refl' _ _, fun _ => rfl⟩
    · refine List.perm_middle.trans ?_
      exact (List.perm_cons_append_cons (l₁ := seen) (l₂ := []) c (by simpa using hb2)).trans (by simp)
    · intro a ha b hbm
      rcases List.mem_cons.mp hbm with rfl | hbm
      · exact le_trans' (hx3 a ha) (le_of_not hc)
      · exact hb3 a ha b hbm

theorem scan_spec (inner : Bool) {k : Nat} (hk : 0 < k) (cs : List (Nat × K)) : ∀ {seen : List (Nat × K)} {s : Top K}, Good inner s →
    KBest inner k seen s.buf → s.buf.length = k →
    ∃ s', cs.foldlM (offer inner) s = some s' ∧ Good inner s' ∧ KBest inner k (seen ++ cs) s'.buf ∧ s'.buf.length = k := by
  induction cs with
  | nil => intro seen s h1 h2 h3; exact ⟨s, rfl, h1, by simpa using h2, h3⟩
  | cons c cs ih =>
    intro seen s h1 h2 h3
    obtain ⟨s', e1, e2, e3, e4, _, _⟩ := offer_spec inner hk h1 h2 h3 c
    obtain ⟨s'', f1, f2, f3, f4⟩ := ih e2 e3 e4
    refine ⟨s'', ?_, f2, by simpa using f3, f4⟩
    rw [List.foldlM_cons, e1]; exact f1

/-- Skipping the lanes that fail against an older maximum changes nothing. -/
theorem mask_scan (inner : Bool) (M : K) (cs : List (Nat × K)) : ∀ (s : Top K), Good inner s → le inner s.maxVal M →
    (cs.filter fun c => decide (le inner c.2 M)).foldlM (offer inner) s = cs.foldlM (offer inner) s := by
  induction cs with
  | nil => intros; rfl
  | cons c cs ih =>
    intro s hg hM
    rw [List.foldlM_cons]
    by_cases hc : le inner c.2 M
    · rw [List.filter_cons_of_pos (by simpa using hc), List.foldlM_cons]
      unfold offer
      split
      · rename_i hle
        obtain ⟨x, hx1, hx2, hx3⟩ := hg
        obtain ⟨s', h1, h2, h3⟩ := topOf_spec inner (buf := s.buf.set s.maxIndex c) (by
          intro h0; have := congrArg List.length h0; simp at this; rw [this] at hx1; simp at hx1)
        rw [h1]
        refine ih s' h3 ?_
        obtain ⟨y, hy1, hy2, hy3⟩ := h3
        rw [← hy2]
        have hy := List.mem_of_getElem? hy1
        rw [h2] at hy
        rcases List.mem_or_eq_of_mem_set hy with h | rfl
        · exact le_trans' (hx3 y h) hM
        · exact hc
      · exact ih s hg hM
    · rw [List.filter_cons_of_neg (by simpa using hc), ih s hg hM]
      unfold offer
      rw [if_neg fun h => hc (le_trans' h hM)]
      rfl

theorem vecLoop_eq (inner : Bool) (V : Nat) {k : Nat} (hk : 0 < k) (s : Top K) (cs : List (Nat × K)) (seen : List (Nat × K)) (hg : Good inner s)
    (hb : KBest inner k seen s.buf) (hl : s.buf.length = k) : vecLoop inner V s cs = cs.foldlM (offer inner) s := by
  induction hn : cs.length using Nat.strong_induction_on generalizing s cs seen with
  | _ n ih =>
    rw [vecLoop]
    split
    · rename_i h
      rw [mask_scan inner s.maxVal (cs.take V) s hg (le_refl' _ _)]
      obtain ⟨s', e1, e2, e3, e4⟩ := scan_spec inner hk (cs.take V) hg hb hl
      rw [e1]
      simp only
      rw [ih _ (by rw [← hn]; rw [List.length_drop]; omega) s' (cs.drop V) _ e2 e3 e4 rfl]
      conv_rhs => rw [← List.take_append_drop V cs, List.foldlM_append, e1]
      rfl
    · rfl

theorem KBest.fill {inner : Bool} {k : Nat} {seen buf : List (Nat × K)} (h : KBest inner k seen buf) (cs : List (Nat × K)) :
    KBest inner k (seen ++ cs.take (k - buf.length)) (buf ++ cs.take (k - buf.length)) := by
  obtain ⟨h1, rest, h2, h3⟩ := h
  rcases Nat.lt_or_ge buf.length k with hlt | hge
  · have hr : rest = [] := by
      have := h2.length_eq
      rw [List.length_append] at this
      apply List.length_eq_zero_iff.mp; omega
    subst hr
    refine ⟨?_, [], ?_, by simp⟩
    · simp [List.length_take]; omega
    · simp only [List.append_nil] at h2 ⊢
      exact h2.append_right _
  · have : k - buf.length = 0 := by omega
    rw [this]
    simp only [List.take_zero, List.append_nil]
    exact ⟨h1, rest, h2, h3⟩

theorem KBest.len_le {inner : Bool} {k : Nat} {seen buf : List (Nat × K)} (h : KBest inner k seen buf) : buf.length ≤ k := by
  have := h.1; omega

theorem blockUpdate_spec (inner : Bool) (V : Nat) {k : Nat} (hk : 0 < k) {seen buf : List (Nat × K)} (h : KBest inner k seen buf) (cs : List (Nat × K)) :
    ∃ buf', blockUpdate inner V k buf cs = some buf' ∧ KBest inner k (seen ++ cs) buf' := by
  have hf := h.fill cs
  have hkl := h.len_le
  unfold blockUpdate
  simp only
  split
  · rename_i hlt
    have hlen : (buf ++ cs.take (k - buf.length)).length = k := by rw [List.length_append, List.length_take]; omega
    obtain ⟨s, e1, e2, e3⟩ := topOf_spec inner (buf := buf ++ cs.take (k - buf.length)) (by
      intro h0; rw [h0] at hlen; simp at hlen; omega)
    rw [← e2] at hf hlen
    unfold vecKernel
    rw [e1]
    simp only
    rw [vecLoop_eq inner V hk s _ _ e3 hf hlen]
    obtain ⟨s', f1, f2, f3, f4⟩ := scan_spec inner hk (cs.drop (k - buf.length)) e3 hf hlen
    rw [f1]
    refine ⟨s'.buf, rfl, ?_⟩
    rwa [List.append_assoc, List.take_append_drop] at f3
  · rename_i hlt
    rw [List.take_of_length_le (by omega)] at hf ⊢
    exact ⟨_, rfl, hf⟩

theorem KBest.extend {inner : Bool} {k : Nat} {seen seen2 other buf : List (Nat × K)} (ho : KBest inner k seen2 other)
    (h : KBest inner k (seen ++ other) buf) : KBest inner k (seen ++ seen2) buf := by
  obtain ⟨o1, rest2, o2, o3⟩ := ho
  obtain ⟨h1, rest, h2, h3⟩ := h
  have hol := o2.length_eq
  rw [List.length_append] at hol
  refine ⟨?_, rest ++ rest2, ?_, ?_⟩
  · rw [h1, List.length_append, List.length_append]; omega
  · rw [← List.append_assoc]
    refine (h2.append_right rest2).trans ?_
    rw [List.append_assoc]
    exact o2.append_left seen
  · intro a ha b hb
    rcases List.mem_append.mp hb with hb | hb
    · exact h3 a ha b hb
    · by_contra hc
      have hother : other.length = k := by
        have : 0 < rest2.length := List.length_pos_of_mem hb
        omega
      have e1 : (seen ++ other).countP (fun y => decide (le inner y.2 b.2)) ≥ k := by
        rw [List.countP_append]
        have : other.countP (fun y => decide (le inner y.2 b.2)) = other.length :=
          List.countP_eq_length.mpr fun y hy => by simpa using o3 y hy b hb
        omega
      have e2 : rest.countP (fun y => decide (le inner y.2 b.2)) = 0 := by
        rw [List.countP_eq_zero]
        intro y hy hy'
        exact hc (le_trans' (h3 a ha y hy) (by simpa using hy'))
      have e3 : buf.countP (fun y => decide (le inner y.2 b.2)) < buf.length := by
        rcases Nat.lt_or_ge (buf.countP (fun y => decide (le inner y.2 b.2))) buf.length with h | h
        · exact h
        · have h' := le_antisymm List.countP_le_length h
          have := List.countP_eq_length.mp h' a ha
          exact absurd (by simpa using this) hc
      have e4 := h2.countP_eq (fun y => decide (le inner y.2 b.2))
      rw [List.countP_append] at e4
      omega

theorem merge_spec (inner : Bool) {k : Nat} (hk : 0 < k) {seen buf seen2 other : List (Nat × K)} (h : KBest inner k seen buf) (ho : KBest inner k seen2 other) :
    ∃ buf', merge inner k buf other = some buf' ∧ KBest inner k (seen ++ seen2) buf' := by
  have hf := h.fill other
  have hkl := h.len_le
  suffices hs : ∃ buf', merge inner k buf other = some buf' ∧ KBest inner k (seen ++ other) buf' by
    obtain ⟨b, e1, e2⟩ := hs
    exact ⟨b, e1, ho.extend e2⟩
  unfold merge
  split
  · rename_i h0
    have : other = [] := List.length_eq_zero_iff.mp h0
    subst this
    exact ⟨buf, rfl, by simpa using h⟩
  · simp only
    split
    · rename_i hlt
      have hlen : (buf ++ other.take (k - buf.length)).length = k := by rw [List.length_append, List.length_take]; omega
      obtain ⟨s, e1, e2, e3⟩ := topOf_spec inner (buf := buf ++ other.take (k - buf.length)) (by
        intro h0; rw [h0] at hlen; simp at hlen; omega)
      rw [← e2] at hf hlen
      rw [e1]
      simp only
      obtain ⟨s', f1, f2, f3, f4⟩ := scan_spec inner hk (other.drop (k - buf.length)) e3 hf hlen
      rw [f1]
      refine ⟨s'.buf, rfl, ?_⟩
      rwa [List.append_assoc, List.take_append_drop] at f3
    · rename_i hlt
      have : other.length ≤ k - buf.length := by
        by_contra hc
        exact hlt ⟨by omega, by rw [List.length_append, List.length_take]; omega⟩
      rw [List.take_of_length_le this] at hf ⊢
      exact ⟨_, rfl, hf⟩

/-! ### Blocks -/

theorem range_blocks (bs m : Nat) : ((List.range m).flatMap fun i => (List.range bs).map fun j => j + i * bs) = List.range (m * bs) := by
  induction m with
  | zero => simp
  | succ a ih =>
    rw [List.range_succ, List.flatMap_append, ih, Nat.succ_mul, List.range_add]
    simp [Nat.add_comm]

theorem blocks_cover {n bs nb rem : Nat} (h : Blocking.blockingScheme n bs = some (nb, rem)) :
    ((List.range nb).flatMap fun i => (List.range (blockSize bs nb rem i)).map fun j => j + i * bs) = List.range n := by
  unfold Blocking.blockingScheme at h
  split at h
  · simp at h
  · rename_i hbs
    simp only [Option.some.injEq, Prod.mk.injEq] at h
    obtain ⟨h1, h2⟩ := h
    have hn : n = n / bs * bs + rem := by rw [← h2, Nat.mul_comm]; exact (Nat.div_add_mod n bs).symm
    have key : ∀ m : Nat, (m < nb ∨ ¬ rem > 0) → ((List.range m).flatMap fun i => (List.range (blockSize bs nb rem i)).map fun j => j + i * bs) =
        List.range (m * bs) := by
      intro m hm
      rw [← range_blocks]
      refine List.flatMap_congr fun i hi => ?_
      have hi' : i < m := by simpa using hi
      unfold blockSize
      rw [if_neg (by omega)]
    split at h1
    · rename_i hr
      rw [h2] at hr
      subst h1
      rw [List.range_succ, List.flatMap_append, key (n / bs) (Or.inl (by omega))]
      conv_rhs => rw [hn]
      rw [List.range_add]
      simp [blockSize, hr, Nat.add_comm]
    · rename_i hr
      rw [h2] at hr
      subst h1
      rw [key (n / bs) (Or.inr hr)]
      congr 1; omega

theorem blockSize_le {n bs nb rem : Nat} (h : Blocking.blockingScheme n bs = some (nb, rem)) (i : Nat) : blockSize bs nb rem i ≤ bs := by
  unfold Blocking.blockingScheme at h
  split at h
  · simp at h
  · simp only [Option.some.injEq, Prod.mk.injEq] at h
    obtain ⟨h1, h2⟩ := h
    have := Nat.mod_lt n (show bs > 0 by omega)
    unfold blockSize; split <;> omega

/-- Query `q` belongs to block `j`. -/
def InBlock (bs nb rem q j : Nat) : Prop := ∃ jj, jj < blockSize bs nb rem j ∧ q = jj + j * bs

theorem inBlock_unique {n bs nb rem : Nat} (h : Blocking.blockingScheme n bs = some (nb, rem)) {q j j' : Nat} (h1 : InBlock bs nb rem q j)
    (h2 : InBlock bs nb rem q j') : j = j' := by
  obtain ⟨a, ha, rfl⟩ := h1
  obtain ⟨b, hb, he⟩ := h2
  have := blockSize_le h j
  have := blockSize_le h j'
  have e1 : (a + j * bs) / bs = j := by
    rw [Nat.add_mul_div_right _ _ (by omega), Nat.div_eq_of_lt (by omega)]; omega
  have e2 : (b + j' * bs) / bs = j' := by
    rw [Nat.add_mul_div_right _ _ (by omega), Nat.div_eq_of_lt (by omega)]; omega
  rw [← e1, he, e2]

theorem inBlock_exists {n bs nb rem : Nat} (h : Blocking.blockingScheme n bs = some (nb, rem)) {q : Nat} (hq : q < n) :
    ∃ j, j < nb ∧ InBlock bs nb rem q j := by
  have : q ∈ List.range n := by simpa using hq
  rw [← blocks_cover h] at this
  simp only [List.mem_flatMap, List.mem_map, List.mem_range] at this
  obtain ⟨j, hj, jj, h1, h2⟩ := this
  exact ⟨j, hj, jj, h1, h2.symm⟩

theorem inBlock_lt {n bs nb rem : Nat} (h : Blocking.blockingScheme n bs = some (nb, rem)) {q j : Nat} (hj : j < nb)
    (hq : InBlock bs nb rem q j) : q < n := by
  have : q ∈ List.range n := by
    rw [← blocks_cover h]
    simp only [List.mem_flatMap, List.mem_map, List.mem_range]
    obtain ⟨jj, h1, h2⟩ := hq
    exact ⟨j, hj, jj, h1, h2.symm⟩
  simpa using this

open Classical in
theorem flatMap_unique {α : Type} (P : Nat → Prop) (X : List α) (l : List Nat) (hn : l.Nodup) (j0 : Nat) (hm : j0 ∈ l)
    (hu : ∀ j, P j ↔ j = j0) : (l.flatMap fun j => if P j then X else []) = X := by
  induction l with
  | nil => simp at hm
  | cons a l ih =>
    rw [List.nodup_cons] at hn
    rw [List.flatMap_cons]
    rcases List.mem_cons.mp hm with rfl | hm
    · rw [if_pos ((hu j0).mpr rfl)]
      have : (l.flatMap fun j => if P j then X else []) = [] := by
        rw [List.flatMap_eq_nil_iff]
        intro j hj
        rw [if_neg]
        intro hp
        rw [hu j] at hp
        subst hp; exact hn.1 hj
      rw [this, List.append_nil]
    · rw [if_neg, List.nil_append, ih hn.2 hm]
      intro hp
      rw [hu a] at hp
      subst hp; exact hn.1 hm

/-! ### One thread -/

/-- Every query's list is the best of the pairs seen for it. -/
def StOk (inner : Bool) (k nQ : Nat) (seen : Nat → List (Nat × K)) (st : List (List (Nat × K))) : Prop :=
  st.length = nQ ∧ ∀ q, q < nQ → ∃ buf, st[q]? = some buf ∧ KBest inner k (seen q) buf

open Classical in
theorem queries_spec (inner : Bool) (V : Nat) {k nQ : Nat} (hk : 0 < k) (c : Nat → List (Nat × K)) (f : Nat → Nat) (hf : Function.Injective f) (js : List Nat) :
    ∀ {seen : Nat → List (Nat × K)} {st : List (List (Nat × K))}, js.Nodup → (∀ j ∈ js, f j < nQ) → StOk inner k nQ seen st →
    ∃ st', js.foldlM (fun st jj =>
      match st[f jj]? with
      | none => none
      | some buf => (blockUpdate inner V k buf (c (f jj))).map (st.set (f jj) ·)) st = some st' ∧
      StOk inner k nQ (fun q => if q ∈ js.map f then seen q ++ c q else seen q) st' := by
  induction js with
  | nil => intro seen st _ _ h; exact ⟨st, rfl, by simpa using h⟩
  | cons j js ih =>
    intro seen st hn hlt h
    rw [List.nodup_cons] at hn
    obtain ⟨buf, hb1, hb2⟩ := h.2 (f j) (hlt j (by simp))
    obtain ⟨buf', hu1, hu2⟩ := blockUpdate_spec inner V hk hb2 (c (f j))
    have hok : StOk inner k nQ (fun q => if q = f j then seen q ++ c q else seen q) (st.set (f j) buf') := by
      refine ⟨by simpa using h.1, fun q hq => ?_⟩
      by_cases hqj : q = f j
      · subst hqj
        refine ⟨buf', ?_, by simpa using hu2⟩
        rw [List.getElem?_set_self]
        rw [h.1]; exact hq
      · obtain ⟨b, h1, h2⟩ := h.2 q hq
        refine ⟨b, ?_, by simpa [hqj] using h2⟩
        rw [List.getElem?_set_ne (Ne.symm hqj)]; exact h1
    obtain ⟨st', e1, e2⟩ := ih hn.2 (fun j' hj' => hlt j' (by simp [hj'])) hok
    refine ⟨st', ?_, ?_⟩
    · rw [List.foldlM_cons]
      simp only [hb1, hu1]
      exact e1
    · refine ⟨e2.1, fun q hq => ?_⟩
      obtain ⟨b, h1, h2⟩ := e2.2 q hq
      refine ⟨b, h1, ?_⟩
      have : (if q ∈ List.map f (j :: js) then seen q ++ c q else seen q) =
          (if q ∈ js.map f then (if q = f j then seen q ++ c q else seen q) ++ c q else if q = f j then seen q ++ c q else seen q) := by
        by_cases h1 : q = f j
        · subst h1
          have : f j ∉ js.map f := by
            intro hm
            obtain ⟨j', hj', he⟩ := List.mem_map.mp hm
            rw [hf he] at hj'; exact hn.1 hj'
          simp [this]
        · simp only [List.map_cons, List.mem_cons, h1, false_or, if_false]
      beta_reduce
      rw [this]; exact h2

/-- Pairs seen for query `q` by iterations `work`. -/
noncomputable def seenBy (d : Nat → Nat → K) (pl : Plan) (work : List (Nat × Nat)) (q : Nat) : List (Nat × K) :=
  open Classical in
  work.flatMap fun ji => if InBlock pl.testBs pl.testNb pl.testRem q ji.1 then candidates d q pl.trainBs pl.trainNb pl.trainRem ji.2 else []

theorem pairs_spec (inner : Bool) (V : Nat) {k nQ : Nat} (hk : 0 < k) (d : Nat → Nat → K) (pl : Plan)
    (hpl : Blocking.blockingScheme nQ pl.testBs = some (pl.testNb, pl.testRem)) (_ : 0 < pl.testBs) (work : List (Nat × Nat)) :
    ∀ {seen : Nat → List (Nat × K)} {st : List (List (Nat × K))}, (∀ ji ∈ work, ji.1 < pl.testNb) → StOk inner k nQ seen st →
    ∃ st', work.foldlM (pairStep inner V k d pl) st = some st' ∧ StOk inner k nQ (fun q => seen q ++ seenBy d pl work q) st' := by
  classical
  induction work with
  | nil => intro seen st _ h; exact ⟨st, rfl, by simpa [seenBy] using h⟩
  | cons ji work ih =>
    intro seen st hlt h
    obtain ⟨st1, e1, e2⟩ := queries_spec inner V hk (fun q => candidates d q pl.trainBs pl.trainNb pl.trainRem ji.2)
      (fun jj => jj + ji.1 * pl.testBs) (fun a b hab => by simpa using hab) (List.range (blockSize pl.testBs pl.testNb pl.testRem ji.1))
      (List.nodup_range) (fun jj hjj => inBlock_lt hpl (hlt ji (by simp)) ⟨jj, by simpa using hjj, rfl⟩) h
    obtain ⟨st', f1, f2⟩ := ih (fun ji' h' => hlt ji' (by simp [h'])) e2
    refine ⟨st', ?_, f2.1, fun q hq => ?_⟩
    · rw [List.foldlM_cons]
      have : pairStep inner V k d pl st ji = some st1 := e1
      rw [this]; exact f1
    · obtain ⟨b, h1, h2⟩ := f2.2 q hq
      refine ⟨b, h1, ?_⟩
      have hiff : (q ∈ (List.range (blockSize pl.testBs pl.testNb pl.testRem ji.1)).map fun jj => jj + ji.1 * pl.testBs) ↔
          InBlock pl.testBs pl.testNb pl.testRem q ji.1 := by
        simp only [List.mem_map, List.mem_range, InBlock, eq_comm]
      simp only [hiff] at h2
      have : seen q ++ seenBy d pl (ji :: work) q =
          (if InBlock pl.testBs pl.testNb pl.testRem q ji.1 then seen q ++ candidates d q pl.trainBs pl.trainNb pl.trainRem ji.2 else seen q) ++ seenBy d pl work q := by
        simp only [seenBy, List.flatMap_cons]
        split <;> simp
      beta_reduce
      rw [this]; exact h2

theorem threads_spec (inner : Bool) (V : Nat) {k nQ : Nat} (hk : 0 < k) (d : Nat → Nat → K) (pl : Plan)
    (hpl : Blocking.blockingScheme nQ pl.testBs = some (pl.testNb, pl.testRem)) (hbs : 0 < pl.testBs) (threads : List (List (Nat × Nat)))
    (h : ∀ w ∈ threads, ∀ ji ∈ w, ji.1 < pl.testNb) :
    ∃ sts, threads.mapM (threadRun inner V k d pl nQ) = some sts ∧
      List.Forall₂ (fun w st => StOk inner k nQ (seenBy d pl w) st) threads sts := by
  induction threads with
  | nil => exact ⟨[], rfl, List.Forall₂.nil⟩
  | cons w ws ih =>
    obtain ⟨sts, e1, e2⟩ := ih fun w' hw' => h w' (by simp [hw'])
    obtain ⟨st, f1, f2⟩ := pairs_spec inner V hk d pl hpl hbs w (seen := fun _ => []) (st := List.replicate nQ []) (h w (by simp))
      ⟨by simp, fun q hq => ⟨[], by simp [hq], by simp [KBest]⟩⟩
    refine ⟨st :: sts, ?_, List.Forall₂.cons (by simpa using f2) e2⟩
    rw [List.mapM_cons, e1]
    have : threadRun inner V k d pl nQ w = some st := f1
    rw [this]; rfl

theorem merges_spec (inner : Bool) {k nQ q : Nat} (hk : 0 < k) (hq : q < nQ) (d : Nat → Nat → K) (pl : Plan) (ws : List (List (Nat × Nat))) :
    ∀ (sts : List (List (List (Nat × K)))) (buf seen : List (Nat × K)), List.Forall₂ (fun w st => StOk inner k nQ (seenBy d pl w) st) ws sts →
    KBest inner k seen buf →
    ∃ others buf', sts.mapM (·[q]?) = some others ∧ others.foldlM (merge inner k) buf = some buf' ∧
      KBest inner k (seen ++ ws.flatMap fun w => seenBy d pl w q) buf' := by
  induction ws with
  | nil => intro sts buf seen h hb; cases h; exact ⟨[], buf, rfl, rfl, by simpa using hb⟩
  | cons w ws ih =>
    intro sts buf seen h hb
    cases h with
    | cons h1 h2 =>
      rename_i st sts
      obtain ⟨b, hb1, hb2⟩ := h1.2 q hq
      obtain ⟨buf1, m1, m2⟩ := merge_spec inner hk hb hb2
      obtain ⟨others, buf', e1, e2, e3⟩ := ih sts buf1 _ h2 m2
      refine ⟨b :: others, buf', ?_, ?_, ?_⟩
      · rw [List.mapM_cons, hb1, e1]; rfl
      · rw [List.foldlM_cons, m1]; exact e2
      · rw [List.flatMap_cons, ← List.append_assoc]; exact e3

end Verif.KSelect
