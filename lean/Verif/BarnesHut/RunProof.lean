import Verif.BarnesHut.Walk

/-
`build` and `compute_repulsive_forces` as a whole.
-/
set_option linter.unusedSectionVars false

namespace Verif.BarnesHut

open Moments (M Fault rd wr forUp divM ok_bind rd_ok wr_ok forUp_zero forUp_succ)

variable {K : Type} [Field K] [LinearOrder K] [IsStrictOrderedRing K] {σ : Type}

section Box

variable {D n : Nat} {pts : List K} {X : Nat → Nat → K}

/-- `v` is the least of `big` and the values at `S`. -/
structure Low (x : Nat → K) (big : K) (S : List Nat) (v : K) : Prop where
  le : ∀ p ∈ S, v ≤ x p
  top : v ≤ big
  att : v = big ∨ ∃ p ∈ S, v = x p

/-- `v` is the greatest of `low` and the values at `S`. -/
structure High (x : Nat → K) (low : K) (S : List Nat) (v : K) : Prop where
  le : ∀ p ∈ S, x p ≤ v
  bot : low ≤ v
  att : v = low ∨ ∃ p ∈ S, v = x p

theorem Low.merge {x : Nat → K} {big v v' : K} {S S' : List Nat} (h : Low x big S v)
    (h' : Low x big S' v') : Low x big (S ++ S') (min v v') := by
  refine ⟨?_, (min_le_left _ _).trans h.top, ?_⟩
  · intro p hp
    rcases List.mem_append.1 hp with hp | hp
    · exact (min_le_left _ _).trans (h.le p hp)
    · exact (min_le_right _ _).trans (h'.le p hp)
  · rcases min_choice v v' with he | he <;> rw [he]
    · rcases h.att with h | ⟨p, hp, h⟩
      · exact Or.inl h
      · exact Or.inr ⟨p, List.mem_append.2 (Or.inl hp), h⟩
    · rcases h'.att with h | ⟨p, hp, h⟩
      · exact Or.inl h
      · exact Or.inr ⟨p, List.mem_append.2 (Or.inr hp), h⟩

theorem High.merge {x : Nat → K} {low v v' : K} {S S' : List Nat} (h : High x low S v)
    (h' : High x low S' v') : High x low (S ++ S') (max v v') := by
  refine ⟨?_, h.bot.trans (le_max_left _ _), ?_⟩
  · intro p hp
    rcases List.mem_append.1 hp with hp | hp
    · exact (h.le p hp).trans (le_max_left _ _)
    · exact (h'.le p hp).trans (le_max_right _ _)
  · rcases max_choice v v' with he | he <;> rw [he]
    · rcases h.att with h | ⟨p, hp, h⟩
      · exact Or.inl h
      · exact Or.inr ⟨p, List.mem_append.2 (Or.inl hp), h⟩
    · rcases h'.att with h | ⟨p, hp, h⟩
      · exact Or.inl h
      · exact Or.inr ⟨p, List.mem_append.2 (Or.inr hp), h⟩

/-- The two arrays of the bounding box hold `L` and `H`. -/
structure IsBox (D : Nat) (r : List K × List K) (L H : Nat → K) : Prop where
  len1 : r.1.length = D
  len2 : r.2.length = D
  lo : ∀ d < D, r.1[d]? = some (L d)
  hi : ∀ d < D, r.2[d]? = some (H d)

theorem pair_ok (f : Nat → List K × List K → M (List K × List K)) {r : List K × List K}
    {L H A B : Nat → K} (hr : IsBox D r L H)
    (hf : ∀ d < D, ∀ r : List K × List K, r.1.length = D → r.2.length = D → r.1[d]? = some (L d) →
      r.2[d]? = some (H d) → f d r = .ok (r.1.set d (A d), r.2.set d (B d))) :
    ∃ r', forUp D f r = .ok r' ∧ IsBox D r' A B := by
  suffices g : ∀ m ≤ D, ∃ r', forUp m f r = .ok r' ∧
      IsBox D r' (fun d => if d < m then A d else L d) (fun d => if d < m then B d else H d) by
    obtain ⟨r', h1, h2⟩ := g D (Nat.le_refl D)
    refine ⟨r', h1, h2.len1, h2.len2, ?_, ?_⟩
    · intro d hd; rw [h2.lo d hd, if_pos hd]
    · intro d hd; rw [h2.hi d hd, if_pos hd]
  intro m
  induction m with
  | zero => intro _; exact ⟨r, rfl, hr.len1, hr.len2, fun d hd => by simp [hr.lo d hd],
      fun d hd => by simp [hr.hi d hd]⟩
  | succ m ih =>
    intro hm
    obtain ⟨r', h1, h2⟩ := ih (by omega)
    refine ⟨(r'.1.set m (A m), r'.2.set m (B m)), ?_, ?_, ?_, ?_, ?_⟩
    · rw [forUp_succ, h1, ok_bind]
      apply hf m (by omega) r' h2.len1 h2.len2
      · rw [h2.lo m (by omega), if_neg (by omega)]
      · rw [h2.hi m (by omega), if_neg (by omega)]
    · rw [List.length_set]; exact h2.len1
    · rw [List.length_set]; exact h2.len2
    · intro d hd
      rw [List.getElem?_set]
      by_cases he : m = d
      · subst he; rw [if_pos rfl, if_pos (by rw [h2.len1]; omega), if_pos (by omega)]
      · rw [if_neg he, h2.lo d hd]
        by_cases hdm : d < m
        · rw [if_pos hdm, if_pos (by omega)]
        · rw [if_neg hdm, if_neg (by omega)]
    · intro d hd
      rw [List.getElem?_set]
      by_cases he : m = d
      · subst he; rw [if_pos rfl, if_pos (by rw [h2.len2]; omega), if_pos (by omega)]
      · rw [if_neg he, h2.hi d hd]
        by_cases hdm : d < m
        · rw [if_pos hdm, if_pos (by omega)]
        · rw [if_neg hdm, if_neg (by omega)]

/-- The box of the points `S`. -/
def BoxOf (D : Nat) (X : Nat → Nat → K) (big low : K) (S : List Nat) (r : List K × List K) : Prop :=
  ∃ L H, IsBox D r L H ∧ ∀ d < D, Low (fun p => X p d) big S (L d) ∧ High (fun p => X p d) low S (H d)

theorem boxInit (big low : K) :
    BoxOf D X big low [] (List.replicate D big, List.replicate D low) :=
  ⟨fun _ => big, fun _ => low, ⟨List.length_replicate, List.length_replicate,
    fun d hd => by simp [hd], fun d hd => by simp [hd]⟩,
    fun _ _ => ⟨⟨by simp, le_refl _, Or.inl rfl⟩, ⟨by simp, le_refl _, Or.inl rfl⟩⟩⟩

theorem boxPart_ok (hpts : ∀ p < n, ∀ d < D, pts[p * D + d]? = some (X p d)) {big low : K}
    (hx : ∀ p < n, ∀ d < D, low ≤ X p d ∧ X p d ≤ big)
    (part : List Nat) (hpart : ∀ p ∈ part, p < n) {S : List Nat} {r : List K × List K}
    (hr : BoxOf D X big low S r) :
    ∃ r', boxPart D pts part r = .ok r' ∧ BoxOf D X big low (S ++ part) r' := by
  unfold boxPart
  induction part generalizing S r with
  | nil => exact ⟨r, rfl, by rw [List.append_nil]; exact hr⟩
  | cons p part ih =>
    obtain ⟨L, H, h1, h2⟩ := hr
    have hp := hpart p (by simp)
    obtain ⟨r', g1, g2⟩ := pair_ok (D := D) (fun d r => do
      let x ← rd pts (p * D + d)
      let lo ← rd r.1 d
      let hi ← rd r.2 d
      let l ← wr r.1 d (min lo x)
      let h ← wr r.2 d (max hi x)
      .ok (l, h)) (A := fun d => min (L d) (X p d)) (B := fun d => max (H d) (X p d)) h1 (by
        intro d hd r e1 e2 e3 e4
        rw [rd_ok (hpts p hp d hd), ok_bind, rd_ok e3, ok_bind, rd_ok e4, ok_bind, wr_ok _ (by omega),
          ok_bind, wr_ok _ (by omega), ok_bind])
    rw [List.foldlM_cons, g1, ok_bind]
    have := ih (S := S ++ [p]) (fun p hp => hpart p (by simp [hp])) ⟨_, _, g2, fun d hd => ⟨(h2 d hd).1.merge
      ⟨by simp, (hx p hp d hd).2, Or.inr ⟨p, by simp, rfl⟩⟩, (h2 d hd).2.merge
      ⟨by simp, (hx p hp d hd).1, Or.inr ⟨p, by simp, rfl⟩⟩⟩⟩
    rwa [List.append_assoc, List.singleton_append] at this

theorem boxOf_ok (hpts : ∀ p < n, ∀ d < D, pts[p * D + d]? = some (X p d)) {big low : K}
    (hx : ∀ p < n, ∀ d < D, low ≤ X p d ∧ X p d ≤ big)
    (parts : List (List Nat)) (hparts : ∀ part ∈ parts, ∀ p ∈ part, p < n) :
    ∃ r, boxOf D pts parts big low = .ok r ∧ BoxOf D X big low parts.flatten r := by
  unfold boxOf
  suffices g : ∀ (parts : List (List Nat)) (S : List Nat) (r : List K × List K),
      (∀ part ∈ parts, ∀ p ∈ part, p < n) → BoxOf D X big low S r →
      ∃ r', parts.foldlM (fun r part => do
        let q ← boxPart D pts part (List.replicate D big, List.replicate D low)
        boxMerge D r q) r = .ok r' ∧ BoxOf D X big low (S ++ parts.flatten) r' by
    exact g parts [] _ hparts (boxInit big low)
  intro parts
  induction parts with
  | nil => intro S r _ hr; exact ⟨r, rfl, by simpa using hr⟩
  | cons part parts ih =>
    intro S r hp hr
    obtain ⟨q, q1, q2⟩ := boxPart_ok hpts hx part (hp part (by simp)) (boxInit (D := D) (X := X) big low)
    rw [List.nil_append] at q2
    obtain ⟨L, H, h1, h2⟩ := hr
    obtain ⟨L', H', h1', h2'⟩ := q2
    obtain ⟨r', g1, g2⟩ := pair_ok (D := D) (fun d r => do
      let a ← rd q.1 d
      let b ← rd q.2 d
      let lo ← rd r.1 d
      let hi ← rd r.2 d
      let l ← wr r.1 d (min lo a)
      let h ← wr r.2 d (max hi b)
      .ok (l, h)) (A := fun d => min (L d) (L' d)) (B := fun d => max (H d) (H' d)) h1 (by
        intro d hd r e1 e2 e3 e4
        rw [rd_ok (h1'.lo d hd), ok_bind, rd_ok (h1'.hi d hd), ok_bind, rd_ok e3, ok_bind, rd_ok e4,
          ok_bind, wr_ok _ (by omega), ok_bind, wr_ok _ (by omega), ok_bind])
    obtain ⟨r'', k1, k2⟩ := ih (S ++ part) r' (fun x hx => hp x (by simp [hx])) ⟨_, _, g2,
      fun d hd => ⟨(h2 d hd).1.merge (h2' d hd).1, (h2 d hd).2.merge (h2' d hd).2⟩⟩
    refine ⟨r'', ?_, by rwa [List.append_assoc] at k2⟩
    have g1' : boxMerge D r q = .ok r' := g1
    rw [List.foldlM_cons, q1, ok_bind, g1', ok_bind, k1]

theorem widthOf_ok {r : List K × List K} {L H : Nat → K} (hr : IsBox D r L H) (tiny : K) :
    ∃ W, widthOf D r tiny = .ok W ∧ tiny ≤ W ∧ (∀ d < D, H d - L d ≤ W) ∧
      (W = tiny ∨ ∃ d < D, W = H d - L d) := by
  unfold widthOf
  suffices g : ∀ m ≤ D, ∃ W, forUp m (fun d m => do
      let hi ← rd r.2 d
      let lo ← rd r.1 d
      .ok (max m (hi - lo))) tiny = .ok W ∧ tiny ≤ W ∧ (∀ d < m, H d - L d ≤ W) ∧
      (W = tiny ∨ ∃ d < m, W = H d - L d) from g D (Nat.le_refl D)
  intro m
  induction m with
  | zero => intro _; exact ⟨tiny, rfl, le_refl _, by simp, Or.inl rfl⟩
  | succ m ih =>
    intro hm
    obtain ⟨W, h1, h2, h3, h4⟩ := ih (by omega)
    refine ⟨max W (H m - L m), ?_, h2.trans (le_max_left _ _), ?_, ?_⟩
    · rw [forUp_succ, h1, ok_bind, rd_ok (hr.hi m (by omega)), ok_bind, rd_ok (hr.lo m (by omega)), ok_bind]
    · intro d hd
      by_cases he : d = m
      · subst he; exact le_max_right _ _
      · exact (h3 d (by omega)).trans (le_max_left _ _)
    · rcases max_choice W (H m - L m) with he | he <;> rw [he]
      · rcases h4 with h4 | ⟨d, hd, h4⟩
        · exact Or.inl h4
        · exact Or.inr ⟨d, by omega, h4⟩
      · exact Or.inr ⟨m, by omega, rfl⟩

theorem centerOf_ok {r : List K × List K} {L H : Nat → K} (hr : IsBox D r L H) :
    ∃ l, centerOf D r = .ok l ∧ ∀ d < D, l[d]? = some ((L d + H d) / 2) := by
  unfold centerOf
  suffices g : ∀ m ≤ D, forUp m (fun d l => do
      let lo ← rd r.1 d
      let hi ← rd r.2 d
      .ok (l ++ [(lo + hi) / 2])) [] = .ok ((List.range m).map fun d => (L d + H d) / 2) by
    refine ⟨_, g D (Nat.le_refl D), fun d hd => by simp [hd]⟩
  intro m
  induction m with
  | zero => intro _; rfl
  | succ m ih =>
    intro hm
    rw [forUp_succ, ih (by omega), ok_bind, rd_ok (hr.lo m (by omega)), ok_bind, rd_ok (hr.hi m (by omega)),
      ok_bind, List.range_succ, List.map_append]
    rfl

end Box

/-- The threshold of a level. -/
def threshold (hw theta floor : K) (l : Nat) : Option K :=
  if theta > 0 then some (hw * hw * (4 / (theta * theta)) * (1 / 4) ^ l + floor) else none

theorem thresholds_ok (hw theta floor : K) :
    thresholds hw theta floor = (List.range maxDepth).map (threshold hw theta floor) := by
  unfold thresholds
  simp only
  suffices g : ∀ m, (List.range m).foldl (fun (r : List (Option K) × Option K) _ =>
      (r.1 ++ [r.2.map (· + floor)], r.2.map (· * (1 / 4))))
        ([], (if theta > 0 then some (4 / (theta * theta)) else none).map (hw * hw * ·)) =
      ((List.range m).map (threshold hw theta floor),
        (if theta > 0 then some (hw * hw * (4 / (theta * theta)) * (1 / 4) ^ m) else none)) by
    rw [g]
  intro m
  by_cases ht : theta > 0
  · simp only [if_pos ht, Option.map_some]
    induction m with
    | zero => simp
    | succ m ih =>
      rw [List.range_succ, List.foldl_append, ih, List.map_append]
      simp [pow_succ, mul_assoc, threshold, if_pos ht]
  · simp only [if_neg ht, Option.map_none]
    induction m with
    | zero => simp
    | succ m ih =>
      rw [List.range_succ, List.foldl_append, ih, List.map_append]
      simp [threshold, if_neg ht]

theorem resize_length {α : Type} (l : List α) (k : Nat) (x : α) : (resize l k x).length = k := by
  unfold resize
  rw [List.length_append, List.length_take, List.length_replicate]
  omega

/-- The arrays have the sizes that `initialize_memory` gave them. -/
structure MemOk (D n : Nat) (m : Mem K) : Prop where
  cap : m.capacity = capacityOf D n
  nodes : m.nodes.length = m.capacity
  idx : m.idx.length = n
  pos : m.pos.length = n
  ready : m.ready = true

theorem initMem_ok {D n : Nat} (hn : 0 < n) {m : Mem K} (hm : m.ready = true → MemOk D n m) :
    MemOk D n (initMem D n m) := by
  unfold initMem
  by_cases h : m.ready = true ∧ n > 0 ∧ m.capacity / 2 ^ D ≥ n
  · rw [if_pos h]; exact hm h.1
  · rw [if_neg h]
    exact ⟨rfl, resize_length _ _ _, resize_length _ _ _, resize_length _ _ _, rfl⟩

/-- What the traversal needs of the tree. -/
structure TreeOk (D thr n : Nat) (full : Prop) (X : Nat → Nat → K) (H : K) (th : Nat → Option K)
    (t : Tree K) : Prop where
  perm : t.idx.Perm (List.range n)
  pos : ∀ k < n, t.pos[t.idx.getD k 0]? = some k
  sorted : ∀ k < n, ∀ d < D, t.sorted[k * D + d]? = some (X (t.idx.getD k 0) d)
  thrs : ∀ l < maxDepth, t.thr[l]? = some (th l)
  root : Cell D thr full X t.nodes t.idx (fun k => k < t.num) maxDepth 0 0 n H

theorem perm_range {l : List Nat} {n : Nat} (h : l.Perm (List.range n)) :
    l.length = n ∧ (∀ k < n, l.getD k 0 < n) ∧
      (∀ i < n, ∀ j < n, l.getD i 0 = l.getD j 0 → i = j) ∧ ∀ p < n, ∃ k < n, l.getD k 0 = p := by
  have hlen : l.length = n := by rw [h.length_eq, List.length_range]
  refine ⟨hlen, ?_, ?_, ?_⟩
  · intro k hk
    have := getElem?_getD (idx := l) (i := k) (by omega)
    have := List.mem_of_getElem? this
    exact List.mem_range.1 (h.mem_iff.1 this)
  · intro i hi j hj he
    have hnd : l.Nodup := h.nodup_iff.2 List.nodup_range
    have h1 := getElem?_getD (idx := l) (i := i) (by omega)
    have h2 := getElem?_getD (idx := l) (i := j) (by omega)
    rw [he, ← h2] at h1
    exact (List.nodup_iff_getElem?_ne_getElem?.1 hnd |> fun hh => by
      by_contra hne
      rcases Nat.lt_or_gt_of_ne hne with hlt | hlt
      · exact hh i j hlt (by omega) h1
      · exact hh j i hlt (by omega) h1.symm)
  · intro p hp
    have : p ∈ l := h.mem_iff.2 (List.mem_range.2 hp)
    rw [List.mem_iff_getElem?] at this
    obtain ⟨k, hk⟩ := this
    have hkl : k < l.length := (List.getElem?_eq_some_iff.1 hk).1
    refine ⟨k, by omega, ?_⟩
    have := getElem?_getD (idx := l) (i := k) hkl
    rw [hk] at this
    exact (Option.some.inj this).symm

theorem cell_index_ne {D k k' d d' : Nat} (hd : d < D) (hd' : d' < D) (h : k ≠ k') :
    k * D + d ≠ k' * D + d' := by
  intro he
  rcases Nat.lt_or_gt_of_ne h with h | h
  · have : (k + 1) * D ≤ k' * D := Nat.mul_le_mul_right _ h
    rw [Nat.add_mul, Nat.one_mul] at this
    omega
  · have : (k' + 1) * D ≤ k * D := Nat.mul_le_mul_right _ h
    rw [Nat.add_mul, Nat.one_mul] at this
    omega

/-- Storing a row. -/
theorem row_ok {D n k : Nat} (hk : k < n) (x : Nat → K) (f : Nat → List K → M (List K)) {s : List K}
    (hs : s.length = n * D)
    (hf : ∀ d < D, ∀ l : List K, l.length = n * D → f d l = .ok (l.set (k * D + d) (x d))) :
    ∃ s', forUp D f s = .ok s' ∧ s'.length = n * D ∧ (∀ d < D, s'[k * D + d]? = some (x d)) ∧
      ∀ i, (∀ d < D, i ≠ k * D + d) → s'[i]? = s[i]? := by
  have hb : ∀ d < D, k * D + d < n * D := by
    intro d hd
    have : (k + 1) * D ≤ n * D := Nat.mul_le_mul_right _ hk
    rw [Nat.add_mul, Nat.one_mul] at this
    omega
  suffices g : ∀ m ≤ D, ∃ s', forUp m f s = .ok s' ∧ s'.length = n * D ∧
      (∀ d < m, s'[k * D + d]? = some (x d)) ∧ ∀ i, (∀ d < m, i ≠ k * D + d) → s'[i]? = s[i]? from
    g D (Nat.le_refl D)
  intro m
  induction m with
  | zero => intro _; exact ⟨s, rfl, hs, by simp, fun _ _ => rfl⟩
  | succ m ih =>
    intro hm
    obtain ⟨s', h1, h2, h3, h4⟩ := ih (by omega)
    refine ⟨s'.set (k * D + m) (x m), ?_, by rw [List.length_set, h2], ?_, ?_⟩
    · rw [forUp_succ, h1, ok_bind, hf m (by omega) s' h2]
    · intro d hd
      by_cases he : d = m
      · subst he
        exact List.getElem?_set_self (by rw [h2]; exact hb d (by omega))
      · rw [List.getElem?_set_ne (by omega)]
        exact h3 d (by omega)
    · intro i hi
      rw [List.getElem?_set_ne (fun h => hi m (by omega) h.symm)]
      exact h4 i fun d hd => hi d (by omega)

theorem buildTree_ok (A : Arena σ) {D n thr : Nat} {pts : List K} {X : Nat → Nat → K}
    {used : σ → Nat → Prop} {size : σ → Nat} {full : Prop} {u : Nat} {dem : Nat → Nat → Nat}
    (hn : 0 < n) (hpts : ∀ p < n, ∀ d < D, pts[p * D + d]? = some (X p d))
    (hA : A.Ok (capacityOf D n) used size)
    (hfail : ∀ s path ne s', A.take s path ne = (none, s') →
      full ∨ u * capacityOf D n < u * (size s + ne))
    (hdem : full ∨ ∀ (l : Nat) (ws : List Nat), ws.length ≤ 2 ^ D → (∀ x ∈ ws, 0 < x) → thr < ws.sum →
      u * ws.length + (ws.map (dem l)).sum ≤ dem (l + 1) ws.sum)
    (hroom : full ∨ u * 1 + dem maxDepth n ≤ u * capacityOf D n)
    {parts : List (List Nat)} (hparts : parts.flatten.Perm (List.range n))
    {sched : List Nat} (hsched : sched.Perm (List.range n)) {big low tiny theta floor : K}
    (hx : ∀ p < n, ∀ d < D, low ≤ X p d ∧ X p d ≤ big) (m : Mem K) (hm : m.ready = true → MemOk D n m) :
    ∃ t m' W, buildTree A D n thr pts parts sched big low tiny theta floor m = .ok (t, m') ∧
      MemOk D n m' ∧ tiny ≤ W ∧ (∀ p < n, ∀ p' < n, ∀ d < D, X p d - X p' d ≤ W) ∧
      (W = tiny ∨ ∃ d < D, ∃ p < n, ∃ p' < n, W = X p d - X p' d) ∧
      TreeOk D thr n full X (W / 2) (threshold (W / 2) theta floor) t := by
  have hpn : ∀ p, p ∈ parts.flatten ↔ p < n := by
    intro p
    rw [hparts.mem_iff, List.mem_range]
  obtain ⟨box, b1, L, H, b2, b3⟩ := boxOf_ok hpts hx parts (by
    intro part h1 p h2
    exact (hpn p).1 (List.mem_flatten.2 ⟨part, h1, h2⟩))
  have hL : ∀ d < D, (∀ p < n, L d ≤ X p d) ∧ ∃ p < n, L d = X p d := by
    intro d hd
    have h := (b3 d hd).1
    refine ⟨fun p hp => h.le p ((hpn p).2 hp), ?_⟩
    rcases h.att with he | ⟨p, hp, he⟩
    · refine ⟨0, hn, ?_⟩
      have h1 := h.le 0 ((hpn 0).2 hn)
      exact le_antisymm h1 (he ▸ (hx 0 hn d hd).2)
    · exact ⟨p, (hpn p).1 hp, he⟩
  have hH : ∀ d < D, (∀ p < n, X p d ≤ H d) ∧ ∃ p < n, H d = X p d := by
    intro d hd
    have h := (b3 d hd).2
    refine ⟨fun p hp => h.le p ((hpn p).2 hp), ?_⟩
    rcases h.att with he | ⟨p, hp, he⟩
    · refine ⟨0, hn, ?_⟩
      have h1 := h.le 0 ((hpn 0).2 hn)
      exact le_antisymm (he ▸ (hx 0 hn d hd).1) h1
    · exact ⟨p, (hpn p).1 hp, he⟩
  obtain ⟨W, w1, w2, w3, w4⟩ := widthOf_ok b2 tiny
  obtain ⟨cen, c1, c2⟩ := centerOf_ok b2
  have hmem := initMem_ok hn hm
  obtain ⟨m0, hm0⟩ : ∃ m0, m0 = initMem D n m := ⟨_, rfl⟩
  rw [← hm0] at hmem
  have hrange : ∀ i < n, (List.range m0.idx.length).getD i 0 = i := by
    intro i hi
    have := getElem?_getD (idx := List.range m0.idx.length) (i := i) (by rw [List.length_range, hmem.idx]; exact hi)
    rw [List.getElem?_range (by rw [hmem.idx]; exact hi)] at this
    exact (Option.some.inj this).symm
  obtain ⟨s, s1, s2⟩ := build_ok A (n := n) (thr := thr) (cap' := capacityOf D n) hpts hA hfail hdem maxDepth
    [] 0 0 n cen (W / 2) ⟨List.range m0.idx.length, m0.nodes, A.init⟩ _ hn
    (by rw [List.length_range, hmem.idx]) (by intro i _ hi; rw [hrange i hi]; exact hi) c2
    (by rw [hmem.nodes, hmem.cap]) (by unfold capacityOf; omega) ((hA.init.1 0).2 rfl) (by
      intro i _ hi d hd
      rw [hrange i hi, abs_le]
      have h1 := (hL d hd).1 i hi
      have h2 := (hH d hd).1 i hi
      have h3 := w3 d hd
      constructor <;> linarith) (by
      rcases hroom with h | h
      · exact Or.inl h
      · right
        rw [hA.init.2]
        exact h)
  have hperm : s.idx.Perm (List.range n) := by
    have := s2.perm
    rw [hmem.idx] at this
    exact this
  obtain ⟨q1, q2, q3, q4⟩ := perm_range hperm
  obtain ⟨r, r1, r2⟩ := foldlM_prefix (fun r k => place D pts s.idx k r)
    (fun pre (r : List Nat × List K) => r.1.length = n ∧ r.2.length = n * D ∧
      ∀ k ∈ pre, r.1[s.idx.getD k 0]? = some k ∧
        ∀ d < D, r.2[k * D + d]? = some (X (s.idx.getD k 0) d))
    sched (m0.pos, resize m0.sorted (n * D) 0) ⟨hmem.pos, resize_length _ _ _, by simp⟩ (by
      intro pre k post r hl ⟨i1, i2, i3⟩
      have hmemk : ∀ x ∈ pre ++ k :: post, x < n := by
        intro x hx
        rw [← hl] at hx
        exact List.mem_range.1 (hsched.mem_iff.1 hx)
      have hk := hmemk k (by simp)
      have hnd : (pre ++ k :: post).Nodup := by
        rw [← hl]; exact hsched.nodup_iff.2 List.nodup_range
      have hne : ∀ k' ∈ pre, k' ≠ k := fun k' h' he =>
        (List.nodup_append.1 hnd).2.2 k' h' k (by simp) he
      obtain ⟨srt, t1, t2, t3, t4⟩ := row_ok (D := D) hk (fun d => X (s.idx.getD k 0) d)
        (fun d l => do
          let x ← rd pts (s.idx.getD k 0 * D + d)
          wr l (k * D + d) x) i2 (by
          intro d hd l hl
          have : k * D + d < n * D := by
            have : (k + 1) * D ≤ n * D := Nat.mul_le_mul_right _ hk
            rw [Nat.add_mul, Nat.one_mul] at this
            omega
          rw [rd_ok (hpts _ (q2 k hk) d hd), ok_bind, wr_ok _ (by omega)])
      refine ⟨(r.1.set (s.idx.getD k 0) k, srt), ?_, ?_, t2, ?_⟩
      · unfold place
        rw [rd_ok (getElem?_getD (by omega)), ok_bind, wr_ok _ (by rw [i1]; exact q2 k hk), ok_bind, t1, ok_bind]
      · rw [List.length_set]; exact i1
      · intro k' hk'
        rw [List.mem_append, List.mem_singleton] at hk'
        rcases hk' with hk' | rfl
        · obtain ⟨g1, g2⟩ := i3 k' hk'
          have hkn := hmemk k' (by simp [hk'])
          refine ⟨?_, ?_⟩
          · rw [List.getElem?_set_ne (fun h => hne k' hk' (q3 _ hk _ hkn h).symm)]
            exact g1
          · intro d hd
            rw [t4 _ (fun d' hd' => cell_index_ne hd hd' (hne k' hk'))]
            exact g2 d hd
        · exact ⟨List.getElem?_set_self (by rw [i1]; exact q2 _ hk), t3⟩)
  have hall : ∀ k < n, k ∈ sched := fun k hk => hsched.mem_iff.2 (List.mem_range.2 hk)
  refine ⟨⟨s.nodes, A.num s.arena, s.idx, r.1, r.2, thresholds (W / 2) theta floor⟩,
    { m0 with nodes := s.nodes, idx := s.idx, pos := r.1, sorted := r.2 }, W, ?_, ?_, w2, ?_, ?_, ?_⟩
  · unfold buildTree
    simp only
    rw [← hm0, b1, ok_bind, w1, ok_bind, c1, ok_bind, s1, ok_bind, r1, ok_bind]
  · exact ⟨hmem.cap, s2.len.trans hmem.nodes, q1, r2.1, hmem.ready⟩
  · intro p hp p' hp' d hd
    have h1 := (hL d hd).1 p' hp'
    have h2 := (hH d hd).1 p hp
    have h3 := w3 d hd
    linarith
  · rcases w4 with h | ⟨d, hd, h⟩
    · exact Or.inl h
    · obtain ⟨p', hp', e'⟩ := (hL d hd).2
      obtain ⟨p, hp, e⟩ := (hH d hd).2
      exact Or.inr ⟨d, hd, p, hp, p', hp', by rw [h, e, e']⟩
  · refine ⟨hperm, fun k hk => (r2.2.2 k (hall k hk)).1, fun k hk => (r2.2.2 k (hall k hk)).2, ?_, ?_⟩
    · intro l hl
      show (thresholds (W / 2) theta floor)[l]? = _
      rw [thresholds_ok]
      simp [hl]
    · refine s2.cell.mono (fun _ _ => rfl) ?_ (fun _ _ _ => rfl)
      intro k hk
      rcases hk with rfl | hk
      · exact hA.num _ _ (s2.grow 0 ((hA.init.1 0).2 rfl))
      · exact hA.num _ _ hk.1

end Verif.BarnesHut
