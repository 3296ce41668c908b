import Verif.Cache.Spec
import Mathlib.Data.List.Nodup
import Mathlib.Data.List.Perm.Basic

namespace Verif.Cache
set_option linter.unusedSectionVars false
variable {R : Type}

theorem traceOk_nil (cap : Nat) : TraceOk cap ([] : List (Event R)) := by
  intro post e pre h
  simp at h

theorem traceOk_cons {cap : Nat} {t : List (Event R)} {e : Event R}
    (h : TraceOk cap t) (he : EventOk cap t e) : TraceOk cap (e :: t) := by
  intro post e' pre hh
  cases post with
  | nil => simp at hh; obtain ⟨rfl, rfl⟩ := hh; exact he
  | cons a post => simp at hh; exact h post e' pre hh.2

theorem lastUse_le (s : Nat) (t : List (Event R)) : lastUse s t ≤ t.length := by
  induction t with
  | nil => simp [lastUse]
  | cons e t ih => cases e <;> simp only [lastUse, List.length_cons] <;> (try split) <;> omega

/-- Invariant relating the cache and the trace. -/
structure Inv (cap : Nat) (c : Cache R) (tr : List (Event R)) : Prop where
  capEq : c.capacity = cap
  free : c.freeIdx + c.nFree = cap
  slotsNodup : (c.items.map Node.slot).Nodup
  slotsLt : ∀ n ∈ c.items, n.slot < c.freeIdx
  idsNodup : (c.items.map Node.id).Nodup
  idsLt : ∀ n ∈ c.items, n.id < c.nextId
  mapOk : ∀ k id, c.map k = some id → ∃ n ∈ c.items, n.id = id ∧ n.key = k ∧
    ∃ r, c.mem n.slot = some r ∧ lastStored k tr = some (n.slot, r)
  memOk : ∀ n ∈ c.items, ∃ r, c.mem n.slot = some r
  ownerOk : ∀ s k, owner s tr = some k ↔ ∃ n ∈ c.items, n.slot = s ∧ n.key = k
  order : c.items.Pairwise fun a b => lastUse b.slot tr < lastUse a.slot tr
  ok : TraceOk cap tr

theorem inv_init (cap : Nat) : Inv cap (init cap : Cache R) [] := by
  constructor <;> simp [init, owner, traceOk_nil]

theorem owner_some_iff {cap : Nat} {c : Cache R} {tr : List (Event R)} (h : Inv cap c tr)
    (s : Nat) : owner s tr ≠ none ↔ s ∈ c.items.map Node.slot := by
  constructor
  · intro hs
    obtain ⟨k, hk⟩ := Option.ne_none_iff_exists'.1 hs
    obtain ⟨n, hn, rfl, _⟩ := (h.ownerOk s k).1 hk
    exact List.mem_map_of_mem hn
  · intro hs
    obtain ⟨n, hn, rfl⟩ := List.mem_map.1 hs
    rw [(h.ownerOk n.slot n.key).2 ⟨n, hn, rfl, rfl⟩]
    simp

/-- A miss changes nothing. -/
theorem inv_miss {cap : Nat} {c : Cache R} {tr : List (Event R)} (h : Inv cap c tr) (k : Int) :
    Inv cap c (.miss k :: tr) := by
  refine ⟨h.capEq, h.free, h.slotsNodup, h.slotsLt, h.idsNodup, h.idsLt, ?_, h.memOk, ?_, ?_, ?_⟩
  · simpa [lastStored] using h.mapOk
  · simpa [owner] using h.ownerOk
  · simpa [lastUse] using h.order
  · exact traceOk_cons h.ok trivial

theorem inv_failed {cap : Nat} {c : Cache R} {tr : List (Event R)} (h : Inv cap c tr) :
    Inv cap c (.failed :: tr) := by
  refine ⟨h.capEq, h.free, h.slotsNodup, h.slotsLt, h.idsNodup, h.idsLt, ?_, h.memOk, ?_, ?_, ?_⟩
  · simpa [lastStored] using h.mapOk
  · simpa [owner] using h.ownerOk
  · simpa [lastUse] using h.order
  · exact traceOk_cons h.ok trivial

theorem mem_front {items : List Node} {n : Node} (hids : (items.map Node.id).Nodup)
    (hn : n ∈ items) (m : Node) :
    m ∈ n :: items.filter (fun m => m.id != n.id) ↔ m ∈ items := by
  simp only [List.mem_cons, List.mem_filter, bne_iff_ne, ne_eq]
  constructor
  · rintro (rfl | ⟨h, _⟩) <;> assumption
  · intro hm
    by_cases h : m.id = n.id
    · left; exact List.inj_on_of_nodup_map hids hm hn h
    · right; exact ⟨hm, h⟩

theorem front_nodup {β : Type} (f : Node → β) {items : List Node} {n : Node}
    (_hids : (items.map Node.id).Nodup) (hf : (items.map f).Nodup) (hn : n ∈ items) :
    ((n :: items.filter (fun m => m.id != n.id)).map f).Nodup := by
  rw [List.map_cons, List.nodup_cons]
  constructor
  · intro h
    obtain ⟨m, hm, he⟩ := List.mem_map.1 h
    simp only [List.mem_filter, bne_iff_ne, ne_eq] at hm
    have := List.inj_on_of_nodup_map hf hm.1 hn he
    exact hm.2 (by rw [this])
  · exact hf.sublist (List.Sublist.map _ List.filter_sublist)

theorem get_inv {cap : Nat} {c : Cache R} {tr : List (Event R)} (h : Inv cap c tr) (k : Int) :
    ∃ c' e, get c k = some (c', e) ∧ Inv cap c' (e :: tr) ∧ c'.mem = c.mem ∧
      c'.freeIdx = c.freeIdx ∧ (∀ m, m ∈ c'.items ↔ m ∈ c.items) ∧
      c'.items.length = c.items.length ∧ c'.nFree = c.nFree ∧
      c'.map = c.map ∧ (∀ k', e = .miss k' → k' = k ∧ c.map k = none) := by
  unfold get
  cases hm : c.map k with
  | none =>
    refine ⟨c, .miss k, rfl, inv_miss h k, rfl, rfl, fun _ => Iff.rfl, rfl, rfl, rfl, ?_⟩
    intro k' hk'
    simp at hk'
    exact ⟨hk'.symm, rfl⟩
  | some id =>
    obtain ⟨n, hn, rfl, rfl, r, hr, hl⟩ := h.mapOk k id hm
    have hf : c.items.find? (fun m => m.id == n.id) = some n := by
      obtain ⟨m, hm'⟩ : ∃ m, c.items.find? (fun m => m.id == n.id) = some m := by
        rw [← Option.isSome_iff_exists, List.find?_isSome]
        exact ⟨n, hn, by simp⟩
      have h1 := List.find?_some hm'
      have h2 := List.mem_of_find?_eq_some hm'
      simp at h1
      rw [hm', List.inj_on_of_nodup_map h.idsNodup h2 hn h1]
    simp only [hf, hr]
    have hmem := mem_front h.idsNodup hn
    have hown : owner n.slot tr = some n.key := (h.ownerOk _ _).2 ⟨n, hn, rfl, rfl⟩
    refine ⟨_, _, rfl, ?_, rfl, rfl, hmem, ?_, rfl, rfl, by simp⟩
    · refine ⟨h.capEq, h.free, ?_, ?_, ?_, ?_, ?_, ?_, ?_, ?_, ?_⟩
      · exact front_nodup Node.slot h.idsNodup h.slotsNodup hn
      · exact fun m hm => h.slotsLt m ((hmem m).1 hm)
      · exact front_nodup Node.id h.idsNodup h.idsNodup hn
      · exact fun m hm => h.idsLt m ((hmem m).1 hm)
      · intro k' id' hk'
        obtain ⟨m, hm, h1, h2, h3⟩ := h.mapOk k' id' hk'
        exact ⟨m, (hmem m).2 hm, h1, h2, h3⟩
      · exact fun m hm => h.memOk m ((hmem m).1 hm)
      · intro s k'
        simp only [owner]
        rw [h.ownerOk]
        constructor
        · rintro ⟨m, hm, h1⟩; exact ⟨m, (hmem m).2 hm, h1⟩
        · rintro ⟨m, hm, h1⟩; exact ⟨m, (hmem m).1 hm, h1⟩
      · have hne : ∀ m ∈ c.items.filter (fun m => m.id != n.id), n.slot ≠ m.slot := by
          intro m hm he
          simp only [List.mem_filter, bne_iff_ne, ne_eq] at hm
          exact hm.2 (by rw [List.inj_on_of_nodup_map h.slotsNodup hn hm.1 he])
        rw [List.pairwise_cons]
        constructor
        · intro m hm
          have := lastUse_le m.slot tr
          simp only [lastUse, if_neg (hne m hm), if_true]
          omega
        · refine (h.order.filter _).imp_of_mem ?_
          intro a b ha hb hab
          simpa only [lastUse, if_neg (hne a ha), if_neg (hne b hb)] using hab
      · exact traceOk_cons h.ok ⟨hl, hown⟩
    · have hnd : c.items.Nodup := List.Nodup.of_map _ h.idsNodup
      have hnd' : (n :: c.items.filter (fun m => m.id != n.id)).Nodup :=
        List.Nodup.of_map _ (front_nodup Node.id h.idsNodup h.idsNodup hn)
      exact ((List.perm_ext_iff_of_nodup hnd' hnd).2 hmem).length_eq

/-- Removing the last node. -/
theorem inv_evict {cap : Nat} {c : Cache R} {tr : List (Event R)} {n : Node}
    (h : Inv cap c tr) (hl : c.items.getLast? = some n) :
    Inv cap { c with items := c.items.dropLast
                     map := eraseKey c.map n.key }
      (.evict n.key n.slot :: tr) ∧ n.slot ∉ c.items.dropLast.map Node.slot := by
  have hsplit : c.items = c.items.dropLast ++ [n] := by
    have hne : c.items ≠ [] := by rintro h0; simp [h0] at hl
    have := List.dropLast_append_getLast hne
    rw [List.getLast?_eq_some_getLast hne] at hl
    simp at hl
    rw [hl] at this
    exact this.symm
  have hmem : ∀ m, m ∈ c.items ↔ m ∈ c.items.dropLast ∨ m = n := by
    intro m
    conv_lhs => rw [hsplit]
    simp
  have hns : n.slot ∉ c.items.dropLast.map Node.slot := by
    have := h.slotsNodup
    rw [hsplit, List.map_append, List.nodup_append] at this
    intro hh
    exact this.2.2 _ hh n.slot (by simp) rfl
  have hnm : ∀ m ∈ c.items.dropLast, n.slot ≠ m.slot := by
    intro m hm he
    exact hns (he ▸ List.mem_map_of_mem hm)
  have hord := h.order
  rw [hsplit, List.pairwise_append] at hord
  refine ⟨⟨h.capEq, h.free, ?_, ?_, ?_, ?_, ?_, ?_, ?_, ?_, ?_⟩, hns⟩
  · exact h.slotsNodup.sublist (List.Sublist.map _ (List.dropLast_sublist _))
  · exact fun m hm => h.slotsLt m ((hmem m).2 (Or.inl hm))
  · exact h.idsNodup.sublist (List.Sublist.map _ (List.dropLast_sublist _))
  · exact fun m hm => h.idsLt m ((hmem m).2 (Or.inl hm))
  · intro k id hk
    simp only [eraseKey] at hk
    split at hk
    · simp at hk
    · rename_i hne
      obtain ⟨m, hm, h1, h2, h3⟩ := h.mapOk k id hk
      refine ⟨m, ?_, h1, h2, by simpa only [lastStored] using h3⟩
      rcases (hmem m).1 hm with h' | rfl
      · exact h'
      · exact absurd h2.symm hne
  · exact fun m hm => h.memOk m ((hmem m).2 (Or.inl hm))
  · intro s k
    simp only [owner]
    split
    · rename_i he
      constructor
      · simp
      · rintro ⟨m, hm, h1, _⟩
        exact absurd (he.trans h1.symm) (hnm m hm)
    · rename_i he
      rw [h.ownerOk]
      constructor
      · rintro ⟨m, hm, h1, h2⟩
        rcases (hmem m).1 hm with h' | rfl
        · exact ⟨m, h', h1, h2⟩
        · exact absurd h1 he
      · rintro ⟨m, hm, h1⟩
        exact ⟨m, (hmem m).2 (Or.inl hm), h1⟩
  · simpa only [lastUse] using hord.1
  · refine traceOk_cons h.ok ⟨(h.ownerOk _ _).2 ⟨n, (hmem n).2 (Or.inr rfl), rfl, rfl⟩, ?_⟩
    intro s' hs' ho
    rw [owner_some_iff h] at ho
    obtain ⟨m, hm, rfl⟩ := List.mem_map.1 ho
    rcases (hmem m).1 hm with h' | rfl
    · exact hord.2.2 m h' n (by simp)
    · exact absurd rfl hs'

/-- Publishing one column. -/
theorem inv_store {cap : Nat} {c : Cache R} {tr : List (Event R)} {k : Int} {s : Nat} {r : R}
    (h : Inv cap c tr) (hs : s ∉ c.items.map Node.slot) (hlt : s < c.freeIdx)
    (hr : c.mem s = some r) :
    Inv cap { c with items := { id := c.nextId, key := k, slot := s } :: c.items
                     map := fun k' => if k' = k then some c.nextId else c.map k'
                     nextId := c.nextId + 1 }
      (.stored k s r :: tr) := by
  have hnm : ∀ m ∈ c.items, s ≠ m.slot := fun m hm he => hs (he ▸ List.mem_map_of_mem hm)
  refine ⟨h.capEq, h.free, ?_, ?_, ?_, ?_, ?_, ?_, ?_, ?_, ?_⟩
  · simp only [List.map_cons, List.nodup_cons]; exact ⟨hs, h.slotsNodup⟩
  · intro m hm
    rcases List.mem_cons.1 hm with rfl | hm
    · exact hlt
    · exact h.slotsLt m hm
  · simp only [List.map_cons, List.nodup_cons]
    refine ⟨?_, h.idsNodup⟩
    intro hh
    obtain ⟨m, hm, he⟩ := List.mem_map.1 hh
    have := h.idsLt m hm
    omega
  · intro m hm
    show _ < c.nextId + 1
    rcases List.mem_cons.1 hm with rfl | hm
    · simp
    · have := h.idsLt m hm; omega
  · intro k' id hk'
    dsimp only at hk'
    split at hk'
    · rename_i he
      simp only [Option.some.injEq] at hk'
      subst hk' he
      exact ⟨_, List.mem_cons_self, rfl, rfl, r, hr, by simp [lastStored]⟩
    · rename_i he
      obtain ⟨m, hm, h1, h2, r', h3, h4⟩ := h.mapOk k' id hk'
      exact ⟨m, List.mem_cons_of_mem _ hm, h1, h2, r', h3, by
        simp only [lastStored, if_neg (Ne.symm he), h4]⟩
  · intro m hm
    rcases List.mem_cons.1 hm with rfl | hm
    · exact ⟨r, hr⟩
    · exact h.memOk m hm
  · intro s' k'
    simp only [owner, List.mem_cons, exists_eq_or_imp]
    split
    · rename_i he
      subst he
      constructor
      · intro hh; simp at hh; exact Or.inl ⟨rfl, hh⟩
      · rintro (⟨_, hh⟩ | ⟨m, hm, h1, _⟩)
        · simp [hh]
        · exact absurd h1.symm (hnm m hm)
    · rename_i he
      rw [h.ownerOk]
      simp [he]
  · rw [List.pairwise_cons]
    constructor
    · intro m hm
      have := lastUse_le m.slot tr
      simp only [lastUse, if_neg (hnm m hm), if_true]
      omega
    · refine h.order.imp_of_mem ?_
      intro a b ha hb hab
      simpa only [lastUse, if_neg (hnm a ha), if_neg (hnm b hb)] using hab
  · refine traceOk_cons h.ok ⟨?_, ?_⟩
    · have := h.free; omega
    · by_contra hh
      exact hs ((owner_some_iff h s).1 hh)

/-- Writing to a slot no node refers to. -/
theorem inv_write {cap : Nat} {c : Cache R} {tr : List (Event R)} {s : Nat} {r : R}
    (h : Inv cap c tr) (hs : s ∉ c.items.map Node.slot) :
    Inv cap (writeSlot c s r) tr := by
  have hnm : ∀ m ∈ c.items, m.slot ≠ s := fun m hm he => hs (he ▸ List.mem_map_of_mem hm)
  refine ⟨h.capEq, h.free, h.slotsNodup, h.slotsLt, h.idsNodup, h.idsLt, ?_, ?_, h.ownerOk,
    h.order, h.ok⟩
  · intro k id hk
    obtain ⟨m, hm, h1, h2, r', h3, h4⟩ := h.mapOk k id hk
    exact ⟨m, hm, h1, h2, r', by simp [writeSlot, hnm m hm, h3], h4⟩
  · intro m hm
    obtain ⟨r', h3⟩ := h.memOk m hm
    exact ⟨r', by simp [writeSlot, hnm m hm, h3]⟩

theorem takeFree_spec (target : Nat) (nf : Nat) : ∀ acc fi, takeFree target acc nf fi =
    (acc ++ List.range' fi (min nf (target - acc.length)),
      nf - min nf (target - acc.length), fi + min nf (target - acc.length)) := by
  induction nf with
  | zero => intro acc fi; simp [takeFree]
  | succ nf ih =>
    intro acc fi
    simp only [takeFree]
    split
    · rename_i h
      rw [ih]
      have e : min (nf + 1) (target - acc.length)
          = min nf (target - (acc ++ [fi]).length) + 1 := by
        simp only [List.length_append, List.length_singleton]; omega
      rw [e]
      simp only [Prod.mk.injEq]
      refine ⟨?_, by omega, by omega⟩
      rw [List.range'_succ]
      simp
    · rename_i h
      have e : target - acc.length = 0 := by omega
      simp [e]

theorem evictLoop_spec (cap : Nat) (target : Nat) (c : Cache R) (e : Ev) :
    ∀ (tr : List (Event R)), Inv cap { c with items := e.items, map := e.map } tr →
    ∃ new : List Node, (evictLoop target e).acc = e.acc ++ new.map Node.slot ∧
      (evictLoop target e).out = e.out ++ new ∧
      Inv cap { c with items := (evictLoop target e).items, map := (evictLoop target e).map }
        ((new.map fun n => Event.evict n.key n.slot).reverse ++ tr) ∧
      e.items = (evictLoop target e).items ++ new.reverse ∧
      new.length = min e.items.length (target - e.acc.length) ∧
      (∀ k id, (evictLoop target e).map k = some id → e.map k = some id) ∧
      (∀ k, (∀ m ∈ new, m.key ≠ k) → (evictLoop target e).map k = e.map k) := by
  fun_induction evictLoop target e with
  | case1 e hlt hl =>
    intro tr h
    refine ⟨[], by simp, by simp, by simpa using h, by simp, ?_, fun _ _ h => h, fun _ _ => rfl⟩
    have : e.items = [] := by simpa using hl
    simp [this]
  | case2 e hlt n hl ih =>
    intro tr h
    have hne : e.items ≠ [] := by rintro h0; simp [h0] at hl
    have hsplit : e.items = e.items.dropLast ++ [n] := by
      have := List.dropLast_append_getLast hne
      rw [List.getLast?_eq_some_getLast hne] at hl
      simp at hl
      rw [hl] at this
      exact this.symm
    obtain ⟨new, h1, h2, h3, h4, h5, h6, h7⟩ := ih (.evict n.key n.slot :: tr) (inv_evict h hl).1
    refine ⟨n :: new, ?_, ?_, ?_, ?_, ?_, ?_, ?_⟩
    · rw [h1]; simp
    · rw [h2]; simp
    · simpa using h3
    · rw [List.reverse_cons, ← List.append_assoc, ← h4]; exact hsplit
    · have := List.length_pos_iff.2 hne
      simp only [List.length_cons, h5, List.length_dropLast, List.length_append,
        List.length_nil]
      omega
    · intro k id hk
      have := h6 k id hk
      simp only [eraseKey] at this
      split at this
      · simp at this
      · exact this
    · intro k hk
      rw [h7 k (fun m hm => hk m (List.mem_cons_of_mem _ hm))]
      simp only [eraseKey]
      rw [if_neg (Ne.symm (hk n List.mem_cons_self))]
  | case3 e hlt =>
    intro tr h
    refine ⟨[], by simp, by simp, by simpa using h, by simp, ?_, fun _ _ h => h, fun _ _ => rfl⟩
    have : target - e.acc.length = 0 := by omega
    simp [this]

theorem acquire_spec {cap : Nat} {c : Cache R} {tr : List (Event R)} (h : Inv cap c tr)
    (n : Nat) :
    ∃ c' slots out, acquire c n = (c', slots, out) ∧
      Inv cap c' ((out.map fun n => Event.evict n.key n.slot).reverse ++ tr) ∧
      c'.mem = c.mem ∧ c.freeIdx ≤ c'.freeIdx ∧
      c.items = c'.items ++ out.reverse ∧
      slots = List.range' c.freeIdx (min c.nFree (min n cap)) ++ out.map Node.slot ∧
      c'.freeIdx = c.freeIdx + min c.nFree (min n cap) ∧
      out.length = min c.items.length (min n cap - min c.nFree (min n cap)) ∧
      (∀ k id, c'.map k = some id → c.map k = some id) ∧
      (∀ k, (∀ m ∈ out, m.key ≠ k) → c'.map k = c.map k) ∧ c'.nextId = c.nextId := by
  unfold acquire
  simp only [takeFree_spec, h.capEq, List.length_nil, List.nil_append, Nat.sub_zero]
  generalize hm : min c.nFree (min n cap) = m
  have hinv : Inv cap { c with nFree := c.nFree - m, freeIdx := c.freeIdx + m } tr := by
    refine ⟨h.capEq, ?_, h.slotsNodup, ?_, h.idsNodup, h.idsLt, h.mapOk, h.memOk, h.ownerOk,
      h.order, h.ok⟩
    · have := h.free; show c.freeIdx + m + (c.nFree - m) = cap; omega
    · intro x hx; have := h.slotsLt x hx; show _ < c.freeIdx + m; omega
  obtain ⟨new, h1, h2, h3, h4, h5, h6, h7⟩ := evictLoop_spec cap (min n cap)
    { c with nFree := c.nFree - m, freeIdx := c.freeIdx + m }
    { acc := List.range' c.freeIdx m, items := c.items, map := c.map, out := [] } tr hinv
  simp only [List.nil_append, List.length_range'] at h1 h2 h4 h5
  refine ⟨_, _, _, rfl, ?_, rfl, by simp, ?_, ?_, rfl, ?_, ?_, ?_, rfl⟩
  · rw [h2]; simpa only [h.capEq] using h3
  · rw [h2]; exact h4
  · rw [h2]; exact h1
  · rw [h2]; exact h5
  · exact h6
  · rw [h2]; exact h7

theorem publish_inv (cap : Nat) (l : List ((Int × Nat) × R)) : ∀ (c : Cache R)
    (tr : List (Event R)), Inv cap c tr → (l.map (fun p => p.1.2)).Nodup →
    (∀ p ∈ l, p.1.2 ∉ c.items.map Node.slot ∧ p.1.2 < c.freeIdx ∧ c.mem p.1.2 = some p.2) →
    Inv cap (publish (l.map Prod.fst) c)
      ((l.map fun p => Event.stored p.1.1 p.1.2 p.2).reverse ++ tr) ∧
    (publish (l.map Prod.fst) c).mem = c.mem ∧
    (publish (l.map Prod.fst) c).freeIdx = c.freeIdx ∧
    (publish (l.map Prod.fst) c).nFree = c.nFree ∧
    (publish (l.map Prod.fst) c).items.map Node.slot
      = (l.map (fun p => p.1.2)).reverse ++ c.items.map Node.slot ∧
    (∀ n ∈ (publish (l.map Prod.fst) c).items, n ∈ c.items ∨ ∃ p ∈ l, p.1 = (n.key, n.slot)) := by
  induction l with
  | nil =>
    intro c tr h _ _
    exact ⟨by simpa [publish] using h, rfl, rfl, rfl, by simp [publish],
      fun n hn => Or.inl (by simpa [publish] using hn)⟩
  | cons p l ih =>
    intro c tr h hnd hl
    obtain ⟨⟨k, s⟩, r⟩ := p
    simp only [List.map_cons, List.nodup_cons] at hnd
    have h0 := hl _ List.mem_cons_self
    have hI := inv_store (k := k) h h0.1 h0.2.1 h0.2.2
    obtain ⟨a1, a2, a3, a4, a5, a6⟩ := ih _ _ hI hnd.2 (by
      intro p hp
      have hp' := hl p (List.mem_cons_of_mem _ hp)
      refine ⟨?_, hp'.2⟩
      simp only [List.map_cons, List.mem_cons, not_or]
      refine ⟨?_, hp'.1⟩
      rintro he
      exact hnd.1 (he ▸ List.mem_map_of_mem (f := fun p : (Int × Nat) × R => p.1.2) hp))
    simp only [List.map_cons, publish]
    refine ⟨by simpa using a1, a2, a3, a4, ?_, ?_⟩
    · rw [a5]; simp
    · intro n hn
      rcases a6 n hn with hh | ⟨p, hp, hh⟩
      · rcases List.mem_cons.1 hh with rfl | hh
        · exact Or.inr ⟨_, List.mem_cons_self, rfl⟩
        · exact Or.inl hh
      · exact Or.inr ⟨p, List.mem_cons_of_mem _ hp, hh⟩

/-- Invariant of the whole system. -/
structure SInv (cap : Nat) (s : Sys R) (tr : List (Event R)) : Prop where
  inv : Inv cap s.cache tr
  nodup : ∀ t p, s.pend t = some p → p.slots.Nodup
  len : ∀ t p, s.pend t = some p → p.slots.length ≤ p.keys.length
  out : ∀ t p, s.pend t = some p → ∀ x ∈ p.slots,
    x < s.cache.freeIdx ∧ x ∉ s.cache.items.map Node.slot
  copied : ∀ t p, s.pend t = some p → ∀ d i x, p.data = some d → p.done i = true →
    p.slots[i]? = some x → s.cache.mem x = some (d i)
  disj : ∀ t t' p p', s.pend t = some p → s.pend t' = some p' → t ≠ t' →
    ∀ x ∈ p.slots, x ∉ p'.slots

theorem sinv_start (cap : Nat) : SInv cap (start cap : Sys R) [] := by
  refine ⟨inv_init cap, ?_, ?_, ?_, ?_, ?_⟩ <;> simp [start]

theorem storedEvents_map (keys : List Int) (d : Nat → R) (slots : List Nat) :
    storedEvents keys d slots =
      ((keys.zip slots).zipIdx.map fun p => (p.1, d p.2)).map
        fun p => Event.stored p.1.1 p.1.2 p.2 := by
  simp [storedEvents, Function.comp_def]

theorem step_inv {cap : Nat} {s : Sys R} {tr : List (Event R)} (h : SInv cap s tr) (o : Op R) :
    ∃ s' es, step s o = some (s', es) ∧ SInv cap s' (es.reverse ++ tr) := by
  cases o with
  | get k =>
    obtain ⟨c', e, h1, h2, h3, h4, h5, -⟩ := get_inv h.inv k
    refine ⟨{ s with cache := c' }, [e], by simp [step, h1], ⟨by simpa using h2, h.nodup, h.len,
      ?_, ?_, h.disj⟩⟩
    · intro t p hp x hx
      have := h.out t p hp x hx
      simp only [h4, List.mem_map, h5]
      simpa only [List.mem_map] using this
    · intro t p hp d i x h6 h7 h8
      simp only [h3]
      exact h.copied t p hp d i x h6 h7 h8
  | acquire t keys data =>
    simp only [step]
    cases hp : s.pend t with
    | some p => exact ⟨s, [], rfl, by simpa using h⟩
    | none =>
      obtain ⟨c', slots, out, h1, h2, h3, h4, h5, h6, h7, h8, -⟩ := acquire_spec h.inv keys.length
      simp only [h1]
      have hit : ∀ x, x ∈ slots ↔ (s.cache.freeIdx ≤ x ∧ x < c'.freeIdx) ∨
          x ∈ out.map Node.slot := by
        intro x
        rw [h6, h7, List.mem_append, List.mem_range'_1]
      have hnd := h.inv.slotsNodup
      rw [h5, List.map_append, List.nodup_append] at hnd
      have hlt : ∀ n ∈ out, n.slot < s.cache.freeIdx := by
        intro n hn
        exact h.inv.slotsLt n (by rw [h5]; simp [hn])
      have hold : ∀ t' p', s.pend t' = some p' → ∀ x ∈ p'.slots, x ∉ slots := by
        intro t' p' hp' x hx hxs
        have := h.out t' p' hp' x hx
        rcases (hit x).1 hxs with hh | hh
        · omega
        · apply this.2
          rw [h5, List.map_append, List.mem_append]
          right
          simpa using hh
      refine ⟨_, _, rfl, ⟨h2, ?_, ?_, ?_, ?_, ?_⟩⟩
      · intro t' p' hp'
        dsimp only at hp'
        split at hp'
        · simp at hp'; subst hp'
          simp only [h6]
          rw [List.nodup_append]
          refine ⟨List.nodup_range', ?_, ?_⟩
          · have := hnd.2.1
            rw [List.map_reverse] at this
            exact List.nodup_reverse.1 this
          · intro a ha b hb he
            subst he
            rw [List.mem_range'_1] at ha
            obtain ⟨n, hn, rfl⟩ := List.mem_map.1 hb
            have := hlt n hn
            omega
        · exact h.nodup t' p' hp'
      · intro t' p' hp'
        dsimp only at hp'
        split at hp'
        · simp at hp'; subst hp'
          simp only [h6, List.length_append, List.length_range', List.length_map, h8]
          omega
        · exact h.len t' p' hp'
      · intro t' p' hp' x hx
        dsimp only at hp'
        split at hp'
        · simp at hp'; subst hp'
          rcases (hit x).1 hx with hh | hh
          · refine ⟨hh.2, ?_⟩
            intro hxi
            obtain ⟨n, hn, rfl⟩ := List.mem_map.1 hxi
            have := h.inv.slotsLt n (by rw [h5]; simp [hn])
            omega
          · obtain ⟨n, hn, rfl⟩ := List.mem_map.1 hh
            have := hlt n hn
            refine ⟨by show _ < c'.freeIdx; omega, ?_⟩
            intro hxi
            exact hnd.2.2 _ hxi n.slot (by simp; exact ⟨n, hn, rfl⟩) rfl
        · have := h.out t' p' hp' x hx
          refine ⟨by show _ < c'.freeIdx; omega, ?_⟩
          intro hxi
          apply this.2
          rw [h5, List.map_append, List.mem_append]
          exact Or.inl hxi
      · intro t' p' hp' d i x h9 h10 h11
        dsimp only at hp'
        split at hp'
        · simp at hp'; subst hp'; simp at h10
        · simp only [h3]
          exact h.copied t' p' hp' d i x h9 h10 h11
      · intro t1 t2 p1 p2 hp1 hp2 hne x hx
        dsimp only at hp1 hp2
        split at hp1 <;> split at hp2
        · omega
        · simp at hp1; subst hp1
          intro hx2
          exact hold t2 p2 hp2 x hx2 hx
        · simp at hp2; subst hp2
          exact hold t1 p1 hp1 x hx
        · exact h.disj t1 t2 p1 p2 hp1 hp2 hne x hx
  | copy t i =>
    simp only [step]
    cases hp : s.pend t with
    | none => exact ⟨s, [], rfl, by simpa using h⟩
    | some p =>
      cases hd : p.data with
      | none => exact ⟨s, [], by simp [hd], by simpa using h⟩
      | some d =>
        cases hsl : p.slots[i]? with
        | none => exact ⟨s, [], by simp [hd, hsl], by simpa using h⟩
        | some sl =>
          simp only [hd, hsl]
          by_cases hdn : p.done i = true
          · rw [if_pos hdn]; exact ⟨s, [], rfl, by simpa using h⟩
          · rw [if_neg hdn]
            have hmem : sl ∈ p.slots := List.mem_of_getElem? hsl
            refine ⟨_, _, rfl, ⟨?_, ?_, ?_, ?_, ?_, ?_⟩⟩
            · simpa using inv_write h.inv (h.out t p hp sl hmem).2
            · intro t' p' hp'
              dsimp only at hp'
              split at hp'
              · simp at hp'; subst hp'; exact h.nodup t p hp
              · exact h.nodup t' p' hp'
            · intro t' p' hp'
              dsimp only at hp'
              split at hp'
              · simp at hp'; subst hp'; exact h.len t p hp
              · exact h.len t' p' hp'
            · intro t' p' hp' x hx
              dsimp only at hp'
              split at hp'
              · simp at hp'; subst hp'; exact h.out t p hp x hx
              · exact h.out t' p' hp' x hx
            · intro t' p' hp' d' j x h9 h10 h11
              dsimp only at hp'
              split at hp'
              · simp at hp'; subst hp'
                simp only [Option.some.injEq] at h9
                subst h9
                dsimp only at h10 h11
                simp only [writeSlot]
                by_cases hji : j = i
                · subst hji
                  rw [hsl] at h11
                  simp at h11
                  rw [if_pos h11.symm]
                · simp only [hji, decide_false, Bool.false_or] at h10
                  rw [if_neg]
                  · exact h.copied t p hp d j x hd h10 h11
                  · intro he
                    subst he
                    have h1 := List.getElem?_eq_some_iff.1 h11
                    have h2 := List.getElem?_eq_some_iff.1 hsl
                    obtain ⟨l1, e1⟩ := h1
                    obtain ⟨l2, e2⟩ := h2
                    exact hji ((List.Nodup.getElem_inj_iff (h.nodup t p hp)).1 (e1.trans e2.symm))
              · rename_i hne
                simp only [writeSlot]
                rw [if_neg]
                · exact h.copied t' p' hp' d' j x h9 h10 h11
                · rintro rfl
                  exact h.disj t t' p p' hp hp' (Ne.symm hne) x hmem (List.mem_of_getElem? h11)
            · intro t1 t2 p1 p2 hp1 hp2 hne x hx
              dsimp only at hp1 hp2
              split at hp1 <;> split at hp2
              · omega
              · simp at hp1; subst hp1
                subst t1
                exact h.disj t t2 p p2 hp hp2 hne x hx
              · simp at hp2; subst hp2
                subst t2
                exact h.disj t1 t p1 p hp1 hp hne x hx
              · exact h.disj t1 t2 p1 p2 hp1 hp2 hne x hx
  | publish t =>
    simp only [step]
    cases hp : s.pend t with
    | none => exact ⟨s, [], rfl, by simpa using h⟩
    | some p =>
      have hpend : ∀ t' p', (if t' = t then none else s.pend t') = some p' →
          t' ≠ t ∧ s.pend t' = some p' := by
        intro t' p' hh
        split at hh
        · simp at hh
        · exact ⟨by assumption, hh⟩
      have hidle : ∀ tr', Inv cap s.cache tr' →
          SInv cap { s with pend := fun t' => if t' = t then none else s.pend t' } tr' := by
        intro tr' hI
        refine ⟨hI, ?_, ?_, ?_, ?_, ?_⟩
        · intro t' p' hp'; exact h.nodup t' p' (hpend t' p' hp').2
        · intro t' p' hp'; exact h.len t' p' (hpend t' p' hp').2
        · intro t' p' hp'; exact h.out t' p' (hpend t' p' hp').2
        · intro t' p' hp'; exact h.copied t' p' (hpend t' p' hp').2
        · intro t1 t2 p1 p2 hp1 hp2
          exact h.disj t1 t2 p1 p2 (hpend t1 p1 hp1).2 (hpend t2 p2 hp2).2
      cases hd : p.data with
      | none =>
        simp only [hd]
        split
        · exact ⟨_, _, rfl, by simpa using hidle tr h.inv⟩
        · exact ⟨_, _, rfl, by simpa using hidle _ (inv_failed h.inv)⟩
      | some d =>
        simp only [hd]
        split
        · rename_i hall
          simp only [List.all_eq_true, List.mem_range] at hall
          rw [storedEvents_map]
          generalize hl : ((p.keys.zip p.slots).zipIdx.map fun q => (q.1, d q.2)) = l
          have hfst : l.map Prod.fst = p.keys.zip p.slots := by
            rw [← hl, List.map_map]
            exact List.zipIdx_map_fst 0 _
          have hsl : l.map (fun q => q.1.2) = p.slots := by
            have : l.map (fun q => q.1.2) = (l.map Prod.fst).map Prod.snd := by
              rw [List.map_map]; rfl
            rw [this, hfst, List.map_snd_zip (h.len t p hp)]
          have hmem : ∀ q ∈ l, ∃ i, p.slots[i]? = some q.1.2 ∧ q.2 = d i ∧ i < p.slots.length := by
            intro q hq
            rw [← hl] at hq
            obtain ⟨⟨⟨k, x⟩, i⟩, hq', rfl⟩ := List.mem_map.1 hq
            rw [List.mem_zipIdx_iff_getElem?] at hq'
            rw [List.getElem?_zip_eq_some] at hq'
            exact ⟨i, hq'.2, rfl, (List.getElem?_eq_some_iff.1 hq'.2).1⟩
          obtain ⟨a1, a2, a3, -, a5, -⟩ := publish_inv cap l s.cache tr h.inv (by rw [hsl]; exact h.nodup t p hp)
            (by
              intro q hq
              obtain ⟨i, h1, h2, h3⟩ := hmem q hq
              have := h.out t p hp _ (List.mem_of_getElem? h1)
              refine ⟨this.2, this.1, ?_⟩
              rw [h.copied t p hp d i _ hd (hall i h3) h1, h2])
          rw [hfst] at a1 a2 a3 a5
          refine ⟨_, _, rfl, ⟨a1, ?_, ?_, ?_, ?_, ?_⟩⟩
          · intro t' p' hp'; exact h.nodup t' p' (hpend t' p' hp').2
          · intro t' p' hp'; exact h.len t' p' (hpend t' p' hp').2
          · intro t' p' hp' x hx
            obtain ⟨hne, hp''⟩ := hpend t' p' hp'
            have := h.out t' p' hp'' x hx
            refine ⟨by simp only [a3]; exact this.1, ?_⟩
            simp only [a5, hsl, List.mem_append, List.mem_reverse, not_or]
            exact ⟨h.disj t' t p' p hp'' hp hne x hx, this.2⟩
          · intro t' p' hp'
            simp only [a2]
            exact h.copied t' p' (hpend t' p' hp').2
          · intro t1 t2 p1 p2 hp1 hp2
            exact h.disj t1 t2 p1 p2 (hpend t1 p1 hp1).2 (hpend t2 p2 hp2).2
        · exact ⟨_, _, rfl, by simpa using h⟩

theorem run_inv {cap : Nat} (ops : List (Op R)) : ∀ (s : Sys R) (tr : List (Event R)),
    SInv cap s tr → ∃ s' tr', run s tr ops = some (s', tr') ∧ SInv cap s' tr' := by
  induction ops with
  | nil => intro s tr h; exact ⟨s, tr, rfl, h⟩
  | cons o os ih =>
    intro s tr h
    obtain ⟨s', es, h1, h2⟩ := step_inv h o
    simp only [run, h1]
    exact ih s' _ h2

end Verif.Cache
