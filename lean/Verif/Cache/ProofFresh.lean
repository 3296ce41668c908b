import Verif.Cache.Proof

/-
Histories in which a key is stored only while it is absent: then every entry in
the list is reachable through the map.
-/
namespace Verif.Cache
set_option linter.unusedSectionVars false
variable {R : Type}

/-- Every miss happens while no slot holds an entry of the key. -/
def MissOk (tr : List (Event R)) : Prop :=
  ∀ post k pre, tr = post ++ .miss k :: pre → ∀ s, owner s pre ≠ some k

theorem FreshStores.suffix {a b : List (Event R)} (h : FreshStores (a ++ b)) : FreshStores b := by
  intro post k s r pre hh
  exact h (a ++ post) k s r pre (by rw [hh, List.append_assoc])

theorem missOk_cons {e : Event R} {t : List (Event R)} (h : MissOk t)
    (he : ∀ k, e = .miss k → ∀ s, owner s t ≠ some k) : MissOk (e :: t) := by
  intro post k pre hh
  cases post with
  | nil => simp at hh; obtain ⟨rfl, rfl⟩ := hh; exact he k rfl
  | cons a post => simp at hh; exact h post k pre hh.2

theorem missOk_append {l t : List (Event R)} (h : MissOk t)
    (hl : ∀ k, .miss k ∉ l) : MissOk (l ++ t) := by
  induction l with
  | nil => exact h
  | cons e l ih =>
    refine missOk_cons (ih (fun k hk => hl k (List.mem_cons_of_mem _ hk))) ?_
    rintro k rfl
    exact absurd List.mem_cons_self (hl k)

/-- Every node is the one its key is mapped to. -/
def Reach (c : Cache R) : Prop := ∀ n ∈ c.items, c.map n.key = some n.id

theorem publish_reach (cap : Nat) (l : List ((Int × Nat) × R)) : ∀ (c : Cache R)
    (tr : List (Event R)), Inv cap c tr → (l.map (fun p => p.1.2)).Nodup →
    (∀ p ∈ l, p.1.2 ∉ c.items.map Node.slot ∧ p.1.2 < c.freeIdx ∧ c.mem p.1.2 = some p.2) →
    Reach c →
    FreshStores ((l.map fun p => Event.stored p.1.1 p.1.2 p.2).reverse ++ tr) →
    Reach (publish (l.map Prod.fst) c) := by
  induction l with
  | nil => intro c tr _ _ _ h _; simpa [publish] using h
  | cons p l ih =>
    intro c tr h hnd hl hr hf
    obtain ⟨⟨k, s⟩, r⟩ := p
    simp only [List.map_cons, List.nodup_cons] at hnd
    have h0 := hl _ List.mem_cons_self
    have hI := inv_store (k := k) h h0.1 h0.2.1 h0.2.2
    simp only [List.map_cons, List.reverse_cons, List.append_assoc, List.singleton_append] at hf
    have hno := hf.suffix [] k s r tr rfl
    simp only [List.map_cons, publish]
    refine ih _ _ hI hnd.2 ?_ ?_ hf
    · intro p hp
      have hp' := hl p (List.mem_cons_of_mem _ hp)
      refine ⟨?_, hp'.2⟩
      simp only [List.map_cons, List.mem_cons, not_or]
      refine ⟨?_, hp'.1⟩
      rintro he
      exact hnd.1 (he ▸ List.mem_map_of_mem (f := fun p : (Int × Nat) × R => p.1.2) hp)
    · intro n hn
      rcases List.mem_cons.1 hn with rfl | hn
      · simp
      · have hne : n.key ≠ k := by
          intro he
          exact hno n.slot ((h.ownerOk _ _).2 ⟨n, hn, rfl, he⟩)
        simp only [if_neg hne]
        exact hr n hn

theorem step_reach {cap : Nat} {s : Sys R} {tr : List (Event R)} (h : SInv cap s tr) (o : Op R)
    (hr : Reach s.cache) (hm : MissOk tr) (s' : Sys R) (es : List (Event R))
    (hs : step s o = some (s', es)) (hf : FreshStores (es.reverse ++ tr)) :
    Reach s'.cache ∧ MissOk (es.reverse ++ tr) := by
  cases o with
  | get k =>
    obtain ⟨c', e, h1, h2, h3, h4, h5, h6, h7, h8, h9⟩ := get_inv h.inv k
    simp only [step, h1, Option.some.injEq, Prod.mk.injEq] at hs
    obtain ⟨rfl, rfl⟩ := hs
    refine ⟨?_, ?_⟩
    · intro n hn
      simp only [h8]
      exact hr n ((h5 n).1 hn)
    · simp only [List.reverse_cons, List.reverse_nil, List.nil_append, List.singleton_append]
      refine missOk_cons hm ?_
      intro k' he sl ho
      obtain ⟨rfl, hk⟩ := h9 k' he
      obtain ⟨n, hn, _, hk'⟩ := (h.inv.ownerOk _ _).1 ho
      have := hr n hn
      rw [hk', hk] at this
      simp at this
  | acquire t keys data =>
    simp only [step] at hs
    cases hp : s.pend t with
    | some p =>
      simp only [hp, Option.some.injEq, Prod.mk.injEq] at hs
      obtain ⟨rfl, rfl⟩ := hs
      exact ⟨hr, by simpa using hm⟩
    | none =>
      obtain ⟨c', slots, out, h1, h2, h3, h4, h5, h6, h7, h8, h9, h10, h11⟩ :=
        acquire_spec h.inv keys.length
      simp only [hp, h1, Option.some.injEq, Prod.mk.injEq] at hs
      obtain ⟨rfl, rfl⟩ := hs
      refine ⟨?_, missOk_append hm (by simp)⟩
      intro n hn
      show c'.map n.key = some n.id
      have hn' : n ∈ s.cache.items := by rw [h5]; simp [show n ∈ c'.items from hn]
      rw [h10, hr n hn']
      intro m hmo he
      have hm' : m ∈ s.cache.items := by rw [h5]; simp [hmo]
      have e1 := hr n hn'
      have e2 := hr m hm'
      rw [he, e1] at e2
      simp at e2
      have hnd := h.inv.idsNodup
      rw [h5, List.map_append, List.nodup_append] at hnd
      exact hnd.2.2 _ (List.mem_map_of_mem hn) m.id (by simp; exact ⟨m, hmo, rfl⟩) e2
  | copy t i =>
    simp only [step] at hs
    cases hp : s.pend t with
    | none =>
      simp only [hp, Option.some.injEq, Prod.mk.injEq] at hs
      obtain ⟨rfl, rfl⟩ := hs
      exact ⟨hr, by simpa using hm⟩
    | some p =>
      simp only [hp] at hs
      split at hs
      · split at hs
        · simp only [Option.some.injEq, Prod.mk.injEq] at hs
          obtain ⟨rfl, rfl⟩ := hs
          exact ⟨hr, by simpa using hm⟩
        · simp only [Option.some.injEq, Prod.mk.injEq] at hs
          obtain ⟨rfl, rfl⟩ := hs
          exact ⟨fun n hn => hr n hn, by simpa using hm⟩
      · simp only [Option.some.injEq, Prod.mk.injEq] at hs
        obtain ⟨rfl, rfl⟩ := hs
        exact ⟨hr, by simpa using hm⟩
  | publish t =>
    simp only [step] at hs
    cases hp : s.pend t with
    | none =>
      simp only [hp, Option.some.injEq, Prod.mk.injEq] at hs
      obtain ⟨rfl, rfl⟩ := hs
      exact ⟨hr, by simpa using hm⟩
    | some p =>
      simp only [hp] at hs
      cases hd : p.data with
      | none =>
        simp only [hd] at hs
        split at hs <;> simp only [Option.some.injEq, Prod.mk.injEq] at hs <;>
          obtain ⟨rfl, rfl⟩ := hs
        · exact ⟨hr, by simpa using hm⟩
        · exact ⟨hr, missOk_append hm (by simp)⟩
      | some d =>
        simp only [hd] at hs
        split at hs
        · rename_i hall
          simp only [Option.some.injEq, Prod.mk.injEq] at hs
          obtain ⟨rfl, rfl⟩ := hs
          simp only [List.all_eq_true, List.mem_range] at hall
          refine ⟨?_, missOk_append hm (by simp [storedEvents])⟩
          rw [storedEvents_map] at hf
          generalize hl : ((p.keys.zip p.slots).zipIdx.map fun q => (q.1, d q.2)) = l at hf
          have hfst : l.map Prod.fst = p.keys.zip p.slots := by
            rw [← hl, List.map_map]
            exact List.zipIdx_map_fst 0 _
          have hsl : l.map (fun q => q.1.2) = p.slots := by
            have : l.map (fun q => q.1.2) = (l.map Prod.fst).map Prod.snd := by
              rw [List.map_map]; rfl
            rw [this, hfst, List.map_snd_zip (h.len t p hp)]
          have hmem : ∀ q ∈ l, ∃ i, p.slots[i]? = some q.1.2 ∧ q.2 = d i ∧ i < p.slots.length := by
            intro q hq
            rw [← hl] at hq
            obtain ⟨⟨⟨k, x⟩, i⟩, hq', rfl⟩ := List.mem_map.1 hq
            rw [List.mem_zipIdx_iff_getElem?] at hq'
            rw [List.getElem?_zip_eq_some] at hq'
            exact ⟨i, hq'.2, rfl, (List.getElem?_eq_some_iff.1 hq'.2).1⟩
          have := publish_reach cap l s.cache tr h.inv (by rw [hsl]; exact h.nodup t p hp)
            (by
              intro q hq
              obtain ⟨i, h1, h2, h3⟩ := hmem q hq
              have := h.out t p hp _ (List.mem_of_getElem? h1)
              refine ⟨this.2, this.1, ?_⟩
              rw [h.copied t p hp d i _ hd (hall i h3) h1, h2]) hr hf
          rw [hfst] at this
          exact this
        · simp only [Option.some.injEq, Prod.mk.injEq] at hs
          obtain ⟨rfl, rfl⟩ := hs
          exact ⟨hr, by simpa using hm⟩

theorem run_suffix (ops : List (Op R)) : ∀ (s s' : Sys R) (tr tr' : List (Event R)),
    run s tr ops = some (s', tr') → ∃ new, tr' = new ++ tr := by
  induction ops with
  | nil => intro s s' tr tr' h; simp [run] at h; exact ⟨[], by simp [h.2]⟩
  | cons o os ih =>
    intro s s' tr tr' h
    simp only [run] at h
    split at h
    · simp at h
    · rename_i s1 es hs
      obtain ⟨new, hn⟩ := ih _ _ _ _ h
      exact ⟨new ++ es.reverse, by rw [hn]; simp⟩

theorem run_reach {cap : Nat} (ops : List (Op R)) : ∀ (s s' : Sys R) (tr tr' : List (Event R)),
    SInv cap s tr → Reach s.cache → MissOk tr → run s tr ops = some (s', tr') →
    FreshStores tr' → Reach s'.cache ∧ MissOk tr' := by
  induction ops with
  | nil =>
    intro s s' tr tr' _ hr hm h _
    simp [run] at h
    obtain ⟨rfl, rfl⟩ := h
    exact ⟨hr, hm⟩
  | cons o os ih =>
    intro s s' tr tr' h hr hm hrun hf
    obtain ⟨s1, es, h1, h2⟩ := step_inv h o
    simp only [run, h1] at hrun
    obtain ⟨new, hn⟩ := run_suffix _ _ _ _ _ hrun
    have hf' : FreshStores (es.reverse ++ tr) := by rw [hn] at hf; exact hf.suffix
    obtain ⟨hr1, hm1⟩ := step_reach h o hr hm s1 es h1 hf'
    exact ih _ _ _ _ h2 hr1 hm1 hrun hf

end Verif.Cache
