import Verif.Cache.ProofFresh

/-
A whole `put` call: the sequence of steps `putOps` equals the function `put`, and
what `put` stores and evicts.
-/
namespace Verif.Cache
set_option linter.unusedSectionVars false
variable {R : Type}

theorem run_append (a b : List (Op R)) : ∀ (s : Sys R) (tr : List (Event R)),
    run s tr (a ++ b) = (run s tr a).bind fun p => run p.1 p.2 b := by
  induction a with
  | nil => intro s tr; simp [run]
  | cons o os ih =>
    intro s tr
    simp only [List.cons_append, run]
    cases step s o with
    | none => rfl
    | some p => exact ih _ _

theorem writeAll_succ (slots : List Nat) (d : Nat → R) (c : Cache R) (j : Nat) (x : Nat)
    (h : slots[j]? = some x) :
    writeAll (slots.take (j + 1)) d c = writeSlot (writeAll (slots.take j) d c) x (d j) := by
  obtain ⟨hj, rfl⟩ := List.getElem?_eq_some_iff.1 h
  rw [List.take_succ_eq_append_getElem hj]
  have hm : min j slots.length = j := Nat.min_eq_left (Nat.le_of_lt hj)
  simp only [writeAll, List.zipIdx_append, List.length_take, hm, List.foldl_append, Nat.zero_add,
    List.zipIdx_cons, List.zipIdx_nil, List.foldl_cons, List.foldl_nil]

theorem run_copies (t : Nat) (keys : List Int) (d : Nat → R) (slots : List Nat)
    (c : Cache R) (pend : Nat → Option (Pend R)) (tr : List (Event R)) (j : Nat) :
    run { cache := c, pend := fun t' => if t' = t then
            some { keys := keys, data := some d, slots := slots, done := fun _ => false }
            else pend t' } tr ((List.range j).map (.copy t)) =
      some ({ cache := writeAll (slots.take j) d c, pend := fun t' => if t' = t then
            some { keys := keys, data := some d, slots := slots,
                   done := fun i => decide (i < j ∧ i < slots.length) }
            else pend t' }, tr) := by
  induction j with
  | zero => simp [run, writeAll]
  | succ j ih =>
    rw [List.range_succ, List.map_append, run_append, ih]
    simp only [Option.bind_some, List.map_cons, List.map_nil, run, step, if_true]
    by_cases hj : j < slots.length
    · have hx : slots[j]? = some slots[j] := List.getElem?_eq_getElem hj
      simp only [hx, writeAll_succ slots d c j _ hx]
      rw [if_neg (by simp)]
      simp only [List.reverse_nil, List.nil_append, Option.some.injEq, Prod.mk.injEq, and_true,
        Sys.mk.injEq, true_and]
      funext t'
      by_cases ht : t' = t
      · simp only [ht, if_true, Option.some.injEq, Pend.mk.injEq, true_and]
        funext i
        by_cases hi : i = j
        · subst hi; simp [hj]
        · rw [if_neg hi]
          have : (i < j ∧ i < slots.length) ↔ (i < j + 1 ∧ i < slots.length) := by omega
          simp only [this]
      · simp [ht]
    · have hx : slots[j]? = none := by simp; omega
      simp only [hx]
      rw [List.take_of_length_le (by omega), List.take_of_length_le (by omega)]
      simp only [List.reverse_nil, List.nil_append, Option.some.injEq, Prod.mk.injEq, and_true,
        Sys.mk.injEq, true_and]
      funext t'
      by_cases ht : t' = t
      · simp only [ht, if_true, Option.some.injEq, Pend.mk.injEq, true_and]
        funext i
        have : (i < j ∧ i < slots.length) ↔ (i < j + 1 ∧ i < slots.length) := by omega
        simp only [this]
      · simp [ht]

theorem run_putOps {cap : Nat} {s : Sys R} {tr : List (Event R)} (h : Inv cap s.cache tr)
    (t : Nat) (ht : s.pend t = none) (keys : List Int) (d : Nat → R) :
    run s tr (putOps t keys (some d)) =
      some ({ s with cache := (put s.cache keys d).1 }, (put s.cache keys d).2.reverse ++ tr) := by
  obtain ⟨c', slots, out, h1, h2, h3, h4, h5, h6, h7, h8, -⟩ := acquire_spec h keys.length
  have hlen : slots.length ≤ keys.length := by
    rw [h6, List.length_append, List.length_map, List.length_range', h8]; omega
  simp only [putOps, List.cons_append, run, step, ht, h1, put]
  rw [run_append, run_copies]
  simp only [Option.bind_some, run, step, if_true]
  rw [if_pos (by simp only [List.all_eq_true, List.mem_range]; intro i hi; simp; omega)]
  rw [List.take_of_length_le hlen]
  simp only [Option.some.injEq, Prod.mk.injEq, Sys.mk.injEq, true_and]
  constructor
  · funext t'
    by_cases hh : t' = t
    · simp [hh, ht]
    · simp [hh]
  · simp

theorem writeAll_inv {cap : Nat} {tr : List (Event R)} (d : Nat → R) (slots : List Nat) :
    ∀ (c : Cache R) (j : Nat), Inv cap c tr → (∀ x ∈ slots, x ∉ c.items.map Node.slot) →
    Inv cap ((slots.zipIdx j).foldl (fun c p => writeSlot c p.1 (d p.2)) c) tr := by
  induction slots with
  | nil => intro c j h _; simpa using h
  | cons x l ih =>
    intro c j h hx
    simp only [List.zipIdx_cons, List.foldl_cons]
    exact ih _ _ (inv_write h (hx x List.mem_cons_self))
      (fun y hy => hx y (List.mem_cons_of_mem _ hy))

theorem writeAll_fields (d : Nat → R) (slots : List Nat) : ∀ (c : Cache R) (j : Nat),
    let c' := (slots.zipIdx j).foldl (fun c p => writeSlot c p.1 (d p.2)) c
    c'.items = c.items ∧ c'.freeIdx = c.freeIdx ∧ c'.nFree = c.nFree ∧ c'.map = c.map ∧
      c'.nextId = c.nextId ∧ (∀ x, x ∉ slots → c'.mem x = c.mem x) ∧
      (slots.Nodup → ∀ i x, slots[i]? = some x → c'.mem x = some (d (j + i))) := by
  induction slots with
  | nil => intro c j; simp
  | cons x l ih =>
    intro c j
    simp only [List.zipIdx_cons, List.foldl_cons]
    obtain ⟨a1, a2, a3, a4, a5, a6, a7⟩ := ih (writeSlot c x (d j)) (j + 1)
    refine ⟨a1, a2, a3, a4, a5, ?_, ?_⟩
    · intro y hy
      simp only [List.mem_cons, not_or] at hy
      rw [a6 y hy.2]
      simp [writeSlot, hy.1]
    · intro hnd i y hi
      rw [List.nodup_cons] at hnd
      cases i with
      | zero =>
        simp at hi
        subst hi
        rw [a6 x hnd.1]
        simp [writeSlot]
      | succ i =>
        simp at hi
        rw [a7 hnd.2 i y hi]
        congr 2; omega

/-- What a sequential, successful `put` does. -/
theorem put_spec {cap : Nat} {c : Cache R} {tr : List (Event R)} (h : Inv cap c tr)
    (hfull : c.items.length + c.nFree = cap) (keys : List Int) (d : Nat → R) :
    ∃ (slots : List Nat) (out : List Node), (put c keys d).2 =
        out.map (fun n => Event.evict n.key n.slot) ++ storedEvents keys d slots ∧
      Inv cap (put c keys d).1 ((put c keys d).2.reverse ++ tr) ∧
      (put c keys d).1.items.length + (put c keys d).1.nFree = cap ∧
      slots.length = min keys.length cap ∧ slots.Nodup ∧
      out.length = c.items.length + min keys.length cap - cap ∧
      (∃ kept, c.items = kept ++ out.reverse ∧
        (put c keys d).1.items.map Node.slot = slots.reverse ++ kept.map Node.slot ∧
        (∀ x ∈ kept, x.slot ∉ slots)) ∧
      (∀ x, x ∉ slots → (put c keys d).1.mem x = c.mem x) ∧
      (∀ n ∈ (put c keys d).1.items, (n ∈ c.items ∧ n.slot ∉ slots) ∨
        ∃ i : Nat, keys[i]? = some n.key ∧ (put c keys d).1.mem n.slot = some (d i)) := by
  obtain ⟨c', slots, out, h1, h2, h3, h4, h5, h6, h7, h8, -⟩ := acquire_spec h keys.length
  simp only [put, h1]
  have hfree := h.free
  have hfree' := h2.free
  have hlenit := congrArg List.length h5
  simp only [List.length_append, List.length_reverse] at hlenit
  have hslen : slots.length = min keys.length cap := by
    rw [h6, List.length_append, List.length_map, List.length_range', h8]; omega
  have hnd0 := h.slotsNodup
  rw [h5, List.map_append, List.nodup_append] at hnd0
  have hlt : ∀ n ∈ out, n.slot < c.freeIdx := fun n hn => h.slotsLt n (by rw [h5]; simp [hn])
  have hnd : slots.Nodup := by
    rw [h6, List.nodup_append]
    refine ⟨List.nodup_range', ?_, ?_⟩
    · have := hnd0.2.1
      rw [List.map_reverse] at this
      exact List.nodup_reverse.1 this
    · intro a ha b hb he
      subst he
      rw [List.mem_range'_1] at ha
      obtain ⟨n, hn, rfl⟩ := List.mem_map.1 hb
      have := hlt n hn
      omega
  have hout : ∀ x ∈ slots, x < c'.freeIdx ∧ x ∉ c'.items.map Node.slot := by
    intro x hx
    rw [h6, List.mem_append, List.mem_range'_1] at hx
    rcases hx with hx | hx
    · refine ⟨by omega, ?_⟩
      intro hxi
      obtain ⟨n, hn, rfl⟩ := List.mem_map.1 hxi
      have := h.slotsLt n (by rw [h5]; simp [hn])
      omega
    · obtain ⟨n, hn, rfl⟩ := List.mem_map.1 hx
      have := hlt n hn
      refine ⟨by omega, ?_⟩
      intro hxi
      exact hnd0.2.2 _ hxi n.slot (by simp; exact ⟨n, hn, rfl⟩) rfl
  obtain ⟨b1, b2, b3, b4, b5, b6, b7⟩ := writeAll_fields d slots c' 0
  have hW := writeAll_inv d slots c' 0 h2 (fun x hx => (hout x hx).2)
  change Inv cap (writeAll slots d c') _ at hW
  change (writeAll slots d c').items = _ at b1
  change (writeAll slots d c').freeIdx = _ at b2
  change (writeAll slots d c').nFree = _ at b3
  change ∀ x, x ∉ slots → (writeAll slots d c').mem x = _ at b6
  change _ → ∀ i x, _ → (writeAll slots d c').mem x = _ at b7
  generalize writeAll slots d c' = c2 at *
  generalize hl : ((keys.zip slots).zipIdx.map fun q => (q.1, d q.2)) = l
  have hfst : l.map Prod.fst = keys.zip slots := by
    rw [← hl, List.map_map]
    exact List.zipIdx_map_fst 0 _
  have hsl : l.map (fun q => q.1.2) = slots := by
    have : l.map (fun q => q.1.2) = (l.map Prod.fst).map Prod.snd := by
      rw [List.map_map]; rfl
    rw [this, hfst, List.map_snd_zip (by omega)]
  have hmem : ∀ q ∈ l, ∃ i, slots[i]? = some q.1.2 ∧ q.2 = d i ∧
      keys[i]? = some q.1.1 := by
    intro q hq
    rw [← hl] at hq
    obtain ⟨⟨⟨k, x⟩, i⟩, hq', rfl⟩ := List.mem_map.1 hq
    rw [List.mem_zipIdx_iff_getElem?] at hq'
    rw [List.getElem?_zip_eq_some] at hq'
    exact ⟨i, hq'.2, rfl, hq'.1⟩
  obtain ⟨a1, a2, a3, a4, a5, a6⟩ := publish_inv cap l c2 _ hW (by rw [hsl]; exact hnd)
    (by
      intro q hq
      obtain ⟨i, e1, e2, -⟩ := hmem q hq
      have := hout _ (List.mem_of_getElem? e1)
      refine ⟨by rw [b1]; exact this.2, by rw [b2]; exact this.1, ?_⟩
      rw [b7 hnd i _ e1, e2, Nat.zero_add])
  rw [hfst] at a1 a2 a3 a4 a5 a6
  rw [hsl, b1] at a5
  refine ⟨slots, out, rfl, ?_, ?_, hslen, hnd, by omega, ⟨c'.items, h5, a5, ?_⟩, ?_, ?_⟩
  · rw [storedEvents_map, hl]
    simpa using a1
  · have hlen := congrArg List.length a5
    simp only [List.length_map, List.length_append, List.length_reverse] at hlen
    rw [hlen, a4, b3]
    omega
  · intro x hx hxs
    exact (hout _ hxs).2 (List.mem_map_of_mem hx)
  · intro x hx
    rw [a2, b6 x hx, h3]
  · intro n hn
    rcases a6 n hn with hh | ⟨q, hq, hh⟩
    · rw [b1] at hh
      exact Or.inl ⟨by rw [h5]; simp [hh], fun hx => (hout _ hx).2 (List.mem_map_of_mem hh)⟩
    · obtain ⟨i, e1, e2, e3⟩ := hmem q hq
      rw [hh] at e1 e3
      exact Or.inr ⟨i, e3, by rw [a2, b7 hnd i _ e1, Nat.zero_add]⟩

theorem publish_map (l : List (Int × Nat)) : ∀ (c : Cache R) {k : Int},
    (publish l c).map k ≠ none → c.map k ≠ none ∨ k ∈ l.map Prod.fst := by
  induction l with
  | nil => intro c k h; exact Or.inl (by simpa [publish] using h)
  | cons p l ih =>
    intro c k h
    obtain ⟨k0, s⟩ := p
    simp only [publish] at h
    rcases ih _ h with hh | hh
    · dsimp only at hh
      split at hh
      · rename_i he; right; simp [he]
      · exact Or.inl hh
    · right; simp only [List.map_cons, List.mem_cons]; exact Or.inr hh

theorem put_map {cap : Nat} {c : Cache R} {tr : List (Event R)} (h : Inv cap c tr)
    {keys : List Int} {d : Nat → R} {k : Int} (hk : (put c keys d).1.map k ≠ none) :
    c.map k ≠ none ∨ k ∈ keys := by
  obtain ⟨c', slots, out, h1, h2, h3, h4, h5, h6, h7, h8, h9, -⟩ := acquire_spec h keys.length
  simp only [put, h1] at hk
  rcases publish_map _ _ hk with hh | hh
  · obtain ⟨-, -, -, b4, -⟩ := writeAll_fields d slots c' 0
    change (writeAll slots d c').map = _ at b4
    rw [b4] at hh
    obtain ⟨id, hid⟩ := Option.ne_none_iff_exists'.1 hh
    left; rw [h9 k id hid]; simp
  · right
    obtain ⟨p, hp, rfl⟩ := List.mem_map.1 hh
    exact (List.of_mem_zip hp).1

theorem liveCount_eq {cap : Nat} {c : Cache R} {tr : List (Event R)} (h : Inv cap c tr) :
    liveCount cap tr = c.items.length := by
  have hperm : ((List.range cap).filter fun s => (owner s tr).isSome).Perm
      (c.items.map Node.slot) := by
    rw [List.perm_ext_iff_of_nodup (List.nodup_range.filter _) h.slotsNodup]
    intro s
    rw [List.mem_filter, ← owner_some_iff h, List.mem_range, Option.isSome_iff_ne_none]
    constructor
    · exact fun hh => hh.2
    · intro hh
      refine ⟨?_, hh⟩
      rw [owner_some_iff h] at hh
      obtain ⟨n, hn, rfl⟩ := List.mem_map.1 hh
      have := h.slotsLt n hn
      have := h.free
      omega
  unfold liveCount
  rw [hperm.length_eq, List.length_map]

end Verif.Cache
