import Verif.SvmKernel.Model
import Verif.Cache.ProofPut

namespace Verif.SvmKernel
set_option linter.unusedSectionVars false
open Verif.Cache
variable {R : Type}

/-- Cache that holds only correct columns. -/
structure CInv (K : Int → R) (cap : Nat) (c : Cache R) : Prop where
  inv : ∃ tr, Inv cap c tr
  full : c.items.length + c.nFree = cap
  good : ∀ n ∈ c.items, c.mem n.slot = some (K n.key)

theorem cinv_init (K : Int → R) (cap : Nat) : CInv K cap (init cap) :=
  ⟨⟨[], inv_init cap⟩, by simp [init], by simp [init]⟩

/-- What the first loop has established after the keys `done`. -/
structure LInv (K : Int → R) (cap : Nat) (small : Bool) (N : Nat) (keys : List Int) (c0 : Cache R)
    (m : Nat) (s : KState R) : Prop where
  cinv : CInv K cap s.cache
  map : s.cache.map = c0.map
  /-- the hit nodes stand at the front -/
  front : ∃ front rest, s.cache.items = front ++ rest ∧ front.length + s.todo.length ≤ m ∧
    ∀ i sl, s.ptrs i = some (.slot sl) → ∃ n ∈ front, n.slot = sl ∧ keys[i]? = some n.key
  rhs : small = true → s.rhs + m = N + s.todo.length
  tl : s.todo.length ≤ m
  temps : ∀ i j, s.ptrs i = some (.temp j) → s.rhs ≤ j ∧ small = true ∧
    ∃ k, keys[i]? = some k ∧ s.temp j = some (K k)
  todoLt : ∀ i ∈ s.todo, i < m
  nodup : s.todo.Nodup
  cover : ∀ i < m, (s.ptrs i ≠ none ↔ i ∉ s.todo)
  noslot : small = true → ∀ i sl, s.ptrs i ≠ some (.slot sl)
  beyond : ∀ i, m ≤ i → s.ptrs i = none
  mapped : ∀ i sl k, s.ptrs i = some (.slot sl) → keys[i]? = some k → c0.map k ≠ none

theorem lookup_inv (K : Int → R) (cap : Nat) (small active : Bool) (ncols : Nat)
    (keys : List Int) (hN : keys.length ≤ ncols) (c0 : Cache R) :
    ∀ (l : List Int) (m : Nat) (s : KState R), keys.drop m = l →
    LInv K cap small keys.length keys c0 m s → m ≤ keys.length →
    ∃ s', lookup active small ncols l m s = some s' ∧
      LInv K cap small keys.length keys c0 keys.length s' := by
  intro l
  induction l with
  | nil =>
    intro m s hd h hm
    have : m = keys.length := by
      have := congrArg List.length hd
      simp at this; omega
    subst this
    exact ⟨s, rfl, h⟩
  | cons key l ih =>
    intro m s hd h hm
    have hmlt : m < keys.length := by
      have := congrArg List.length hd
      simp at this; omega
    have hkey : keys[m]? = some key := by
      have := congrArg (fun l => l[0]?) hd
      simpa using this
    have hd' : keys.drop (m + 1) = l := by
      have := congrArg (List.drop 1) hd
      simpa using this
    obtain ⟨front, rest, f1, f2, f3⟩ := h.front
    have hrange : m ∉ s.todo := fun hh => by have := h.todoLt m hh; omega
    have hmiss : ∀ c : Cache R, CInv K cap c → c.map = c0.map → c.items = s.cache.items →
        LInv K cap small keys.length keys c0 (m + 1)
          { s with cache := c, todo := s.todo ++ [m] } := by
      intro c hc hmap hit
      refine ⟨hc, hmap, ⟨front, rest, by rw [hit]; exact f1, ?_, f3⟩, ?_, ?_, h.temps, ?_, ?_, ?_,
        h.noslot, ?_, h.mapped⟩
      · simp; omega
      · intro hs; have := h.rhs hs; simp; omega
      · have := h.tl; simp; omega
      · intro i hi
        simp at hi
        rcases hi with hi | rfl
        · have := h.todoLt i hi; omega
        · omega
      · show (s.todo ++ [m]).Nodup
        rw [List.nodup_append]
        refine ⟨h.nodup, by simp, ?_⟩
        intro a ha b hb he
        simp at hb
        subst hb he
        exact hrange ha
      · intro i hi
        simp only [List.mem_append, List.mem_singleton, not_or]
        by_cases him : i = m
        · subst him
          simp [h.beyond i (Nat.le_refl i)]
        · have := h.cover i (by omega)
          simp [him, this]
      · intro i hi; exact h.beyond i (by omega)
    simp only [lookup]
    by_cases ha : active = true
    swap
    · rw [if_neg ha]
      exact ih (m + 1) _ hd' (hmiss s.cache h.cinv h.map rfl) (by omega)
    · rw [if_pos ha]
      obtain ⟨tr, hI⟩ := h.cinv.inv
      obtain ⟨c', e, g1, g2, g3, g4, g5, g6, g7, g8, g9⟩ := get_inv hI key
      have hc' : CInv K cap c' := by
        refine ⟨⟨_, g2⟩, by rw [g6, g7]; exact h.cinv.full, ?_⟩
        intro n hn
        rw [g3]
        exact h.cinv.good n ((g5 n).1 hn)
      rw [g1]
      unfold Cache.get at g1
      cases hmk : s.cache.map key with
      | none =>
        simp only [hmk, Option.some.injEq, Prod.mk.injEq] at g1
        obtain ⟨rfl, rfl⟩ := g1
        exact ih (m + 1) _ hd' (hmiss _ h.cinv h.map rfl) (by omega)
      | some id =>
        obtain ⟨n, hn, hid, hk, r, hr, hl⟩ := hI.mapOk key id hmk
        have hf : s.cache.items.find? (fun m => m.id == id) = some n := by
          obtain ⟨m, hm'⟩ : ∃ m, s.cache.items.find? (fun m => m.id == id) = some m := by
            rw [← Option.isSome_iff_exists, List.find?_isSome]
            exact ⟨n, hn, by simp [hid]⟩
          have h1 := List.find?_some hm'
          have h2 := List.mem_of_find?_eq_some hm'
          simp at h1
          rw [hm', List.inj_on_of_nodup_map hI.idsNodup h2 hn (by rw [h1, hid])]
        simp only [hmk, hf, hr, Option.some.injEq, Prod.mk.injEq] at g1
        obtain ⟨hcc, rfl⟩ := g1
        have hrK : r = K key := by
          have := h.cinv.good n hn
          rw [hr, hk] at this
          simpa using this
        have hitems : c'.items = (n :: front.filter (fun m => m.id != id)) ++
            rest.filter (fun m => m.id != id) := by
          rw [← hcc]
          simp [f1]
        have hfl := List.length_filter_le (fun m => m.id != id) front
        have hfront : ∀ x ∈ front, x ∈ n :: front.filter (fun m => m.id != id) := by
          intro x hx
          by_cases hxi : x.id = id
          · have : x = n := List.inj_on_of_nodup_map hI.idsNodup (by rw [f1]; simp [hx]) hn
              (by rw [hxi, hid])
            rw [this]; exact List.mem_cons_self
          · exact List.mem_cons_of_mem _ (List.mem_filter.2 ⟨hx, by simp [hxi]⟩)
        dsimp only
        by_cases hsm : small = true
        · rw [if_pos hsm]
          have hrhs := h.rhs hsm
          have htl := h.tl
          have hpos : 0 < s.rhs ∧ s.rhs - 1 < ncols := by
            omega
          rw [if_pos hpos]
          refine ih (m + 1) _ hd' ⟨hc', by rw [← h.map]; exact g8, ⟨_, _, hitems, ?_, ?_⟩, ?_, ?_, ?_,
            ?_, h.nodup, ?_, ?_, ?_, ?_⟩ (by omega)
          · simp only [List.length_cons]; omega
          · intro i sl hi
            exfalso
            dsimp only at hi
            split at hi
            · simp at hi
            · exact h.noslot hsm i sl hi
          · intro _; show s.rhs - 1 + (m + 1) = keys.length + s.todo.length; omega
          · show s.todo.length ≤ m + 1; omega
          · intro i j hij
            dsimp only at hij ⊢
            split at hij
            · rename_i him
              simp at hij
              subst him
              refine ⟨by omega, hsm, key, hkey, ?_⟩
              rw [if_pos hij.symm, hrK]
            · obtain ⟨t1, t2, t3⟩ := h.temps i j hij
              refine ⟨by omega, t2, ?_⟩
              rw [if_neg (by omega)]
              exact t3
          · intro i hi; have := h.todoLt i hi; omega
          · intro i hi
            dsimp only
            by_cases him : i = m
            · subst him; simp [hrange]
            · simp only [if_neg him]; exact h.cover i (by omega)
          · intro _ i sl
            dsimp only
            split
            · simp
            · exact h.noslot hsm i sl
          · intro i hi
            dsimp only
            rw [if_neg (by omega)]
            exact h.beyond i (by omega)
          · intro i sl k hi hk'
            dsimp only at hi
            split at hi
            · simp at hi
            · exact h.mapped i sl k hi hk'
        · rw [if_neg hsm]
          have htl := h.tl
          refine ih (m + 1) _ hd' ⟨hc', by rw [← h.map]; exact g8, ⟨_, _, hitems, ?_, ?_⟩, ?_, ?_, ?_,
            ?_, h.nodup, ?_, ?_, ?_, ?_⟩ (by omega)
          · simp only [List.length_cons]; omega
          · intro i sl hi
            dsimp only at hi
            split at hi
            · rename_i him
              simp at hi
              subst him
              exact ⟨n, List.mem_cons_self, hi, by rw [hkey, hk]⟩
            · obtain ⟨x, hx, hx'⟩ := f3 i sl hi
              exact ⟨x, hfront x hx, hx'⟩
          · intro hs; exact absurd hs hsm
          · show s.todo.length ≤ m + 1; omega
          · intro i j hij
            dsimp only at hij
            split at hij
            · simp at hij
            · exact h.temps i j hij
          · intro i hi; have := h.todoLt i hi; omega
          · intro i hi
            dsimp only
            by_cases him : i = m
            · subst him; simp [hrange]
            · simp only [if_neg him]; exact h.cover i (by omega)
          · intro hs; exact absurd hs hsm
          · intro i hi
            dsimp only
            rw [if_neg (by omega)]
            exact h.beyond i (by omega)
          · intro i sl k hi hk'
            dsimp only at hi
            split at hi
            · rename_i him
              subst him
              rw [hkey] at hk'
              simp at hk'
              rw [← h.map, ← hk', hmk]
              simp
            · exact h.mapped i sl k hi hk'

theorem setPtrs_spec (l : List Nat) : ∀ (i : Nat) (f : Nat → Option Ptr), l.Nodup →
    (∀ j, j ∉ l → setPtrs l i f j = f j) ∧
    (∀ a j, l[a]? = some j → setPtrs l i f j = some (.temp (i + a))) := by
  induction l with
  | nil => intro i f _; simp [setPtrs]
  | cons x l ih =>
    intro i f hnd
    rw [List.nodup_cons] at hnd
    obtain ⟨h1, h2⟩ := ih (i + 1) (fun j => if j = x then some (.temp i) else f j) hnd.2
    refine ⟨?_, ?_⟩
    · intro j hj
      simp only [List.mem_cons, not_or] at hj
      simp only [setPtrs]
      rw [h1 j hj.2, if_neg hj.1]
    · intro a j ha
      simp only [setPtrs]
      cases a with
      | zero =>
        simp at ha; subst ha
        rw [h1 x hnd.1]; simp
      | succ a =>
        simp at ha
        rw [h2 a j ha]
        congr 2; omega

theorem put_cinv (K : Int → R) (cap : Nat) (c : Cache R) (h : CInv K cap c) (keys : List Int)
    (d : Nat → R) (hd : ∀ i k, keys[i]? = some k → d i = K k) :
    CInv K cap (put c keys d).1 := by
  obtain ⟨tr, hI⟩ := h.inv
  obtain ⟨slots, out, p1, p2, p3, p4, p5, p6, ⟨kept, q1, q2, q3⟩, p7, p8⟩ := put_spec hI h.full keys d
  refine ⟨⟨_, p2⟩, p3, ?_⟩
  intro n hn
  rcases p8 n hn with ⟨h1, h2⟩ | ⟨i, h1, h2⟩
  · rw [p7 _ h2]; exact h.good n h1
  · rw [h2, hd i _ h1]

/-- The main step: all columns delivered are right, provided the pointers into the
cache survive the final `put`. -/
theorem kernelCompute_correct (K : Int → R) (cap : Nat) (small : Bool) (ncols : Nat)
    (keys : List Int) (c : Cache R) (temp : Nat → Option R) (h : CInv K cap c)
    (hN : keys.length ≤ ncols)
    (hsafe : small = true ∨ cap = 0 ∨ keys.length ≤ cap ∨ ∀ k ∈ keys, c.map k = none) :
    ∃ s, kernelCompute K small ncols keys c temp = some s ∧ CInv K cap s.cache ∧
      (∀ i k, keys[i]? = some k → s.column i = some (K k)) ∧
      (∀ k, s.cache.map k ≠ none → c.map k ≠ none ∨ k ∈ keys) := by
  have hcap : c.capacity = cap := by
    obtain ⟨tr, hI⟩ := h.inv; exact hI.capEq
  obtain ⟨s, hs, hL⟩ := lookup_inv K cap small (decide (0 < cap)) ncols keys hN c keys 0
    { cache := c, temp := temp, rhs := keys.length, ptrs := fun _ => none, todo := [] }
    (by simp)
    ⟨h, rfl, ⟨[], c.items, rfl, by simp, by simp⟩, by simp, by simp, by simp, by simp, by simp,
      by simp, by simp, by simp, by simp⟩ (by simp)
  obtain ⟨front, rest, f1, f2, f3⟩ := hL.front
  have hkeys : ∀ i k, keys[i]? = some k → i < keys.length := by
    intro i k hk; exact (List.getElem?_eq_some_iff.1 hk).1
  have hfrontgood : ∀ n ∈ front, s.cache.mem n.slot = some (K n.key) := by
    intro n hn; exact hL.cinv.good n (by rw [f1]; simp [hn])
  simp only [kernelCompute, hcap, hs]
  by_cases ht : s.todo.length = 0
  · rw [if_pos ht]
    have ht' : s.todo = [] := List.length_eq_zero_iff.1 ht
    refine ⟨s, rfl, hL.cinv, ?_, ?_⟩
    · intro i k hk
      have hc := (hL.cover i (hkeys i k hk)).2 (by simp [ht'])
      unfold KState.column
      cases hp : s.ptrs i with
      | none => exact absurd hp hc
      | some p =>
        cases p with
        | slot sl =>
          obtain ⟨n, hn, rfl, hnk⟩ := f3 i sl hp
          rw [hk] at hnk
          simp at hnk
          simp only [hfrontgood n hn, hnk]
        | temp j =>
          obtain ⟨-, -, k', hk', hv⟩ := hL.temps i j hp
          rw [hk] at hk'
          simp at hk'
          simp only [hv, hk']
    · intro k hk; left; rw [← hL.map]; exact hk
  · rw [if_neg ht]
    have htl := hL.tl
    rw [if_pos (by omega)]
    generalize htk : (s.todo.filterMap fun i => keys[i]?) = tkeys
    have htkey : ∀ a : Nat, tkeys[a]? = (s.todo[a]?).bind fun i => keys[i]? := by
      have : tkeys.map some = s.todo.map fun i => keys[i]? := by
        rw [← htk, List.map_filterMap_some_eq_filter_map_isSome, List.filter_eq_self.2]
        intro o ho
        obtain ⟨i, hi, rfl⟩ := List.mem_map.1 ho
        have := hL.todoLt i hi
        simp [this]
      intro a
      have h1 := congrArg (fun l => l[a]?) this
      simp only [List.getElem?_map] at h1
      cases hta : s.todo[a]? with
      | none =>
        rw [hta] at h1
        simp at h1
        simp [h1]
      | some i =>
        rw [hta] at h1
        simp only [Option.map_some, Option.map_eq_some_iff] at h1
        obtain ⟨k, hk1, hk2⟩ := h1
        simp [hk1, hk2]
    have htklen : tkeys.length = s.todo.length := by
      have : tkeys.map some = s.todo.map fun i => keys[i]? := by
        rw [← htk, List.map_filterMap_some_eq_filter_map_isSome, List.filter_eq_self.2]
        intro o ho
        obtain ⟨i, hi, rfl⟩ := List.mem_map.1 ho
        have := hL.todoLt i hi
        simp [this]
      have := congrArg List.length this
      simpa using this
    obtain ⟨sp1, sp2⟩ := setPtrs_spec s.todo 0 s.ptrs hL.nodup
    have htemp : ∀ i k, keys[i]? = some k → i ∈ s.todo → ∃ a, setPtrs s.todo 0 s.ptrs i =
        some (.temp a) ∧ fillTemp K tkeys s.temp a = some (K k) := by
      intro i k hk hi
      obtain ⟨a, ha⟩ := List.mem_iff_getElem?.1 hi
      refine ⟨a, by rw [sp2 a i ha]; simp, ?_⟩
      simp [fillTemp, htkey a, ha, hk]
    have htempold : ∀ i j k, keys[i]? = some k → s.ptrs i = some (.temp j) →
        fillTemp K tkeys s.temp j = some (K k) := by
      intro i j k hk hp
      obtain ⟨h1, h2, k', hk', hv⟩ := hL.temps i j hp
      rw [hk] at hk'
      simp at hk'
      have hr := hL.rhs h2
      have : tkeys[j]? = none := by simp; omega
      simp [fillTemp, this, hv, hk']
    by_cases hact : decide (0 < cap) = true
    · rw [if_pos hact]
      simp only [decide_eq_true_eq] at hact
      generalize hdd : (fun i => (fillTemp K tkeys s.temp i).getD (K 0)) = d
      have hd : ∀ i k, tkeys[i]? = some k → d i = K k := by
        intro i k hk
        rw [← hdd]
        simp [fillTemp, hk]
      refine ⟨_, rfl, put_cinv K cap s.cache hL.cinv tkeys d hd, ?_, ?_⟩
      · intro i k hk
        unfold KState.column
        dsimp only
        by_cases hi : i ∈ s.todo
        · obtain ⟨a, ha1, ha2⟩ := htemp i k hk hi
          rw [ha1]; exact ha2
        · rw [sp1 i hi]
          have hc := (hL.cover i (hkeys i k hk)).2 hi
          cases hp : s.ptrs i with
          | none => exact absurd hp hc
          | some p =>
            cases p with
            | temp j => exact htempold i j k hk hp
            | slot sl =>
              obtain ⟨n, hn, rfl, hnk⟩ := f3 i sl hp
              rw [hk] at hnk
              simp at hnk
              dsimp only
              obtain ⟨tr, hI⟩ := hL.cinv.inv
              obtain ⟨slots, out, p1, p2, p3, p4, p5, p6, ⟨kept, q1, q2, q3⟩, p7, p8⟩ :=
                put_spec hI hL.cinv.full tkeys d
              have hfull := hL.cinv.full
              have hlen := congrArg List.length q1
              simp only [List.length_append, List.length_reverse] at hlen
              have hfr := congrArg List.length f1
              simp only [List.length_append] at hfr
              have hfp := List.length_pos_of_mem hn
              -- the hit nodes are among the kept ones
              have hle : front.length ≤ kept.length := by
                rcases hsafe with hh | hh | hh | hh
                · exact absurd hp (hL.noslot hh i n.slot)
                · omega
                · omega
                · exfalso
                  exact hL.mapped i n.slot k hp hk (hh k (List.mem_of_getElem? hk))
              have hkept : n ∈ kept := by
                have : front = kept.take front.length := by
                  have e := congrArg (List.take front.length) (f1.symm.trans q1)
                  rw [List.take_left, List.take_append_of_le_length hle] at e
                  exact e
                rw [this] at hn
                exact List.mem_of_mem_take hn
              rw [p7 _ (q3 n hkept), hfrontgood n hn, hnk]
      · intro k hk
        obtain ⟨tr, hI⟩ := hL.cinv.inv
        rcases put_map hI hk with hh | hh
        · left; rw [← hL.map]; exact hh
        · right
          obtain ⟨a, ha⟩ := List.mem_iff_getElem?.1 hh
          rw [htkey a] at ha
          obtain ⟨i, -, hi⟩ := Option.bind_eq_some_iff.1 ha
          exact List.mem_of_getElem? hi
    · rw [if_neg hact]
      refine ⟨_, rfl, hL.cinv, ?_, ?_⟩
      · intro i k hk
        unfold KState.column
        dsimp only
        by_cases hi : i ∈ s.todo
        · obtain ⟨a, ha1, ha2⟩ := htemp i k hk hi
          rw [ha1]; exact ha2
        · rw [sp1 i hi]
          have hc := (hL.cover i (hkeys i k hk)).2 hi
          cases hp : s.ptrs i with
          | none => exact absurd hp hc
          | some p =>
            cases p with
            | temp j => exact htempold i j k hk hp
            | slot sl =>
              obtain ⟨n, hn, rfl, hnk⟩ := f3 i sl hp
              rw [hk] at hnk
              simp at hnk
              dsimp only
              rw [hfrontgood n hn, hnk]
      · intro k hk; left; rw [← hL.map]; exact hk

end Verif.SvmKernel
