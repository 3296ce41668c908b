import Verif.SvmKernel.Proof

/-
The columns that `nusvm::initialise_gradient` (`source/core/svm/nu_svm.cpp` 369-505)
stores in the cache from several threads before the main loop begins.
-/
namespace Verif.SvmKernel
open Verif.Cache
variable {R : Type}

/-- `block_size` (nu_svm.cpp 378-388). -/
def nuBlockSize (counter : Nat) : Nat :=
  min (if counter ≤ 2048 then 32 else if counter ≤ 4096 then 64
    else if counter ≤ 8192 then 128 else 256) counter

/-- `current_idx` of block `i` (nu_svm.cpp 421-437): the `current_block_size` entries of
`index_aux` from `i * block_size` on. -/
def nuBlock (counter : Nat) (indexAux : List Nat) (i : Nat) : List Nat :=
  let bs := nuBlockSize counter
  let cur := if i < counter / bs then bs else counter % bs
  (indexAux.drop (i * bs)).take cur

/-- First step of `cache.put(idx_temp, kernel_matrix.data(), n)` (nu_svm.cpp 475) for
the block `idx`: the keys are `idx_temp` (471-473); the thread's own `kernel_matrix`,
with arbitrary old contents `temp`, has received the columns of the samples copied to
`X_temp` (439-459). -/
def nuPut (K : Int → R) (n t : Nat) (idx : List Nat) (temp : Nat → Option R) : Op R :=
  let samples : List Int := idx.map fun x => ((x % n : Nat) : Int)
  let keys : List Int := idx.map fun x => ((x % n : Nat) : Int)
  .acquire t keys (some fun i => (fillTemp K samples temp i).getD (K 0))

/-- Invariant besides `SInv`: all columns are correct, and every slot handed out is in
the list or belongs to a `put` in progress. -/
structure TInv (K : Int → R) (s : Sys R) : Prop where
  good : ∀ n ∈ s.cache.items, s.cache.mem n.slot = some (K n.key)
  data : ∀ t p, s.pend t = some p → ∃ d, p.data = some d ∧ ∀ i k, p.keys[i]? = some k → d i = K k
  cover : ∀ x < s.cache.freeIdx, x ∈ s.cache.items.map Node.slot ∨
    ∃ t p, s.pend t = some p ∧ x ∈ p.slots

/-- Operations that store only correct columns. -/
def OpOk (K : Int → R) : Op R → Prop
  | .acquire _ keys data => ∃ d, data = some d ∧ ∀ i k, keys[i]? = some k → d i = K k
  | _ => True

theorem nuPut_ok (K : Int → R) (n t : Nat) (idx : List Nat) (temp : Nat → Option R) :
    OpOk K (nuPut K n t idx temp) := by
  refine ⟨_, rfl, ?_⟩
  intro i k hk
  simp only [fillTemp, hk, Option.getD_some]

/-- The blocks of `initialise_gradient` partition the list. -/
theorem nuBlock_partition (indexAux : List Nat) (h : 0 < indexAux.length) :
    (List.range (indexAux.length / nuBlockSize indexAux.length + 1)).flatMap
      (nuBlock indexAux.length indexAux) = indexAux := by
  generalize hm : indexAux.length = m at h
  have hpos : 0 < nuBlockSize m := by
    unfold nuBlockSize
    split
    · omega
    split
    · omega
    split <;> omega
  generalize hbs : nuBlockSize m = bs at hpos
  have key : ∀ k, k ≤ m / bs →
      (List.range k).flatMap (nuBlock m indexAux) = indexAux.take (k * bs) := by
    intro k
    induction k with
    | zero => intro _; simp
    | succ k ih =>
      intro hk
      rw [List.range_succ, List.flatMap_append, ih (by omega)]
      simp only [List.flatMap_cons, List.flatMap_nil, List.append_nil, nuBlock, hbs]
      rw [if_pos (by omega), Nat.add_mul, Nat.one_mul, List.take_add]
  rw [List.range_succ, List.flatMap_append, key (m / bs) (Nat.le_refl _)]
  simp only [List.flatMap_cons, List.flatMap_nil, List.append_nil, nuBlock, hbs]
  rw [if_neg (by omega), ← List.take_add, Nat.mul_comm, Nat.div_add_mod]
  exact List.take_of_length_le (by omega)

theorem step_tinv {K : Int → R} {cap : Nat} {s s' : Sys R} {tr es : List (Event R)}
    (h : SInv cap s tr) (ht : TInv K s) (o : Op R) (ho : OpOk K o)
    (hs : step s o = some (s', es)) : TInv K s' := by
  cases o with
  | get k =>
    obtain ⟨c', e, h1, h2, h3, h4, h5, -⟩ := get_inv h.inv k
    simp only [step, h1, Option.some.injEq, Prod.mk.injEq] at hs
    obtain ⟨rfl, -⟩ := hs
    refine ⟨?_, ht.data, ?_⟩
    · intro n hn
      simp only [h3]
      exact ht.good n ((h5 n).1 hn)
    · intro x hx
      simp only [h4] at hx
      simp only [List.mem_map, h5]
      simpa only [List.mem_map] using ht.cover x hx
  | acquire t keys data =>
    simp only [step] at hs
    cases hp : s.pend t with
    | some p =>
      simp only [hp, Option.some.injEq, Prod.mk.injEq] at hs
      obtain ⟨rfl, -⟩ := hs
      exact ht
    | none =>
      obtain ⟨c', slots, out, h1, h2, h3, h4, h5, h6, h7, h8, -⟩ := acquire_spec h.inv keys.length
      simp only [hp, h1, Option.some.injEq, Prod.mk.injEq] at hs
      obtain ⟨rfl, -⟩ := hs
      refine ⟨?_, ?_, ?_⟩
      · intro n hn
        simp only [h3]
        exact ht.good n (by rw [h5]; exact List.mem_append_left _ hn)
      · intro t' p' hp'
        dsimp only at hp'
        split at hp'
        · simp at hp'; subst hp'; exact ho
        · exact ht.data t' p' hp'
      · intro x hx
        dsimp only at hx
        by_cases hlt : x < s.cache.freeIdx
        · rcases ht.cover x hlt with hc | ⟨t', p', hp', hx'⟩
          · rw [h5, List.map_append, List.mem_append] at hc
            rcases hc with hc | hc
            · exact Or.inl hc
            · refine Or.inr ⟨t, _, if_pos rfl, ?_⟩
              show x ∈ slots
              rw [h6]
              exact List.mem_append_right _ (by simpa using hc)
          · refine Or.inr ⟨t', p', ?_, hx'⟩
            have : t' ≠ t := by rintro rfl; simp [hp] at hp'
            simp [this, hp']
        · refine Or.inr ⟨t, _, if_pos rfl, ?_⟩
          show x ∈ slots
          rw [h6]
          apply List.mem_append_left
          rw [List.mem_range'_1]
          omega
  | copy t i =>
    simp only [step] at hs
    cases hp : s.pend t with
    | none => simp [hp] at hs; obtain ⟨rfl, -⟩ := hs; exact ht
    | some p =>
      obtain ⟨d, hd, hdk⟩ := ht.data t p hp
      cases hsl : p.slots[i]? with
      | none => simp [hp, hd, hsl] at hs; obtain ⟨rfl, -⟩ := hs; exact ht
      | some sl =>
        simp only [hp, hd, hsl] at hs
        by_cases hdn : p.done i = true
        · simp [hdn] at hs; obtain ⟨rfl, -⟩ := hs; exact ht
        · rw [if_neg hdn] at hs
          simp only [Option.some.injEq, Prod.mk.injEq] at hs
          obtain ⟨rfl, -⟩ := hs
          have hout := h.out t p hp sl (List.mem_of_getElem? hsl)
          refine ⟨?_, ?_, ?_⟩
          · intro n hn
            simp only [writeSlot] at hn ⊢
            rw [if_neg]
            · exact ht.good n hn
            · rintro rfl
              exact hout.2 (List.mem_map_of_mem hn)
          · intro t' p' hp'
            dsimp only at hp'
            split at hp'
            · simp at hp'; subst hp'; exact ⟨d, hd ▸ rfl, hdk⟩
            · exact ht.data t' p' hp'
          · intro x hx
            rcases ht.cover x hx with hc | ⟨t', p', hp', hx'⟩
            · exact Or.inl hc
            · by_cases he : t' = t
              · subst he
                rw [hp] at hp'
                simp at hp'; subst hp'
                exact Or.inr ⟨t', _, if_pos rfl, hx'⟩
              · exact Or.inr ⟨t', p', by simp [he, hp'], hx'⟩
  | publish t =>
    simp only [step] at hs
    cases hp : s.pend t with
    | none => simp [hp] at hs; obtain ⟨rfl, -⟩ := hs; exact ht
    | some p =>
      obtain ⟨d, hd, hdk⟩ := ht.data t p hp
      simp only [hp, hd] at hs
      split at hs
      · rename_i hall
        simp only [List.all_eq_true, List.mem_range] at hall
        simp only [Option.some.injEq, Prod.mk.injEq] at hs
        obtain ⟨rfl, -⟩ := hs
        generalize hl : ((p.keys.zip p.slots).zipIdx.map fun q => (q.1, d q.2)) = l
        have hfst : l.map Prod.fst = p.keys.zip p.slots := by
          rw [← hl, List.map_map]
          exact List.zipIdx_map_fst 0 _
        have hsl : l.map (fun q => q.1.2) = p.slots := by
          have : l.map (fun q => q.1.2) = (l.map Prod.fst).map Prod.snd := by
            rw [List.map_map]; rfl
          rw [this, hfst, List.map_snd_zip (h.len t p hp)]
        have hmem : ∀ q ∈ l, ∃ i, p.slots[i]? = some q.1.2 ∧ p.keys[i]? = some q.1.1 ∧
            q.2 = d i ∧ i < p.slots.length := by
          intro q hq
          rw [← hl] at hq
          obtain ⟨⟨⟨k, x⟩, i⟩, hq', rfl⟩ := List.mem_map.1 hq
          rw [List.mem_zipIdx_iff_getElem?] at hq'
          rw [List.getElem?_zip_eq_some] at hq'
          exact ⟨i, hq'.2, hq'.1, rfl, (List.getElem?_eq_some_iff.1 hq'.2).1⟩
        obtain ⟨-, a2, a3, -, a5, a6⟩ := publish_inv cap l s.cache tr h.inv
          (by rw [hsl]; exact h.nodup t p hp)
          (by
            intro q hq
            obtain ⟨i, h1, h0, h2, h3⟩ := hmem q hq
            have := h.out t p hp _ (List.mem_of_getElem? h1)
            refine ⟨this.2, this.1, ?_⟩
            rw [h.copied t p hp d i _ hd (hall i h3) h1, h2])
        rw [hfst] at a2 a3 a5 a6
        refine ⟨?_, ?_, ?_⟩
        · intro n hn
          simp only [a2]
          rcases a6 n hn with hh | ⟨q, hq, hh⟩
          · exact ht.good n hh
          · obtain ⟨i, h1, h0, h2, h3⟩ := hmem q hq
            rw [hh] at h1 h0
            rw [h.copied t p hp d i _ hd (hall i h3) h1, hdk i _ h0]
        · intro t' p' hp'
          dsimp only at hp'
          split at hp'
          · simp at hp'
          · exact ht.data t' p' hp'
        · intro x hx
          simp only [a3] at hx
          simp only [a5, hsl, List.mem_append, List.mem_reverse]
          rcases ht.cover x hx with hc | ⟨t', p', hp', hx'⟩
          · exact Or.inl (Or.inr hc)
          · by_cases he : t' = t
            · subst he
              rw [hp] at hp'
              simp at hp'; subst hp'
              exact Or.inl (Or.inl hx')
            · exact Or.inr ⟨t', p', by simp [he, hp'], hx'⟩
      · simp at hs; obtain ⟨rfl, -⟩ := hs; exact ht

theorem run_tinv {K : Int → R} {cap : Nat} (ops : List (Op R)) :
    ∀ (s : Sys R) (tr : List (Event R)), SInv cap s tr → TInv K s → (∀ o ∈ ops, OpOk K o) →
    ∃ s' tr', run s tr ops = some (s', tr') ∧ SInv cap s' tr' ∧ TInv K s' := by
  induction ops with
  | nil => intro s tr h ht _; exact ⟨s, tr, rfl, h, ht⟩
  | cons o os ih =>
    intro s tr h ht ho
    obtain ⟨s', es, h1, h2⟩ := step_inv h o
    simp only [run, h1]
    exact ih s' _ h2 (step_tinv h ht o (ho o List.mem_cons_self) h1)
      (fun o h => ho o (List.mem_cons_of_mem _ h))

theorem tinv_start (K : Int → R) (cap : Nat) : TInv K (start cap : Sys R) := by
  refine ⟨?_, ?_, ?_⟩ <;> simp [start, init]

/-- When all threads have finished, the cache is in the state `session_main` needs. -/
theorem quiet_cinv {K : Int → R} {cap : Nat} {s : Sys R} {tr : List (Event R)}
    (h : SInv cap s tr) (ht : TInv K s) (hq : ∀ t, s.pend t = none) : CInv K cap s.cache := by
  refine ⟨⟨tr, h.inv⟩, ?_, ht.good⟩
  have h1 : (s.cache.items.map Node.slot).Perm (List.range s.cache.freeIdx) := by
    rw [List.perm_ext_iff_of_nodup h.inv.slotsNodup List.nodup_range]
    intro x
    rw [List.mem_range]
    constructor
    · intro hx
      obtain ⟨n, hn, rfl⟩ := List.mem_map.1 hx
      exact h.inv.slotsLt n hn
    · intro hx
      rcases ht.cover x hx with hc | ⟨t, p, hp, -⟩
      · exact hc
      · simp [hq t] at hp
  have h2 := h1.length_eq
  simp only [List.length_map, List.length_range] at h2
  rw [h2]
  exact h.inv.free

end Verif.SvmKernel
