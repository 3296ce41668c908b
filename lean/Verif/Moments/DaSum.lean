import Verif.Moments.Spec
import Verif.Moments.VecProof

/-
`sum_axis_misaligned` and `da_sum`.
-/
namespace Verif.Moments

set_option linter.unusedSectionVars false

open Finset

variable {A W : Type} [AddCommMonoid W]

theorem ceil_pos {a b : Nat} (ha : 0 < a) (hb : 0 < b) : 0 < (a + b - 1) / b :=
  Nat.div_pos (by omega) hb

/-- The blocks cover both dimensions. -/
theorem plan_ok {thr mt outer inner : Nat} (ht : 0 < thr) (hm : 0 < mt) (ho : 0 < outer)
    (hi : 0 < inner) :
    ∃ pl, plan thr mt outer inner = .ok pl ∧ 0 < pl.nOuter ∧ 0 < pl.nInner ∧
      pl.outerSize = outer / pl.nOuter ∧ (pl.nInner - 1) * pl.innerSize ≤ inner ∧
      (pl.nInner = 1 ∨ 0 < pl.innerSize) := by
  unfold plan
  simp only
  obtain ⟨mt', hmt'⟩ : ∃ mt', mt' = if inner ≥ 1024 ∨ outer ≥ 1024 then mt else 1 := ⟨_, rfl⟩
  have hm' : 0 < mt' := by rw [hmt']; split <;> omega
  rw [← hmt', if_neg (by omega)]
  have h1 : 0 < (outer + thr - 1) / thr := ceil_pos ho ht
  have h2 : 0 < (inner + thr - 1) / thr := ceil_pos hi ht
  have h3 : 0 < min mt' ((outer + thr - 1) / thr) := by omega
  obtain ⟨no, hno⟩ : ∃ no, no = min mt' ((outer + thr - 1) / thr) := ⟨_, rfl⟩
  rw [← hno] at h3 ⊢
  rw [if_neg (by omega)]
  split
  · have h4 : 0 < (inner + 32 - 1) / 32 := ceil_pos hi (by omega)
    have h5 : 0 < (mt' + no - 1) / no := ceil_pos hm' h3
    rw [if_neg (by omega)]
    refine ⟨_, rfl, h3, by simp only; omega, rfl, ?_, ?_⟩
    · simp only
      obtain ⟨ni, hni⟩ : ∃ ni, ni = min ((inner + 32 - 1) / 32) ((mt' + no - 1) / no) := ⟨_, rfl⟩
      rw [← hni]
      have h6 := Nat.div_mul_le_self inner ni
      have h7 : (ni - 1) * (inner / ni) ≤ ni * (inner / ni) := Nat.mul_le_mul_right _ (by omega)
      rw [Nat.mul_comm ni] at h7
      omega
    · simp only
      right
      have h8 : min ((inner + 32 - 1) / 32) ((mt' + no - 1) / no) ≤ inner := by
        have : (inner + 32 - 1) / 32 ≤ inner := by omega
        omega
      exact Nat.div_pos h8 (by omega)
  · refine ⟨_, rfl, h3, h2, rfl, ?_, Or.inr ht⟩
    simp only
    have h6 := Nat.div_mul_le_self (inner + thr - 1) thr
    rw [Nat.sub_mul, Nat.one_mul]
    omega

/-- Each column is in the window of one block. -/
theorem window {nI size inner c : Nat} (cur : Nat → Nat)
    (hcur : ∀ j, cur j = if j = nI - 1 then inner - j * size else size)
    (h0 : 0 < nI) (hsz : nI = 1 ∨ 0 < size) (hc : c < inner) (hle : (nI - 1) * size ≤ inner) :
    ∃ j0 < nI, ∀ j < nI, (j * size ≤ c ∧ c < j * size + cur j) ↔ j = j0 := by
  by_cases hlast : (nI - 1) * size ≤ c
  · refine ⟨nI - 1, by omega, ?_⟩
    intro j hj
    rw [hcur]
    constructor
    · rintro ⟨h1, h2⟩
      by_contra hne
      rw [if_neg hne] at h2
      have : (j + 1) * size ≤ (nI - 1) * size := Nat.mul_le_mul_right _ (by omega)
      rw [Nat.add_mul, Nat.one_mul] at this
      omega
    · rintro rfl
      rw [if_pos rfl]
      omega
  · have hs : 0 < size := by
      rcases hsz with h | h
      · rw [h] at hlast; omega
      · exact h
    have hlt : c / size < nI - 1 := (Nat.div_lt_iff_lt_mul hs).2 (by omega)
    refine ⟨c / size, by omega, ?_⟩
    intro j hj
    have hd := Nat.div_add_mod c size
    have hmod := Nat.mod_lt c hs
    rw [Nat.mul_comm] at hd
    constructor
    · rintro ⟨h1, h2⟩
      by_cases hjl : j = nI - 1
      · rw [hjl] at h1; omega
      · rw [hcur, if_neg hjl] at h2
        symm
        apply Nat.div_eq_of_lt_le
        · exact h1
        · rw [Nat.add_mul, Nat.one_mul]; exact h2
    · rintro rfl
      rw [hcur, if_neg (by omega)]
      omega

theorem product_sum (nO nI : Nat) (f : Nat × Nat → W) :
    (((List.range nO).flatMap fun i => (List.range nI).map fun j => (i, j)).map f).sum =
      ∑ i ∈ range nO, ∑ j ∈ range nI, f (i, j) := by
  induction nO with
  | zero => simp
  | succ n ih =>
    rw [List.range_succ, List.flatMap_append, List.map_append, List.sum_append, ih,
      sum_range_succ]
    congr 1
    simp only [List.flatMap_cons, List.flatMap_nil, List.append_nil, List.map_map]
    rw [perm_sum (List.Perm.refl _) (f ∘ fun j => (n, j))]
    rfl

theorem fill_ok (n : Nat) (out : List W) (h : n ≤ out.length) :
    ∃ out', forUp n (fun i s => wr s i 0) out = .ok out' ∧
      ∀ k, out'[k]? = if k < n then some 0 else out[k]? := by
  induction n with
  | zero => exact ⟨out, rfl, by simp⟩
  | succ n ih =>
    obtain ⟨o1, h1, h2⟩ := ih (by omega)
    have hl : o1.length = out.length := by
      by_contra hne
      rcases Nat.lt_or_gt_of_ne hne with hlt | hgt
      · have := h2 o1.length
        rw [List.getElem?_eq_none (Nat.le_refl _)] at this
        split at this
        · cases this
        · rw [List.getElem?_eq_getElem hlt] at this; cases this
      · have := h2 out.length
        rw [if_neg (by omega), List.getElem?_eq_none (Nat.le_refl _),
          List.getElem?_eq_getElem hgt] at this
        cases this
    refine ⟨o1.set n 0, by rw [forUp_succ, h1, ok_bind, wr_ok _ (by omega)], ?_⟩
    intro k
    rw [List.getElem?_set, h2 k]
    by_cases hk : n = k
    · subst hk
      rw [if_pos rfl, if_pos (by omega), if_pos (by omega)]
    · rw [if_neg hk]
      by_cases hkn : k < n
      · rw [if_pos hkn, if_pos (by omega)]
      · rw [if_neg hkn, if_neg (by omega)]

theorem same_length {α : Type} {a b : List α} {n : Nat} {f : Nat → α} (hb : n ≤ b.length)
    (h : ∀ k, a[k]? = if k < n then some (f k) else b[k]?) : a.length = b.length := by
  by_contra hne
  rcases Nat.lt_or_gt_of_ne hne with hlt | hgt
  · have := h a.length
    rw [List.getElem?_eq_none (Nat.le_refl _)] at this
    split at this
    · cases this
    · rw [List.getElem?_eq_getElem hlt] at this; cases this
  · have := h b.length
    rw [if_neg (by omega), List.getElem?_eq_none (Nat.le_refl _),
      List.getElem?_eq_getElem hgt] at this
    cases this

theorem misaligned_ok (thr : Nat) (e : Env) (S : Kern A W) {outer inner ldx : Nat} (x : List A)
    (p : Option (List A)) (out : List W) (w : Nat → Nat → W)
    (hi0 : 0 < inner) (ho0 : 0 < outer) (ht : 0 < thr) (he : e.Ok thr outer inner)
    (hout : inner ≤ out.length)
    (hv : ∀ o < outer, ∀ c < inner, valAt S x p (o * ldx + c) c = .ok (w o c)) :
    ∃ ls out', misalignedArrays thr e S outer inner x ldx p out = .ok (some out' :: ls) ∧
      (∀ l ∈ ls, l = none) ∧
      ∀ k, out'[k]? = if k < inner then some (∑ o ∈ range outer, w o k) else out[k]? := by
  obtain ⟨pl, hpl, hnO, hnI, hos, hle, hsz⟩ := plan_ok ht he.threads ho0 hi0
  obtain ⟨o1, hf1, hf2⟩ := fill_ok inner out hout
  have hol := same_length hout hf2
  unfold misalignedArrays
  rw [hf1, ok_bind, hpl, ok_bind]
  obtain ⟨len, hlen⟩ : ∃ len : Nat → Nat, len = fun i => if i = 0 then out.length else inner :=
    ⟨_, rfl⟩
  have hlen' : ∀ i < pl.nOuter, inner ≤ len i := by
    intro i _; rw [hlen]; simp only; split <;> omega
  have hleni : ∀ i, i ≠ 0 → len i = inner := by
    intro i hne; rw [hlen]; simp only; rw [if_neg hne]
  have hrep : Rep pl.nOuter len (fun _ => True) (fun i c => if i = 0 then o1.getD c 0 else 0)
      (locals pl.nOuter inner o1) := by
    constructor
    · simp only [locals, List.length_cons, List.length_replicate]; omega
    · intro i hi _
      cases i with
      | zero =>
        refine ⟨o1, rfl, by rw [hlen]; exact hol, ?_⟩
        intro c hc
        rw [hlen] at hc
        have hc' : c < o1.length := by rw [hol]; exact hc
        rw [if_pos rfl, List.getD_eq_getElem?_getD, List.getElem?_eq_getElem hc']
        rfl
      | succ i =>
        refine ⟨List.replicate inner 0, ?_, ?_, ?_⟩
        · simp only [locals, List.getElem?_cons_succ, List.getElem?_replicate]
          rw [if_pos (by omega)]
        · rw [hlen]; simp
        · intro c hc
          rw [hleni _ (by omega)] at hc
          simp [hc]
    · intro i _ h; exact absurd trivial h
  obtain ⟨cur, hcur⟩ : ∃ cur : Nat → Nat, ∀ j, cur j =
      if j = pl.nInner - 1 then inner - j * pl.innerSize else pl.innerSize := ⟨_, fun _ => rfl⟩
  obtain ⟨rows, hrows⟩ : ∃ rows : Nat → Nat, ∀ i, rows i =
      if i = pl.nOuter - 1 then outer - i * pl.outerSize else pl.outerSize := ⟨_, fun _ => rfl⟩
  have hcin : ∀ j < pl.nInner, j * pl.innerSize + cur j ≤ inner := by
    intro j hj
    rw [hcur]
    split
    · rename_i h; rw [h]; omega
    · have : (j + 1) * pl.innerSize ≤ (pl.nInner - 1) * pl.innerSize :=
        Nat.mul_le_mul_right _ (by omega)
      rw [Nat.add_mul, Nat.one_mul] at this
      omega
  have hmulO : pl.nOuter * pl.outerSize ≤ outer := by
    rw [hos]; exact Nat.mul_div_le _ _
  have hrin : ∀ i < pl.nOuter, i * pl.outerSize + rows i ≤ outer := by
    intro i hi
    have h1 : (i + 1) * pl.outerSize ≤ pl.nOuter * pl.outerSize := Nat.mul_le_mul_right _ hi
    rw [Nat.add_mul, Nat.one_mul] at h1
    rw [hrows]
    split <;> omega
  have hperm := he.blocks pl hpl
  obtain ⟨ls1, e1, r1⟩ := blocks_ok thr S pl (outer := outer) (inner := inner) x p ht len w cur
    rows hlen' hcur hrows hcin hrin hv
    e.blocks _ _ (by
      intro b hb
      have := (hperm.mem_iff).1 hb
      simp only [List.mem_flatMap, List.mem_range, List.mem_map] at this
      obtain ⟨i, hi, j, hj, rfl⟩ := this
      exact ⟨hi, hj⟩) hrep
  rw [e1, ok_bind]
  have hblk : ∀ i < pl.nOuter, ∀ c < inner, (e.blocks.map fun b =>
      if i = b.1 ∧ b.2 * pl.innerSize ≤ c ∧ c < b.2 * pl.innerSize + cur b.2
        then ∑ r ∈ range (rows i), w (i * pl.outerSize + r) c else 0).sum =
      ∑ r ∈ range (rows i), w (i * pl.outerSize + r) c := by
    intro i hi c hc
    obtain ⟨j0, hj0, hj⟩ := window cur hcur hnI hsz hc hle
    rw [(hperm.map _).sum_eq, product_sum, sum_eq_single i, sum_eq_single j0]
    · exact if_pos ⟨rfl, (hj j0 hj0).2 rfl⟩
    · intro j hjm hne
      simp only
      rw [if_neg (fun h => hne ((hj j (mem_range.1 hjm)).1 h.2))]
    · intro h; exact absurd (mem_range.2 hj0) h
    · intro i' _ hne
      apply sum_eq_zero
      intro j _
      simp only
      rw [if_neg (fun h => hne h.1.symm)]
    · intro h; exact absurd (mem_range.2 hi) h
  obtain ⟨ls2, F', m1, m2, m3, m4⟩ := mergeAll_ok e len
    (fun i c => if c < inner then ∑ r ∈ range (rows i), w (i * pl.outerSize + r) c
      else o1.getD c 0) hnO hlen'
    (he.level pl hpl) (pl.nOuter + 1) 1 _ ls1 (by omega) (by omega) (by omega)
    (r1.congr (fun i _ => by simp [Nat.mod_one])
      (F' := fun i c => if c < inner then ∑ r ∈ range (rows i), w (i * pl.outerSize + r) c
        else o1.getD c 0) (by
        intro i hi _ c hc
        by_cases hci : c < inner
        · rw [if_pos hci, hblk i hi c hci]
          have : (if i = 0 then o1.getD c 0 else (0 : W)) = 0 := by
            split
            · have h5 := hf2 c
              rw [if_pos hci] at h5
              rw [List.getD_eq_getElem?_getD, h5]; rfl
            · rfl
          rw [this, zero_add]
        · rw [if_neg hci]
          have hi0 : i = 0 := by
            by_contra hne
            rw [hleni i hne] at hc
            omega
          subst hi0
          rw [if_pos rfl]
          have : (e.blocks.map fun b =>
            if 0 = b.1 ∧ b.2 * pl.innerSize ≤ c ∧ c < b.2 * pl.innerSize + cur b.2
              then ∑ r ∈ range (rows 0), w (0 * pl.outerSize + r) c else 0).sum = 0 := by
            apply List.sum_eq_zero
            intro v hvm
            obtain ⟨b, hb, rfl⟩ := List.mem_map.1 hvm
            have hb' := (hperm.mem_iff).1 hb
            simp only [List.mem_flatMap, List.mem_range, List.mem_map] at hb'
            obtain ⟨i, hi, j, hj, rfl⟩ := hb'
            rw [if_neg]
            rintro ⟨_, _, h7⟩
            have := hcin j hj
            simp only at h7
            omega
          rw [this, add_zero]))
    (by
      intro i hi _ c hc
      have : min 1 (pl.nOuter - i) = 1 := by omega
      rw [this, sum_range_one]; rfl)
    (by intro c hc; rfl)
  obtain ⟨arr, a1, a2, a3⟩ := m2.live 0 hnO rfl
  refine ⟨ls2.tail, arr, ?_, ?_, ?_⟩
  · rw [m1]
    congr 1
    cases ls2 with
    | nil => simp at a1
    | cons a l => simp only [List.getElem?_cons_zero, Option.some.injEq] at a1; rw [a1]; rfl
  · intro l hl
    obtain ⟨i, hi, hli⟩ := List.mem_iff_getElem.1 hl
    have h1 : i + 1 < pl.nOuter := by
      rw [← m2.length]
      rw [List.length_tail] at hi
      omega
    have h2 := m2.dead (i + 1) h1 (by omega)
    rw [← List.getElem?_tail, List.getElem?_eq_getElem hi] at h2
    simpa [hli] using h2
  · intro k
    have hlen0 : arr.length = out.length := by rw [a2, hlen]; rfl
    by_cases hk : k < inner
    · rw [if_pos hk, a3 k (by have := hlen' 0 hnO; omega), m3 k hk]
      congr 1
      have h3 := team_sum (fun o => w o k) outer hnO
      rw [← hos] at h3
      rw [← h3]
      apply sum_congr rfl
      intro i hi
      rw [if_pos hk]
      have : rows i = if i = pl.nOuter - 1 then pl.outerSize + outer % pl.nOuter
          else pl.outerSize := by
        rw [hrows]
        split
        · rename_i h
          have h4 := Nat.div_add_mod outer pl.nOuter
          rw [← hos] at h4
          have h5 : pl.nOuter * pl.outerSize = (pl.nOuter - 1) * pl.outerSize + pl.outerSize := by
            rw [Nat.sub_mul, Nat.one_mul]
            have : 1 * pl.outerSize ≤ pl.nOuter * pl.outerSize := Nat.mul_le_mul_right _ hnO
            omega
          rw [h]; omega
        · rfl
      rw [this]
    · rw [if_neg hk]
      by_cases hko : k < out.length
      · have hk0 : k < len 0 := by rw [hlen]; exact hko
        rw [a3 k hk0, m4 k (by omega), if_neg hk]
        have h5 := hf2 k
        rw [if_neg hk] at h5
        rw [List.getD_eq_getElem?_getD, h5, List.getElem?_eq_getElem hko]
        rfl
      · rw [List.getElem?_eq_none (by omega), List.getElem?_eq_none (by omega)]

theorem misalignedSum_ok (thr : Nat) (e : Env) (S : Kern A W) {outer inner ldx : Nat}
    (x : List A) (p : Option (List A)) (out : List W) (w : Nat → Nat → W)
    (hi0 : 0 < inner) (ho0 : 0 < outer) (ht : 0 < thr) (he : e.Ok thr outer inner)
    (hout : inner ≤ out.length)
    (hv : ∀ o < outer, ∀ c < inner, valAt S x p (o * ldx + c) c = .ok (w o c)) :
    ∃ out', misalignedSum thr e S outer inner x ldx p out = .ok out' ∧
      ∀ k, out'[k]? = if k < inner then some (∑ o ∈ range outer, w o k) else out[k]? := by
  obtain ⟨ls, out', h1, _, h2⟩ := misaligned_ok thr e S x p out w hi0 ho0 ht he hout hv
  refine ⟨out', ?_, h2⟩
  unfold misalignedSum
  rw [h1, ok_bind, rd_ok (a := some out') rfl, ok_bind]

/-- `da_sum` for every axis. -/
theorem daSum_ok (thr : Nat) (e : Env) (order : Order) (axis : Axis) {m n ldx : Nat}
    (S : Kern A W) (x : List A) (X : Nat → Nat → A) (out : List W) (p : Option (List A))
    (g : Nat → A → W) (hm : 0 < m) (hn : 0 < n) (ht : 0 < thr) (hld : LdOk order m n ldx)
    (hx : Holds order m n ldx x X) (he : e.OkFor thr order m n)
    (hout : outLen axis m n ≤ out.length) (hS : Serves S p (outLen axis m n) g) :
    ∃ out', daSum thr e order axis m n S x ldx out p = .ok out' ∧
      ∀ k, out'[k]? =
        if k < outLen axis m n then some (total axis m n X (g k) k) else out[k]? := by
  -- the parameter of line `k`
  obtain ⟨q, hq, hqv⟩ : ∃ q : Nat → Option A, (∀ k < outLen axis m n, paramAt p k = .ok (q k)) ∧
      ∀ k < outLen axis m n, ∀ a, S.app (q k) a = .ok (g k a) := by
    cases S with
    | one f =>
      cases p with
      | some l => exact absurd hS (by simp [Serves])
      | none => exact ⟨fun _ => none, fun _ _ => rfl, fun k hk a => by rw [hS k hk]; rfl⟩
    | two f =>
      cases p with
      | none => exact absurd hS (by simp [Serves])
      | some l =>
        refine ⟨fun k => l[k]?, ?_, ?_⟩
        · intro k hk
          obtain ⟨a, h1, _⟩ := hS k hk
          simp only [paramAt, rd, h1]
          rfl
        · intro k hk a
          obtain ⟨b, h1, h2⟩ := hS k hk
          simp only [h1, Kern.app, h2]
  have hvalAt : ∀ k < outLen axis m n, ∀ (pos : Nat) (a : A), x[pos]? = some a →
      valAt S x p pos k = .ok (g k a) := by
    intro k hk pos a ha
    unfold valAt
    rw [rd_ok ha, ok_bind, ← hqv k hk a]
    cases S with
    | one f => rfl
    | two f =>
      simp only
      rw [hq k hk, ok_bind]
  have hval : ∀ k < outLen axis m n, ∀ (pos : Nat) (a : A), x[pos]? = some a →
      val S x (q k) pos = .ok (g k a) := by
    intro k hk pos a ha
    unfold val
    rw [rd_ok ha, ok_bind, hqv k hk a]
  unfold daSum
  simp only
  cases order with
  | col =>
    have he' : e.Ok thr n m := he
    have hld' : m ≤ ldx := hld
    cases axis with
    | all =>
      simp only [if_true]
      rw [fullSum_ok thr e S x p (q 0) out (fun j i => g 0 (X i j)) hm ht hld' he'.team he'.sums
        (Nat.lt_of_lt_of_le Nat.zero_lt_one hout) (hq 0 (by simp [outLen])) (fun j hj i hi =>
          hval 0 (by simp [outLen]) _ _ (hx i hi j hj))]
      refine ⟨_, rfl, ?_⟩
      intro k
      simp only [outLen] at hout
      rw [List.getElem?_set]
      by_cases hk : 0 = k
      · subst hk
        rw [if_pos rfl, if_pos (by omega), if_pos (by simp [outLen])]
        simp only [total]
        rw [sum_comm]
      · rw [if_neg hk, if_neg (by simp only [outLen]; omega)]
    | col =>
      simp only [reduceCtorEq, if_false, and_self, true_or, if_true]
      exact alignedSum_ok thr e S x p q out (fun j i => g j (X i j)) hm ht hld' he'.lines hout hq
        (fun j hj i hi => hval j hj _ _ (hx i hi j hj))
    | row =>
      simp only [reduceCtorEq, if_false, and_false, and_true, or_self, if_true]
      exact misalignedSum_ok thr e S x p out (fun j i => g i (X i j)) hm hn ht he' hout
        (fun j hj i hi => hvalAt i hi _ _ (hx i hi j hj))
  | row =>
    have he' : e.Ok thr m n := he
    have hld' : n ≤ ldx := hld
    cases axis with
    | all =>
      simp only [reduceCtorEq, if_true, if_false]
      rw [fullSum_ok thr e S x p (q 0) out (fun i j => g 0 (X i j)) hn ht hld' he'.team he'.sums
        (Nat.lt_of_lt_of_le Nat.zero_lt_one hout) (hq 0 (by simp [outLen])) (fun i hi j hj =>
          hval 0 (by simp [outLen]) _ _ (hx i hi j hj))]
      refine ⟨_, rfl, ?_⟩
      intro k
      simp only [outLen] at hout
      rw [List.getElem?_set]
      by_cases hk : 0 = k
      · subst hk
        rw [if_pos rfl, if_pos (by omega), if_pos (by simp [outLen])]
        simp only [total]
      · rw [if_neg hk, if_neg (by simp only [outLen]; omega)]
    | row =>
      simp only [reduceCtorEq, if_false, and_self, or_true, if_true]
      exact alignedSum_ok thr e S x p q out (fun i j => g i (X i j)) hn ht hld' he'.lines hout hq
        (fun i hi j hj => hval i hi _ _ (hx i hi j hj))
    | col =>
      simp only [reduceCtorEq, if_false, and_false, and_true, or_self]
      exact misalignedSum_ok thr e S x p out (fun i j => g j (X i j)) hn hm ht he' hout
        (fun i hi j hj => hvalAt j hj _ _ (hx i hi j hj))

end Verif.Moments
