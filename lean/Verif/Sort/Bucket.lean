import Verif.Sort.Proof
import Mathlib.Data.List.Basic
import Mathlib.Data.List.Nodup
import Mathlib.Data.List.Range

/-!
# Proofs about the bucket sort and the counting of a bootstrap sample
-/

namespace Verif.Sort

/-- The (index, value) pairs of a range. -/
def pairs {α} (s : St α) (lo n : Nat) : List (Int × α) :=
  (List.range' lo n).map fun i => (s.idx i, s.val i)

theorem Rearr.pairs {α} {lo n : Nat} {s s' : St α} (h : Rearr lo (lo + n) s s') :
    (pairs s' lo n).Perm (pairs s lo n) := by
  obtain ⟨σ, f, hi, hv, _, _⟩ := h
  have e : Sort.pairs s' lo n = ((List.range' lo n).map σ).map fun i => (s.idx i, s.val i) := by
    unfold Sort.pairs
    rw [List.map_map]
    apply List.map_congr_left
    intro i _
    simp [hi, hv]
  rw [e]
  unfold Sort.pairs
  apply List.Perm.map
  have hmem : ∀ x, (lo ≤ σ x ∧ σ x < lo + n) ↔ (lo ≤ x ∧ x < lo + n) := by
    intro x
    constructor
    · intro h; by_contra hc; rw [f x hc] at h; exact hc h
    · intro h; by_contra hc
      have := f (σ x) hc
      rw [σ.injective this] at hc
      exact hc h
  rw [List.perm_ext_iff_of_nodup]
  · intro a
    simp only [List.mem_map, List.mem_range'_1]
    constructor
    · rintro ⟨x, hx, rfl⟩; exact (hmem x).2 hx
    · intro ha
      refine ⟨σ.symm a, (hmem _).1 ?_, by simp⟩
      simpa using ha
  · exact (List.nodup_range').map σ.injective
  · exact List.nodup_range'

/-- The state of the bucket arrays after the positions in `done`. -/
structure Filled {α} (rnd : α → Int) (ncat ld bsize : Nat) (s0 : St α) (done : List Nat)
    (sb : St α × Buckets) : Prop where
  idx : sb.1.idx = s0.idx
  val : sb.1.val = s0.val
  size : sb.1.size = s0.size
  bad : sb.1.bad = s0.bad
  bs : sb.2.size = bsize
  cnt : ∀ c, sb.2.cnt c = (done.filter fun i => rnd (s0.val i) = (c : Int)).length
  cells : ∀ c, c < ncat → ∀ k (h : k < (done.filter fun i => rnd (s0.val i) = (c : Int)).length),
    sb.2.cells (ld * c + k) = s0.idx ((done.filter fun i => rnd (s0.val i) = (c : Int))[k])

theorem cell_inj {ld c k c' k' : Nat} (hk : k < ld) (hk' : k' < ld) (h : ld * c + k = ld * c' + k') :
    c = c' ∧ k = k' := by
  have h1 : (ld * c + k) / ld = c := by
    rw [Nat.add_comm, Nat.add_mul_div_left _ _ (by omega), Nat.div_eq_of_lt hk, Nat.zero_add]
  have h2 : (ld * c' + k') / ld = c' := by
    rw [Nat.add_comm, Nat.add_mul_div_left _ _ (by omega), Nat.div_eq_of_lt hk', Nat.zero_add]
  have : c = c' := by rw [← h1, ← h2, h]
  subst this
  exact ⟨rfl, by omega⟩

theorem bucketFill_spec {α} (rnd : α → Int) (ncat ld bsize : Nat) (s0 : St α)
    (hb : ncat * ld ≤ bsize) : ∀ (is done : List Nat) (sb : St α × Buckets),
    Filled rnd ncat ld bsize s0 done sb → (done ++ is).length ≤ ld →
    (∀ i ∈ is, i < s0.size ∧ 0 ≤ rnd (s0.val i) ∧ rnd (s0.val i) < ncat) →
    Filled rnd ncat ld bsize s0 (done ++ is) (bucketFill rnd ncat ld is sb)
  | [], done, sb, h, _, _ => by simpa [bucketFill] using h
  | i :: is, done, sb, h, hl, hi => by
    unfold bucketFill
    have := bucketFill_spec rnd ncat ld bsize s0 hb is (done ++ [i]) (bucketStep rnd ncat ld i sb)
    rw [List.append_assoc, List.singleton_append] at this
    refine this ?_ hl (fun j hj => hi j (List.mem_cons_of_mem _ hj))
    obtain ⟨h1, h2, h3⟩ := hi i List.mem_cons_self
    obtain ⟨x, hx⟩ : ∃ x : Nat, rnd (s0.val i) = (x : Int) := ⟨_, (Int.toNat_of_nonneg h2).symm⟩
    have hxn : x < ncat := by omega
    have hlen : ∀ c : Nat, (done.filter fun i => rnd (s0.val i) = (c : Int)).length < ld := by
      intro c
      have := List.length_filter_le (fun i => rnd (s0.val i) = (c : Int)) done
      simp only [List.length_append, List.length_cons] at hl
      omega
    have hpos : ld * x + sb.2.cnt x < bsize := by
      rw [h.cnt]
      have := hlen x
      have h4 : (x + 1) * ld ≤ ncat * ld := Nat.mul_le_mul_right _ hxn
      rw [Nat.add_mul, Nat.one_mul, Nat.mul_comm x ld] at h4
      omega
    have hval : (sb.1.touch i).val i = s0.val i := by
      show sb.1.val i = _
      rw [h.val]
    have hstep : bucketStep rnd ncat ld i sb =
        ({ sb.1.touch i with bad := (sb.1.touch i).bad || decide (sb.2.size ≤ ld * x + sb.2.cnt x) },
          { sb.2 with
            cells := fun k => if k = ld * x + sb.2.cnt x then sb.1.idx i else sb.2.cells k
            cnt := fun c => if c = x then sb.2.cnt c + 1 else sb.2.cnt c }) := by
      unfold bucketStep
      dsimp only
      rw [hval, hx, if_neg (by omega)]
      simp only [Int.toNat_natCast]
      rfl
    rw [hstep]
    have hf : ∀ c : Nat, ((done ++ [i]).filter fun i => rnd (s0.val i) = (c : Int)) =
        if c = x then (done.filter fun i => rnd (s0.val i) = (c : Int)) ++ [i]
        else done.filter fun i => rnd (s0.val i) = (c : Int) := by
      intro c
      rw [List.filter_append]
      by_cases e : c = x
      · subst e; simp [hx]
      · have : ¬ x = c := fun q => e q.symm
        simp [hx, e, Int.natCast_inj, this]
    refine ⟨h.idx, h.val, h.size, ?_, h.bs, ?_, ?_⟩
    · have a : ¬ s0.size ≤ i := by omega
      have b : ¬ bsize ≤ ld * x + sb.2.cnt x := by omega
      simp [St.touch, h.size, h.bs, h.bad, a, b]
    · intro c
      dsimp only
      rw [hf c]
      by_cases e : c = x
      · rw [if_pos e, if_pos e, h.cnt]; simp
      · rw [if_neg e, if_neg e, h.cnt]
    · intro c hc k hk
      dsimp only
      simp only [hf c] at hk ⊢
      by_cases e : c = x
      · subst e
        simp only [if_pos] at hk ⊢
        by_cases e2 : k = sb.2.cnt c
        · rw [if_pos (by rw [e2])]
          have : k = (done.filter fun i => rnd (s0.val i) = (c : Int)).length := by rw [e2, h.cnt]
          subst this
          rw [List.getElem_concat_length rfl, h.idx]
        · have hk2 : k < (done.filter fun i => rnd (s0.val i) = (c : Int)).length := by
            rw [List.length_append, List.length_singleton] at hk
            rw [h.cnt] at e2
            omega
          rw [if_neg (by omega), List.getElem_append_left hk2]
          exact h.cells c hc k hk2
      · simp only [if_neg e] at hk ⊢
        rw [if_neg]
        · exact h.cells c hc k hk
        · intro hq
          have := hlen c
          have h5 := hlen x
          rw [h.cnt] at hq
          exact e (cell_inj (by omega) h5 hq).1

/-- The second loop writes the buckets one after the other. -/
theorem bucketEmpty_spec {α} (ofCat : Nat → α) (ld : Nat) (b : Buckets) (g : Nat → List Int)
    (ncat : Nat) (hc : ∀ c, c < ncat → b.cnt c = (g c).length)
    (hcell : ∀ c, c < ncat → ∀ k (h : k < (g c).length), b.cells (c * ld + k) = (g c)[k])
    (hb : ∀ c, c < ncat → 0 < (g c).length → c * ld + (g c).length ≤ b.size) :
    ∀ (cs : List Nat) (s : St α) (pos : Nat), (∀ c ∈ cs, c < ncat) →
      pos + (cs.flatMap g).length ≤ s.size →
      let r := bucketEmpty ofCat ld b cs (s, pos)
      let out := cs.flatMap fun (c : Nat) => (g c).map fun i => (i, ofCat c)
      r.1.size = s.size ∧ r.1.bad = s.bad ∧
      (∀ k, ¬ (pos ≤ k ∧ k < pos + out.length) → r.1.idx k = s.idx k ∧ r.1.val k = s.val k) ∧
      (∀ k (h : k < out.length), (r.1.idx (pos + k), r.1.val (pos + k)) = out[k])
  | [], s, pos, _, _ => by
    refine ⟨rfl, rfl, fun k _ => ⟨rfl, rfl⟩, fun k h => ?_⟩
    simp at h
  | c :: cs, s, pos, hcs, hsz => by
    intro r out
    have hcn := hcs c List.mem_cons_self
    have hlen : ((c :: cs).flatMap g).length = (g c).length + (cs.flatMap g).length := by
      rw [List.flatMap_cons, List.length_append]
    rw [hlen] at hsz
    have hst : emptyStep ofCat ld b c (s, pos) =
        ({ s with
            idx := fun k => if pos ≤ k ∧ k < pos + (g c).length then b.cells (c * ld + (k - pos))
              else s.idx k
            val := fun k => if pos ≤ k ∧ k < pos + (g c).length then ofCat c else s.val k },
          pos + (g c).length) := by
      unfold emptyStep
      dsimp only
      rw [hc c hcn]
      congr 2
      by_cases h0 : 0 < (g c).length
      · have h1 := hb c hcn h0
        have a : ¬ s.size < pos + (g c).length := by omega
        have b' : ¬ b.size < c * ld + (g c).length := by omega
        simp [a, b']
      · simp [h0]
    have ih := bucketEmpty_spec ofCat ld b g ncat hc hcell hb cs
      (emptyStep ofCat ld b c (s, pos)).1 (pos + (g c).length)
      (fun x hx => hcs x (List.mem_cons_of_mem _ hx)) (by rw [hst]; dsimp only; omega)
    dsimp only at ih
    have hr : r = bucketEmpty ofCat ld b cs ((emptyStep ofCat ld b c (s, pos)).1,
        pos + (g c).length) := by
      show bucketEmpty ofCat ld b cs (emptyStep ofCat ld b c (s, pos)) = _
      rw [hst]
    rw [← hr] at ih
    obtain ⟨i1, i2, i3, i4⟩ := ih
    have hout : out = ((g c).map fun i => (i, ofCat c)) ++
        cs.flatMap fun (c : Nat) => (g c).map fun i => (i, ofCat c) := by
      show List.flatMap _ (c :: cs) = _
      rw [List.flatMap_cons]
    generalize hrest : (cs.flatMap fun (c : Nat) => (g c).map fun i => (i, ofCat c)) = rest at *
    have hol : out.length = (g c).length + rest.length := by rw [hout]; simp
    refine ⟨by rw [i1, hst], by rw [i2, hst], ?_, ?_⟩
    · intro k hk
      have := i3 k (by omega)
      rw [this.1, this.2, hst]
      dsimp only
      rw [if_neg (by omega), if_neg (by omega)]
      exact ⟨rfl, rfl⟩
    · intro k hk
      by_cases e : k < (g c).length
      · have := i3 (pos + k) (by omega)
        rw [this.1, this.2, hst]
        dsimp only
        rw [if_pos (by omega), if_pos (by omega), Nat.add_sub_cancel_left, hcell c hcn k e]
        have : out[k] = (((g c).map fun i => (i, ofCat c)) ++ rest)[k]'(by rw [← hout]; exact hk) := by
          congr 1
        rw [this, List.getElem_append_left (by simpa using e)]
        simp
      · have h2 := i4 (k - (g c).length) (by omega)
        rw [show pos + (g c).length + (k - (g c).length) = pos + k by omega] at h2
        rw [h2]
        have : out[k] = (((g c).map fun i => (i, ofCat c)) ++ rest)[k]'(by rw [← hout]; exact hk) := by
          congr 1
        rw [this, List.getElem_append_right (by simpa using e)]
        simp

/-- What bucket sort leaves in the range: the buckets, each in the original order. -/
def bucketed {α} (rnd : α → Int) (ofCat : Nat → α) (ncat start n : Nat) (s : St α) : List (Int × α) :=
  (List.range ncat).flatMap fun (c : Nat) =>
    (((List.range' start n).filter fun i => rnd (s.val i) = (c : Int)).map fun i => s.idx i).map
      fun i => (i, ofCat c)

theorem flatMap_filter_perm {γ : Type} (f : γ → Int) : ∀ (ncat : Nat) (l : List γ),
    (∀ x ∈ l, 0 ≤ f x ∧ f x < ncat) →
    ((List.range ncat).flatMap fun (c : Nat) => l.filter fun x => f x = (c : Int)).Perm l
  | ncat, [], _ => by
    have : ((List.range ncat).flatMap fun (c : Nat) => ([] : List γ).filter fun x => f x = (c : Int)) = [] := by
      simp
    rw [this]
  | ncat, x :: l, h => by
    have ih := flatMap_filter_perm f ncat l fun y hy => h y (List.mem_cons_of_mem _ hy)
    obtain ⟨h1, h2⟩ := h x List.mem_cons_self
    obtain ⟨c, hc⟩ : ∃ c : Nat, f x = (c : Int) := ⟨_, (Int.toNat_of_nonneg h1).symm⟩
    refine List.Perm.trans ?_ (List.Perm.cons x ih)
    have key : ∀ cs : List Nat, cs.Nodup → c ∈ cs →
        (cs.flatMap fun (c : Nat) => (x :: l).filter fun x => f x = (c : Int)).Perm
          (x :: cs.flatMap fun (c : Nat) => l.filter fun x => f x = (c : Int)) := by
      have off : ∀ cs : List Nat, c ∉ cs →
          (cs.flatMap fun (c : Nat) => (x :: l).filter fun x => f x = (c : Int)) =
            cs.flatMap fun (c : Nat) => l.filter fun x => f x = (c : Int) := by
        intro cs hcs
        induction cs with
        | nil => rfl
        | cons d cs ih =>
          rw [List.flatMap_cons, List.flatMap_cons,
            ih (fun h => hcs (List.mem_cons_of_mem _ h))]
          congr 1
          have : ¬ c = d := fun h => hcs (h ▸ List.mem_cons_self)
          rw [List.filter_cons, if_neg]
          simp [hc, Int.natCast_inj, this]
      intro cs hn hm
      induction cs with
      | nil => cases hm
      | cons d cs ih =>
        rw [List.flatMap_cons, List.flatMap_cons]
        rw [List.nodup_cons] at hn
        by_cases e : c = d
        · subst e
          rw [off cs hn.1, List.filter_cons, if_pos (by simp [hc]), List.cons_append]
        · rw [List.filter_cons, if_neg (by simp [hc, Int.natCast_inj, e])]
          have := ih hn.2 ((List.mem_cons.1 hm).resolve_left e)
          refine (List.Perm.append_left _ this).trans ?_
          exact List.perm_middle
    exact key _ List.nodup_range (List.mem_range.2 (by omega))

theorem bucketSort_spec {α} (rnd : α → Int) (ofCat : Nat → α) (ncat start n ld : Nat) (b : Buckets)
    (s : St α) (hsz : start + n ≤ s.size) (hld : n ≤ ld) (hbs : ncat * ld ≤ b.size)
    (hv : ∀ i, start ≤ i → i < start + n → 0 ≤ rnd (s.val i) ∧ rnd (s.val i) < ncat) :
    let s' := bucketSort rnd ofCat ncat start n ld b s
    s'.size = s.size ∧ s'.bad = s.bad ∧
    (∀ k, ¬ (start ≤ k ∧ k < start + n) → s'.idx k = s.idx k ∧ s'.val k = s.val k) ∧
    pairs s' start n = bucketed rnd ofCat ncat start n s := by
  intro s'
  have hF := bucketFill_spec rnd ncat ld b.size s hbs (List.range' start n) []
    (s, { b with cnt := fun _ => 0 })
    ⟨rfl, rfl, rfl, rfl, rfl, fun c => by simp, fun c _ k h => by simp at h⟩
    (by simpa using hld)
    (fun i hi => by
      rw [List.mem_range'_1] at hi
      exact ⟨by omega, hv i hi.1 hi.2⟩)
  rw [List.nil_append] at hF
  have hs' : s' = (bucketEmpty ofCat ld (bucketFill rnd ncat ld (List.range' start n)
    (s, { b with cnt := fun _ => 0 })).2 (List.range ncat) ((bucketFill rnd ncat ld
      (List.range' start n) (s, { b with cnt := fun _ => 0 })).1, start)).1 := rfl
  generalize bucketFill rnd ncat ld (List.range' start n) (s, { b with cnt := fun _ => 0 }) = f
    at hF hs'
  have hperm := flatMap_filter_perm (fun i => rnd (s.val i)) ncat (List.range' start n)
    (fun i hi => by
      rw [List.mem_range'_1] at hi
      exact hv i hi.1 hi.2)
  have hflen : ∀ c : Nat,
      ((List.range' start n).filter fun i => rnd (s.val i) = (c : Int)).length ≤ n := fun c => by
    refine (List.length_filter_le _ _).trans ?_
    rw [List.length_range']
  have hlen : ((List.range ncat).flatMap fun (c : Nat) =>
      ((List.range' start n).filter fun i => rnd (s.val i) = (c : Int)).map fun i => s.idx i).length
      = n := by
    have h1 := hperm.length_eq
    rw [List.length_range'] at h1
    rw [List.length_flatMap] at h1 ⊢
    refine Eq.trans ?_ h1
    congr 1
    apply List.map_congr_left
    intro c _
    rw [List.length_map]
  have hE := bucketEmpty_spec ofCat ld f.2
    (fun c => ((List.range' start n).filter fun i => rnd (s.val i) = (c : Int)).map fun i => s.idx i)
    ncat (fun c _ => by rw [hF.cnt, List.length_map])
    (fun c hc k hk => by
      rw [List.length_map] at hk
      rw [Nat.mul_comm c ld, hF.cells c hc k hk, List.getElem_map])
    (fun c hc _ => by
      rw [List.length_map, hF.bs]
      have := hflen c
      have h4 : (c + 1) * ld ≤ ncat * ld := Nat.mul_le_mul_right _ hc
      rw [Nat.add_mul, Nat.one_mul] at h4
      omega)
    (List.range ncat) f.1 start (fun c hc => List.mem_range.1 hc)
    (by rw [hlen, hF.size]; exact hsz)
  dsimp only at hE
  rw [← hs'] at hE
  have hol : (bucketed rnd ofCat ncat start n s).length = n := by
    refine Eq.trans ?_ hlen
    unfold bucketed
    rw [List.length_flatMap, List.length_flatMap]
    congr 1
    apply List.map_congr_left
    intro c _
    rw [List.length_map]
  obtain ⟨e1, e2, e3, e4⟩ := hE
  refine ⟨by rw [e1, hF.size], by rw [e2, hF.bad], ?_, ?_⟩
  · intro k hk
    have := e3 k (by
      unfold bucketed at hol
      rw [hol]; exact hk)
    rw [this.1, this.2, hF.idx, hF.val]
    exact ⟨rfl, rfl⟩
  · apply List.ext_getElem
    · rw [hol]; simp [pairs]
    · intro k h1 h2
      have := e4 k h2
      unfold bucketed
      rw [← this]
      simp [pairs]

/-! ## Counting -/

theorem runEnd_spec (idx : Nat → Nat) (size v head : Nat) (h : head < size) (hv : idx head = v) :
    runEnd idx size v head ≤ size ∧
    (∀ i, head ≤ i → i < runEnd idx size v head → idx i = v) ∧
    (runEnd idx size v head < size → idx (runEnd idx size v head) ≠ v) := by
  fun_induction runEnd idx size v head with
  | case1 head h1 ih =>
    obtain ⟨a, b, c⟩ := ih h1.1 h1.2
    refine ⟨a, fun i p q => ?_, c⟩
    by_cases e : i = head
    · rw [e]; exact hv
    · exact b i (by omega) q
  | case2 head h1 =>
    refine ⟨by omega, fun i p q => ?_, fun q hh => h1 ⟨q, hh⟩⟩
    rw [show i = head by omega]; exact hv

/-- Number of positions below `n` holding `v`. -/
def occ (a : Nat → Nat) (n v : Nat) : Nat := (List.range n).countP fun i => a i = v

theorem occ_run (a : Nat → Nat) (v : Nat) {h : Nat} : ∀ (e : Nat), h ≤ e →
    (∀ i, h ≤ i → i < e → a i = v) → ∀ w, occ a e w = if w = v then occ a h w + (e - h) else occ a h w
  | 0, he, hv, w => by
    have : h = 0 := by omega
    subst this; simp
  | e + 1, he, hv, w => by
    by_cases q : h = e + 1
    · subst q; simp
    · have ih := occ_run a v e (by omega) (fun i p q => hv i p (by omega)) w
      have hs : occ a (e + 1) w = occ a e w + if a e = w then 1 else 0 := by
        unfold occ
        rw [List.range_succ, List.countP_append]
        simp [List.countP_cons]
      rw [hs, ih, hv e (by omega) (by omega)]
      by_cases q2 : w = v
      · subst q2; simp; omega
      · have : ¬ v = w := fun h => q2 h.symm
        simp [q2, this]

theorem compressLoop_spec (a : Nat → Nat) (size : Nat)
    (hs : ∀ i j, i ≤ j → j < size → a i ≤ a j) (head u : Nat) (t : Tally)
    (h1 : u ≤ head) (h2 : head ≤ size) (h3 : ∀ i, head ≤ i → i < size → t.idx i = a i)
    (h4 : ∀ i j, i < j → j < u → t.idx i < t.idx j)
    (h5 : ∀ v, (∃ i, i < u ∧ t.idx i = v) ↔ ∃ i, i < head ∧ a i = v)
    (h6 : ∀ v, t.cnt v = occ a head v)
    (h7 : ∀ i, i < head → head < size → a i < a head)
    (h8 : (∀ i, i < size → a i < t.csize) → t.bad = false) :
    let r := compressLoop size head u t
    r.2 ≤ size ∧ (∀ i j, i < j → j < r.2 → r.1.idx i < r.1.idx j) ∧
    (∀ v, (∃ i, i < r.2 ∧ r.1.idx i = v) ↔ ∃ i, i < size ∧ a i = v) ∧
    (∀ v, r.1.cnt v = occ a size v) ∧ ((∀ i, i < size → a i < t.csize) → r.1.bad = false) := by
  fun_induction compressLoop size head u t with
  | case1 head u t h ih =>
    have hgt := runEnd_gt t.idx size (t.idx head) head
    obtain ⟨r1, r2, r3⟩ := runEnd_spec t.idx size (t.idx head) head h rfl
    have hv : t.idx head = a head := h3 head (Nat.le_refl _) h
    generalize runEnd t.idx size (t.idx head) head = e at *
    have r2' : ∀ i, head ≤ i → i < e → a i = a head := fun i p q => by
      rw [← h3 i p (by omega), r2 i p q, hv]
    have hlast : ∀ i, i < u → t.idx i < a head := fun i hi => by
      obtain ⟨j, p, q⟩ := (h5 (t.idx i)).1 ⟨i, hi, rfl⟩
      rw [← q]; exact h7 j p h
    refine ih (by omega) r1 ?_ ?_ ?_ ?_ ?_ ?_
    · intro i p q
      dsimp only [setF]
      rw [if_neg (by omega)]; exact h3 i (by omega) q
    · intro i j p q
      dsimp only [setF]
      rw [if_neg (by omega : ¬ i = u)]
      by_cases e2 : j = u
      · rw [if_pos e2, hv]; exact hlast i (by omega)
      · rw [if_neg e2]; exact h4 i j p (by omega)
    · intro v
      dsimp only [setF]
      constructor
      · rintro ⟨i, p, q⟩
        by_cases e2 : i = u
        · rw [if_pos e2, hv] at q; exact ⟨head, hgt, q⟩
        · rw [if_neg e2] at q
          obtain ⟨j, x, y⟩ := (h5 v).1 ⟨i, by omega, q⟩
          exact ⟨j, by omega, y⟩
      · rintro ⟨i, p, q⟩
        by_cases e2 : i < head
        · obtain ⟨j, x, y⟩ := (h5 v).2 ⟨i, e2, q⟩
          exact ⟨j, by omega, by rw [if_neg (by omega)]; exact y⟩
        · refine ⟨u, by omega, ?_⟩
          rw [if_pos rfl, hv, ← r2' i (by omega) p, q]
    · intro v
      dsimp only [setF]
      rw [occ_run a (a head) e (by omega) r2' v, hv]
      by_cases e2 : v = a head
      · rw [if_pos e2, if_pos e2]
        have : occ a head v = 0 := by
          unfold occ
          rw [List.countP_eq_zero]
          intro i hi
          have := h7 i (List.mem_range.1 hi) h
          simp; omega
        rw [this, Nat.zero_add]
      · rw [if_neg e2, if_neg e2]; exact h6 v
    · intro i p q
      have q1 : a head ≤ a e := hs head e (by omega) q
      have q2 : a e ≠ a head := by
        have := r3 q
        rwa [h3 e (by omega) q, hv] at this
      by_cases e2 : i < head
      · have := h7 i e2 h; omega
      · rw [r2' i (by omega) p]; omega
    · intro hc
      dsimp only at hc ⊢
      have := hc head h
      rw [h8 hc, hv]
      simp; omega
  | case2 head u t h =>
    have e : head = size := by omega
    subst e
    exact ⟨h1, h4, h5, h6, h8⟩

end Verif.Sort
