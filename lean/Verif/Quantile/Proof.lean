import Verif.Quantile.Spec
import Mathlib.Tactic.Linarith
import Mathlib.Data.List.Sort
import Mathlib.Algebra.Order.Field.Basic
set_option linter.unusedSectionVars false
namespace Verif.Quantile
open Verif.Copies (Order cell)

variable {K : Type} [Field K] [LinearOrder K]

theorem SortedOf.eq {s s' l l' : List K} (h : SortedOf s l) (h' : SortedOf s' l') (hp : l.Perm l') : s = s' :=
  List.Perm.eq_of_pairwise (fun _ _ _ _ => le_antisymm) h.1 h'.1 (h.2.trans (hp.trans h'.2.symm))

theorem exists_sorted (l : List K) : ∃ s, SortedOf s l :=
  ⟨l.mergeSort (fun a b => decide (a ≤ b)), by
    have := List.pairwise_mergeSort (le := fun a b : K => decide (a ≤ b))
      (by intro a b c; simpa using le_trans) (by intro a b; simpa using le_total a b) l
    simpa using this, List.mergeSort_perm _ _⟩

theorem SortedOf.split {s l : List K} (h : SortedOf s l) (c : Nat)
    (hc : ∀ a ∈ l.take c, ∀ b ∈ l.drop c, a ≤ b) :
    SortedOf (s.take c) (l.take c) ∧ SortedOf (s.drop c) (l.drop c) := by
  obtain ⟨a, ha⟩ := exists_sorted (l.take c)
  obtain ⟨b, hb⟩ := exists_sorted (l.drop c)
  have hs : SortedOf (a ++ b) l := by
    refine ⟨List.pairwise_append.mpr ⟨ha.1, hb.1, fun x hx y hy => hc x (ha.2.mem_iff.mp hx) y (hb.2.mem_iff.mp hy)⟩, ?_⟩
    have := ha.2.append hb.2
    rwa [List.take_append_drop] at this
  have e := h.eq hs (List.Perm.refl _)
  have hl : a.length = min c l.length := by rw [ha.2.length_eq, List.length_take]
  by_cases hcl : c ≤ l.length
  · have hal : a.length = c := by omega
    rw [e, ← hal, List.take_left', List.drop_left' rfl, hal]
    · exact ⟨ha, hb⟩
    · rfl
  · have h1 : l.take c = l := List.take_of_length_le (by omega)
    have h2 : l.drop c = [] := List.drop_of_length_le (by omega)
    have hsl := h.2.length_eq
    rw [h1, h2, List.take_of_length_le (by omega), List.drop_of_length_le (by omega)]
    exact ⟨h, List.Pairwise.nil, List.Perm.refl _⟩

theorem SortedOf.head {s l : List K} (h : SortedOf s l) {a : K} (ha : a ∈ l) (hm : ∀ b ∈ l, a ≤ b) : s[0]? = some a := by
  cases s with
  | nil => have := h.2.mem_iff.mpr ha; simp at this
  | cons x s' =>
    have h1 : a ≤ x := hm x (h.2.mem_iff.mp (by simp))
    have h2 : a ∈ x :: s' := h.2.mem_iff.mpr ha
    have h3 : x ≤ a := by
      rcases List.mem_cons.mp h2 with rfl | h2
      · exact le_refl _
      · exact (List.pairwise_cons.mp h.1).1 a h2
    simp [le_antisymm h1 h3]

theorem SortedOf.last {s l : List K} (h : SortedOf s l) {a : K} (ha : a ∈ l) (hm : ∀ b ∈ l, b ≤ a) :
    s[l.length - 1]? = some a := by
  have hl := h.2.length_eq
  have hpos : 0 < l.length := List.length_pos_of_mem ha
  rw [List.getElem?_eq_getElem (by omega)]
  congr 1
  apply le_antisymm
  · exact hm _ (h.2.mem_iff.mp (List.getElem_mem _))
  · obtain ⟨i, hi, rfl⟩ := List.mem_iff_getElem.mp (h.2.mem_iff.mpr ha)
    rcases Nat.lt_or_ge i (l.length - 1) with h1 | h1
    · exact List.pairwise_iff_getElem.mp h.1 _ _ _ _ h1
    · have : i = l.length - 1 := by omega
      subst this; exact le_refl _

omit [Field K] in
theorem foldl_max (l : List K) (a : K) :
    let m := l.foldl (fun m x => if m < x then x else m) a
    m ∈ a :: l ∧ ∀ b ∈ a :: l, b ≤ m := by
  induction l generalizing a with
  | nil => simp
  | cons x l ih =>
    simp only [List.foldl_cons]
    obtain ⟨h1, h2⟩ := ih (if a < x then x else a)
    generalize (l.foldl _ _) = m at *
    clear ih
    split at h1
    · rename_i hx
      rw [if_pos hx] at h2
      have := h2 x (by simp)
      exact ⟨by grind, by intro b hb; rcases List.mem_cons.mp hb with rfl | hb; exacts [by grind, h2 b hb]⟩
    · rename_i hx
      rw [if_neg hx] at h2
      have := h2 a (by simp)
      exact ⟨by grind, by intro b hb; simp only [List.mem_cons] at hb h2; grind⟩

omit [Field K] in
theorem foldl_min (l : List K) (a : K) :
    let m := l.foldl (fun m x => if x < m then x else m) a
    m ∈ a :: l ∧ ∀ b ∈ a :: l, m ≤ b := by
  induction l generalizing a with
  | nil => simp
  | cons x l ih =>
    simp only [List.foldl_cons]
    obtain ⟨h1, h2⟩ := ih (if x < a then x else a)
    generalize (l.foldl _ _) = m at *
    clear ih
    split at h1
    · rename_i hx
      rw [if_pos hx] at h2
      have := h2 x (by simp)
      exact ⟨by grind, by intro b hb; rcases List.mem_cons.mp hb with rfl | hb; exacts [by grind, h2 b hb]⟩
    · rename_i hx
      rw [if_neg hx] at h2
      have := h2 a (by simp)
      exact ⟨by grind, by intro b hb; simp only [List.mem_cons] at hb h2; grind⟩

theorem maxElement_spec {l : List K} (h : l ≠ []) : ∃ m, maxElement l = some m ∧ m ∈ l ∧ ∀ b ∈ l, b ≤ m := by
  cases l with
  | nil => exact absurd rfl h
  | cons a l => exact ⟨_, rfl, foldl_max l a⟩

theorem minElement_spec {l : List K} (h : l ≠ []) : ∃ m, minElement l = some m ∧ m ∈ l ∧ ∀ b ∈ l, m ≤ b := by
  cases l with
  | nil => exact absurd rfl h
  | cons a l => exact ⟨_, rfl, foldl_min l a⟩

theorem SortedOf.perm {s l l' : List K} (h : SortedOf s l) (hp : l'.Perm l) : SortedOf s l' := ⟨h.1, h.2.trans hp.symm⟩

theorem nth_value {nth : List K → Nat → List K} (hn : NthElement nth) {s l : List K} (h : SortedOf s l) {k : Nat}
    (hk : k < l.length) : (nth l k)[k]? = some (s.getD k 0) := by
  obtain ⟨hp, h1, h2⟩ := hn l k hk
  have hlen := hp.length_eq
  have e : (nth l k)[k]? = some (nth l k)[k] := List.getElem?_eq_getElem (by omega)
  have hs := ((h.perm hp).split k h1).2
  have := hs.head (a := (nth l k)[k]) (by
    rw [List.drop_eq_getElem_cons (i := k) (by omega)]; exact List.mem_cons_self) (fun b hb => h2 b hb _ e)
  rw [List.getElem?_drop] at this
  rw [e, List.getD_eq_getElem?_getD]
  simp at this
  simp [this]

theorem quickSelection_spec {nth : List K → Nat → List K} (hn : NthElement nth) {s l : List K} (h : SortedOf s l) {i1 i2 : Nat}
    (h12 : i1 ≤ i2) (h21 : i2 ≤ i1 + 1) (hl : i2 < l.length) :
    ∃ x', quickSelection nth l i1 i2 = some (some (x', s.getD i1 0, s.getD i2 0)) ∧ x'.Perm l ∧
      ∀ a ∈ x'.take i2, ∀ b ∈ x'.drop i2, a ≤ b := by
  have e1 : (if i1 > i2 then i2 else i1) = i1 := if_neg (by omega)
  have e2 : (if i1 > i2 then i1 else i2) = i2 := if_neg (by omega)
  simp only [quickSelection, e1, e2]
  rw [if_neg (by omega)]
  split
  · rename_i h0
    subst h0
    obtain ⟨hp, h1, h2⟩ := hn l i1 hl
    exact ⟨nth l i1, by rw [nth_value hn h hl], hp, h1⟩
  · have hi : i2 = i1 + 1 := by omega
    subst hi
    split
    · obtain ⟨hp, h1, h2⟩ := hn l (i1 + 1) hl
      have hlen := hp.length_eq
      refine ⟨nth l (i1 + 1), ?_, hp, h1⟩
      obtain ⟨m, hm, hm1, hm2⟩ := maxElement_spec (l := (nth l (i1 + 1)).take (i1 + 1))
        (by intro hc; have := congrArg List.length hc; rw [List.length_take, List.length_nil] at this; omega)
      rw [nth_value hn h hl, hm]
      have hs := (((h.perm hp).split (i1 + 1) h1).1).last hm1 hm2
      have hlt : ((nth l (i1 + 1)).take (i1 + 1)).length - 1 = i1 := by rw [List.length_take]; omega
      rw [hlt, List.getElem?_take, if_pos (by omega)] at hs
      simp [hs]
    · have hl1 : i1 < l.length := by omega
      obtain ⟨hp, h1, h2⟩ := hn l i1 hl1
      have hlen := hp.length_eq
      have e : (nth l i1)[i1]? = some (nth l i1)[i1] := List.getElem?_eq_getElem (by omega)
      have h3 : ∀ a ∈ (nth l i1).take (i1 + 1), ∀ b ∈ (nth l i1).drop (i1 + 1), a ≤ b := by
        intro a ha b hb
        have hb' : b ∈ (nth l i1).drop i1 := by
          rw [List.drop_eq_getElem_cons (by omega)]; exact List.mem_cons_of_mem _ hb
        rw [List.take_add_one, e] at ha
        rcases List.mem_append.mp ha with ha | ha
        · exact h1 a ha b hb'
        · simp at ha; subst ha; exact h2 b hb' _ e
      refine ⟨nth l i1, ?_, hp, h3⟩
      obtain ⟨m, hm, hm1, hm2⟩ := minElement_spec (l := (nth l i1).drop (i1 + 1))
        (by intro hc; have := congrArg List.length hc; simp at this; omega)
      rw [nth_value hn h hl1, hm]
      have hs := (((h.perm hp).split (i1 + 1) h3).2).head hm1 hm2
      rw [List.getElem?_drop] at hs
      simp at hs
      simp [hs]

/-! ### Ranks -/

variable [FloorRing K]

theorem clamp_lt (v : Int) {n : Nat} (hn : 0 < n) : clamp v n < n := by unfold clamp; split <;> [skip; split] <;> omega
theorem clamp_mono {v w : Int} (h : v ≤ w) (n : Nat) : clamp v n ≤ clamp w n := by
  unfold clamp; (repeat' split) <;> omega
theorem clamp_succ (v : Int) (n : Nat) : clamp (v + 1) n ≤ clamp v n + 1 := by
  unfold clamp; (repeat' split) <;> omega

variable [IsStrictOrderedRing K]

theorem ceil_eq_floor_or (x : K) : ((⌊x⌋ : K) = x ∧ ⌈x⌉ = ⌊x⌋) ∨ ((⌊x⌋ : K) < x ∧ ⌈x⌉ = ⌊x⌋ + 1) := by
  rcases eq_or_lt_of_le (Int.floor_le x) with h | h
  · left; refine ⟨h, ?_⟩
    rw [← h, Int.ceil_intCast, Int.floor_intCast]
  · right; refine ⟨h, ?_⟩
    rw [Int.ceil_eq_iff]
    push_cast
    refine ⟨by linarith, (Int.lt_floor_add_one x).le⟩

theorem floor_half (x : K) : ⌊x + 1 / 2⌋ = ⌊x - 1 / 2⌋ + 1 := by
  rw [← Int.floor_add_one]; congr 1; ring

theorem nearbyint_mono {x y : K} (h : x ≤ y) : nearbyint x ≤ nearbyint y := by
  have hf := Int.floor_mono h
  rcases eq_or_lt_of_le hf with hf | hf
  · unfold nearbyint
    rw [← hf]
    have h1 : x - ⌊x⌋ ≤ y - (⌊x⌋ : K) := by linarith
    (repeat' split) <;> first | omega | (exfalso; linarith)
  · have h1 : nearbyint x ≤ ⌊x⌋ + 1 := by unfold nearbyint; (repeat' split) <;> omega
    have h2 : ⌊y⌋ ≤ nearbyint y := by unfold nearbyint; (repeat' split) <;> omega
    omega

theorem pair_mono {x y : K} (h : x ≤ y) : (⌊y⌋ = ⌊x⌋ ∧ ⌈y⌉ = ⌈x⌉) ∨ ⌈x⌉ ≤ ⌊y⌋ := by
  rcases eq_or_lt_of_le (Int.floor_mono h) with hf | hf
  · rcases ceil_eq_floor_or x with ⟨h1, h2⟩ | ⟨h1, h2⟩
    · right; omega
    · left
      refine ⟨hf.symm, ?_⟩
      rcases ceil_eq_floor_or y with ⟨h3, h4⟩ | ⟨h3, h4⟩
      · rw [hf] at h1; exfalso; linarith
      · omega
  · right
    rcases ceil_eq_floor_or x with ⟨h1, h2⟩ | ⟨h1, h2⟩ <;> omega

theorem pair_mono2 {x y : K} (h : x ≤ y) : (⌈y⌉ = ⌈x⌉ ∧ ⌊y⌋ = ⌊x⌋) ∨ ⌊x⌋ + 1 ≤ ⌈y⌉ := by
  rcases eq_or_lt_of_le h with h | h
  · subst h; simp
  · right
    have h1 : (⌊x⌋ : K) < ⌈y⌉ := lt_of_le_of_lt (Int.floor_le x) (lt_of_lt_of_le h (Int.le_ceil y))
    have : ⌊x⌋ < ⌈y⌉ := by exact_mod_cast h1
    omega

theorem ranks_bounds (t : QType) (h : K) {n : Nat} (hn : 0 < n) :
    (ranks t h n).1 ≤ (ranks t h n).2 ∧ (ranks t h n).2 ≤ (ranks t h n).1 + 1 ∧ (ranks t h n).2 < n := by
  have hd : clamp ⌊h⌋ n ≤ clamp ⌈h⌉ n ∧ clamp ⌈h⌉ n ≤ clamp ⌊h⌋ n + 1 ∧ clamp ⌈h⌉ n < n := by
    refine ⟨clamp_mono (Int.floor_le_ceil h) n, ?_, clamp_lt _ hn⟩
    have := clamp_succ ⌊h⌋ n
    rcases ceil_eq_floor_or h with ⟨_, h2⟩ | ⟨_, h2⟩ <;> rw [h2] <;> omega
  cases t <;> simp only [ranks] <;> first | exact hd | skip
  · have := clamp_lt ⌈h⌉ hn; omega
  · rw [floor_half]
    have hc := ceil_eq_floor_or (h - 1 / 2)
    have h1 := clamp_lt (⌊h - 1 / 2⌋ + 1) hn
    rcases hc with ⟨_, h2⟩ | ⟨_, h2⟩ <;> rw [h2]
    · exact ⟨clamp_mono (by omega) n, clamp_succ _ _, h1⟩
    · omega
  · have := clamp_lt (nearbyint h) hn; omega

theorem ranks_mono (t : QType) {h h' : K} (hh : h ≤ h') (n : Nat) :
    ranks t h' n = ranks t h n ∨ (ranks t h n).2 ≤ (ranks t h' n).1 := by
  have hd : (clamp ⌊h'⌋ n, clamp ⌈h'⌉ n) = (clamp ⌊h⌋ n, clamp ⌈h⌉ n) ∨ clamp ⌈h⌉ n ≤ clamp ⌊h'⌋ n := by
    rcases pair_mono hh with ⟨h1, h2⟩ | h1
    · left; rw [h1, h2]
    · right; exact clamp_mono h1 n
  cases t <;> simp only [ranks] <;> first | exact hd | skip
  · right; exact clamp_mono (Int.ceil_mono hh) n
  · simp only [floor_half]
    rcases pair_mono2 (x := h - 1 / 2) (y := h' - 1 / 2) (by linarith) with ⟨h1, h2⟩ | h1
    · left; rw [h1, h2]
    · right; exact clamp_mono h1 n
  · right; exact clamp_mono (nearbyint_mono hh) n

/-! ### The loop over the probabilities -/

/-- Invariant of the loop. -/
def Inv (s : List K) (first : Bool) (st : Loop K) : Prop :=
  SortedOf s st.work ∧ st.lastCeil < s.length ∧
  (∀ a ∈ st.work.take st.lastCeil, ∀ b ∈ st.work.drop st.lastCeil, a ≤ b) ∧
  (first = true ∧ st.lastCeil = 0 ∨ first = false ∧ st.tmp1 = s.getD st.lastFloor 0 ∧ st.tmp2 = s.getD st.lastCeil 0)

/-- Value computed for location `h`. -/
def value (t : QType) (s : List K) (h : K) : Option K :=
  combine t h (ranks t h s.length).1 (ranks t h s.length).2 (s.getD (ranks t h s.length).1 0) (s.getD (ranks t h s.length).2 0)

theorem loopStep_spec {nth : List K → Nat → List K} (hn : NthElement nth) (t : QType) {s : List K} {first : Bool}
    {st : Loop K} (hi : Inv s first st) (h : K)
    (hseq : first = true ∨ ranks t h s.length = (st.lastFloor, st.lastCeil) ∨ st.lastCeil ≤ (ranks t h s.length).1) :
    ∃ st', loopStep nth t s.length first st h = some (some (st', value t s h)) ∧ Inv s false st' ∧
      st'.lastFloor = (ranks t h s.length).1 ∧ st'.lastCeil = (ranks t h s.length).2 := by
  obtain ⟨hs, hlt, hsp, hst⟩ := hi
  obtain ⟨b1, b2, b3⟩ := ranks_bounds t h (n := s.length) (by omega)
  unfold value
  simp only [loopStep]
  generalize hr1 : (ranks t h s.length).1 = r1 at *
  generalize hr2 : (ranks t h s.length).2 = r2 at *
  have hwl := hs.2.length_eq
  split
  · rename_i hc
    have hle : st.lastCeil ≤ r1 := by
      rcases hst with ⟨rfl, h0⟩ | ⟨rfl, _⟩
      · omega
      · rcases hseq with h0 | h0 | h0
        · simp at h0
        · rw [h0] at hr1 hr2; simp at hr1 hr2; simp [hr1, hr2] at hc
        · exact h0
    rw [if_neg (by omega)]
    obtain ⟨x', hq, hp, hx⟩ := quickSelection_spec hn (hs.split st.lastCeil hsp).2
      (i1 := r1 - st.lastCeil) (i2 := r2 - st.lastCeil) (by omega) (by omega) (by rw [List.length_drop]; omega)
    rw [hq]
    have g1 : (s.drop st.lastCeil).getD (r1 - st.lastCeil) 0 = s.getD r1 0 := by
      simp only [List.getD_eq_getElem?_getD, List.getElem?_drop]; congr 3; omega
    have g2 : (s.drop st.lastCeil).getD (r2 - st.lastCeil) 0 = s.getD r2 0 := by
      simp only [List.getD_eq_getElem?_getD, List.getElem?_drop]; congr 3; omega
    refine ⟨_, by rw [g1, g2], ⟨?_, ?_, ?_, ?_⟩, rfl, rfl⟩
    · refine hs.perm ?_
      have := (List.Perm.refl (st.work.take st.lastCeil)).append hp
      rwa [List.take_append_drop] at this
    · exact b3
    · have htl : (st.work.take st.lastCeil).length = st.lastCeil := by rw [List.length_take]; omega
      intro a ha b hb
      simp only [List.take_append, List.drop_append, htl] at ha hb
      rw [List.drop_of_length_le (by omega), List.nil_append] at hb
      rcases List.mem_append.mp ha with ha | ha
      · exact hsp a (List.mem_of_mem_take ha) b (hp.mem_iff.mp (List.mem_of_mem_drop hb))
      · exact hx a ha b hb
    · right; exact ⟨rfl, rfl, rfl⟩
  · rename_i hc
    have hf : first = false := by
      cases first
      · rfl
      · simp at hc
    have h1 : r1 = st.lastFloor := by by_contra hne; exact hc (Or.inr (Or.inl hne))
    have h2 : r2 = st.lastCeil := by by_contra hne; exact hc (Or.inr (Or.inr hne))
    rcases hst with ⟨h0, _⟩ | ⟨_, h3, h4⟩
    · rw [hf] at h0; simp at h0
    · refine ⟨{ st with lastFloor := r1, lastCeil := r2 }, by rw [h3, h4, h1, h2], ⟨hs, ?_, ?_, ?_⟩, rfl, rfl⟩
      · exact b3
      · show ∀ a ∈ st.work.take r2, ∀ b ∈ st.work.drop r2, a ≤ b
        rw [h2]; exact hsp
      · right; exact ⟨rfl, by show st.tmp1 = s.getD r1 0; rw [h3, h1], by show st.tmp2 = s.getD r2 0; rw [h4, h2]⟩

theorem loop_spec {nth : List K → Nat → List K} (hn : NthElement nth) (t : QType) {s : List K} (h : List K)
    (order : List Nat) : ∀ {first : Bool} {st : Loop K}, Inv s first st → (∀ o ∈ order, o < h.length) →
    (order.Pairwise fun a b => h.getD a 0 ≤ h.getD b 0) →
    (first = true ∨ ∃ h0 : K, (∀ o ∈ order, h0 ≤ h.getD o 0) ∧ (st.lastFloor, st.lastCeil) = ranks t h0 s.length) →
    loop nth t s.length h first st order = some (some (order.map fun o => (o, value t s (h.getD o 0)))) := by
  induction order with
  | nil => intros; rfl
  | cons o rest ih =>
    intro first st hi hlt hpw hprev
    have ho : h[o]? = some (h.getD o 0) := by
      rw [List.getD_eq_getElem?_getD, List.getElem?_eq_getElem (hlt o (by simp))]; rfl
    rw [List.pairwise_cons] at hpw
    obtain ⟨st', e1, e2, e3, e4⟩ := loopStep_spec hn t hi (h.getD o 0) (by
      rcases hprev with h0 | ⟨h0, h1, h2⟩
      · exact Or.inl h0
      · rcases ranks_mono t (h1 o (by simp)) s.length with h3 | h3
        · right; left; rw [h3, h2]
        · right; right; rw [← h2] at h3; exact h3)
    rw [loop, ho]
    simp only [e1]
    rw [ih e2 (fun o' h' => hlt o' (by simp [h'])) hpw.2 (Or.inr ⟨h.getD o 0, hpw.1, by rw [e3, e4]⟩)]
    rfl

end Verif.Quantile
