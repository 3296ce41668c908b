import Verif.Kmeans.Handling
import Verif.Kmeans.PropsEmpty
import Verif.Kmeans.PropsMacqueen

/-
Runs with the handling of empty clusters.
-/
namespace Verif.Kmeans

open Verif.HalfBlas (put forUp)

variable {K : Type} [Field K] [LinearOrder K] [IsStrictOrderedRing K]

/-! ### The loop -/

section
variable {S : Type} (iter : Nat → S → S) (step : S → S × Bool) (conv : Nat → S → Nat) (s : S)

/-- The states of a run in which the handling never fails. -/
def hStates : Nat → S
  | 0 => s
  | t + 1 => (step (iter t (hStates t))).1

/-- Whether iteration `t` split clusters. -/
def hFlag (t : Nat) : Bool := (step (iter t (hStates iter step s t))).2

theorem loopH_end (handle : S → Option (S × Bool)) (hh : ∀ s, handle s = some (step s)) : ∀ fuel it,
    ∃ r, loopH iter handle conv fuel it (hStates iter step s it) = some r ∧
    ((r = (hStates iter step s (it + fuel), 0, it + fuel) ∧ ∀ t, it ≤ t → t < it + fuel → hFlag iter step s t = true ∨ conv t (hStates iter step s (t + 1)) = 0) ∨
    ∃ t, it ≤ t ∧ t < it + fuel ∧ hFlag iter step s t = false ∧ r = (hStates iter step s (t + 1), conv t (hStates iter step s (t + 1)), t) ∧
      conv t (hStates iter step s (t + 1)) > 0 ∧ ∀ u, it ≤ u → u < t → hFlag iter step s u = true ∨ conv u (hStates iter step s (u + 1)) = 0) := by
  intro fuel
  induction fuel with
  | zero => intro it; exact ⟨_, rfl, Or.inl ⟨rfl, fun t h1 h2 => by omega⟩⟩
  | succ fuel ih =>
    intro it
    unfold loopH
    rw [hh]
    have hst : (step (iter it (hStates iter step s it))).1 = hStates iter step s (it + 1) := rfl
    have hfl : (step (iter it (hStates iter step s it))).2 = hFlag iter step s it := rfl
    have hpair : step (iter it (hStates iter step s it)) = (hStates iter step s (it + 1), hFlag iter step s it) := Prod.ext hst hfl
    rw [hpair]
    have hgo : (hFlag iter step s it = true ∨ conv it (hStates iter step s (it + 1)) = 0) → ∃ r, loopH iter handle conv fuel (it + 1) (hStates iter step s (it + 1)) = some r ∧
        ((r = (hStates iter step s (it + (fuel + 1)), 0, it + (fuel + 1)) ∧ ∀ t, it ≤ t → t < it + (fuel + 1) → hFlag iter step s t = true ∨ conv t (hStates iter step s (t + 1)) = 0) ∨
        ∃ t, it ≤ t ∧ t < it + (fuel + 1) ∧ hFlag iter step s t = false ∧ r = (hStates iter step s (t + 1), conv t (hStates iter step s (t + 1)), t) ∧
          conv t (hStates iter step s (t + 1)) > 0 ∧ ∀ u, it ≤ u → u < t → hFlag iter step s u = true ∨ conv u (hStates iter step s (u + 1)) = 0) := by
      intro hcond
      obtain ⟨r, hr, h⟩ := ih (it + 1)
      refine ⟨r, hr, ?_⟩
      rcases h with ⟨h1, h2⟩ | ⟨t, h1, h2, h3, h4, h5, h6⟩
      · left
        refine ⟨by rw [h1, show it + 1 + fuel = it + (fuel + 1) by omega], fun t ht1 ht2 => ?_⟩
        rcases Nat.lt_or_ge it t with h | h
        · exact h2 t (by omega) (by omega)
        · rw [show t = it by omega]; exact hcond
      · right
        refine ⟨t, by omega, by omega, h3, h4, h5, fun u hu1 hu2 => ?_⟩
        rcases Nat.lt_or_ge it u with h | h
        · exact h6 u (by omega) hu2
        · rw [show u = it by omega]; exact hcond
    cases hf : hFlag iter step s it with
    | true => exact hgo (Or.inl hf)
    | false =>
      simp only
      by_cases hcv : conv it (hStates iter step s (it + 1)) > 0
      · rw [if_pos hcv]
        exact ⟨_, rfl, Or.inr ⟨it, le_refl _, by omega, hf, rfl, hcv, fun u h1 h2 => by omega⟩⟩
      · rw [if_neg hcv]
        exact hgo (Or.inr (by omega))

/-- The error of the handling: the loop without handling, or nothing. -/
theorem loopH_error (handle : S → Option (S × Bool)) (bad : S → Prop) (hbad : ∀ s, bad s → handle s = none) (hgood : ∀ s, ¬ bad s → handle s = some (s, false))
    (plain : Nat → Nat → S → S × Nat × Nat) (hp0 : ∀ it s, plain 0 it s = (s, 0, it))
    (hp1 : ∀ fuel it s, plain (fuel + 1) it s = if conv it (iter it s) > 0 then (iter it s, conv it (iter it s), it) else plain fuel (it + 1) (iter it s))
    (st : Nat → S) (hst : ∀ t, st (t + 1) = iter t (st t)) : ∀ fuel it,
    (loopH iter handle conv fuel it (st it) = none ∧ ∃ t, it ≤ t ∧ t < it + fuel ∧ bad (st (t + 1)) ∧ ∀ u, it ≤ u → u < t → ¬ bad (st (u + 1)) ∧ conv u (st (u + 1)) = 0) ∨
    (loopH iter handle conv fuel it (st it) = some (plain fuel it (st it)) ∧
      ∀ t, it ≤ t → t < it + fuel → (∀ u, it ≤ u → u < t → conv u (st (u + 1)) = 0) → ¬ bad (st (t + 1))) := by
  intro fuel
  induction fuel with
  | zero => intro it; exact Or.inr ⟨by rw [hp0]; rfl, fun t h1 h2 => by omega⟩
  | succ fuel ih =>
    intro it
    unfold loopH
    rw [hp1, ← hst]
    by_cases hb : bad (st (it + 1))
    · rw [hbad _ hb]
      exact Or.inl ⟨rfl, it, le_refl _, by omega, hb, fun u h1 h2 => by omega⟩
    · rw [hgood _ hb]
      simp only
      by_cases hcv : conv it (st (it + 1)) > 0
      · rw [if_pos hcv, if_pos hcv]
        refine Or.inr ⟨rfl, fun t h1 h2 h3 => ?_⟩
        rcases Nat.lt_or_ge it t with h | h
        · have := h3 it (le_refl _) h; omega
        · rw [show t = it by omega]; exact hb
      · rw [if_neg hcv, if_neg hcv]
        rcases ih (it + 1) with ⟨h1, t, h2, h3, h4, h5⟩ | ⟨h1, h2⟩
        · refine Or.inl ⟨h1, t, by omega, by omega, h4, fun u hu1 hu2 => ?_⟩
          rcases Nat.lt_or_ge it u with h | h
          · exact h5 u (by omega) hu2
          · rw [show u = it by omega]; exact ⟨hb, by omega⟩
        · refine Or.inr ⟨h1, fun t ht1 ht2 ht3 => ?_⟩
          rcases Nat.lt_or_ge it t with h | h
          · exact h2 t (by omega) (by omega) fun u hu1 hu2 => ht3 u (by omega) hu2
          · rw [show t = it by omega]; exact hb

end

/-! ### One call of the handling -/

/-- No sample has the label `a`, for some cluster `a`. -/
def HasEmpty (c : LCfg K) (lab : Nat → Nat) : Prop := ∃ a < c.k, lmembers c lab a = ∅

omit [Field K] [LinearOrder K] [IsStrictOrderedRing K] in
theorem hasEmpty_not (c : LCfg K) (lab : Nat → Nat) : ¬ HasEmpty c lab ↔ ∀ a < c.k, (lmembers c lab a).Nonempty := by
  unfold HasEmpty
  push Not
  exact forall₂_congr fun a _ => Iff.rfl

/-- What splitting gives back. -/
def splitWith {S : Type} (c : LCfg K) (byRows : Bool) (cur : Nat → K) (lab : Nat → Nat) (count : Nat → Int) (s : S) (back : ESt K → Bool → S) : S × Bool :=
  (handleWith c byRows .split cur lab count s back).getD (s, false)

omit [IsStrictOrderedRing K] in
theorem handle_some {S : Type} (c : LCfg K) (byRows : Bool) (cur : Nat → K) (lab : Nat → Nat) (count : Nat → Int) (s : S) (back : ESt K → Bool → S) :
    ∃ e split, handleEmpty c byRows false ⟨cur, lab, fun _ => 0, fun _ => 0, count, false⟩ = .ok e split ∧
      splitWith c byRows cur lab count s back = (back e split, split) ∧ handleWith c byRows .split cur lab count s back = some (splitWith c byRows cur lab count s back) := by
  unfold splitWith handleWith
  simp only
  have hd : decide (Handling.split = Handling.error) = false := by decide
  rw [hd]
  have hne : handleEmpty c byRows false ⟨cur, lab, fun _ => 0, fun _ => 0, count, false⟩ ≠ .emptyClusters := fun h => by
    have := ((C91_error c byRows false _).1.mp h).1
    cases this
  cases h : handleEmpty c byRows false ⟨cur, lab, fun _ => 0, fun _ => 0, count, false⟩ with
  | emptyClusters => exact absurd h hne
  | ok e split => exact ⟨e, split, rfl, rfl, rfl⟩

omit [IsStrictOrderedRing K] in
theorem handle_bad {S : Type} (c : LCfg K) (byRows : Bool) (cur : Nat → K) (lab : Nat → Nat) (count : Nat → Int) (s : S) (back : ESt K → Bool → S) (h : HasEmpty c lab) :
    handleWith c byRows .error cur lab count s back = none := by
  unfold handleWith
  simp only
  rw [show decide True = true by decide, (C91_error c byRows true ⟨cur, lab, fun _ => 0, fun _ => 0, count, false⟩).1.mpr ⟨rfl, h⟩]

omit [IsStrictOrderedRing K] in
/-- Nothing is empty: nothing happens. -/
theorem handle_good {S : Type} (c : LCfg K) (byRows : Bool) (hd : Handling) (cur : Nat → K) (lab : Nat → Nat) (count : Nat → Int) (s : S) (back : ESt K → Bool → S)
    (hb : ∀ wi, back ⟨cur, lab, wi, fun _ => 0, count, false⟩ false = s) (h : ¬ HasEmpty c lab) : handleWith c byRows hd cur lab count s back = some (s, false) := by
  rw [hasEmpty_not] at h
  unfold handleWith
  cases hd with
  | ignore => rfl
  | error =>
    simp only
    obtain ⟨wi, _, e⟩ := (C91_error c byRows true ⟨cur, lab, fun _ => 0, fun _ => 0, count, false⟩).2.1 h
    rw [show decide True = true by decide, e]
    simp only
    rw [hb]
  | split =>
    simp only
    obtain ⟨wi, _, e⟩ := (C91_error c byRows false ⟨cur, lab, fun _ => 0, fun _ => 0, count, false⟩).2.1 h
    rw [show decide (Handling.split = Handling.error) = false by decide, e]
    simp only
    rw [hb]

/-! ### Strictly less inertia -/

/-- The number of different samples. -/
def kinds (c : LCfg K) : Nat := ((Finset.range c.n).image fun i => fun f : Fin c.nf => sample c i f).card

omit [Field K] [IsStrictOrderedRing K] in
theorem kinds_le (c : LCfg K) : kinds c ≤ c.n := le_trans Finset.card_image_le (by simp)

omit [IsStrictOrderedRing K] in
/-- A function of the label that gives the sample, with an unused label, leaves fewer different samples than clusters. -/
theorem kinds_lt (c : LCfg K) (lab : Nat → Nat) (hl : ∀ i < c.n, lab i < c.k) (he : HasEmpty c lab)
    (h : ∀ i < c.n, ∀ j < c.n, lab i = lab j → ∀ f < c.nf, sample c i f = sample c j f) : kinds c < c.k := by
  obtain ⟨a, ha, hz⟩ := he
  have h1 : kinds c ≤ ((Finset.range c.n).image lab).card := by
    unfold kinds
    have hex : ∀ b : Nat, ∃ v : Fin c.nf → K, ∀ i < c.n, lab i = b → (fun f : Fin c.nf => sample c i f) = v := fun b => by
      by_cases hb : ∃ i < c.n, lab i = b
      · obtain ⟨i, hi, hib⟩ := hb
        exact ⟨fun f => sample c i f, fun j hj hjb => funext fun f => h j hj i hi (by rw [hjb, hib]) f f.isLt⟩
      · exact ⟨fun _ => 0, fun i hi hib => absurd ⟨i, hi, hib⟩ hb⟩
    choose v hv using hex
    have : ((Finset.range c.n).image fun i => fun f : Fin c.nf => sample c i f) ⊆ ((Finset.range c.n).image lab).image v := by
      intro x hx
      obtain ⟨i, hi, rfl⟩ := Finset.mem_image.mp hx
      exact Finset.mem_image.mpr ⟨lab i, Finset.mem_image_of_mem _ hi, (hv (lab i) i (Finset.mem_range.mp hi) rfl).symm⟩
    exact le_trans (Finset.card_le_card this) Finset.card_image_le
  have h2 : (Finset.range c.n).image lab ⊂ Finset.range c.k := by
    refine (Finset.ssubset_iff_of_subset fun x hx => ?_).mpr ⟨a, Finset.mem_range.mpr ha, fun hx => ?_⟩
    · obtain ⟨i, hi, rfl⟩ := Finset.mem_image.mp hx
      exact Finset.mem_range.mpr (hl i (Finset.mem_range.mp hi))
    · obtain ⟨i, hi, e⟩ := Finset.mem_image.mp hx
      have : i ∈ lmembers c lab a := Finset.mem_filter.mpr ⟨hi, e⟩
      rw [hz] at this
      simp at this
  have h3 := Finset.card_lt_card h2
  rw [Finset.card_range] at h3
  omega

/-- Moving a sample to an empty cluster lowers the sum by its distance. -/
theorem within_less (c : LCfg K) (hsp : c.spherical = false) (lab : Nat → Nat) (hl : ∀ i < c.n, lab i < c.k) (a p : Nat) (ha : a < c.k) (hp : p < c.n) (hz : num c.n lab a = 0) :
    within c (put lab p a) + ∑ f ∈ Finset.range c.nf, (sample c p f - centreOf c lab (lab p) f) ^ 2 ≤ within c lab := by
  have h1 := within_le c hsp (put lab p a) (fun i hi => by
    by_cases he : i = p
    · rw [he, put_same]; exact ha
    · rw [put_ne _ _ he]; exact hl i hi) fun b f => if b = a then sample c p f else centreOf c lab b f
  have h2 : ∑ i ∈ Finset.range c.n, ∑ f ∈ Finset.range c.nf, (sample c i f - (if put lab p a i = a then sample c p f else centreOf c lab (put lab p a i) f)) ^ 2 +
      ∑ f ∈ Finset.range c.nf, (sample c p f - centreOf c lab (lab p) f) ^ 2 = within c lab := by
    unfold within
    rw [Finset.sum_eq_add_sum_sdiff_singleton_of_mem (Finset.mem_range.mpr hp),
      Finset.sum_eq_add_sum_sdiff_singleton_of_mem (Finset.mem_range.mpr hp) (fun i => ∑ f ∈ Finset.range c.nf, (sample c i f - centreOf c lab (lab i) f) ^ 2)]
    have hp0 : ∑ f ∈ Finset.range c.nf, (sample c p f - (if put lab p a p = a then sample c p f else centreOf c lab (put lab p a p) f)) ^ 2 = 0 :=
      Finset.sum_eq_zero fun f _ => by rw [put_same, if_pos rfl, sub_self]; ring
    have hrest : ∑ i ∈ Finset.range c.n \ {p}, ∑ f ∈ Finset.range c.nf, (sample c i f - (if put lab p a i = a then sample c p f else centreOf c lab (put lab p a i) f)) ^ 2 =
        ∑ i ∈ Finset.range c.n \ {p}, ∑ f ∈ Finset.range c.nf, (sample c i f - centreOf c lab (lab i) f) ^ 2 :=
      Finset.sum_congr rfl fun i hi => Finset.sum_congr rfl fun f _ => by
        have hin := Finset.mem_sdiff.mp hi
        have hne : i ≠ p := fun e => hin.2 (by simp [e])
        have hla : lab i ≠ a := fun e => by
          have := num_pos c.n lab i (Finset.mem_range.mp hin.1)
          rw [e] at this
          omega
        rw [put_ne _ _ hne, if_neg hla]
    rw [hp0, hrest]
    ring
  linarith

/-- With as many different samples as clusters every relocation lowers the sum. -/
theorem relocated_less (c : LCfg K) (hsp : c.spherical = false) (hk : c.k ≤ kinds c) (lab : Nat → Nat) (hl : ∀ i < c.n, lab i < c.k) {lab' : Nat → Nat} (h : Relocated c lab lab') :
    lab' = lab ∨ within c lab' < within c lab := by
  induction h with
  | refl => exact Or.inl rfl
  | step l a p hr ha hz hlow hp hw hfar ih =>
    right
    have hle := relocated_within c hsp lab hl hr
    have hless := within_less c hsp l hle.1 a p ha hp hz
    have hpos : 0 < ∑ f ∈ Finset.range c.nf, (sample c p f - centreOf c l (l p) f) ^ 2 := by
      by_contra hn
      push Not at hn
      have hall : ∀ i < c.n, 1 < num c.n l (l i) → ∀ f < c.nf, sample c i f = centreOf c l (l i) f := fun i hi hwi f hf => by
        have h0 : ∑ f ∈ Finset.range c.nf, (sample c i f - centreOf c l (l i) f) ^ 2 = 0 :=
          le_antisymm (le_trans (hfar i hi hwi) hn) (Finset.sum_nonneg fun f _ => sq_nonneg _)
        have := (Finset.sum_eq_zero_iff_of_nonneg fun f _ => sq_nonneg _).mp h0 f (Finset.mem_range.mpr hf)
        exact sub_eq_zero.mp (pow_eq_zero_iff two_ne_zero |>.mp this)
      have hlt := kinds_lt c l hle.1 ⟨a, ha, by rw [← Finset.card_eq_zero, ← num_card]; exact hz⟩ fun i hi j hj e f hf => by
        by_cases hij : i = j
        · rw [hij]
        · have h2 : 1 < num c.n l (l i) := by
            rw [num_card]
            exact Finset.one_lt_card.mpr ⟨i, Finset.mem_filter.mpr ⟨Finset.mem_range.mpr hi, rfl⟩, j, Finset.mem_filter.mpr ⟨Finset.mem_range.mpr hj, e.symm⟩, hij⟩
          rw [hall i hi h2 f hf, hall j hj (by rw [← e]; exact h2) f hf, e]
      omega
    rcases ih with e | hlt
    · rw [e] at hless hpos; rw [e]; linarith
    · linarith

/-- What a call that splits does to right labels and means. -/
structure SplitSpec (c : LCfg K) (lab : Nat → Nat) (lab' : Nat → Nat) (cur' : Nat → K) (wi' : Nat → Int) (split : Bool) : Prop where
  lt : ∀ i < c.n, lab' i < c.k
  cur : ∀ a < c.k, ∀ f < c.nf, cur' (a + f * c.k) = centreOf c lab' a f
  full : ∀ a < c.k, (lmembers c lab' a).Nonempty
  count : split = true → ∀ a < c.k, wi' a = (num c.n lab' a : Int)
  flag : split = true ↔ HasEmpty c lab
  keep : split = false → lab' = lab
  less : within c lab' ≤ within c lab
  strict : c.k ≤ kinds c → split = true → within c lab' < within c lab

theorem split_spec (c : LCfg K) (hsp : c.spherical = false) (hk : c.k ≤ c.n) (s : ESt K) (hl : ∀ i < c.n, s.lab i < c.k)
    (hm : ∀ a < c.k, ∀ f < c.nf, s.cur (a + f * c.k) = centreOf c s.lab a f) (r : ESt K) (split : Bool)
    (hr : handleEmpty c false false s = .ok r split) : SplitSpec c s.lab r.lab r.cur r.count split ∧ (split = false → r.cur = s.cur ∧ r.count = s.count) := by
  have hpos : ∀ a f, ecPos c false a f = a + f * c.k := fun a f => by simp [ecPos]
  have hflag := (C91_error c false false s).2.2 r split hr
  by_cases he : HasEmpty c s.lab
  · have hne : ¬ ∀ a < c.k, num c.n s.lab a ≠ 0 := fun h => by
      obtain ⟨a, ha, hz⟩ := he
      exact h a ha (by rw [num_card, hz]; rfl)
    rw [handle_split c false s hne] at hr
    have hinv := end_inv c hsp false s hl fun a ha _ f hf => by rw [hpos]; exact hm a ha f hf
    have hfill := all_filled c false s.lab _ _ hinv hk
    cases hr
    have hcount : ∀ a < c.k, forUp c.k (fun a m => put m a ((ecEnd c false s).wi a)) (ecEnd c false s).count a = (ecEnd c false s).wi a := fun a ha =>
      (forUp_put (fun a => a) (fun a _ => (ecEnd c false s).wi a) (ecEnd c false s).count c.k (fun _ _ _ _ h => h)).1 a ha
    refine ⟨⟨hinv.inv.lab, fun a ha f hf => ?_, fun a ha => (num_ne c _ a).mp (hfill a ha), fun _ a ha => ?_, hflag, (fun h => by cases h),
      (relocated_within c hsp s.lab hl hinv.reloc).2, fun hkinds _ => ?_⟩, (fun h => by cases h)⟩
    · rw [← hpos]
      exact mean_centre c hsp false _ hinv.inv a ha (hfill a ha) f hf
    · simp only
      rw [hcount a ha, hinv.inv.wi a ha]
    · rcases relocated_less c hsp hkinds s.lab hl hinv.reloc with e | h
      · exfalso
        apply hne
        intro a ha
        have := hfill a ha
        rw [e] at this
        exact this
      · exact h
  · have hall := (hasEmpty_not c s.lab).mp he
    obtain ⟨wi, _, e⟩ := (C91_error c false false s).2.1 hall
    rw [e] at hr
    cases hr
    exact ⟨⟨hl, hm, hall, (fun h => by cases h), hflag, fun _ => rfl, le_refl _, (fun _ h => by cases h)⟩, fun _ => ⟨rfl, rfl⟩⟩

end Verif.Kmeans
