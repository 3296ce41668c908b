import Verif.Smo.Model
import Verif.Smo.Spec

/-
Facts about the working set selection.
-/
namespace Verif.Smo

theorem scanUp_spec (order : Nat → Nat) (ok : Nat → Bool) (size : Nat) :
    ∀ fuel pos, size ≤ pos + fuel →
      pos ≤ scanUp order ok size fuel pos ∧
      (∀ q, pos ≤ q → q < scanUp order ok size fuel pos → q < size → ok (order q) = false) ∧
      (scanUp order ok size fuel pos < size → ok (order (scanUp order ok size fuel pos)) = true) := by
  intro fuel
  induction fuel with
  | zero => intro pos h; simp only [scanUp]; refine ⟨by omega, ?_, ?_⟩ <;> intros <;> omega
  | succ f ih =>
    intro pos h
    simp only [scanUp]
    by_cases h1 : pos < size
    · rw [if_pos h1]
      by_cases h2 : ok (order pos) = true
      · rw [if_pos h2]
        exact ⟨le_refl _, by intros; omega, fun _ => h2⟩
      · rw [if_neg h2]
        obtain ⟨a, b, c⟩ := ih (pos + 1) (by omega)
        refine ⟨by omega, ?_, c⟩
        intro q hq1 hq2 hq3
        by_cases hq : q = pos
        · subst hq; simpa using h2
        · exact b q (by omega) hq2 hq3
    · rw [if_neg h1]
      refine ⟨le_refl _, by intros; omega, by intros; omega⟩

theorem scanDown_spec (order : Nat → Nat) (ok : Nat → Bool) : ∀ r,
    scanDown order ok r ≤ r ∧
    (∀ q, scanDown order ok r ≤ q → q < r → ok (order q) = false) ∧
    (0 < scanDown order ok r → ok (order (scanDown order ok r - 1)) = true) := by
  intro r
  induction r with
  | zero => simp [scanDown]
  | succ r ih =>
    simp only [scanDown]
    by_cases h : ok (order r) = true
    · rw [if_pos h]
      exact ⟨le_refl _, by intros; omega, fun _ => by simpa using h⟩
    · rw [if_neg h]
      obtain ⟨a, b, c⟩ := ih
      refine ⟨by omega, ?_, c⟩
      intro q h1 h2
      by_cases hq : q = r
      · subst hq; simpa using h
      · exact b q h1 (by omega)

/-- The recorded indices are distinct samples and the indicator marks exactly them. -/
structure SelInv (size : Nat) (s : Sel) : Prop where
  inj : ∀ i j, i < s.cnt → j < s.cnt → s.ws i = s.ws j → i = j
  lt : ∀ i, i < s.cnt → s.ws i < size
  ind : ∀ x, s.ind x = true ↔ ∃ i, i < s.cnt ∧ s.ws i = x

/-- `s'` extends `s`. -/
structure Ext (s s' : Sel) : Prop where
  le : s.cnt ≤ s'.cnt
  keep : ∀ i, i < s.cnt → s'.ws i = s.ws i
  mono : ∀ x, s.ind x = true → s'.ind x = true

theorem Ext.refl (s : Sel) : Ext s s := ⟨le_refl _, fun _ _ => rfl, fun _ h => h⟩

theorem Ext.trans {a b c : Sel} (h : Ext a b) (h' : Ext b c) : Ext a c :=
  ⟨le_trans h.le h'.le, fun i hi => (h'.keep i (lt_of_lt_of_le hi h.le)).trans (h.keep i hi),
    fun x hx => h'.mono x (h.mono x hx)⟩

theorem add_inv {size : Nat} {s : Sel} {x : Nat} (h : SelInv size s) (hx : x < size)
    (hi : s.ind x = false) : SelInv size (s.add x) := by
  have hno : ∀ i, i < s.cnt → s.ws i ≠ x := by
    intro i hi' he
    have := (h.ind x).2 ⟨i, hi', he⟩
    simp [hi] at this
  refine ⟨?_, ?_, ?_⟩
  · intro i j hi' hj' he
    simp only [Sel.add] at hi' hj' he
    by_cases h1 : i = s.cnt <;> by_cases h2 : j = s.cnt
    · omega
    · rw [if_pos h1, if_neg h2] at he
      exact absurd he.symm (hno j (by omega))
    · rw [if_neg h1, if_pos h2] at he
      exact absurd he (hno i (by omega))
    · rw [if_neg h1, if_neg h2] at he
      exact h.inj i j (by omega) (by omega) he
  · intro i hi'
    simp only [Sel.add] at hi' ⊢
    split
    · exact hx
    · exact h.lt i (by omega)
  · intro z
    simp only [Sel.add]
    by_cases hz : z = x
    · subst hz
      simp only [if_true, true_iff]
      exact ⟨s.cnt, by omega, by simp⟩
    · rw [if_neg hz, h.ind z]
      constructor
      · rintro ⟨i, h1, h2⟩
        exact ⟨i, by omega, by rw [if_neg (by omega)]; exact h2⟩
      · rintro ⟨i, h1, h2⟩
        by_cases hc : i = s.cnt
        · rw [if_pos hc] at h2; exact absurd h2.symm hz
        · rw [if_neg hc] at h2; exact ⟨i, by omega, h2⟩

theorem add_ext (s : Sel) (x : Nat) : Ext s (s.add x) := by
  refine ⟨by simp [Sel.add], ?_, ?_⟩
  · intro i hi
    simp only [Sel.add]
    rw [if_neg (by omega)]
  · intro z hz
    simp only [Sel.add]
    split
    · rfl
    · exact hz

theorem takeLeft_spec {order : Nat → Nat} {size : Nat} (ho : IsPerm order size)
    (flag : Nat → Bool) {s : Sel} (h : SelInv size s) (l : Nat) {s' : Sel} {l' : Nat}
    (e : takeLeft order flag size s l = (s', l')) :
    SelInv size s' ∧ Ext s s' ∧ l ≤ l' ∧ s'.cnt ≤ s.cnt + 1 ∧
      (s'.cnt = s.cnt → size ≤ l') ∧
      (∀ q, l ≤ q → q < l' → q < size → flag (order q) = true → s'.ind (order q) = true) ∧
      (l' < size → s'.ind (order l') = true ∧ flag (order l') = true) := by
  unfold takeLeft at e
  simp only [Prod.mk.injEq] at e
  obtain ⟨e1, e2⟩ := e
  obtain ⟨a, b, c⟩ := scanUp_spec order (fun x => !s.ind x && flag x) size size l (by omega)
  rw [e2] at e1 a b c
  by_cases hl : l' < size
  · rw [if_pos hl] at e1
    have hc := c hl
    simp only [Bool.and_eq_true, Bool.not_eq_true'] at hc
    subst e1
    refine ⟨add_inv h (ho.lt _ hl) hc.1, add_ext _ _, a, by simp [Sel.add], by simp [Sel.add], ?_,
      fun _ => ⟨by simp [Sel.add], hc.2⟩⟩
    intro q h1 h2 h3 h4
    have := b q h1 h2 h3
    simp only [h4, Bool.and_true, Bool.not_eq_false'] at this
    exact (add_ext s _).mono _ this
  · rw [if_neg hl] at e1
    subst e1
    refine ⟨h, Ext.refl _, a, by omega, fun _ => by omega, ?_, fun h => absurd h hl⟩
    intro q h1 h2 h3 h4
    have := b q h1 h2 h3
    simpa only [h4, Bool.and_true, Bool.not_eq_false'] using this

theorem takeRight_spec {order : Nat → Nat} {size : Nat} (ho : IsPerm order size)
    (flag : Nat → Bool) {s : Sel} (h : SelInv size s) (r : Nat) (hr : r ≤ size) {s' : Sel} {r' : Nat}
    (e : takeRight order flag s r = (s', r')) :
    SelInv size s' ∧ Ext s s' ∧ r' ≤ r ∧ s'.cnt ≤ s.cnt + 1 ∧
      (s'.cnt = s.cnt → r' = 0) ∧
      (∀ q, r' ≤ q → q < r → flag (order q) = true → s'.ind (order q) = true) ∧
      (0 < r' → s'.ind (order (r' - 1)) = true ∧ flag (order (r' - 1)) = true) := by
  unfold takeRight at e
  simp only [Prod.mk.injEq] at e
  obtain ⟨e1, e2⟩ := e
  obtain ⟨a, b, c⟩ := scanDown_spec order (fun x => !s.ind x && flag x) r
  rw [e2] at e1 a b c
  by_cases hl : 0 < r'
  · rw [if_pos hl] at e1
    have hc := c hl
    simp only [Bool.and_eq_true, Bool.not_eq_true'] at hc
    subst e1
    refine ⟨add_inv h (ho.lt _ (by omega)) hc.1, add_ext _ _, a, by simp [Sel.add],
      by simp [Sel.add], ?_, fun _ => ⟨by simp [Sel.add], hc.2⟩⟩
    intro q h1 h2 h4
    have := b q h1 h2
    simp only [h4, Bool.and_true, Bool.not_eq_false'] at this
    exact (add_ext s _).mono _ this
  · rw [if_neg hl] at e1
    subst e1
    refine ⟨h, Ext.refl _, a, by omega, fun _ => by omega, ?_, fun h => absurd h hl⟩
    intro q h1 h2 h4
    have := b q h1 h2
    simpa only [h4, Bool.and_true, Bool.not_eq_false'] using this

/-- Everything left of `l` that has the flag is marked. -/
def LeftDone (order : Nat → Nat) (flag : Nat → Bool) (size : Nat) (s : Sel) (l : Nat) : Prop :=
  ∀ q, q < l → q < size → flag (order q) = true → s.ind (order q) = true

/-- Everything from `r` on that has the flag is marked. -/
def RightDone (order : Nat → Nat) (flag : Nat → Bool) (size : Nat) (s : Sel) (r : Nat) : Prop :=
  ∀ q, r ≤ q → q < size → flag (order q) = true → s.ind (order q) = true

theorem LeftDone.ext {order : Nat → Nat} {flag : Nat → Bool} {size : Nat} {s s' : Sel} {l : Nat}
    (h : LeftDone order flag size s l) (e : Ext s s') : LeftDone order flag size s' l :=
  fun q a b c => e.mono _ (h q a b c)

theorem RightDone.ext {order : Nat → Nat} {flag : Nat → Bool} {size : Nat} {s s' : Sel} {l : Nat}
    (h : RightDone order flag size s l) (e : Ext s s') : RightDone order flag size s' l :=
  fun q a b c => e.mono _ (h q a b c)

theorem leftDone_take {order : Nat → Nat} {size : Nat} (ho : IsPerm order size)
    {flag : Nat → Bool} {s : Sel} (h : SelInv size s) {l : Nat}
    (hd : LeftDone order flag size s l) {s' : Sel} {l' : Nat}
    (e : takeLeft order flag size s l = (s', l')) : LeftDone order flag size s' l' := by
  obtain ⟨-, b, c, -, -, f, -⟩ := takeLeft_spec ho flag h l e
  intro q h1 h2 h3
  by_cases hq : q < l
  · exact b.mono _ (hd q hq h2 h3)
  · exact f q (by omega) h1 h2 h3

theorem rightDone_take {order : Nat → Nat} {size : Nat} (ho : IsPerm order size)
    {flag : Nat → Bool} {s : Sel} (h : SelInv size s) {r : Nat} (hr : r ≤ size)
    (hd : RightDone order flag size s r) {s' : Sel} {r' : Nat}
    (e : takeRight order flag s r = (s', r')) : RightDone order flag size s' r' := by
  obtain ⟨-, b, c, -, -, f, -⟩ := takeRight_spec ho flag h r hr e
  intro q h1 h2 h3
  by_cases hq : q < r
  · exact f q h1 hq h3
  · exact b.mono _ (hd q (by omega) h2 h3)

/-- The selection loop of the C variants. -/
theorem cSelect_spec {order : Nat → Nat} {size : Nat} (ho : IsPerm order size)
    (up low : Nat → Bool) (ws : Nat) : ∀ (fuel : Nat) (s : Sel) (l r : Nat), SelInv size s →
    s.cnt ≤ ws → r ≤ size → ws < s.cnt + fuel → LeftDone order up size s l →
    RightDone order low size s r → ∀ s' l' r',
    cSelect up low order size ws fuel s l r = (s', l', r') →
    SelInv size s' ∧ Ext s s' ∧ s'.cnt ≤ ws ∧
    (s'.cnt = ws ∨ (size ≤ l' ∧ r' = 0)) ∧
    LeftDone order up size s' l' ∧ RightDone order low size s' r' := by
  intro fuel
  induction fuel with
  | zero => intro s l r _ h1 _ h2; omega
  | succ f ih =>
    intro s l r hs hc hr hf hL hR s' l' r' e
    unfold cSelect at e
    by_cases hcond : s.cnt < ws ∧ (0 < r ∨ l < size)
    · rw [if_pos hcond] at e
      rcases h1 : takeLeft order up size s l with ⟨s1, l1⟩
      obtain ⟨a1, a2, a3, a4, a5, -, -⟩ := takeLeft_spec ho up hs l h1
      have hL1 := leftDone_take ho hs hL h1
      simp only [h1] at e
      by_cases hw : ws ≤ s1.cnt
      · rw [if_pos hw] at e
        simp only [Prod.mk.injEq] at e
        obtain ⟨rfl, rfl, rfl⟩ := e
        exact ⟨a1, a2, by omega, Or.inl (by omega), hL1, hR.ext a2⟩
      · rw [if_neg hw] at e
        rcases h2 : takeRight order low s1 r with ⟨s2, r2⟩
        obtain ⟨b1, b2, b3, b4, b5, -, -⟩ := takeRight_spec ho low a1 r hr h2
        have hR2 := rightDone_take ho a1 hr (hR.ext a2) h2
        simp only [h2] at e
        have hle := a2.le
        have hle2 := b2.le
        by_cases hsame : s2.cnt = s.cnt
        · -- nothing selected: the next test of the loop fails
          have hl1 : size ≤ l1 := a5 (by omega)
          have hr2 : r2 = 0 := b5 (by omega)
          have e' : (s2, l1, r2) = (s', l', r') := by
            cases f with
            | zero => simpa [cSelect] using e
            | succ f =>
              unfold cSelect at e
              rw [if_neg (by rw [hr2]; omega)] at e
              exact e
          simp only [Prod.mk.injEq] at e'
          obtain ⟨rfl, rfl, rfl⟩ := e'
          exact ⟨b1, a2.trans b2, by omega, Or.inr ⟨hl1, hr2⟩, hL1.ext b2, hR2⟩
        · obtain ⟨c1, c2, c3⟩ := ih s2 l1 r2 b1 (by omega) (by omega) (by omega) (hL1.ext b2) hR2
            s' l' r' e
          exact ⟨c1, (a2.trans b2).trans c2, c3⟩
    · rw [if_neg hcond] at e
      simp only [Prod.mk.injEq] at e
      obtain ⟨rfl, rfl, rfl⟩ := e
      refine ⟨hs, Ext.refl _, hc, ?_, hL, hR⟩
      by_cases h1 : s.cnt < ws
      · right; constructor <;> (by_contra hh; exact hcond ⟨h1, by omega⟩)
      · left; omega

/-- Counting: if every sample is marked, at least `size` are recorded. -/
theorem cnt_ge {size : Nat} {s : Sel} (h : SelInv size s) (P : Nat → Prop) [DecidablePred P]
    (hall : ∀ x, x < size → P x → s.ind x = true) :
    ((Finset.range size).filter P).card ≤ s.cnt := by
  have : (Finset.range size).filter P ⊆ (Finset.range s.cnt).image s.ws := by
    intro x hx
    simp only [Finset.mem_filter, Finset.mem_range] at hx
    obtain ⟨i, hi, he⟩ := (h.ind x).1 (hall x hx.1 hx.2)
    simp only [Finset.mem_image, Finset.mem_range]
    exact ⟨i, hi, he⟩
  calc _ ≤ ((Finset.range s.cnt).image s.ws).card := Finset.card_le_card this
    _ ≤ (Finset.range s.cnt).card := Finset.card_image_le
    _ = s.cnt := Finset.card_range _

theorem cOuter_spec {order : Nat → Nat} {size : Nat} (ho : IsPerm order size)
    (up low : Nat → Bool) (hul : ∀ x, x < size → up x = true ∨ low x = true) (ws : Nat)
    (hws : ws ≤ size) (s : Sel) (hs : SelInv size s) (hc : s.cnt ≤ ws) :
    SelInv size (cOuter up low order size ws s) ∧ Ext s (cOuter up low order size ws s) ∧
      (cOuter up low order size ws s).cnt = ws := by
  unfold cOuter
  rcases h : cSelect up low order size ws (ws + 1) s 0 size with ⟨s', l', r'⟩
  obtain ⟨a, b, c, d, e, f⟩ := cSelect_spec ho up low ws (ws + 1) s 0 size hs hc (le_refl _)
    (by omega) (by intro q hq; omega) (by intro q h1 h2; omega) s' l' r' h
  refine ⟨a, b, ?_⟩
  rcases d with d | ⟨d1, d2⟩
  · exact d
  · have := cnt_ge a (fun _ => True) (by
      intro x hx _
      obtain ⟨q, hq, rfl⟩ := ho.surj x hx
      rcases hul _ hx with hh | hh
      · exact e q (by omega) hq hh
      · exact f q (by omega) hq hh)
    simp at this
    show s'.cnt = ws
    omega

theorem takeLeft_best {F : Type} [Preorder F] {g : Nat → F} {order : Nat → Nat} {size : Nat}
    (ho : IsPerm order size) (hg : Sorted g order size) (flag : Nat → Bool) {s : Sel}
    (h : SelInv size s) {s' : Sel} {l' : Nat} (e : takeLeft order flag size s 0 = (s', l'))
    (x : Nat) (hx : x < size) (hf : flag x = true) :
    ∃ z, s'.ind z = true ∧ flag z = true ∧ g z ≤ g x := by
  obtain ⟨-, -, -, -, -, f, m⟩ := takeLeft_spec ho flag h 0 e
  obtain ⟨q, hq, rfl⟩ := ho.surj x hx
  by_cases hl : q < l'
  · exact ⟨_, f q (by omega) hl hq hf, hf, le_refl _⟩
  · exact ⟨_, (m (by omega)).1, (m (by omega)).2, hg l' q (by omega) hq⟩

theorem takeRight_best {F : Type} [Preorder F] {g : Nat → F} {order : Nat → Nat} {size : Nat}
    (ho : IsPerm order size) (hg : Sorted g order size) (flag : Nat → Bool) {s : Sel}
    (h : SelInv size s) {s' : Sel} {r' : Nat} (e : takeRight order flag s size = (s', r'))
    (x : Nat) (hx : x < size) (hf : flag x = true) :
    ∃ z, s'.ind z = true ∧ flag z = true ∧ g x ≤ g z := by
  obtain ⟨-, -, c, -, -, f, m⟩ := takeRight_spec ho flag h size (le_refl _) e
  obtain ⟨q, hq, rfl⟩ := ho.surj x hx
  by_cases hl : r' ≤ q
  · exact ⟨_, f q hl hq hf, hf, le_refl _⟩
  · exact ⟨_, (m (by omega)).1, (m (by omega)).2, hg q (r' - 1) (by omega) (by omega)⟩

/-- With room for two more elements the worst violators of both kinds end up in the
working set. -/
theorem cOuter_best {F : Type} [Preorder F] {g : Nat → F} {order : Nat → Nat} {size : Nat}
    (ho : IsPerm order size) (hg : Sorted g order size) (up low : Nat → Bool) (ws : Nat) (s : Sel)
    (hs : SelInv size s) (hc : s.cnt + 2 ≤ ws) (hsz : 0 < size) :
    (∀ x, x < size → up x = true → ∃ z, (cOuter up low order size ws s).ind z = true ∧
      up z = true ∧ g z ≤ g x) ∧
    (∀ x, x < size → low x = true → ∃ z, (cOuter up low order size ws s).ind z = true ∧
      low z = true ∧ g x ≤ g z) := by
  unfold cOuter
  rw [cSelect.eq_2, if_pos ⟨by omega, Or.inl hsz⟩]
  rcases h1 : takeLeft order up size s 0 with ⟨s1, l1⟩
  obtain ⟨a1, a2, a3, a4, a5, -, -⟩ := takeLeft_spec ho up hs 0 h1
  have hL1 := leftDone_take ho hs (l := 0) (flag := up) (by intro q hq; omega) h1
  simp only
  rw [if_neg (by omega)]
  rcases h2 : takeRight order low s1 size with ⟨s2, r2⟩
  obtain ⟨b1, b2, b3, b4, b5, -, -⟩ := takeRight_spec ho low a1 size (le_refl _) h2
  have hR2 := rightDone_take ho a1 (le_refl _) (flag := low) (by intro q h1 h2; omega) h2
  have ha := a2.le
  have hb := b2.le
  have hfin : Ext s2 (cSelect up low order size ws ws s2 l1 r2).1 := by
    by_cases hsame : s2.cnt = s.cnt
    · have hl1 : size ≤ l1 := a5 (by omega)
      have hr2 : r2 = 0 := b5 (by omega)
      cases ws with
      | zero => exact Ext.refl _
      | succ w =>
        rw [cSelect.eq_2, if_neg (by rw [hr2]; omega)]
        exact Ext.refl _
    · exact (cSelect_spec ho up low ws ws s2 l1 r2 b1 (by omega) (by omega) (by omega) (hL1.ext b2)
        hR2 _ _ _ rfl).2.1
  simp only
  constructor
  · intro x hx hf
    obtain ⟨z, z1, z2, z3⟩ := takeLeft_best ho hg up hs h1 x hx hf
    exact ⟨z, hfin.mono _ (b2.mono _ z1), z2, z3⟩
  · intro x hx hf
    obtain ⟨z, z1, z2, z3⟩ := takeRight_best ho hg low a1 h2 x hx hf
    exact ⟨z, hfin.mono _ z1, z2, z3⟩

/-! ### The nu variants -/

/-- Progress of the four scans. -/
structure NuDone (order : Nat → Nat) (upP upN lowP lowN : Nat → Bool) (size : Nat) (s : Sel)
    (p : NuPos) : Prop where
  lp : LeftDone order upP size s p.lp
  ln : LeftDone order upN size s p.ln
  rp : RightDone order lowP size s p.rp
  rn : RightDone order lowN size s p.rn
  hrp : p.rp ≤ size
  hrn : p.rn ≤ size

theorem nuSelect_spec {order : Nat → Nat} {size : Nat} (ho : IsPerm order size)
    (upP upN lowP lowN : Nat → Bool) (ws : Nat) : ∀ (fuel : Nat) (s : Sel) (p : NuPos),
    SelInv size s → s.cnt ≤ ws → ws < s.cnt + fuel → NuDone order upP upN lowP lowN size s p →
    ∀ s' p', nuSelect upP upN lowP lowN order size ws fuel s p = (s', p') →
    SelInv size s' ∧ Ext s s' ∧ s'.cnt ≤ ws ∧
    (s'.cnt = ws ∨ (size ≤ p'.lp ∧ p'.rp = 0) ∨ (size ≤ p'.ln ∧ p'.rn = 0)) ∧
    NuDone order upP upN lowP lowN size s' p' := by
  intro fuel
  induction fuel with
  | zero => intro s p _ h1 h2; omega
  | succ f ih =>
    intro s p hs hc hf hD s' p' e
    rw [nuSelect.eq_2] at e
    by_cases hcond : s.cnt < ws ∧ (0 < p.rp ∨ p.lp < size) ∧ (0 < p.rn ∨ p.ln < size)
    · rw [if_pos hcond] at e
      rcases h1 : takeLeft order upP size s p.lp with ⟨s1, lp⟩
      obtain ⟨a1, a2, a3, a4, a5, -, -⟩ := takeLeft_spec ho upP hs p.lp h1
      have d1 := leftDone_take ho hs hD.lp h1
      simp only [h1] at e
      by_cases hw : ws ≤ s1.cnt
      · rw [if_pos hw] at e
        simp only [Prod.mk.injEq] at e
        obtain ⟨rfl, rfl⟩ := e
        exact ⟨a1, a2, by omega, Or.inl (by omega),
          ⟨d1, hD.ln.ext a2, hD.rp.ext a2, hD.rn.ext a2, hD.hrp, hD.hrn⟩⟩
      rw [if_neg hw] at e
      rcases h2 : takeLeft order upN size s1 p.ln with ⟨s2, ln⟩
      obtain ⟨b1, b2, b3, b4, b5, -, -⟩ := takeLeft_spec ho upN a1 p.ln h2
      have d2 := leftDone_take ho a1 (hD.ln.ext a2) h2
      have a2' := a2.trans b2
      simp only [h2] at e
      by_cases hw : ws ≤ s2.cnt
      · rw [if_pos hw] at e
        simp only [Prod.mk.injEq] at e
        obtain ⟨rfl, rfl⟩ := e
        exact ⟨b1, a2', by omega, Or.inl (by omega),
          ⟨d1.ext b2, d2, hD.rp.ext a2', hD.rn.ext a2', hD.hrp, hD.hrn⟩⟩
      rw [if_neg hw] at e
      rcases h3 : takeRight order lowP s2 p.rp with ⟨s3, rp⟩
      obtain ⟨c1, c2, c3, c4, c5, -, -⟩ := takeRight_spec ho lowP b1 p.rp hD.hrp h3
      have d3 := rightDone_take ho b1 hD.hrp (hD.rp.ext a2') h3
      have a3' := a2'.trans c2
      simp only [h3] at e
      by_cases hw : ws ≤ s3.cnt
      · rw [if_pos hw] at e
        simp only [Prod.mk.injEq] at e
        obtain ⟨rfl, rfl⟩ := e
        exact ⟨c1, a3', by omega, Or.inl (by omega),
          ⟨(d1.ext b2).ext c2, d2.ext c2, d3, hD.rn.ext a3', le_trans c3 hD.hrp, hD.hrn⟩⟩
      rw [if_neg hw] at e
      rcases h4 : takeRight order lowN s3 p.rn with ⟨s4, rn⟩
      obtain ⟨e1, e2, e3, e4, e5, -, -⟩ := takeRight_spec ho lowN c1 p.rn hD.hrn h4
      have d4 := rightDone_take ho c1 hD.hrn (hD.rn.ext a3') h4
      have a4' := a3'.trans e2
      simp only [h4] at e
      have hD' : NuDone order upP upN lowP lowN size s4 ⟨lp, ln, rp, rn⟩ :=
        ⟨((d1.ext b2).ext c2).ext e2, (d2.ext c2).ext e2, d3.ext e2, d4,
          le_trans c3 hD.hrp, le_trans e3 hD.hrn⟩
      have l1 := a2.le
      have l2 := b2.le
      have l3 := c2.le
      have l4 := e2.le
      by_cases hsame : s4.cnt = s.cnt
      · have hl1 : size ≤ lp := a5 (by omega)
        have hr2 : rp = 0 := c5 (by omega)
        have e' : (s4, (⟨lp, ln, rp, rn⟩ : NuPos)) = (s', p') := by
          cases f with
          | zero => simpa [nuSelect] using e
          | succ f =>
            rw [nuSelect.eq_2, if_neg (by simp only [hr2]; omega)] at e
            exact e
        simp only [Prod.mk.injEq] at e'
        obtain ⟨rfl, rfl⟩ := e'
        exact ⟨e1, a4', by omega, Or.inr (Or.inl ⟨hl1, hr2⟩), hD'⟩
      · obtain ⟨f1, f2, f3⟩ := ih s4 _ e1 (by omega) (by omega) hD' s' p' e
        exact ⟨f1, a4'.trans f2, f3⟩
    · rw [if_neg hcond] at e
      simp only [Prod.mk.injEq] at e
      obtain ⟨rfl, rfl⟩ := e
      refine ⟨hs, Ext.refl _, hc, ?_, hD⟩
      by_cases h1 : s.cnt < ws
      · right
        by_cases h2 : 0 < p.rp ∨ p.lp < size
        · right
          constructor <;> (by_contra hh; exact hcond ⟨h1, h2, by omega⟩)
        · left
          constructor <;> omega
      · left; omega

/-- The nu selection: distinct samples; fewer than `ws` only if one of the classes is
used up. -/
theorem nuOuter_spec {order : Nat → Nat} {size : Nat} (ho : IsPerm order size)
    (upP upN lowP lowN pos neg : Nat → Bool)
    (hp : ∀ x, x < size → pos x = true → upP x = true ∨ lowP x = true)
    (hn : ∀ x, x < size → neg x = true → upN x = true ∨ lowN x = true) (ws : Nat)
    (s : Sel) (hs : SelInv size s) (hc : s.cnt ≤ ws) :
    SelInv size (nuOuter upP upN lowP lowN order size ws s) ∧
    Ext s (nuOuter upP upN lowP lowN order size ws s) ∧
    (nuOuter upP upN lowP lowN order size ws s).cnt ≤ ws ∧
    ((nuOuter upP upN lowP lowN order size ws s).cnt = ws ∨
      (∀ x, x < size → pos x = true → (nuOuter upP upN lowP lowN order size ws s).ind x = true) ∨
      (∀ x, x < size → neg x = true → (nuOuter upP upN lowP lowN order size ws s).ind x = true)) := by
  unfold nuOuter
  rcases h : nuSelect upP upN lowP lowN order size ws (ws + 1) s ⟨0, 0, size, size⟩ with ⟨s', p'⟩
  obtain ⟨a, b, c, d, e⟩ := nuSelect_spec ho upP upN lowP lowN ws (ws + 1) s ⟨0, 0, size, size⟩ hs hc
    (by omega) ⟨by intro q hq; simp at hq, by intro q hq; simp at hq,
      by intro q h1 h2; simp at h1; omega, by intro q h1 h2; simp at h1; omega,
      le_refl _, le_refl _⟩ s' p' h
  refine ⟨a, b, c, ?_⟩
  rcases d with d | ⟨d1, d2⟩ | ⟨d1, d2⟩
  · exact Or.inl d
  · refine Or.inr (Or.inl ?_)
    intro x hx hpx
    obtain ⟨q, hq, rfl⟩ := ho.surj x hx
    rcases hp _ hx hpx with hh | hh
    · exact e.lp q (by omega) hq hh
    · exact e.rp q (by omega) hq hh
  · refine Or.inr (Or.inr ?_)
    intro x hx hpx
    obtain ⟨q, hq, rfl⟩ := ho.surj x hx
    rcases hn _ hx hpx with hh | hh
    · exact e.ln q (by omega) hq hh
    · exact e.rn q (by omega) hq hh

/-- With room for four more elements the worst violators of all four kinds end up in
the working set. -/
theorem nuOuter_best {F : Type} [Preorder F] {g : Nat → F} {order : Nat → Nat} {size : Nat}
    (ho : IsPerm order size) (hg : Sorted g order size) (upP upN lowP lowN : Nat → Bool) (ws : Nat)
    (s : Sel) (hs : SelInv size s) (hc : s.cnt + 4 ≤ ws) (hsz : 0 < size) :
    let R := nuOuter upP upN lowP lowN order size ws s
    (∀ x, x < size → upP x = true → ∃ z, R.ind z = true ∧ upP z = true ∧ g z ≤ g x) ∧
    (∀ x, x < size → upN x = true → ∃ z, R.ind z = true ∧ upN z = true ∧ g z ≤ g x) ∧
    (∀ x, x < size → lowP x = true → ∃ z, R.ind z = true ∧ lowP z = true ∧ g x ≤ g z) ∧
    (∀ x, x < size → lowN x = true → ∃ z, R.ind z = true ∧ lowN z = true ∧ g x ≤ g z) := by
  intro R
  have hR : R = (nuSelect upP upN lowP lowN order size ws (ws + 1) s ⟨0, 0, size, size⟩).1 := rfl
  rw [nuSelect.eq_2, if_pos ⟨by omega, Or.inl hsz, Or.inl hsz⟩] at hR
  rcases h1 : takeLeft order upP size s 0 with ⟨s1, lp⟩
  obtain ⟨a1, a2, -, a4, a5, -, -⟩ := takeLeft_spec ho upP hs 0 h1
  have d1 := leftDone_take ho hs (l := 0) (flag := upP) (by intro q hq; omega) h1
  simp only [h1] at hR
  rw [if_neg (by omega)] at hR
  rcases h2 : takeLeft order upN size s1 0 with ⟨s2, ln⟩
  obtain ⟨b1, b2, -, b4, b5, -, -⟩ := takeLeft_spec ho upN a1 0 h2
  have d2 := leftDone_take ho a1 (l := 0) (flag := upN) (by intro q hq; omega) h2
  simp only [h2] at hR
  rw [if_neg (by omega)] at hR
  rcases h3 : takeRight order lowP s2 size with ⟨s3, rp⟩
  obtain ⟨c1, c2, c3, c4, c5, -, -⟩ := takeRight_spec ho lowP b1 size (le_refl _) h3
  have d3 := rightDone_take ho b1 (le_refl _) (flag := lowP) (by intro q h1 h2; omega) h3
  simp only [h3] at hR
  rw [if_neg (by omega)] at hR
  rcases h4 : takeRight order lowN s3 size with ⟨s4, rn⟩
  obtain ⟨e1, e2, e3, e4, e5, -, -⟩ := takeRight_spec ho lowN c1 size (le_refl _) h4
  have d4 := rightDone_take ho c1 (le_refl _) (flag := lowN) (by intro q h1 h2; omega) h4
  simp only [h4] at hR
  have hD' : NuDone order upP upN lowP lowN size s4 ⟨lp, ln, rp, rn⟩ :=
    ⟨((d1.ext b2).ext c2).ext e2, (d2.ext c2).ext e2, d3.ext e2, d4, c3, e3⟩
  have l1 := a2.le
  have l2 := b2.le
  have l3 := c2.le
  have l4 := e2.le
  have hfin : Ext s4 R := by
    rw [hR]
    by_cases hsame : s4.cnt = s.cnt
    · have hl1 : size ≤ lp := a5 (by omega)
      have hr2 : rp = 0 := c5 (by omega)
      cases ws with
      | zero => exact Ext.refl _
      | succ w =>
        rw [nuSelect.eq_2, if_neg (by simp only [hr2]; omega)]
        exact Ext.refl _
    · exact (nuSelect_spec ho upP upN lowP lowN ws ws s4 _ e1 (by omega) (by omega) hD'
        _ _ rfl).2.1
  refine ⟨?_, ?_, ?_, ?_⟩
  · intro x hx hf
    obtain ⟨z, z1, z2, z3⟩ := takeLeft_best ho hg upP hs h1 x hx hf
    exact ⟨z, hfin.mono _ (e2.mono _ (c2.mono _ (b2.mono _ z1))), z2, z3⟩
  · intro x hx hf
    obtain ⟨z, z1, z2, z3⟩ := takeLeft_best ho hg upN a1 h2 x hx hf
    exact ⟨z, hfin.mono _ (e2.mono _ (c2.mono _ z1)), z2, z3⟩
  · intro x hx hf
    obtain ⟨z, z1, z2, z3⟩ := takeRight_best ho hg lowP b1 h3 x hx hf
    exact ⟨z, hfin.mono _ (e2.mono _ z1), z2, z3⟩
  · intro x hx hf
    obtain ⟨z, z1, z2, z3⟩ := takeRight_best ho hg lowN c1 h4 x hx hf
    exact ⟨z, hfin.mono _ z1, z2, z3⟩

end Verif.Smo
