import Verif.Smo.Decision
import Verif.Smo.InitProof
import Mathlib.Tactic.Positivity
import Mathlib.Tactic.FieldSimp

/-
Lemmas about bias and decision function.
-/
namespace Verif.Smo
open Verif.Blocking

variable {F : Type} [Field F] [LinearOrder F]

/-! ### Blocked sums -/

omit [LinearOrder F] in
/-- The blocks of a blocking scheme cover the range once. -/
theorem blocked_sum (n bs count rem : Nat) (h : blockingScheme n bs = some (count, rem))
    (f : Nat → F) :
    ∑ k ∈ Finset.range count, ∑ i ∈ Finset.range (curBlock count bs rem k), f (k * bs + i) =
      ∑ x ∈ Finset.range n, f x := by
  unfold blockingScheme at h
  split at h
  · cases h
  next hbs =>
  have hfull : ∀ c, c ≤ n / bs →
      ∑ k ∈ Finset.range c, ∑ i ∈ Finset.range bs, f (k * bs + i) =
        ∑ x ∈ Finset.range (c * bs), f x := by
    intro c
    induction c with
    | zero => simp
    | succ c ih =>
      intro hc
      rw [Finset.sum_range_succ, ih (by omega), Nat.succ_mul, Finset.sum_range_add]
  have hdm := Nat.div_add_mod' n bs
  simp only [Option.some.injEq, Prod.mk.injEq] at h
  obtain ⟨h1, h2⟩ := h
  by_cases hr : 0 < n % bs
  · rw [if_pos hr] at h1
    subst h1 h2
    rw [Finset.sum_range_succ]
    have e1 : ∀ k ∈ Finset.range (n / bs),
        ∑ i ∈ Finset.range (curBlock (n / bs + 1) bs (n % bs) k), f (k * bs + i) =
        ∑ i ∈ Finset.range bs, f (k * bs + i) := by
      intro k hk
      have := Finset.mem_range.1 hk
      rw [curBlock, if_neg (by omega)]
    rw [Finset.sum_congr rfl e1, hfull _ (le_refl _), curBlock, if_pos ⟨hr, by rw [Nat.add_sub_cancel]⟩,
      ← Finset.sum_range_add, hdm]
  · rw [if_neg hr] at h1
    subst h1 h2
    have e1 : ∀ k ∈ Finset.range (n / bs),
        ∑ i ∈ Finset.range (curBlock (n / bs) bs (n % bs) k), f (k * bs + i) =
        ∑ i ∈ Finset.range bs, f (k * bs + i) := by
      intro k hk
      rw [curBlock, if_neg (by omega)]
    rw [Finset.sum_congr rfl e1, hfull _ (le_refl _), show n / bs * bs = n by omega]

/-- Blocks stay inside the range. -/
theorem block_bounds (n bs count rem : Nat) (h : blockingScheme n bs = some (count, rem)) (k : Nat)
    (hk : k < count) : k * bs + curBlock count bs rem k ≤ n ∧ curBlock count bs rem k ≤ bs := by
  unfold blockingScheme at h
  split at h
  · cases h
  next hbs =>
  have hdm := Nat.div_add_mod' n bs
  have hlt := Nat.mod_lt n (Nat.pos_of_ne_zero hbs)
  simp only [Option.some.injEq, Prod.mk.injEq] at h
  obtain ⟨h1, h2⟩ := h
  by_cases hr : 0 < n % bs
  · rw [if_pos hr] at h1
    subst h1 h2
    unfold curBlock
    split
    · next hc =>
      have : k = n / bs := by omega
      subst this
      omega
    · next hc =>
      have : k < n / bs := by omega
      have := Nat.mul_le_mul_right bs (show k + 1 ≤ n / bs from this)
      rw [Nat.add_mul] at this
      omega
  · rw [if_neg hr] at h1
    subst h1 h2
    unfold curBlock
    rw [if_neg (by omega)]
    have := Nat.mul_le_mul_right bs (show k + 1 ≤ n / bs from hk)
    rw [Nat.add_mul] at this
    omega

omit [LinearOrder F] in
theorem sum_pairs (a b : Nat) (hb : 0 < b) (f : Nat → Nat → F) :
    ∑ k ∈ Finset.range (a * b), f (k / b) (k % b) =
      ∑ i ∈ Finset.range a, ∑ j ∈ Finset.range b, f i j := by
  induction a with
  | zero => simp
  | succ a ih =>
    rw [Nat.succ_mul, Finset.sum_range_add, ih, Finset.sum_range_succ]
    congr 1
    refine Finset.sum_congr rfl fun j hj => ?_
    have := Finset.mem_range.1 hj
    rw [Nat.mul_comm a b, Nat.mul_add_div hb, Nat.div_eq_of_lt this, Nat.mul_add_mod,
      Nat.mod_eq_of_lt this, Nat.add_zero]

omit [LinearOrder F] in
theorem addDecisions_eq (p : Blocks) (K : Nat → Nat → F) (coef : Nat → F) (events : List (Nat × Nat)) :
    ∀ (d : Nat → F) (x : Nat), addDecisions p K coef events d x =
      d x + (events.map fun e => if x = e.1 / p.icount * p.obs + e.2 then
        blockDecision p K coef e.1 e.2 else 0).sum := by
  induction events with
  | nil => intro d x; simp [addDecisions]
  | cons e es ih =>
    intro d x
    show addDecisions p K coef es _ x = _
    rw [ih, List.map_cons, List.sum_cons, ← add_assoc]
    congr 1
    by_cases h : x = e.1 / p.icount * p.obs + e.2
    · simp only [if_pos h]
    · simp only [if_neg h, add_zero]

omit [LinearOrder F] in
theorem flatMap_pair_sum (g : Nat × Nat → F) (c : Nat → Nat) (l : List Nat) :
    ((l.flatMap fun b => (List.range (c b)).map fun i => (b, i)).map g).sum =
      (l.map fun b => ∑ i ∈ Finset.range (c b), g (b, i)).sum := by
  induction l with
  | nil => simp
  | cons x xs ih =>
    rw [List.flatMap_cons, List.map_append, List.sum_append, ih, List.map_cons, List.sum_cons,
      List.map_map, ← list_sum_range]
    rfl

omit [LinearOrder F] in
theorem decision_sum (nsamples nsup : Nat) (p : Blocks)
    (ho : blockingScheme nsamples p.obs = some (p.ocount, p.orem))
    (hi : blockingScheme nsup p.ibs = some (p.icount, p.irem)) (hic : 0 < p.icount)
    (K : Nat → Nat → F) (coef : Nat → F) (events : List (Nat × Nat))
    (hperm : events.Perm (allEvents p)) (d : Nat → F) (x : Nat) (hx : x < nsamples) :
    addDecisions p K coef events d x = d x + ∑ s ∈ Finset.range nsup, coef s * K s x := by
  rw [addDecisions_eq]
  congr 1
  rw [(hperm.map _).sum_eq, allEvents, flatMap_pair_sum, list_sum_range]
  simp only [blockDecision, Blocks.curOuter, Blocks.curInner]
  rw [sum_pairs p.ocount p.icount hic (fun o j =>
    ∑ i ∈ Finset.range (curBlock p.ocount p.obs p.orem o), if x = o * p.obs + i then
      ((List.range (curBlock p.icount p.ibs p.irem j)).map fun s =>
        K (j * p.ibs + s) (o * p.obs + i) * coef (j * p.ibs + s)).sum else 0)]
  have e1 : ∀ o ∈ Finset.range p.ocount, ∑ j ∈ Finset.range p.icount,
      ∑ i ∈ Finset.range (curBlock p.ocount p.obs p.orem o), (if x = o * p.obs + i then
      ((List.range (curBlock p.icount p.ibs p.irem j)).map fun s =>
        K (j * p.ibs + s) (o * p.obs + i) * coef (j * p.ibs + s)).sum else 0) =
      ∑ i ∈ Finset.range (curBlock p.ocount p.obs p.orem o), (fun z => if x = z then
        ∑ s ∈ Finset.range nsup, coef s * K s z else 0) (o * p.obs + i) := by
    intro o _
    rw [Finset.sum_comm]
    refine Finset.sum_congr rfl fun i _ => ?_
    by_cases h : x = o * p.obs + i
    · simp only [if_pos h]
      rw [← blocked_sum nsup p.ibs p.icount p.irem hi]
      refine Finset.sum_congr rfl fun j _ => ?_
      rw [list_sum_range]
      exact Finset.sum_congr rfl fun s _ => mul_comm _ _
    · simp only [if_neg h, Finset.sum_const_zero]
  rw [Finset.sum_congr rfl e1, blocked_sum nsamples p.obs p.ocount p.orem ho
      (fun z => if x = z then ∑ s ∈ Finset.range nsup, coef s * K s z else 0),
    Finset.sum_ite_eq, if_pos (Finset.mem_range.2 hx)]

/-! ### Bias -/

variable [IsStrictOrderedRing F]

omit [IsStrictOrderedRing F] in
theorem biasScan_spec (free up low : Nat → Bool) (big : F) (grad : Nat → F) (k : Nat) :
    let r := biasScan free up low big grad k
    r.1 = ∑ x ∈ Finset.range k with free x = true, grad x ∧
    r.2.1 = ((Finset.range k).filter fun x => free x = true).card ∧
    (∀ x, x < k → up x = true → r.2.2.1 ≤ grad x) ∧
    (r.2.2.1 = big ∨ ∃ x, x < k ∧ up x = true ∧ r.2.2.1 = grad x) ∧
    (∀ x, x < k → low x = true → grad x ≤ r.2.2.2) ∧
    (r.2.2.2 = -big ∨ ∃ x, x < k ∧ low x = true ∧ r.2.2.2 = grad x) := by
  induction k with
  | zero => simp [biasScan]
  | succ k ih =>
    intro r
    have hr : r = biasScan free up low big grad (k + 1) := rfl
    clear_value r
    rw [biasScan] at hr
    rcases e : biasScan free up low big grad k with ⟨s, c, mn, mx⟩
    rw [e] at hr ih
    simp only at ih hr
    obtain ⟨i1, i2, i3, i4, i5, i6⟩ := ih
    subst hr
    refine ⟨?_, ?_, ?_, ?_, ?_, ?_⟩
    · simp only
      rw [Finset.range_add_one, Finset.filter_insert]
      by_cases h : free k = true
      · rw [if_pos h, if_pos h, Finset.sum_insert (by simp), i1, add_comm]
      · rw [if_neg h, if_neg h, i1]
    · simp only
      rw [Finset.range_add_one, Finset.filter_insert]
      by_cases h : free k = true
      · rw [if_pos h, if_pos h, Finset.card_insert_of_notMem (by simp), i2]
      · rw [if_neg h, if_neg h, i2]
    · intro x hx hu
      simp only
      by_cases hxk : x = k
      · subst hxk
        rw [if_pos hu]
        exact min_le_right _ _
      · have := i3 x (by omega) hu
        split
        · exact (min_le_left _ _).trans this
        · exact this
    · simp only
      by_cases h : up k = true
      · rw [if_pos h]
        rcases min_choice mn (grad k) with hm | hm
        · rw [hm]
          rcases i4 with i4 | ⟨x, hx, hu, he⟩
          · exact Or.inl i4
          · exact Or.inr ⟨x, by omega, hu, he⟩
        · exact Or.inr ⟨k, by omega, h, hm⟩
      · rw [if_neg h]
        rcases i4 with i4 | ⟨x, hx, hu, he⟩
        · exact Or.inl i4
        · exact Or.inr ⟨x, by omega, hu, he⟩
    · intro x hx hu
      simp only
      by_cases hxk : x = k
      · subst hxk
        rw [if_pos hu]
        exact le_max_right _ _
      · have := i5 x (by omega) hu
        split
        · exact this.trans (le_max_left _ _)
        · exact this
    · simp only
      by_cases h : low k = true
      · rw [if_pos h]
        rcases max_choice mx (grad k) with hm | hm
        · rw [hm]
          rcases i6 with i6 | ⟨x, hx, hu, he⟩
          · exact Or.inl i6
          · exact Or.inr ⟨x, by omega, hu, he⟩
        · exact Or.inr ⟨k, by omega, h, hm⟩
      · rw [if_neg h]
        rcases i6 with i6 | ⟨x, hx, hu, he⟩
        · exact Or.inl i6
        · exact Or.inr ⟨x, by omega, hu, he⟩

/-- A mean is between the bounds of its terms. -/
theorem mean_lt (s : Finset Nat) (g : Nat → F) (c : F) (hs : 0 < s.card) (h : ∀ x ∈ s, g x < c) :
    (∑ x ∈ s, g x) / (s.card : F) < c := by
  have hpos : (0 : F) < s.card := by exact_mod_cast hs
  rw [div_lt_iff₀ hpos]
  have := Finset.sum_lt_sum_of_nonempty (Finset.card_pos.1 hs) h
  rw [Finset.sum_const, nsmul_eq_mul, mul_comm] at this
  exact this

theorem lt_mean (s : Finset Nat) (g : Nat → F) (c : F) (hs : 0 < s.card) (h : ∀ x ∈ s, c < g x) :
    c < (∑ x ∈ s, g x) / (s.card : F) := by
  have hpos : (0 : F) < s.card := by exact_mod_cast hs
  rw [lt_div_iff₀ hpos]
  have := Finset.sum_lt_sum_of_nonempty (Finset.card_pos.1 hs) h
  rw [Finset.sum_const, nsmul_eq_mul, mul_comm] at this
  exact this

/-- The center is within the tolerance of the gradients. -/
theorem center_tol (free up low : Nat → Bool) (big tol : F) (grad : Nat → F) (size : Nat)
    (htol : 0 < tol) (hbig : ∀ x, x < size → -big ≤ grad x ∧ grad x ≤ big)
    (hfree : ∀ x, free x = true → up x = true ∧ low x = true)
    (hopt : ∀ x z, x < size → z < size → up x = true → low z = true → grad z - grad x < tol) :
    (∀ x, x < size → up x = true → center free up low big grad size - grad x < tol) ∧
    (∀ x, x < size → low x = true → grad x - center free up low big grad size < tol) := by
  obtain ⟨i1, i2, i3, i4, i5, i6⟩ := biasScan_spec free up low big grad size
  unfold center
  rcases e : biasScan free up low big grad size with ⟨s, c, mn, mx⟩
  rw [e] at i1 i2 i3 i4 i5 i6
  simp only at i1 i2 i3 i4 i5 i6 ⊢
  by_cases hc : c = 0
  · rw [if_pos hc]
    constructor
    · intro x hx hu
      have h1 := i3 x hx hu
      rcases i6 with h | ⟨z, hz, hl, h⟩
      · have := (hbig x hx).1
        linarith
      · have := hopt x z hx hz hu hl
        linarith
    · intro x hx hl
      have h1 := i5 x hx hl
      rcases i4 with h | ⟨z, hz, hu, h⟩
      · have := (hbig x hx).2
        linarith
      · have := hopt z x hz hx hu hl
        linarith
  · rw [if_neg hc]
    subst i1 i2
    constructor
    · intro x hx hu
      have := mean_lt ((Finset.range size).filter fun x => free x = true) grad (grad x + tol)
        (by omega) (by
          intro z hz
          have hz' := Finset.mem_filter.1 hz
          have := hopt x z hx (Finset.mem_range.1 hz'.1) hu (hfree z hz'.2).2
          linarith)
      linarith
    · intro x hx hl
      have := lt_mean ((Finset.range size).filter fun x => free x = true) grad (grad x - tol)
        (by omega) (by
          intro z hz
          have hz' := Finset.mem_filter.1 hz
          have := hopt z x (Finset.mem_range.1 hz'.1) hx (hfree z hz'.2).1 hl
          linarith)
      linarith

theorem mean_bounds (s : Finset Nat) (g : Nat → F) (hs : 0 < s.card) :
    ∃ x ∈ s, ∃ z ∈ s, g x ≤ (∑ x ∈ s, g x) / (s.card : F) ∧ (∑ x ∈ s, g x) / (s.card : F) ≤ g z := by
  obtain ⟨x, hx, h1⟩ := Finset.exists_min_image s g (Finset.card_pos.1 hs)
  obtain ⟨z, hz, h2⟩ := Finset.exists_max_image s g (Finset.card_pos.1 hs)
  have hpos : (0 : F) < s.card := by exact_mod_cast hs
  refine ⟨x, hx, z, hz, ?_, ?_⟩
  · rw [le_div_iff₀ hpos]
    have := Finset.card_nsmul_le_sum s g (g x) h1
    rw [nsmul_eq_mul, mul_comm] at this
    exact this
  · rw [div_le_iff₀ hpos]
    have := Finset.sum_le_card_nsmul s g (g z) h2
    rw [nsmul_eq_mul, mul_comm] at this
    exact this

/-- If there are entries of both kinds, the center is between two gradients. -/
theorem center_between (free up low : Nat → Bool) (big : F) (grad : Nat → F) (size : Nat)
    (hbig : ∀ x, x < size → -big ≤ grad x ∧ grad x ≤ big)
    (hup : ∃ x, x < size ∧ up x = true) (hlow : ∃ x, x < size ∧ low x = true) :
    ∃ x z, x < size ∧ z < size ∧ grad x ≤ center free up low big grad size ∧
      center free up low big grad size ≤ grad z := by
  obtain ⟨i1, i2, i3, i4, i5, i6⟩ := biasScan_spec free up low big grad size
  unfold center
  rcases e : biasScan free up low big grad size with ⟨s, c, mn, mx⟩
  rw [e] at i1 i2 i3 i4 i5 i6
  simp only at i1 i2 i3 i4 i5 i6 ⊢
  by_cases hc : c = 0
  · rw [if_pos hc]
    have h4 : ∃ x, x < size ∧ mn = grad x := by
      rcases i4 with h | ⟨x, hx, _, h⟩
      · obtain ⟨x, hx, hu⟩ := hup
        exact ⟨x, hx, le_antisymm (i3 x hx hu) (h ▸ (hbig x hx).2)⟩
      · exact ⟨x, hx, h⟩
    have h6 : ∃ x, x < size ∧ mx = grad x := by
      rcases i6 with h | ⟨x, hx, _, h⟩
      · obtain ⟨x, hx, hu⟩ := hlow
        exact ⟨x, hx, le_antisymm (h ▸ (hbig x hx).1) (i5 x hx hu)⟩
      · exact ⟨x, hx, h⟩
    obtain ⟨x, hx, hmn⟩ := h4
    obtain ⟨z, hz, hmx⟩ := h6
    rcases le_total mn mx with h | h
    · exact ⟨x, z, hx, hz, by rw [← hmn]; linarith, by rw [← hmx]; linarith⟩
    · exact ⟨z, x, hz, hx, by rw [← hmx]; linarith, by rw [← hmn]; linarith⟩
  · rw [if_neg hc]
    subst i1 i2
    obtain ⟨x, hx, z, hz, h1, h2⟩ := mean_bounds ((Finset.range size).filter fun x => free x = true)
      grad (by omega)
    exact ⟨x, z, Finset.mem_range.1 (Finset.mem_filter.1 hx).1,
      Finset.mem_range.1 (Finset.mem_filter.1 hz).1, h1, h2⟩

end Verif.Smo
