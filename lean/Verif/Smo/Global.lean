import Verif.Smo.Select
import Verif.Smo.Local

/-
Facts about the scatter loop, one outer iteration and all outer iterations.
-/
namespace Verif.Smo

variable {F : Type} [Field F] [LinearOrder F]

/-! ### Scatter -/

/-- The scatter loop after `m` elements. -/
def scat (ly la : Nat → F) (idx : Nat → Nat) (alpha : Nat → F) (m : Nat) : (Nat → F) × (Nat → F) :=
  (List.range m).foldl (scatterStep ly la idx) (fun _ => 0, alpha)

omit [LinearOrder F] in
theorem scat_succ (ly la : Nat → F) (idx : Nat → Nat) (alpha : Nat → F) (m : Nat) :
    scat ly la idx alpha (m + 1) = scatterStep ly la idx (scat ly la idx alpha m) m := by
  simp only [scat, List.range_succ, List.foldl_append, List.foldl_cons, List.foldl_nil]

omit [LinearOrder F] in
theorem scat_val (ly la : Nat → F) (idx : Nat → Nat) (alpha : Nat → F) : ∀ m x,
    (scat ly la idx alpha m).2 x = alpha x ∨
      ∃ k, k < m ∧ idx k = x ∧ (scat ly la idx alpha m).2 x = la k := by
  intro m
  induction m with
  | zero => intro x; left; rfl
  | succ m ih =>
    intro x
    rw [scat_succ]
    simp only [scatterStep]
    by_cases h : x = idx m
    · right; exact ⟨m, by omega, h.symm, by rw [if_pos h]⟩
    · rw [if_neg h]
      rcases ih x with h1 | ⟨k, h1, h2, h3⟩
      · exact Or.inl h1
      · exact Or.inr ⟨k, by omega, h2, h3⟩

omit [LinearOrder F] in
theorem scat_tele (y la : Nat → F) (idx : Nat → Nat) (alpha f : Nat → F) (size : Nat) : ∀ m,
    (∀ k, k < m → idx k < size) →
    ∑ k ∈ Finset.range m, (scat (fun k => y (idx k)) la idx alpha m).1 k * f (idx k) =
      ∑ x ∈ Finset.range size,
        ((scat (fun k => y (idx k)) la idx alpha m).2 x - alpha x) * y x * f x := by
  intro m
  induction m with
  | zero => intro _; simp [scat]
  | succ m ih =>
    intro h
    have ih := ih (fun k hk => h k (by omega))
    rw [scat_succ, Finset.sum_range_succ]
    generalize scat (fun k => y (idx k)) la idx alpha m = S at ih
    simp only [scatterStep]
    have e1 : ∑ k ∈ Finset.range m, (if k = m then (la m - S.2 (idx m)) * y (idx m) else S.1 k) *
        f (idx k) = ∑ k ∈ Finset.range m, S.1 k * f (idx k) := by
      refine Finset.sum_congr rfl fun k hk => ?_
      have := Finset.mem_range.1 hk
      rw [if_neg (by omega)]
    have e2 : ∀ x, ((if x = idx m then la m else S.2 x) - alpha x) * y x * f x =
        (S.2 x - alpha x) * y x * f x +
          if x = idx m then (la m - S.2 (idx m)) * y (idx m) * f (idx m) else 0 := by
      intro x
      by_cases hx : x = idx m
      · rw [if_pos hx, if_pos hx, hx]; ring
      · rw [if_neg hx, if_neg hx]; ring
    rw [e1, ih]
    simp only [e2, Finset.sum_add_distrib, Finset.sum_ite_eq', Finset.mem_range, h m (by omega),
      if_true]

omit [LinearOrder F] in
theorem scat_distinct (ly la : Nat → F) (idx : Nat → Nat) (alpha : Nat → F) : ∀ m,
    (∀ i j, i < m → j < m → idx i = idx j → i = j) →
    (∀ k, k < m → (scat ly la idx alpha m).2 (idx k) = la k ∧
      (scat ly la idx alpha m).1 k = (la k - alpha (idx k)) * ly k) ∧
    (∀ x, (∀ k, k < m → idx k ≠ x) → (scat ly la idx alpha m).2 x = alpha x) := by
  intro m
  induction m with
  | zero => intro _; exact ⟨by intros; omega, fun x _ => rfl⟩
  | succ m ih =>
    intro h
    obtain ⟨a, b⟩ := ih (fun i j hi hj => h i j (by omega) (by omega))
    rw [scat_succ]
    simp only [scatterStep]
    constructor
    · intro k hk
      by_cases hkm : k = m
      · subst hkm
        rw [if_pos rfl, if_pos rfl, b (idx k)]
        · exact ⟨rfl, rfl⟩
        · intro j hj he
          have := h j k (by omega) (by omega) he
          omega
      · have hne : idx k ≠ idx m := fun he => hkm (h k m hk (by omega) he)
        rw [if_neg hne, if_neg hkm]
        exact a k (by omega)
    · intro x hx
      rw [if_neg (fun he => hx m (by omega) he.symm)]
      exact b x fun k hk => hx k (by omega)

/-! ### Entries of the working set -/

theorem takeLeft_pres {order : Nat → Nat} {size : Nat} (P : Nat → Prop)
    (hP : ∀ q, q < size → P (order q)) (flag : Nat → Bool) (ws : Nat) (s : Sel) (l : Nat)
    (h : ∀ i, i < ws → P (s.ws i)) : ∀ i, i < ws → P ((takeLeft order flag size s l).1.ws i) := by
  intro i hi
  simp only [takeLeft]
  split
  · simp only [Sel.add]
    split
    · next hl _ => exact hP _ hl
    · exact h i hi
  · exact h i hi

theorem takeRight_pres {order : Nat → Nat} {size : Nat} (P : Nat → Prop)
    (hP : ∀ q, q < size → P (order q)) (flag : Nat → Bool) (ws : Nat) (s : Sel) (r : Nat)
    (hr : r ≤ size) (h : ∀ i, i < ws → P (s.ws i)) :
    (∀ i, i < ws → P ((takeRight order flag s r).1.ws i)) ∧
      (takeRight order flag s r).2 ≤ size := by
  have hle := (scanDown_spec order (fun x => !s.ind x && flag x) r).1
  refine ⟨?_, le_trans hle hr⟩
  intro i hi
  simp only [takeRight]
  split
  · simp only [Sel.add]
    split
    · exact hP _ (by omega)
    · exact h i hi
  · exact h i hi

theorem cSelect_pres {order : Nat → Nat} {size : Nat} (P : Nat → Prop)
    (hP : ∀ q, q < size → P (order q)) (up low : Nat → Bool) (ws : Nat) : ∀ fuel s l r,
    r ≤ size → (∀ i, i < ws → P (s.ws i)) →
    ∀ i, i < ws → P ((cSelect up low order size ws fuel s l r).1.ws i) := by
  intro fuel
  induction fuel with
  | zero => intro s l r _ h; exact h
  | succ f ih =>
    intro s l r hr h
    rw [cSelect.eq_2]
    split
    · have h1 := takeLeft_pres P hP up ws s l h
      rcases e1 : takeLeft order up size s l with ⟨s1, l1⟩
      rw [e1] at h1
      simp only at h1 ⊢
      split
      · exact h1
      · obtain ⟨h2, h3⟩ := takeRight_pres P hP low ws s1 r hr h1
        rcases e2 : takeRight order low s1 r with ⟨s2, r2⟩
        rw [e2] at h2 h3
        exact ih s2 l1 r2 h3 h2
    · exact h

theorem nuSelect_pres {order : Nat → Nat} {size : Nat} (P : Nat → Prop)
    (hP : ∀ q, q < size → P (order q)) (upP upN lowP lowN : Nat → Bool) (ws : Nat) : ∀ fuel s p,
    p.rp ≤ size → p.rn ≤ size → (∀ i, i < ws → P (s.ws i)) →
    ∀ i, i < ws → P ((nuSelect upP upN lowP lowN order size ws fuel s p).1.ws i) := by
  intro fuel
  induction fuel with
  | zero => intro s p _ _ h; exact h
  | succ f ih =>
    intro s p hrp hrn h
    rw [nuSelect.eq_2]
    split
    · have h1 := takeLeft_pres P hP upP ws s p.lp h
      rcases e1 : takeLeft order upP size s p.lp with ⟨s1, lp⟩
      rw [e1] at h1
      simp only at h1 ⊢
      split
      · exact h1
      have h2 := takeLeft_pres P hP upN ws s1 p.ln h1
      rcases e2 : takeLeft order upN size s1 p.ln with ⟨s2, ln⟩
      rw [e2] at h2
      simp only at h2 ⊢
      split
      · exact h2
      obtain ⟨h3, h3'⟩ := takeRight_pres P hP lowP ws s2 p.rp hrp h2
      rcases e3 : takeRight order lowP s2 p.rp with ⟨s3, rp⟩
      rw [e3] at h3 h3'
      simp only at h3 h3' ⊢
      split
      · exact h3
      obtain ⟨h4, h4'⟩ := takeRight_pres P hP lowN ws s3 p.rn hrn h3
      rcases e4 : takeRight order lowN s3 p.rn with ⟨s4, rn⟩
      rw [e4] at h4 h4'
      exact ih s4 ⟨lp, ln, rp, rn⟩ h3' h4' h4
    · exact h

theorem startSel_pres (P : Nat → Prop) (first : Bool) (ws : Nat) (w : Nat → Nat)
    (h : ∀ i, i < ws → P (w i)) : ∀ i, i < ws → P ((startSel first ws w).ws i) := by
  intro i hi
  unfold startSel
  split
  · exact h i hi
  · simp only
    split
    · exact h _ (by omega)
    · exact h i hi

theorem outer_pres (v : Variant) (C : F) {size ws : Nat} (y alpha : Nat → F) {order : Nat → Nat}
    (P : Nat → Prop) (hP : ∀ q, q < size → P (order q)) (s : Sel)
    (h : ∀ i, i < ws → P (s.ws i)) :
    ∀ i, i < ws → P ((outer v C size ws y alpha order s).ws i) := by
  cases v with
  | c => exact cSelect_pres P hP _ _ ws (ws + 1) s 0 size (le_refl _) h
  | nu => exact nuSelect_pres P hP _ _ _ _ ws (ws + 1) s ⟨0, 0, size, size⟩ (le_refl _) (le_refl _) h

/-! ### Full selections -/

theorem startSel_inv {size ws : Nat} {w : Nat → Nat} (first : Bool)
    (h : first = false → Distinct size ws w) : SelInv size (startSel first ws w) := by
  unfold startSel
  cases first with
  | true => exact ⟨by intro i j hi; simp at hi, by intro i hi; simp at hi, by intro x; simp⟩
  | false =>
    obtain ⟨h1, h2⟩ := h rfl
    simp only [Bool.false_eq_true, if_false]
    refine ⟨?_, ?_, ?_⟩
    · intro i j hi hj he
      simp only at hi hj he
      rw [if_pos hi, if_pos hj] at he
      have := h2 _ _ (by omega) (by omega) he
      omega
    · intro i hi
      simp only at hi ⊢
      rw [if_pos hi]
      exact h1 _ (by omega)
    · intro x
      simp only [List.any_eq_true, List.mem_range, beq_iff_eq]
      constructor
      · rintro ⟨i, hi, he⟩
        exact ⟨i, hi, by rw [if_pos hi]; exact he⟩
      · rintro ⟨i, hi, he⟩
        rw [if_pos hi] at he
        exact ⟨i, hi, he⟩

theorem startSel_cnt (first : Bool) (ws : Nat) (w : Nat → Nat) :
    (startSel first ws w).cnt = if first then 0 else ws / 2 := by
  cases first <;> rfl

/-- There are enough entries to fill the working set. -/
def Enough (v : Variant) (size ws : Nat) (y : Nat → F) : Prop :=
  match v with
  | .c => ws ≤ size
  | .nu => ws ≤ classSize size y 1 ∧ ws ≤ classSize size y (-1)

variable [IsStrictOrderedRing F]

theorem outer_full {v : Variant} {C : F} (hC : 0 < C) {size ws : Nat} {y : Nat → F}
    (alpha : Nat → F) {order : Nat → Nat} (ho : IsPerm order size) (hE : Enough v size ws y)
    (s : Sel) (hs : SelInv size s) (hc : s.cnt ≤ ws) :
    SelInv size (outer v C size ws y alpha order s) ∧
      (outer v C size ws y alpha order s).cnt = ws := by
  have hone := one_pos (α := F)
  have hlt : ∀ x, alpha x < C ∨ 0 < alpha x := by
    intro x
    by_cases h : alpha x < C
    · exact Or.inl h
    · exact Or.inr (lt_of_lt_of_le hC (not_lt.1 h))
  cases v with
  | c =>
    obtain ⟨a, -, b⟩ := cOuter_spec ho (fun x => isUpper C (alpha x) (y x))
      (fun x => isLower C (alpha x) (y x)) (by
        intro x _
        simp only [isUpper, isLower]
        rcases hlt x with h | h <;> by_cases hyx : 0 < y x <;> simp [hyx, h]) ws hE s hs hc
    exact ⟨a, b⟩
  | nu =>
    obtain ⟨a, -, b, c⟩ := nuOuter_spec ho (fun x => isUpperPos C (alpha x) (y x))
      (fun x => isUpperNeg (alpha x) (y x)) (fun x => isLowerPos (alpha x) (y x))
      (fun x => isLowerNeg C (alpha x) (y x)) (fun x => decide (y x = 1))
      (fun x => decide (y x = -1)) (by
        intro x _ h
        simp only [decide_eq_true_eq] at h
        simp only [isUpperPos, isLowerPos, h]
        rcases hlt x with h' | h' <;> simp [h']) (by
        intro x _ h
        simp only [decide_eq_true_eq] at h
        simp only [isUpperNeg, isLowerNeg, h]
        rcases hlt x with h' | h' <;> simp [h']) ws s hs hc
    refine ⟨a, ?_⟩
    show (nuOuter _ _ _ _ order size ws s).cnt = ws
    rcases c with c | c | c
    · exact c
    · have := cnt_ge a (fun x => y x = 1) (fun x hx h => c x hx (by simpa using h))
      have h2 := hE.1
      unfold classSize at h2
      omega
    · have := cnt_ge a (fun x => y x = -1) (fun x hx h => c x hx (by simpa using h))
      have h2 := hE.2
      unfold classSize at h2
      omega

/-! ### One iteration -/

/-- Working set of an iteration. -/
def iterWs (v : Variant) (p : Par F) (size ws : Nat) (y : Nat → F) (sort : (Nat → F) → Nat → Nat)
    (first : Bool) (s : State F) : Nat → Nat :=
  (outer v p.C size ws y s.alpha (sort s.grad) (startSel first ws s.ws)).ws

/-- Local arrays at the start of `local_smo`. -/
def loc0 (v : Variant) (C : F) (y : Nat → F) (idx : Nat → Nat) (alpha grad : Nat → F) : Loc F :=
  { alpha := fun k => alpha (idx k)
    grad := fun k => grad (idx k)
    upP := fun k => flagUpP v C (alpha (idx k)) (y (idx k))
    lowP := fun k => flagLowP v C (alpha (idx k)) (y (idx k))
    upN := fun k => flagUpN v (alpha (idx k)) (y (idx k))
    lowN := fun k => flagLowN v C (alpha (idx k)) (y (idx k)) }

omit [IsStrictOrderedRing F] in
theorem iteration_eq (v : Variant) (p : Par F) (n size ws : Nat) (kcol : Nat → Nat → F)
    (y : Nat → F) (sort : (Nat → F) → Nat → Nat) (first : Bool) (s : State F) :
    let idx := iterWs v p size ws y sort first s
    let K : Nat → Nat → F := fun j k => kcol (idx j % n) (idx k % n)
    let r := inner v p ws K (fun k => K k k) (fun k => y (idx k))
      (loc0 v p.C y idx s.alpha s.grad) s.firstDiff
    let S := scat (fun k => y (idx k)) r.1.alpha idx s.alpha ws
    iteration v p n size ws kcol y sort first s =
      { alpha := S.2, grad := updateGradient n ws kcol idx S.1 s.grad, ws := idx,
        firstDiff := r.2 } := by
  rfl

omit [IsStrictOrderedRing F] in
theorem loc0_inv (v : Variant) {C : F} (ws : Nat) (K : Nat → Nat → F) (y : Nat → F)
    {size : Nat} (idx : Nat → Nat) (hidx : ∀ k, k < ws → idx k < size) (alpha grad : Nat → F)
    (hbox : InBox C size alpha) :
    LInv v C ws K (fun k => y (idx k)) (fun k => alpha (idx k)) (fun k => grad (idx k))
      (loc0 v C y idx alpha grad) := by
  refine ⟨fun _ _ => rfl, fun _ _ => rfl, fun _ _ => rfl, fun _ _ => rfl,
    fun k hk => hbox _ (hidx k hk), ?_, ?_, ?_⟩
  · intro k _; simp [loc0]
  · intro w _; simp [loc0]
  · intro _; simp [loc0, psi]

/-- The box is kept if the working set consists of entries. -/
theorem iteration_box {v : Variant} {p : Par F} (htau : 0 < p.tau) {n size ws : Nat}
    {kcol : Nat → Nat → F} {y : Nat → F} (hy : Signs y) {sort : (Nat → F) → Nat → Nat}
    (first : Bool) (s : State F)
    (hidx : ∀ i, i < ws → (iteration v p n size ws kcol y sort first s).ws i < size)
    (hbox : InBox p.C size s.alpha) :
    InBox p.C size (iteration v p n size ws kcol y sort first s).alpha := by
  have e := iteration_eq v p n size ws kcol y sort first s
  simp only at e
  rw [e] at hidx ⊢
  simp only at hidx
  generalize iterWs v p size ws y sort first s = idx at *
  have h0 := loc0_inv v ws (fun j k => kcol (idx j % n) (idx k % n)) y idx hidx s.alpha s.grad hbox
  have h1 := inner_inv htau (fun k => hy (idx k)) s.firstDiff h0
  intro x hx
  simp only
  rcases scat_val (fun k => y (idx k)) _ idx s.alpha ws x with h | ⟨k, hk, -, h⟩
  · rw [h]; exact hbox x hx
  · rw [h]; exact h1.box k hk

/-- Facts about one iteration for which the working set may contain repetitions. -/
theorem iteration_box_grad {v : Variant} {p : Par F} (htau : 0 < p.tau) {n size ws : Nat}
    {kcol : Nat → Nat → F} {y : Nat → F} (hy : Signs y) {sort : (Nat → F) → Nat → Nat}
    (hsort : ∀ g, IsPerm (sort g) size) (first : Bool) (s : State F) (c : Nat → F)
    (hw : ∀ i, i < ws → s.ws i < size) (hbox : InBox p.C size s.alpha)
    (hg : ∀ x, x < size → s.grad x = exactGrad n size kcol y c s.alpha x) :
    let s' := iteration v p n size ws kcol y sort first s
    (∀ i, i < ws → s'.ws i < size) ∧ InBox p.C size s'.alpha ∧
      ∀ x, x < size → s'.grad x = exactGrad n size kcol y c s'.alpha x := by
  intro s'
  have hidx : ∀ i, i < ws → iterWs v p size ws y sort first s i < size :=
    outer_pres v p.C y s.alpha (· < size) (hsort s.grad).lt _ (startSel_pres (· < size) first ws s.ws hw)
  have e := iteration_eq v p n size ws kcol y sort first s
  simp only at e
  generalize iterWs v p size ws y sort first s = idx at *
  have h0 := loc0_inv v ws (fun j k => kcol (idx j % n) (idx k % n)) y idx hidx s.alpha s.grad hbox
  have h1 := inner_inv htau (fun k => hy (idx k)) s.firstDiff h0
  generalize (inner v p ws (fun j k => kcol (idx j % n) (idx k % n))
    (fun k => kcol (idx k % n) (idx k % n)) (fun k => y (idx k)) (loc0 v p.C y idx s.alpha s.grad)
    s.firstDiff) = r at e h1
  show (∀ i, i < ws → (iteration v p n size ws kcol y sort first s).ws i < size) ∧
    InBox p.C size (iteration v p n size ws kcol y sort first s).alpha ∧
      ∀ x, x < size → (iteration v p n size ws kcol y sort first s).grad x =
        exactGrad n size kcol y c (iteration v p n size ws kcol y sort first s).alpha x
  rw [e]
  refine ⟨hidx, ?_, ?_⟩
  · intro x hx
    simp only
    rcases scat_val (fun k => y (idx k)) r.1.alpha idx s.alpha ws x with h | ⟨k, hk, -, h⟩
    · rw [h]; exact hbox x hx
    · rw [h]; exact h1.box k hk
  · intro x hx
    simp only [updateGradient]
    rw [scat_tele y r.1.alpha idx s.alpha (fun z => kcol (z % n) (x % n)) size ws hidx, hg x hx]
    simp only [exactGrad, entryKernel, sub_mul, Finset.sum_sub_distrib]
    ring

/-- Facts about one iteration with a full working set. -/
theorem iteration_full {v : Variant} {p : Par F} (htau : 0 < p.tau) (hC : 0 < p.C) {n size ws : Nat}
    {kcol : Nat → Nat → F} {y : Nat → F} (hy : Signs y) {sort : (Nat → F) → Nat → Nat}
    (hsort : ∀ g, IsPerm (sort g) size) (hE : Enough v size ws y) (first : Bool) (s : State F)
    (c : Nat → F) (hd : first = false → Distinct size ws s.ws) (hbox : InBox p.C size s.alpha) :
    let s' := iteration v p n size ws kcol y sort first s
    Distinct size ws s'.ws ∧
    (∀ w, Bal v y w → ∑ x ∈ Finset.range size, s'.alpha x * y x * w x =
      ∑ x ∈ Finset.range size, s.alpha x * y x * w x) ∧
    ((∀ x, x < size → s.grad x = exactGrad n size kcol y c s.alpha x) →
      (∀ a b, a < n → b < n → kcol a b = kcol b a) → 0 < n →
      objective n size kcol y c s'.alpha ≤ objective n size kcol y c s.alpha) := by
  intro s'
  obtain ⟨hs, hcnt⟩ := outer_full (v := v) hC s.alpha (hsort s.grad) hE (startSel first ws s.ws)
    (startSel_inv first hd) (by rw [startSel_cnt]; split <;> omega)
  have hdis : Distinct size ws (iterWs v p size ws y sort first s) := by
    refine ⟨fun i hi => hs.lt i (by omega), fun i j hi hj he => hs.inj i j (by omega) (by omega) he⟩
  have e := iteration_eq v p n size ws kcol y sort first s
  simp only at e
  generalize iterWs v p size ws y sort first s = idx at *
  have h0 := loc0_inv v ws (fun j k => kcol (idx j % n) (idx k % n)) y idx hdis.1 s.alpha s.grad hbox
  have h1 := inner_inv htau (fun k => hy (idx k)) s.firstDiff h0
  generalize (inner v p ws (fun j k => kcol (idx j % n) (idx k % n))
    (fun k => kcol (idx k % n) (idx k % n)) (fun k => y (idx k)) (loc0 v p.C y idx s.alpha s.grad)
    s.firstDiff) = r at e h1
  -- sums over all entries are sums over the working set
  have key : ∀ f : Nat → F, ∑ x ∈ Finset.range size,
      ((scat (fun k => y (idx k)) r.1.alpha idx s.alpha ws).2 x - s.alpha x) * y x * f x =
      ∑ k ∈ Finset.range ws, (r.1.alpha k - s.alpha (idx k)) * y (idx k) * f (idx k) := by
    intro f
    rw [← scat_tele y r.1.alpha idx s.alpha f size ws hdis.1]
    refine Finset.sum_congr rfl fun k hk => ?_
    rw [((scat_distinct (fun k => y (idx k)) r.1.alpha idx s.alpha ws hdis.2).1 k
      (Finset.mem_range.1 hk)).2]
  have hs' : s'.alpha = (scat (fun k => y (idx k)) r.1.alpha idx s.alpha ws).2 :=
    congrArg State.alpha e
  have hws' : s'.ws = idx := congrArg State.ws e
  rw [hws', hs']
  generalize (scat (fun k => y (idx k)) r.1.alpha idx s.alpha ws).2 = a' at *
  refine ⟨hdis, ?_, ?_⟩
  · intro w hw
    have hb := h1.bal (fun k => w (idx k)) (by
      cases v with
      | c => exact fun i j => hw _ _
      | nu => exact fun i j hij => hw _ _ hij)
    rw [← key w] at hb
    simp only [sub_mul, Finset.sum_sub_distrib] at hb
    linarith
  · intro hg hK hn
    have hsym : ∀ x z, entryKernel n kcol x z = entryKernel n kcol z x :=
      fun x z => hK _ _ (Nat.mod_lt _ hn) (Nat.mod_lt _ hn)
    have hob := h1.obj fun a b _ _ => hsym (idx a) (idx b)
    have hpsi : psi ws (fun j k => kcol (idx j % n) (idx k % n)) (fun k => s.grad (idx k))
        (fun k => (r.1.alpha k - s.alpha (idx k)) * y (idx k)) =
        objective n size kcol y c a' - objective n size kcol y c s.alpha := by
      have hin : ∀ x, ∑ m ∈ Finset.range ws, (r.1.alpha m - s.alpha (idx m)) * y (idx m) *
          kcol (idx m % n) (x % n) =
          ∑ z ∈ Finset.range size, (a' z - s.alpha z) * y z * entryKernel n kcol z x :=
        fun x => (key fun z => kcol (z % n) (x % n)).symm
      unfold psi
      simp only [hin]
      rw [← key (fun x => ∑ z ∈ Finset.range size, (a' z - s.alpha z) * y z * entryKernel n kcol z x),
        ← key s.grad]
      have hg' : ∑ x ∈ Finset.range size, (a' x - s.alpha x) * y x * s.grad x =
          ∑ x ∈ Finset.range size, (a' x - s.alpha x) * y x * exactGrad n size kcol y c s.alpha x :=
        Finset.sum_congr rfl fun x hx => by rw [hg x (Finset.mem_range.1 hx)]
      rw [hg']
      -- now a computation with sums
      have hcross : ∑ x ∈ Finset.range size, ∑ z ∈ Finset.range size,
          (a' x * y x) * (s.alpha z * y z) * entryKernel n kcol z x =
          ∑ x ∈ Finset.range size, ∑ z ∈ Finset.range size,
          (s.alpha x * y x) * (a' z * y z) * entryKernel n kcol z x := by
        rw [Finset.sum_comm]
        refine Finset.sum_congr rfl fun x _ => Finset.sum_congr rfl fun z _ => ?_
        rw [hsym x z]; ring
      have hobj : ∀ a : Nat → F, objective n size kcol y c a =
          (∑ x ∈ Finset.range size, ∑ z ∈ Finset.range size,
            (a x * y x) * (a z * y z) * entryKernel n kcol z x) / 2 +
          ∑ x ∈ Finset.range size, c x * (a x * y x) := by
        intro a
        unfold objective
        congr 2
        refine Finset.sum_congr rfl fun x _ => Finset.sum_congr rfl fun z _ => ?_
        rw [hsym x z]
      have e1 : ∑ x ∈ Finset.range size, (a' x - s.alpha x) * y x *
          ∑ z ∈ Finset.range size, (a' z - s.alpha z) * y z * entryKernel n kcol z x =
          ∑ x ∈ Finset.range size, ∑ z ∈ Finset.range size,
            (a' x * y x) * (a' z * y z) * entryKernel n kcol z x -
          ∑ x ∈ Finset.range size, ∑ z ∈ Finset.range size,
            (a' x * y x) * (s.alpha z * y z) * entryKernel n kcol z x -
          ∑ x ∈ Finset.range size, ∑ z ∈ Finset.range size,
            (s.alpha x * y x) * (a' z * y z) * entryKernel n kcol z x +
          ∑ x ∈ Finset.range size, ∑ z ∈ Finset.range size,
            (s.alpha x * y x) * (s.alpha z * y z) * entryKernel n kcol z x := by
        simp only [← Finset.sum_sub_distrib, ← Finset.sum_add_distrib, Finset.mul_sum]
        refine Finset.sum_congr rfl fun x _ => Finset.sum_congr rfl fun z _ => ?_
        ring
      have e2 : ∑ x ∈ Finset.range size, (a' x - s.alpha x) * y x *
            exactGrad n size kcol y c s.alpha x =
          ∑ x ∈ Finset.range size, c x * (a' x * y x) -
          ∑ x ∈ Finset.range size, c x * (s.alpha x * y x) +
          ∑ x ∈ Finset.range size, ∑ z ∈ Finset.range size,
            (a' x * y x) * (s.alpha z * y z) * entryKernel n kcol z x -
          ∑ x ∈ Finset.range size, ∑ z ∈ Finset.range size,
            (s.alpha x * y x) * (s.alpha z * y z) * entryKernel n kcol z x := by
        rw [← Finset.sum_sub_distrib, ← Finset.sum_add_distrib, ← Finset.sum_sub_distrib]
        refine Finset.sum_congr rfl fun x _ => ?_
        have r1 : ∑ z ∈ Finset.range size, (a' x * y x) * (s.alpha z * y z) * entryKernel n kcol z x =
            (a' x * y x) * ∑ z ∈ Finset.range size, s.alpha z * y z * entryKernel n kcol z x := by
          rw [Finset.mul_sum]
          exact Finset.sum_congr rfl fun z _ => by ring
        have r2 : ∑ z ∈ Finset.range size,
            (s.alpha x * y x) * (s.alpha z * y z) * entryKernel n kcol z x =
            (s.alpha x * y x) * ∑ z ∈ Finset.range size, s.alpha z * y z * entryKernel n kcol z x := by
          rw [Finset.mul_sum]
          exact Finset.sum_congr rfl fun z _ => by ring
        rw [r1, r2, exactGrad]
        ring
      rw [hobj, hobj, e1, e2, ← hcross]
      ring
    linarith

end Verif.Smo
