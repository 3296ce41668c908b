import Verif.Smo.Global

/-
Any number of outer iterations; the state in which the solver stops.
-/
namespace Verif.Smo

variable {F : Type} [Field F] [LinearOrder F] [IsStrictOrderedRing F]

theorem maxpowtwoLoop_spec (n : Nat) : ∀ fuel power, 0 < power → power ≤ n → n < power + fuel →
    maxpowtwoLoop n fuel power ≤ n ∧ n < 2 * maxpowtwoLoop n fuel power ∧
      ((∃ e, power = 2 ^ e) → ∃ e, maxpowtwoLoop n fuel power = 2 ^ e) := by
  intro fuel
  induction fuel with
  | zero => intro power _ h1 h2; omega
  | succ f ih =>
    intro power h0 h1 h2
    rw [maxpowtwoLoop]
    split
    · next h =>
      obtain ⟨a, b, c⟩ := ih (power * 2) (by omega) h (by omega)
      refine ⟨a, b, ?_⟩
      rintro ⟨e, he⟩
      exact c ⟨e + 1, by rw [he, Nat.pow_succ]⟩
    · next h => exact ⟨h1, by omega, fun h => h⟩

/-- Box and gradient along the whole run. -/
theorem train_box_grad (v : Variant) {p : Par F} (htau : 0 < p.tau) {n size ws : Nat}
    {kcol : Nat → Nat → F} {y : Nat → F} (hy : Signs y) {sort : (Nat → F) → Nat → Nat}
    (hsort : ∀ g, IsPerm (sort g) size) (s : State F) (c : Nat → F)
    (hw : ∀ i, i < ws → s.ws i < size) (hbox : InBox p.C size s.alpha)
    (hg : ∀ x, x < size → s.grad x = exactGrad n size kcol y c s.alpha x) : ∀ k,
    let s' := train v p n size ws kcol y sort k s
    (∀ i, i < ws → s'.ws i < size) ∧ InBox p.C size s'.alpha ∧
      ∀ x, x < size → s'.grad x = exactGrad n size kcol y c s'.alpha x := by
  intro k
  induction k with
  | zero => exact ⟨hw, hbox, hg⟩
  | succ k ih =>
    obtain ⟨a, b, d⟩ := ih
    exact iteration_box_grad htau hy hsort (k == 0) (train v p n size ws kcol y sort k s) c a b d

/-- Working sets and weighted sums along the whole run. -/
theorem train_full {v : Variant} {p : Par F} (htau : 0 < p.tau) (hC : 0 < p.C) {n size ws : Nat}
    {kcol : Nat → Nat → F} {y : Nat → F} (hy : Signs y) {sort : (Nat → F) → Nat → Nat}
    (hsort : ∀ g, IsPerm (sort g) size) (hE : Enough v size ws y) (s : State F)
    (hbox : InBox p.C size s.alpha) : ∀ k,
    let s' := train v p n size ws kcol y sort k s
    (0 < k → Distinct size ws s'.ws) ∧ InBox p.C size s'.alpha ∧
    (∀ w, Bal v y w → ∑ x ∈ Finset.range size, s'.alpha x * y x * w x =
      ∑ x ∈ Finset.range size, s.alpha x * y x * w x) := by
  intro k
  induction k with
  | zero => exact ⟨by intro h; omega, hbox, fun w _ => rfl⟩
  | succ k ih =>
    obtain ⟨a, b, d⟩ := ih
    obtain ⟨e1, e2, -⟩ := iteration_full (n := n) (kcol := kcol) htau hC hy hsort hE (k == 0)
      (train v p n size ws kcol y sort k s) 0 (by
        intro h
        apply a
        rcases k with _ | k
        · simp at h
        · omega) b
    refine ⟨fun _ => e1, ?_, fun w hw => (e2 w hw).trans (d w hw)⟩
    -- the box does not depend on the gradient: take `c` that makes the gradient exact
    exact (iteration_box htau hy (k == 0) (train v p n size ws kcol y sort k s) e1.1 b)

theorem train_obj {v : Variant} {p : Par F} (htau : 0 < p.tau) (hC : 0 < p.C) {n size ws : Nat}
    {kcol : Nat → Nat → F} {y : Nat → F} (hy : Signs y) {sort : (Nat → F) → Nat → Nat}
    (hsort : ∀ g, IsPerm (sort g) size) (hE : Enough v size ws y) (s : State F) (c : Nat → F)
    (hbox : InBox p.C size s.alpha)
    (hw : ∀ i, i < ws → s.ws i < size)
    (hg : ∀ x, x < size → s.grad x = exactGrad n size kcol y c s.alpha x) (hn : 0 < n)
    (hK : ∀ a b, a < n → b < n → kcol a b = kcol b a) (k : Nat) :
    objective n size kcol y c (train v p n size ws kcol y sort (k + 1) s).alpha ≤
      objective n size kcol y c (train v p n size ws kcol y sort k s).alpha := by
  obtain ⟨a, b, -⟩ := train_full (n := n) (kcol := kcol) htau hC hy hsort hE s hbox k
  obtain ⟨-, -, d⟩ := train_box_grad v htau hy hsort s c hw hbox hg k
  exact (iteration_full htau hC hy hsort hE (k == 0) (train v p n size ws kcol y sort k s) c (by
    intro h
    apply a
    rcases k with _ | k
    · simp at h
    · omega) b).2.2 d hK hn

/-! ### Stopping -/

omit [IsStrictOrderedRing F] in
/-- The inner iterations stop at once if the first difference is below the tolerance. -/
theorem inner_stop (v : Variant) (p : Par F) (hin : 0 < p.inner) (ws : Nat) (K : Nat → Nat → F)
    (diag y : Nat → F) (s : Loc F) (old : F) (h : (inner v p ws K diag y s old).2 < p.tol) :
    (inner v p ws K diag y s old).1 = s ∧ (choose v p ws K diag s).diff < p.tol := by
  unfold inner at h ⊢
  split at h
  · omega
  · next f hf =>
    simp only at h
    refine ⟨?_, h⟩
    simp only [innerLoop]
    rw [if_pos (lt_of_lt_of_le h (le_max_left _ _))]

/-- Room that is needed for all worst violators to enter the working set. -/
def Room (v : Variant) (ws : Nat) : Prop :=
  match v with
  | .c => 3 ≤ ws
  | .nu => 7 ≤ ws

/-- In the nu variants a pair belongs to one class. -/
theorem iteration_stop {v : Variant} {p : Par F} (hin : 0 < p.inner) {n size ws : Nat}
    {kcol : Nat → Nat → F} {y : Nat → F}
    {sort : (Nat → F) → Nat → Nat} (hsort : ∀ g, IsPerm (sort g) size ∧ Sorted g (sort g) size)
    (s : State F) (hd : Distinct size ws s.ws) (hE : Enough v size ws y) (hC : 0 < p.C)
    (hR : Room v ws) (hb : ∀ x, x < size → s.grad x < p.big)
    (hstop : (iteration v p n size ws kcol y sort false s).firstDiff < p.tol) :
    let s' := iteration v p n size ws kcol y sort false s
    s'.alpha = s.alpha ∧ s'.grad = s.grad ∧
    ∀ x z, x < size → z < size → CanGrow p.C y s.alpha x → CanShrink p.C y s.alpha z →
      SameClass v y x z → s.grad z - s.grad x < p.tol := by
  have hone := one_pos (α := F)
  have n1 : ¬ (0 : F) < -1 := by linarith
  intro s'
  have hsel := startSel_inv (size := size) (ws := ws) (w := s.ws) false (fun _ => hd)
  obtain ⟨hs, hcnt⟩ := outer_full (v := v) hC s.alpha (hsort s.grad).1 hE (startSel false ws s.ws)
    hsel (by rw [startSel_cnt]; simp; omega)
  have e := iteration_eq v p n size ws kcol y sort false s
  simp only at e
  rw [e] at hstop
  simp only at hstop
  obtain ⟨h1, h2⟩ := inner_stop v p hin ws _ _ _ _ _ hstop
  have hs' : s' = _ := e
  rw [h1] at hs'
  have halpha : (scat (fun k => y (iterWs v p size ws y sort false s k))
      (loc0 v p.C y (iterWs v p size ws y sort false s) s.alpha s.grad).alpha
      (iterWs v p size ws y sort false s) s.alpha ws).2 = s.alpha := by
    funext x
    rcases scat_val (fun k => y (iterWs v p size ws y sort false s k))
      (loc0 v p.C y (iterWs v p size ws y sort false s) s.alpha s.grad).alpha
      (iterWs v p size ws y sort false s) s.alpha ws x with h | ⟨k, -, hk, h⟩
    · exact h
    · rw [h, ← hk]; rfl
  have hidx : ∀ k, k < ws → iterWs v p size ws y sort false s k < size :=
    fun k hk => hs.lt k (by omega)
  refine ⟨by rw [hs']; exact halpha, ?_, ?_⟩
  · rw [hs']
    funext x
    show s.grad x + _ = _
    rw [scat_tele y _ _ s.alpha (fun z => kcol (z % n) (x % n)) size ws hidx, halpha]
    simp
  · intro x z hx hz hgx hsz hcls
    -- positions of the worst violators
    have pos : ∀ a, (outer v p.C size ws y s.alpha (sort s.grad) (startSel false ws s.ws)).ind a
        = true → ∃ k, k < ws ∧ iterWs v p size ws y sort false s k = a := by
      intro a ha
      obtain ⟨k, hk, hka⟩ := (hs.ind a).1 ha
      exact ⟨k, by omega, hka⟩
    cases v with
    | c =>
      have hr : 3 ≤ ws := hR
      obtain ⟨b1, b2⟩ := cOuter_best (hsort s.grad).1 (hsort s.grad).2
        (fun x => isUpper p.C (s.alpha x) (y x)) (fun x => isLower p.C (s.alpha x) (y x)) ws
        (startSel false ws s.ws) hsel (by rw [startSel_cnt]; simp; omega) (by omega)
      obtain ⟨a, a1, a2, a3⟩ := b1 x hx (by
        rcases hgx with ⟨h, h'⟩ | ⟨h, h'⟩
        · simp [isUpper, h, h']
        · simp [isUpper, h, h'])
      obtain ⟨d, d1, d2, d3⟩ := b2 z hz (by
        rcases hsz with ⟨h, h'⟩ | ⟨h, h'⟩
        · simp [isLower, h, h']
        · simp [isLower, h, h'])
      obtain ⟨i, hi, hia⟩ := pos a a1
      obtain ⟨j, hj, hjd⟩ := pos d d1
      have := diff_ge p.big p.tau ws
        (fun j k => kcol (iterWs .c p size ws y sort false s j % n)
          (iterWs .c p size ws y sort false s k % n))
        (loc0 .c p.C y (iterWs .c p size ws y sort false s) s.alpha s.grad).upP
        (loc0 .c p.C y (iterWs .c p size ws y sort false s) s.alpha s.grad).lowP
        (loc0 .c p.C y (iterWs .c p size ws y sort false s) s.alpha s.grad).grad i j hi hj
        (by show isUpper _ _ _ = true; rw [hia]; exact a2)
        (by show isLower _ _ _ = true; rw [hjd]; exact d2)
        (hb _ (hidx i hi))
      have h3 := lt_of_le_of_lt this h2
      simp only [loc0, hia, hjd] at h3
      linarith
    | nu =>
      have hr : 7 ≤ ws := hR
      obtain ⟨b1, b2, b3, b4⟩ := nuOuter_best (hsort s.grad).1 (hsort s.grad).2
        (fun x => isUpperPos p.C (s.alpha x) (y x)) (fun x => isUpperNeg (s.alpha x) (y x))
        (fun x => isLowerPos (s.alpha x) (y x)) (fun x => isLowerNeg p.C (s.alpha x) (y x)) ws
        (startSel false ws s.ws) hsel (by rw [startSel_cnt]; simp; omega) (by omega)
      have hcls : y x = y z := hcls
      have hmax := h2
      simp only [choose] at hmax
      rcases hgx with ⟨hyx, hax⟩ | ⟨hyx, hax⟩
      · have hz' : 0 < s.alpha z ∧ y z = 1 := by
          rcases hsz with ⟨h, h'⟩ | ⟨h, h'⟩
          · exact ⟨h', h⟩
          · rw [hyx, h] at hcls; linarith
        obtain ⟨a, a1, a2, a3⟩ := b1 x hx (by simp [isUpperPos, hyx, hax])
        obtain ⟨d, d1, d2, d3⟩ := b3 z hz (by simp [isLowerPos, hz'])
        obtain ⟨i, hi, hia⟩ := pos a a1
        obtain ⟨j, hj, hjd⟩ := pos d d1
        have := diff_ge p.big p.tau ws
          (fun j k => kcol (iterWs .nu p size ws y sort false s j % n)
            (iterWs .nu p size ws y sort false s k % n))
          (loc0 .nu p.C y (iterWs .nu p size ws y sort false s) s.alpha s.grad).upP
          (loc0 .nu p.C y (iterWs .nu p size ws y sort false s) s.alpha s.grad).lowP
          (loc0 .nu p.C y (iterWs .nu p size ws y sort false s) s.alpha s.grad).grad i j hi hj
          (by show isUpperPos _ _ _ = true; rw [hia]; exact a2)
          (by show isLowerPos _ _ = true; rw [hjd]; exact d2)
          (hb _ (hidx i hi))
        have h3 := lt_of_le_of_lt this (lt_of_le_of_lt (le_max_left _ _) hmax)
        simp only [loc0, hia, hjd] at h3
        linarith
      · have hz' : s.alpha z < p.C ∧ y z = -1 := by
          rcases hsz with ⟨h, h'⟩ | ⟨h, h'⟩
          · rw [hyx, h] at hcls; linarith
          · exact ⟨h', h⟩
        obtain ⟨a, a1, a2, a3⟩ := b2 x hx (by simp [isUpperNeg, hyx, hax])
        obtain ⟨d, d1, d2, d3⟩ := b4 z hz (by simp [isLowerNeg, hz'])
        obtain ⟨i, hi, hia⟩ := pos a a1
        obtain ⟨j, hj, hjd⟩ := pos d d1
        have := diff_ge p.big p.tau ws
          (fun j k => kcol (iterWs .nu p size ws y sort false s j % n)
            (iterWs .nu p size ws y sort false s k % n))
          (loc0 .nu p.C y (iterWs .nu p size ws y sort false s) s.alpha s.grad).upN
          (loc0 .nu p.C y (iterWs .nu p size ws y sort false s) s.alpha s.grad).lowN
          (loc0 .nu p.C y (iterWs .nu p size ws y sort false s) s.alpha s.grad).grad i j hi hj
          (by show isUpperNeg _ _ = true; rw [hia]; exact a2)
          (by show isLowerNeg _ _ _ = true; rw [hjd]; exact d2)
          (hb _ (hidx i hi))
        have h3 := lt_of_le_of_lt this (lt_of_le_of_lt (le_max_right _ _) hmax)
        simp only [loc0, hia, hjd] at h3
        linarith

end Verif.Smo
