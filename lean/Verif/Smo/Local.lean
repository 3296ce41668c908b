import Verif.Smo.Model
import Verif.Smo.Spec
import Mathlib.Algebra.BigOperators.Ring.Finset
import Mathlib.Algebra.Order.BigOperators.Group.Finset
import Mathlib.Tactic.Linarith
import Mathlib.Tactic.LinearCombination
import Mathlib.Tactic.Ring
import Mathlib.Tactic.FieldSimp
import Mathlib.Tactic.Positivity

/-
Facts about the local solver: the choice of the pair, one step, all inner iterations.
-/
namespace Verif.Smo

variable {F : Type} [Field F] [LinearOrder F] [IsStrictOrderedRing F]

/-! ### Choice of the pair -/

omit [Field F] [IsStrictOrderedRing F] in
theorem wssi_spec (big : F) (up : Nat → Bool) (g : Nat → F) : ∀ ws,
    (∀ k, (wssi big ws up g).1 = some k → k < ws ∧ up k = true ∧ (wssi big ws up g).2 = g k) ∧
    ((wssi big ws up g).1 = none → (wssi big ws up g).2 = big) ∧
    (∀ k, k < ws → up k = true → (wssi big ws up g).2 ≤ g k) := by
  intro ws
  induction ws with
  | zero => simp [wssi]
  | succ w ih =>
    obtain ⟨a, b, c⟩ := ih
    have e : wssi big (w + 1) up g =
        if up w && decide (g w < (wssi big w up g).2) then (some w, g w) else wssi big w up g := by
      simp only [wssi, List.range_succ, List.foldl_append, List.foldl_cons, List.foldl_nil]
      rfl
    by_cases h : (up w && decide (g w < (wssi big w up g).2)) = true
    · rw [e, if_pos h]
      simp only [Bool.and_eq_true, decide_eq_true_eq] at h
      refine ⟨?_, by simp, ?_⟩
      · intro k hk
        simp only [Option.some.injEq] at hk
        subst hk
        exact ⟨by omega, h.1, rfl⟩
      · intro k hk hu
        by_cases hkw : k = w
        · subst hkw; exact le_refl _
        · exact le_trans (le_of_lt h.2) (c k (by omega) hu)
    · rw [e, if_neg h]
      refine ⟨fun k hk => ⟨by have := (a k hk).1; omega, (a k hk).2⟩, b, ?_⟩
      intro k hk hu
      by_cases hkw : k = w
      · subst hkw
        simp only [hu, Bool.true_and, decide_eq_true_eq, not_lt] at h
        exact h
      · exact c k (by omega) hu

/-- What is known about the `j` found by `wssj`. -/
structure JOk (tau : F) (ws : Nat) (low : Nat → Bool) (g row diag : Nat → F) (kii mn : F)
    (a : WssJ F) : Prop where
  pick : ∀ k, a.j = some k → k < ws ∧ low k = true ∧ 0 ≤ g k - mn ∧
    a.delta = (g k - mn) / (if kii + diag k - 2 * row k ≤ 0 then tau else kii + diag k - 2 * row k)
  big : ∀ k, k < ws → low k = true → g k ≤ a.maxGrad

omit [IsStrictOrderedRing F] in
theorem wssj_fold (big tau : F) (low : Nat → Bool) (g row diag : Nat → F) (kii mn : F) : ∀ ws,
    JOk tau ws low g row diag kii mn ((List.range ws).foldl (wssjStep tau low g row diag kii mn)
      { j := none, maxGrad := -big, maxFun := -big, delta := 0 }) := by
  intro ws
  induction ws with
  | zero => exact ⟨by simp, by intro k hk; omega⟩
  | succ w ih =>
    rw [List.range_succ, List.foldl_append, List.foldl_cons, List.foldl_nil]
    generalize (List.range w).foldl (wssjStep tau low g row diag kii mn)
      { j := none, maxGrad := -big, maxFun := -big, delta := 0 } = a at ih
    unfold wssjStep
    by_cases hl : low w = true
    · rw [if_pos hl]
      have hb : ∀ k, k < w + 1 → low k = true → g k ≤ max a.maxGrad (g w) := by
        intro k hk hlk
        by_cases hkw : k = w
        · subst hkw; exact le_max_right _ _
        · exact le_trans (ih.big k (by omega) hlk) (le_max_left _ _)
      have hp : ∀ k, a.j = some k → k < w + 1 ∧ low k = true ∧ 0 ≤ g k - mn ∧
          a.delta = (g k - mn) /
            (if kii + diag k - 2 * row k ≤ 0 then tau else kii + diag k - 2 * row k) :=
        fun k hk => ⟨by have := (ih.pick k hk).1; omega, (ih.pick k hk).2⟩
      simp only
      by_cases h1 : g w - mn < 0
      · rw [if_pos h1]; exact ⟨hp, hb⟩
      · rw [if_neg h1]
        by_cases h2 : a.maxFun < (g w - mn) /
            (if kii + diag w - 2 * row w ≤ 0 then tau else kii + diag w - 2 * row w) * (g w - mn)
        · rw [if_pos h2]
          refine ⟨?_, hb⟩
          intro k hk
          simp only [Option.some.injEq] at hk
          subst hk
          exact ⟨by omega, hl, not_lt.1 h1, rfl⟩
        · rw [if_neg h2]; exact ⟨hp, hb⟩
    · rw [if_neg hl]
      refine ⟨fun k hk => ⟨by have := (ih.pick k hk).1; omega, (ih.pick k hk).2⟩, ?_⟩
      intro k hk hlk
      by_cases hkw : k = w
      · subst hkw; exact absurd hlk hl
      · exact ih.big k (by omega) hlk

/-- A pair found by `wssi` and `wssj` with step length `d`. -/
structure PickOk (tau : F) (ws : Nat) (K : Nat → Nat → F) (up low : Nat → Bool) (g : Nat → F)
    (i j : Nat) (d : F) : Prop where
  hi : i < ws
  hj : j < ws
  up : up i = true
  low : low j = true
  b : 0 ≤ g j - g i
  d : d = (g j - g i) /
    (if K i i + K j j - 2 * K i j ≤ 0 then tau else K i i + K j j - 2 * K i j)

omit [IsStrictOrderedRing F] in
theorem pair_ok (big tau : F) (ws : Nat) (K : Nat → Nat → F) (up low : Nat → Bool) (g : Nat → F)
    (i j : Nat) (d : F)
    (h : mkPick (wssi big ws up g).1 (wssj big tau ws low g K (fun k => K k k)
      (wssi big ws up g).1 (wssi big ws up g).2) = some (i, j, d)) :
    PickOk tau ws K up low g i j d := by
  obtain ⟨a, -, -⟩ := wssi_spec big up g ws
  generalize wssi big ws up g = w at h a
  obtain ⟨i', mn⟩ := w
  cases i' with
  | none => simp [mkPick] at h
  | some i' =>
    simp only [wssj] at h
    have hj := wssj_fold big tau low g (K i') (fun k => K k k) (K i' i') mn ws
    generalize (List.range ws).foldl (wssjStep tau low g (K i') (fun k => K k k) (K i' i') mn)
      { j := none, maxGrad := -big, maxFun := -big, delta := 0 } = J at h hj
    obtain ⟨a1, a2, a3⟩ := a i' rfl
    simp only at a3
    cases hJ : J.j with
    | none => simp [mkPick, hJ] at h
    | some j' =>
      simp only [mkPick, hJ, Option.some.injEq, Prod.mk.injEq] at h
      obtain ⟨rfl, rfl, rfl⟩ := h
      obtain ⟨b1, b2, b3, b4⟩ := hj.pick j' hJ
      rw [a3] at b3 b4
      exact ⟨a1, b1, a2, b2, b3, b4⟩

/-- `diff` bounds the violation of every pair. -/
theorem diff_ge (big tau : F) (ws : Nat) (K : Nat → Nat → F) (up low : Nat → Bool) (g : Nat → F)
    (i j : Nat) (hi : i < ws) (hj : j < ws) (hu : up i = true) (hl : low j = true)
    (hb : g i < big) :
    g j - g i ≤ (wssj big tau ws low g K (fun k => K k k) (wssi big ws up g).1
      (wssi big ws up g).2).maxGrad - (wssi big ws up g).2 := by
  obtain ⟨a, b, c⟩ := wssi_spec big up g ws
  have hc := c i hi hu
  generalize wssi big ws up g = w at a b hc
  obtain ⟨i', mn⟩ := w
  cases i' with
  | none =>
    have := b rfl
    simp only at this hc
    rw [this] at hc
    exact absurd hb (not_lt.2 hc)
  | some i' =>
    have := (wssj_fold big tau low g (K i') (fun k => K k k) (K i' i') mn ws).big j hj hl
    simp only [wssj] at this ⊢
    simp only at hc
    linarith

/-! ### One step -/

/-- The change of `alpha * y`. -/
def bump (d : Nat → F) (δ : F) (i j : Nat) : Nat → F :=
  fun k => d k + (if k = i then δ else 0) - (if k = j then δ else 0)

omit [LinearOrder F] [IsStrictOrderedRing F] in
theorem bump_sum (d f : Nat → F) (δ : F) {ws i j : Nat} (hi : i < ws) (hj : j < ws) :
    ∑ k ∈ Finset.range ws, bump d δ i j k * f k =
      ∑ k ∈ Finset.range ws, d k * f k + δ * (f i - f j) := by
  have h : ∀ k, bump d δ i j k * f k =
      d k * f k + ((if k = i then δ * f i else 0) - (if k = j then δ * f j else 0)) := by
    intro k
    unfold bump
    split <;> split <;> simp_all <;> ring
  simp only [h, Finset.sum_add_distrib, Finset.sum_sub_distrib, Finset.sum_ite_eq', Finset.mem_range,
    hi, hj, if_true]
  ring

/-- Local objective: change of the dual objective caused by the change `d`. -/
def psi (ws : Nat) (K : Nat → Nat → F) (g0 d : Nat → F) : F :=
  (∑ k ∈ Finset.range ws, d k * ∑ m ∈ Finset.range ws, d m * K m k) / 2 +
    ∑ k ∈ Finset.range ws, d k * g0 k

theorem psi_bump (ws : Nat) (K : Nat → Nat → F) (g0 d : Nat → F) (δ : F) {i j : Nat} (hi : i < ws)
    (hj : j < ws) (hK : ∀ a b, a < ws → b < ws → K a b = K b a) :
    psi ws K g0 (bump d δ i j) = psi ws K g0 d +
      δ * ((g0 i + ∑ m ∈ Finset.range ws, d m * K m i) -
        (g0 j + ∑ m ∈ Finset.range ws, d m * K m j)) +
      δ * δ * (K i i + K j j - 2 * K i j) / 2 := by
  unfold psi
  rw [bump_sum _ _ _ hi hj, bump_sum d g0 _ hi hj]
  simp only [bump_sum d _ δ hi hj]
  have e1 : ∑ k ∈ Finset.range ws, d k * (∑ m ∈ Finset.range ws, d m * K m k +
      δ * (K i k - K j k)) =
      ∑ k ∈ Finset.range ws, d k * ∑ m ∈ Finset.range ws, d m * K m k +
      δ * (∑ m ∈ Finset.range ws, d m * K m i - ∑ m ∈ Finset.range ws, d m * K m j) := by
    rw [← Finset.sum_sub_distrib, Finset.mul_sum, ← Finset.sum_add_distrib]
    refine Finset.sum_congr rfl ?_
    intro k hk
    rw [hK i k hi (Finset.mem_range.1 hk), hK j k hj (Finset.mem_range.1 hk)]
    ring
  rw [e1, hK j i hj hi]
  ring

/-- The step decreases the local objective. -/
theorem psi_step {tau b q δ : F} (hb : 0 ≤ b) (hδ : 0 ≤ δ)
    (hd : δ ≤ b / (if q ≤ 0 then tau else q)) : -(δ * b) + δ * δ * q / 2 ≤ 0 := by
  by_cases hq : q ≤ 0
  · have h1 : 0 ≤ δ * b := mul_nonneg hδ hb
    have h2 : δ * δ * q ≤ 0 := mul_nonpos_of_nonneg_of_nonpos (mul_nonneg hδ hδ) hq
    linarith
  · rw [if_neg hq] at hd
    have hq : 0 < q := not_le.1 hq
    rw [le_div_iff₀ hq] at hd
    have h1 : δ * (δ * q) ≤ δ * b := mul_le_mul_of_nonneg_left hd hδ
    have h2 : 0 ≤ δ * b := mul_nonneg hδ hb
    linarith [mul_assoc δ δ q]

theorem pick_d_nonneg {tau : F} (htau : 0 < tau) {ws : Nat} {K : Nat → Nat → F}
    {up low : Nat → Bool} {g : Nat → F} {i j : Nat} {d : F}
    (h : PickOk tau ws K up low g i j d) : 0 ≤ d := by
  rw [h.d]
  apply div_nonneg h.b
  split
  · exact le_of_lt htau
  · next hq => exact le_of_lt (not_le.1 hq)

/-- Weights whose weighted sum of `alpha * y` is preserved: constant ones, for the nu
variants also those constant on each class. -/
def Bal (v : Variant) (y w : Nat → F) : Prop :=
  match v with
  | .c => ∀ i j, w i = w j
  | .nu => ∀ i j, y i = y j → w i = w j

/-- Invariant of the local solver; `a0` and `g0` are the values at its start. -/
structure LInv (v : Variant) (C : F) (ws : Nat) (K : Nat → Nat → F) (y a0 g0 : Nat → F)
    (s : Loc F) : Prop where
  upP : ∀ k, k < ws → s.upP k = flagUpP v C (s.alpha k) (y k)
  lowP : ∀ k, k < ws → s.lowP k = flagLowP v C (s.alpha k) (y k)
  upN : ∀ k, k < ws → s.upN k = flagUpN v (s.alpha k) (y k)
  lowN : ∀ k, k < ws → s.lowN k = flagLowN v C (s.alpha k) (y k)
  box : ∀ k, k < ws → 0 ≤ s.alpha k ∧ s.alpha k ≤ C
  grad : ∀ k, k < ws → s.grad k = g0 k +
    ∑ m ∈ Finset.range ws, (s.alpha m - a0 m) * y m * K m k
  bal : ∀ w, Bal v y w → ∑ k ∈ Finset.range ws, (s.alpha k - a0 k) * y k * w k = 0
  obj : (∀ a b, a < ws → b < ws → K a b = K b a) →
    psi ws K g0 (fun k => (s.alpha k - a0 k) * y k) ≤ 0

/-- Pairs chosen by the nu variants belong to one class. -/
def SameClass (v : Variant) (y : Nat → F) (i j : Nat) : Prop :=
  match v with
  | .c => True
  | .nu => y i = y j

theorem choose_ok {v : Variant} {p : Par F} {ws : Nat} {K : Nat → Nat → F} {y : Nat → F}
    (hy : Signs y) {s : Loc F} {a0 g0 : Nat → F} (h : LInv v p.C ws K y a0 g0 s) {i j : Nat} {d : F}
    (e : (choose v p ws K (fun k => K k k) s).pick = some (i, j, d)) :
    SameClass v y i j ∧ ∃ up low, PickOk p.tau ws K up low s.grad i j d := by
  have hpos : (1 : F) ≠ -1 := by
    have := one_pos (α := F)
    intro hh; linarith
  cases v with
  | c => exact ⟨trivial, _, _, pair_ok p.big p.tau ws K s.upP s.lowP s.grad i j d e⟩
  | nu =>
    simp only [choose] at e
    split at e
    · have hh := pair_ok p.big p.tau ws K s.upP s.lowP s.grad i j d e
      refine ⟨?_, _, _, hh⟩
      have h1 := hh.up
      have h2 := hh.low
      rw [h.upP i hh.hi] at h1
      rw [h.lowP j hh.hj] at h2
      simp only [flagUpP, flagLowP, isUpperPos, isLowerPos, Bool.and_eq_true,
        decide_eq_true_eq] at h1 h2
      show y i = y j
      rcases hy i with hi | hi <;> rcases hy j with hj | hj <;> rw [hi, hj] <;>
        rw [hi] at h1 <;> rw [hj] at h2 <;> exfalso <;> linarith [h1.2, h2.2]
    · have hh := pair_ok p.big p.tau ws K s.upN s.lowN s.grad i j d e
      refine ⟨?_, _, _, hh⟩
      have h1 := hh.up
      have h2 := hh.low
      rw [h.upN i hh.hi] at h1
      rw [h.lowN j hh.hj] at h2
      simp only [flagUpN, flagLowN, isUpperNeg, isLowerNeg, Bool.and_eq_true,
        decide_eq_true_eq] at h1 h2
      show y i = y j
      rcases hy i with hi | hi <;> rcases hy j with hj | hj <;> rw [hi, hj] <;>
        rw [hi] at h1 <;> rw [hj] at h2 <;> exfalso <;> linarith [h1.2, h2.2]

theorem update_alpha (v : Variant) (C : F) (K : Nat → Nat → F) {y : Nat → F} (hy : Signs y)
    (s : Loc F) (i j : Nat) (d : F) (a0 : Nat → F) (k : Nat) :
    ((update v C K y s i j d).alpha k - a0 k) * y k =
      bump (fun k => (s.alpha k - a0 k) * y k) (stepLen C s.alpha y i j d) i j k := by
  have hyy : ∀ k, y k * y k = 1 := by
    intro k
    rcases hy k with h | h <;> rw [h] <;> ring
  have h1 := hyy i
  have h2 := hyy j
  simp only [update, bump]
  generalize stepLen C s.alpha y i j d = δ
  by_cases hi : k = i
  · by_cases hj : k = j
    · subst hi; subst hj
      simp only [if_true]; ring
    · subst hi
      simp only [if_true, if_neg hj]
      linear_combination δ * h1
  · by_cases hj : k = j
    · subst hj
      simp only [if_true, if_neg hi]
      linear_combination -δ * h2
    · simp only [if_neg hi, if_neg hj]; ring

theorem update_box (v : Variant) {C : F} (K : Nat → Nat → F) {y : Nat → F} (hy : Signs y)
    (s : Loc F) {ws : Nat} {i j : Nat} (hi : i < ws) (hj : j < ws) {d : F} (hd : 0 ≤ d)
    (hb : ∀ k, k < ws → 0 ≤ s.alpha k ∧ s.alpha k ≤ C) :
    0 ≤ stepLen C s.alpha y i j d ∧ stepLen C s.alpha y i j d ≤ d ∧
    ∀ k, k < ws → 0 ≤ (update v C K y s i j d).alpha k ∧ (update v C K y s i j d).alpha k ≤ C := by
  obtain ⟨bi1, bi2⟩ := hb i hi
  obtain ⟨bj1, bj2⟩ := hb j hj
  have hone := one_pos (α := F)
  have l1 : stepLen C s.alpha y i j d ≤ if 0 < y i then C - s.alpha i else s.alpha i :=
    min_le_left _ _
  have l2 : stepLen C s.alpha y i j d ≤ if 0 < y j then s.alpha j else C - s.alpha j :=
    le_trans (min_le_right _ _) (min_le_left _ _)
  have l3 : stepLen C s.alpha y i j d ≤ d := le_trans (min_le_right _ _) (min_le_right _ _)
  have l0 : 0 ≤ stepLen C s.alpha y i j d := by
    refine le_min ?_ (le_min ?_ hd) <;> split <;> linarith
  refine ⟨l0, l3, ?_⟩
  intro k hk
  obtain ⟨bk1, bk2⟩ := hb k hk
  simp only [update]
  generalize stepLen C s.alpha y i j d = δ at *
  have n1 : ¬ (0 : F) < -1 := by linarith
  by_cases hki : k = i
  · subst hki
    by_cases hkj : k = j
    · subst hkj
      simp only [if_true]
      constructor <;> linarith
    · simp only [if_true, if_neg hkj]
      rcases hy k with h | h <;> rw [h] at l1 ⊢
      · rw [if_pos hone] at l1; constructor <;> linarith
      · rw [if_neg n1] at l1; constructor <;> linarith
  · simp only [if_neg hki]
    by_cases hkj : k = j
    · subst hkj
      simp only [if_true]
      rcases hy k with h | h <;> rw [h] at l2 ⊢
      · rw [if_pos hone] at l2; constructor <;> linarith
      · rw [if_neg n1] at l2; constructor <;> linarith
    · rw [if_neg hkj]; exact ⟨bk1, bk2⟩

theorem update_inv {v : Variant} {p : Par F} (htau : 0 < p.tau) {ws : Nat} {K : Nat → Nat → F}
    {y : Nat → F} (hy : Signs y) {s : Loc F} {a0 g0 : Nat → F} (h : LInv v p.C ws K y a0 g0 s)
    {i j : Nat} {d : F} (e : (choose v p ws K (fun k => K k k) s).pick = some (i, j, d)) :
    LInv v p.C ws K y a0 g0 (update v p.C K y s i j d) := by
  obtain ⟨hsame, up, low, hp⟩ := choose_ok hy h e
  obtain ⟨l0, l1, hbox⟩ := update_box v K hy s hp.hi hp.hj (pick_d_nonneg htau hp) h.box
  have ha := update_alpha v p.C K hy s i j d a0
  have hflag : ∀ k, k ≠ i → k ≠ j → (update v p.C K y s i j d).alpha k = s.alpha k := by
    intro k h1 h2
    simp only [update, if_neg h1, if_neg h2]
  refine ⟨?_, ?_, ?_, ?_, hbox, ?_, ?_, ?_⟩
  · intro k hk
    by_cases hh : k = i ∨ k = j
    · simp only [update, if_pos hh]
    · rw [hflag k (fun a => hh (Or.inl a)) (fun a => hh (Or.inr a)), ← h.upP k hk]
      simp only [update, if_neg hh]
  · intro k hk
    by_cases hh : k = i ∨ k = j
    · simp only [update, if_pos hh]
    · rw [hflag k (fun a => hh (Or.inl a)) (fun a => hh (Or.inr a)), ← h.lowP k hk]
      simp only [update, if_neg hh]
  · intro k hk
    by_cases hh : k = i ∨ k = j
    · simp only [update, if_pos hh]
    · rw [hflag k (fun a => hh (Or.inl a)) (fun a => hh (Or.inr a)), ← h.upN k hk]
      simp only [update, if_neg hh]
  · intro k hk
    by_cases hh : k = i ∨ k = j
    · simp only [update, if_pos hh]
    · rw [hflag k (fun a => hh (Or.inl a)) (fun a => hh (Or.inr a)), ← h.lowN k hk]
      simp only [update, if_neg hh]
  · intro k hk
    simp only [ha]
    rw [bump_sum _ (fun m => K m k) _ hp.hi hp.hj]
    have := h.grad k hk
    show s.grad k + _ = _
    rw [this]
    ring
  · intro w hw
    simp only [ha]
    rw [bump_sum _ _ _ hp.hi hp.hj, h.bal w hw]
    have : w i = w j := by
      cases v with
      | c => exact hw i j
      | nu => exact hw i j hsame
    rw [this]; ring
  · intro hK
    have hfun : (fun k => ((update v p.C K y s i j d).alpha k - a0 k) * y k) =
        bump (fun k => (s.alpha k - a0 k) * y k) (stepLen p.C s.alpha y i j d) i j :=
      funext ha
    rw [hfun, psi_bump ws K g0 _ _ hp.hi hp.hj hK, ← h.grad i hp.hi, ← h.grad j hp.hj]
    have h1 := h.obj hK
    have h2 := psi_step hp.b l0 (q := K i i + K j j - 2 * K i j) (by rw [← hp.d]; exact l1)
    have h3 : stepLen p.C s.alpha y i j d * (s.grad i - s.grad j) =
      -(stepLen p.C s.alpha y i j d * (s.grad j - s.grad i)) := by ring
    rw [h3]
    linarith

theorem innerLoop_inv {v : Variant} {p : Par F} (htau : 0 < p.tau) {ws : Nat} {K : Nat → Nat → F}
    {y : Nat → F} (hy : Signs y) {a0 g0 : Nat → F} (eps : F) : ∀ fuel s,
    LInv v p.C ws K y a0 g0 s →
    LInv v p.C ws K y a0 g0 (innerLoop v p ws K (fun k => K k k) y eps fuel s) := by
  intro fuel
  induction fuel with
  | zero => intro s h; exact h
  | succ f ih =>
    intro s h
    rw [innerLoop]
    split
    · exact h
    · split
      · exact h
      · next i j d e => exact ih _ (update_inv htau hy h e)

theorem inner_inv {v : Variant} {p : Par F} (htau : 0 < p.tau) {ws : Nat} {K : Nat → Nat → F}
    {y : Nat → F} (hy : Signs y) {a0 g0 : Nat → F} {s : Loc F} (old : F)
    (h : LInv v p.C ws K y a0 g0 s) :
    LInv v p.C ws K y a0 g0 (inner v p ws K (fun k => K k k) y s old).1 := by
  unfold inner
  split
  · exact h
  · exact innerLoop_inv htau hy _ _ _ h

end Verif.Smo
