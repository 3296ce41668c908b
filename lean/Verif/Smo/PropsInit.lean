import Verif.Smo.InitProof
import Verif.Smo.Props
import Verif.Half.Model

/-
C73 to C75: the start of the SVM solver.
-/
namespace Verif.Smo
open Verif.SvmKernel

variable {F : Type} [Field F] [LinearOrder F]

/-! ### C73: gradient and box of a warm start -/

/-- A warm start begins with the gradient that belongs to the given `alpha`. -/
def C73_statement (m : Kind) : Prop :=
  ∀ (F : Type) [Field F] [LinearOrder F] [IsStrictOrderedRing F] (n : Nat) (eps : F)
    (kcol : Nat → Nat → F) (y alpha : Nat → F), 0 < n → ∀ x, x < m.size n →
    warmGrad m n eps kcol y (response m n y) alpha x =
      exactGrad n (m.size n) kcol (response m n y)
        (linearTerm m.regression m.isNu n eps y (response m n y)) alpha x

/-- The exact gradient of the regression models. -/
theorem exact_reg (m : Kind) (hm : m.regression = true) (n : Nat) (kcol : Nat → Nat → F)
    (c y alpha : Nat → F) (x : Nat) :
    exactGrad n (m.size n) kcol (response m n y) c alpha x =
      c x + ∑ i ∈ Finset.range n, (alpha i - alpha (i + n)) * kcol (i % n) (x % n) := by
  rw [← regression_sum]
  simp only [exactGrad, Kind.size, hm, if_true, response]

/-- The gradient of a warm start, unless all coefficients are zero. -/
theorem warm_nonempty (m : Kind) (n : Nat) (eps : F) (kcol : Nat → Nat → F) (y alpha : Nat → F)
    (h : ∃ i, i < n ∧ warmCoeff m n alpha (response m n y) i ≠ 0) (x : Nat) (hx : x < m.size n) :
    warmGrad m n eps kcol y (response m n y) alpha x =
      exactGrad n (m.size n) kcol (response m n y)
        (linearTerm m.regression m.isNu n eps y (response m n y)) alpha x := by
  obtain ⟨i, hi, hc⟩ := h
  have hne : ((List.range n).filter fun i => warmCoeff m n alpha (response m n y) i ≠ 0) ≠ [] :=
    List.ne_nil_of_mem (a := i) (by simp [hi, hc])
  have hlen : 0 < ((List.range n).filter
      fun i => warmCoeff m n alpha (response m n y) i ≠ 0).length := List.length_pos_of_ne_nil hne
  have hacc : ∀ r, warmLoop n kcol (warmCoeff m n alpha (response m n y))
      ((List.range n).filter fun i => warmCoeff m n alpha (response m n y) i ≠ 0)
      (min 256 ((List.range n).filter
        fun i => warmCoeff m n alpha (response m n y) i ≠ 0).length)
      ((List.range n).filter fun i => warmCoeff m n alpha (response m n y) i ≠ 0).length 0
      (fun _ => 0) r =
      ∑ j ∈ Finset.range n, warmCoeff m n alpha (response m n y) j * kcol (j % n) r := by
    intro r
    rw [warmLoop_eq _ _ _ _ _ (by omega) r _ _ _ (by omega), List.drop_zero, zero_add,
      filter_sum (warmCoeff m n alpha (response m n y)) (fun j => kcol (j % n) r), list_sum_range]
  unfold warmGrad
  rw [if_neg hne]
  cases m with
  | svc =>
    simp only [hacc]
    have hx' : x < n := hx
    simp only [exactGrad, linearTerm, Kind.regression, Kind.isNu, Kind.size, warmCoeff,
      entryKernel, Nat.mod_eq_of_lt hx', Bool.false_eq_true, if_false]
    ring
  | nusvc =>
    simp only [hacc]
    have hx' : x < n := hx
    simp only [exactGrad, linearTerm, Kind.regression, Kind.isNu, Kind.size, warmCoeff,
      entryKernel, Nat.mod_eq_of_lt hx', Bool.false_eq_true, if_false]
    ring
  | svr =>
    simp only [hacc]
    have hx' : x < 2 * n := hx
    rw [exact_reg _ rfl]
    simp only [linearTerm, Kind.regression, Kind.isNu, warmCoeff, if_true]
    by_cases h : x < n
    · rw [if_pos h, if_pos h, Nat.mod_eq_of_lt h]
      ring
    · rw [if_neg h, if_neg h, Nat.mod_eq_sub_mod (by omega), Nat.mod_eq_of_lt (by omega)]
      ring
  | nusvr =>
    simp only [hacc]
    have hx' : x < 2 * n := hx
    rw [exact_reg _ rfl]
    simp only [linearTerm, Kind.regression, Kind.isNu, warmCoeff, if_true]
    by_cases h : x < n
    · rw [if_pos h, Nat.mod_eq_of_lt h]
      ring
    · rw [if_neg h, Nat.mod_eq_sub_mod (by omega), Nat.mod_eq_of_lt (by omega)]
      ring

/-- The right gradient when all coefficients are zero. -/
theorem exact_empty (m : Kind) (n : Nat) (kcol : Nat → Nat → F) (c y alpha : Nat → F)
    (h : ∀ i, i < n → warmCoeff m n alpha (response m n y) i = 0) (x : Nat) :
    exactGrad n (m.size n) kcol (response m n y) c alpha x = c x := by
  cases m with
  | svc =>
    unfold exactGrad
    rw [Finset.sum_eq_zero, add_zero]
    intro z hz
    have e : alpha z * response .svc n y z = 0 := h z (Finset.mem_range.1 hz)
    rw [e, zero_mul]
  | nusvc =>
    unfold exactGrad
    rw [Finset.sum_eq_zero, add_zero]
    intro z hz
    have e : alpha z * response .nusvc n y z = 0 := h z (Finset.mem_range.1 hz)
    rw [e, zero_mul]
  | svr =>
    rw [exact_reg _ rfl]
    rw [Finset.sum_eq_zero, add_zero]
    intro z hz
    have e : alpha z - alpha (z + n) = 0 := h z (Finset.mem_range.1 hz)
    rw [e, zero_mul]
  | nusvr =>
    rw [exact_reg _ rfl]
    rw [Finset.sum_eq_zero, add_zero]
    intro z hz
    have e : alpha z - alpha (z + n) = 0 := h z (Finset.mem_range.1 hz)
    rw [e, zero_mul]

/-- What the code computes when all coefficients are zero. -/
theorem warm_empty (m : Kind) (n : Nat) (eps : F) (kcol : Nat → Nat → F) (y alpha : Nat → F)
    (h : ∀ i, i < n → warmCoeff m n alpha (response m n y) i = 0) (x : Nat) (hx : x < m.size n) :
    warmGrad m n eps kcol y (response m n y) alpha x =
      if m.regression then -y (x % n) else -response m n y x := by
  have hnil : ((List.range n).filter fun i => warmCoeff m n alpha (response m n y) i ≠ 0) = [] := by
    rw [List.filter_eq_nil_iff]
    intro i hi
    simpa using h i (List.mem_range.1 hi)
  unfold warmGrad
  rw [if_pos hnil]
  by_cases hr : m.regression = true
  · rw [if_pos hr, if_pos hr]
    have hx' : x < 2 * n := by simpa [Kind.size, hr] using hx
    by_cases h : x < n
    · rw [if_pos h, Nat.mod_eq_of_lt h]
    · rw [if_neg h, Nat.mod_eq_sub_mod (by omega), Nat.mod_eq_of_lt (by omega)]
  · rw [if_neg hr, if_neg hr]

/-- C-SVC and nu-SVR: the gradient of a warm start is always right. -/
theorem C73_warm_svc : C73_statement .svc := by
  intro F _ _ _ n eps kcol y alpha hn x hx
  by_cases h : ∃ i, i < n ∧ warmCoeff .svc n alpha (response .svc n y) i ≠ 0
  · exact warm_nonempty .svc n eps kcol y alpha h x hx
  · push Not at h
    rw [warm_empty .svc n eps kcol y alpha h x hx, exact_empty .svc n kcol _ y alpha h x]
    rfl

theorem C73_warm_nusvr : C73_statement .nusvr := by
  intro F _ _ _ n eps kcol y alpha hn x hx
  by_cases h : ∃ i, i < n ∧ warmCoeff .nusvr n alpha (response .nusvr n y) i ≠ 0
  · exact warm_nonempty .nusvr n eps kcol y alpha h x hx
  · push Not at h
    rw [warm_empty .nusvr n eps kcol y alpha h x hx, exact_empty .nusvr n kcol _ y alpha h x]
    rfl

/-- epsilon-SVR and nu-SVC: right if some coefficient is not zero.  With `eps ≠ 0` the
condition is also necessary for epsilon-SVR. -/
theorem C73_warm_partial (m : Kind) (n : Nat) (eps : F) (kcol : Nat → Nat → F) (y alpha : Nat → F)
    (h : ∃ i, i < n ∧ warmCoeff m n alpha (response m n y) i ≠ 0) (x : Nat) (hx : x < m.size n) :
    warmGrad m n eps kcol y (response m n y) alpha x =
      exactGrad n (m.size n) kcol (response m n y)
        (linearTerm m.regression m.isNu n eps y (response m n y)) alpha x :=
  warm_nonempty m n eps kcol y alpha h x hx

theorem C73_warm_svr_exact (n : Nat) (eps : F) (kcol : Nat → Nat → F) (y alpha : Nat → F)
    (hn : 0 < n) (he : eps ≠ 0) :
    (∀ x, x < 2 * n → warmGrad .svr n eps kcol y (response .svr n y) alpha x =
      exactGrad n (2 * n) kcol (response .svr n y)
        (linearTerm true false n eps y (response .svr n y)) alpha x) ↔
    ∃ i, i < n ∧ alpha i ≠ alpha (i + n) := by
  constructor
  · intro h
    by_contra hc
    push Not at hc
    have h0 : ∀ i, i < n → warmCoeff .svr n alpha (response .svr n y) i = 0 := by
      intro i hi
      simp only [warmCoeff, Kind.regression, if_true]
      rw [hc i hi, sub_self]
    have h1 := h 0 (by omega)
    have e1 := exact_empty .svr n kcol (linearTerm true false n eps y (response .svr n y)) y alpha h0 0
    have e2 := warm_empty .svr n eps kcol y alpha h0 0 (show 0 < 2 * n by omega)
    rw [e2] at h1
    have e1' : exactGrad n (2 * n) kcol (response .svr n y)
        (linearTerm true false n eps y (response .svr n y)) alpha 0 =
        linearTerm true false n eps y (response .svr n y) 0 := e1
    rw [e1'] at h1
    simp only [Kind.regression, linearTerm, hn, if_pos] at h1
    exact he (by linear_combination -h1)
  · rintro ⟨i, hi, hne⟩ x hx
    refine warm_nonempty .svr n eps kcol y alpha ⟨i, hi, ?_⟩ x hx
    simpa [warmCoeff, Kind.regression, sub_eq_zero] using hne

/-- **Finding.** If all `alpha` of the low-precision solution of epsilon-SVR are zero
(for example because all targets are within the tube), the gradient lacks `eps`. -/
theorem C73_warm_svr_violated : ¬ C73_statement .svr := by
  intro h
  have := h ℚ 1 1 (fun _ _ => 1) (fun _ => 0) (fun _ => 0) (by omega) 0 (by decide)
  revert this
  decide +kernel

/-- The same for nu-SVC, where the gradient is `-response` instead of zero. -/
theorem C73_warm_nusvc_violated : ¬ C73_statement .nusvc := by
  intro h
  have := h ℚ 1 1 (fun _ _ => 1) (fun _ => 1) (fun _ => 0) (by omega) 0 (by decide)
  revert this
  decide +kernel

/-- Two samples, both targets within the tube of width 1: with the true gradient the
start `alpha = 0` is optimal (no pair violates the optimality conditions), with the
gradient of the warm start the first iteration changes `alpha`. -/
example :
    let y : Nat → ℚ := fun i => if i % 2 = 0 then 1 / 2 else -1 / 2
    let K := linK [1, -1]
    let p : Par ℚ := { C := 1, tau := 1 / 1000, tol := 1 / 1000, big := 1000000, inner := 10 }
    let st (g : Nat → ℚ) : State ℚ := { alpha := fun _ => 0, grad := g, ws := fun _ => 0, firstDiff := 0 }
    (List.range 4).map (train .c p 2 4 4 K (response .svr 2 y) (isort 4) 1
      (st (warmGrad .svr 2 1 K y (response .svr 2 y) fun _ => 0))).alpha ≠ [0, 0, 0, 0] ∧
    (List.range 4).map (train .c p 2 4 4 K (response .svr 2 y) (isort 4) 1
      (st (coldGrad .svr 2 1 1 K y (response .svr 2 y) (fun _ => 0) []))).alpha = [0, 0, 0, 0] := by
  decide +kernel

/-- The multipliers of the low-precision solution, which are between 0 and the
low-precision `C` (svm.cpp 591), are within the box of the full-precision problem:
rounding `C` to half precision and back must not increase it.  Float patterns of
non-negative numbers are ordered as the numbers. -/
def C73_box_statement : Prop :=
  ∀ c f : Nat, c < 0x7f800000 → Half.toFloat (Half.toHalf c) = some f → f ≤ c

/-- **Finding.** `C = 0.3f` becomes 0.300048828125: multipliers at the bound exceed `C`
in the full-precision problem. -/
theorem C73_box_violated : ¬ C73_box_statement := by
  intro h
  have := h 0x3e99999a 0x3e99a000 (by decide) (by decide +kernel)
  revert this
  decide

/-- `C = 100000` becomes infinity. -/
example : Half.toHalf 0x47c35000 = 0x7c00 := by decide +kernel

/-! ### C74: sums shared between threads -/

omit [LinearOrder F] in
/-- `update_gradient_impl`: for every distribution of the columns over the threads and
every order in which they are added, the gradient is that of the sequential model, and
the buffers are zero again. -/
theorem C74_update_gradient (threads n ncol : Nat) (kcol : Nat → Nat → F) (diff : Nat → F)
    (samples : Nat → Nat) (events : List (Nat × Nat)) (grad : Nat → F)
    (hth : ∀ e ∈ events, e.1 < threads)
    (hperm : (events.map Prod.snd).Perm (List.range ncol)) (buf : Nat → Nat → F)
    (hbuf : ∀ t r, t < threads → r < n → buf t r = 0) (hn : 0 < n) :
    let out := threadedUpdate threads n (fun i r => kcol (samples i) r) diff events buf grad
    (∀ x, out.1 x = grad x + ∑ i ∈ Finset.range ncol, diff i * kcol (samples i) (x % n)) ∧
    ∀ t r, t < threads → r < n → out.2 t r = 0 := by
  refine ⟨?_, ?_⟩
  · intro x
    simp only [threadedUpdate, merge_eq, zero_add]
    rw [accumulate_sum _ _ _ _ _ hth, events_sum (fun i r => diff i * kcol (samples i) r) _ ncol _ hperm, Finset.sum_eq_zero, zero_add]
    intro t ht
    exact hbuf t _ (Finset.mem_range.1 ht) (Nat.mod_lt _ hn)
  · intro t r ht hr
    simp [threadedUpdate, ht, hr]

omit [LinearOrder F] in
/-- The same as the gradient update of the training loop (`updateGradient`). -/
theorem C74_update_gradient_model (threads n ncol : Nat) (kcol : Nat → Nat → F) (diff : Nat → F)
    (ws : Nat → Nat) (events : List (Nat × Nat)) (grad : Nat → F)
    (hth : ∀ e ∈ events, e.1 < threads)
    (hperm : (events.map Prod.snd).Perm (List.range ncol)) (hn : 0 < n) (x : Nat) :
    (threadedUpdate threads n (fun i r => kcol (ws i % n) r) diff events (fun _ _ => 0) grad).1 x =
      updateGradient n ncol kcol ws diff grad x := by
  rw [(C74_update_gradient threads n ncol kcol diff (fun i => ws i % n) events grad hth hperm _
    (fun _ _ _ _ => rfl) hn).1 x]
  rfl

example :
    let col : Nat → Nat → ℚ := fun i r => (i + 1) * (r + 2)
    (List.range 3).map (threadedUpdate 2 3 col (fun i => i + 1) [(1, 2), (0, 0), (1, 1)]
      (fun _ _ => 0) fun _ => 5).1 = [33, 47, 61] ∧
    (List.range 3).map (updateGradient 3 3 col (fun i => i) (fun i => i + 1) fun _ => 5) =
      [33, 47, 61] := by decide +kernel

omit [LinearOrder F] in
theorem initialise_eq (m : Kind) (n threads : Nat) (kcol : Nat → Nat → F) (diff : Nat → F)
    (l : List Nat) (events : List (Nat × Nat)) (grad : Nat → F)
    (hth : ∀ e ∈ events, e.1 < threads)
    (hperm : (events.map Prod.snd).Perm (List.range (l.length / nuBlockSize l.length + 1)))
    (x : Nat) :
    initialiseGradient m n threads kcol diff l events grad x =
      grad x + if m = .nusvr then 0 else (l.map fun z => diff z * kcol (z % n) (x % n)).sum := by
  unfold initialiseGradient
  split
  · have : l = [] := List.eq_nil_of_length_eq_zero (by omega)
    subst this
    simp
  · simp only [merge_eq]
    rw [accumulate_sum _ _ _ _ _ hth, events_sum (blockTerm m n kcol diff l) _ _ _ hperm,
      Finset.sum_const_zero, zero_add]
    congr 1
    by_cases hm : m = .nusvr
    · rw [if_pos hm]
      refine Finset.sum_eq_zero fun i _ => ?_
      simp only [blockTerm, if_pos hm, ← List.sum_map_add]
      rw [List.sum_eq_zero]
      intro a ha
      obtain ⟨z, _, rfl⟩ := List.mem_map.1 ha
      ring
    · rw [if_neg hm, ← list_sum_range]
      simp only [blockTerm, if_neg hm]
      rw [← flatMap_sum (fun z => diff z * kcol (z % n) (x % n)) (nuBlock l.length l),
        nuBlock_partition l (by omega)]

/-- The initial gradient of nu-SVC: for every distribution of the blocks over the
threads and every order of execution it is the exact gradient. -/
theorem C74_initial_gradient_nusvc (n threads : Nat) (eps : F) (kcol : Nat → Nat → F)
    (y alpha : Nat → F) (events : List (Nat × Nat)) (hth : ∀ e ∈ events, e.1 < threads)
    (hperm : (events.map Prod.snd).Perm (List.range ((nonZero n alpha).length /
      nuBlockSize (nonZero n alpha).length + 1))) (x : Nat) :
    coldGrad .nusvc n threads eps kcol y (response .nusvc n y) alpha events x =
      exactGrad n n kcol (response .nusvc n y) (fun _ => 0) alpha x := by
  show initialiseGradient .nusvc n threads kcol _ (nonZero n alpha) events _ x = _
  rw [initialise_eq _ _ _ _ _ _ _ _ hth hperm, if_neg (by decide)]
  simp only [exactGrad, entryKernel, nonZero]
  congr 1
  have := filter_sum alpha (fun z => response .nusvc n y z * kcol (z % n) (x % n)) (List.range n)
  rw [← list_sum_range]
  simp only [mul_assoc]
  exact this

/-- The same for nu-SVR, whose two halves of `alpha` are equal. -/
theorem C74_initial_gradient_nusvr (n threads : Nat) (eps : F) (kcol : Nat → Nat → F)
    (y alpha : Nat → F) (events : List (Nat × Nat)) (hth : ∀ e ∈ events, e.1 < threads)
    (hperm : (events.map Prod.snd).Perm (List.range ((nonZero n alpha).length /
      nuBlockSize (nonZero n alpha).length + 1)))
    (hhalf : ∀ i, i < n → alpha (i + n) = alpha i) (x : Nat) (hx : x < 2 * n) :
    coldGrad .nusvr n threads eps kcol y (response .nusvr n y) alpha events x =
      exactGrad n (2 * n) kcol (response .nusvr n y) (fun x => -y (x % n)) alpha x := by
  show initialiseGradient .nusvr n threads kcol _ (nonZero n alpha) events _ x = _
  rw [initialise_eq _ _ _ _ _ _ _ _ hth hperm, if_pos rfl, add_zero]
  have e := exact_reg .nusvr rfl n kcol (fun x => -y (x % n)) y alpha x
  have e' : exactGrad n (2 * n) kcol (response .nusvr n y) (fun x => -y (x % n)) alpha x =
    exactGrad n (Kind.nusvr.size n) kcol (response .nusvr n y) (fun x => -y (x % n)) alpha x := rfl
  rw [e', e, Finset.sum_eq_zero, add_zero]
  · by_cases h : x < n
    · rw [if_pos h, Nat.mod_eq_of_lt h]
    · rw [if_neg h, Nat.mod_eq_sub_mod (by omega), Nat.mod_eq_of_lt (by omega)]
  · intro z hz
    rw [hhalf z (Finset.mem_range.1 hz), sub_self, zero_mul]

/-- Forty samples in two blocks, executed by two threads in either order. -/
example :
    let y : Nat → ℚ := fun i => if i % 3 = 0 then 1 else 0
    let K : Nat → Nat → ℚ := fun i r => i + r
    let a : Nat → ℚ := fun _ => 1 / 2
    let g := coldGrad .nusvc 40 2 0 K y (response .nusvc 40 y) a
    g [(1, 1), (0, 0)] 7 = -159 ∧ g [(0, 0), (0, 1)] 7 = -159 := by decide +kernel

/-! ### C75: the cold start is feasible -/

/-- Feasibility: multipliers in the box, balanced classes and, for the nu models, the
prescribed sum in each class (`C` is 1 for nu-SVC). -/
def Feasible (m : Kind) (n : Nat) (C nu : F) (y alpha : Nat → F) : Prop :=
  InBox C (m.size n) alpha ∧
  (∑ x ∈ Finset.range (m.size n), y x * alpha x = 0) ∧
  (m.isNu = true → ∀ l, l = 1 ∨ l = -1 →
    ∑ x ∈ Finset.range (m.size n) with y x = l, alpha x = C * nu * n / 2)

/-- The cold start is feasible and its gradient is exact. -/
def C75_statement (m : Kind) : Prop :=
  ∀ (F : Type) [Field F] [LinearOrder F] [IsStrictOrderedRing F] (n threads : Nat)
    (C nu eps : F) (kcol : Nat → Nat → F) (y : Nat → F) (events : List (Nat × Nat)),
    0 < n → 0 < C → (m = .nusvc → C = 1) → 0 < nu → nu ≤ 1 →
    (m.regression = false → ∀ i, y i = 0 ∨ y i = 1) →
    (∀ e ∈ events, e.1 < threads) →
    (∀ k, k = (nonZero n (coldAlpha m n C nu (response m n y))).length →
      (events.map Prod.snd).Perm (List.range (k / nuBlockSize k + 1))) →
    Feasible m n C nu (response m n y) (coldAlpha m n C nu (response m n y)) ∧
    ∀ x, x < m.size n →
      coldGrad m n threads eps kcol y (response m n y) (coldAlpha m n C nu (response m n y)) events x =
      exactGrad n (m.size n) kcol (response m n y)
        (linearTerm m.regression m.isNu n eps y (response m n y))
        (coldAlpha m n C nu (response m n y)) x

omit [LinearOrder F] in
theorem exact_zero (n size : Nat) (kcol : Nat → Nat → F) (y c : Nat → F) (x : Nat) :
    exactGrad n size kcol y c (fun _ => 0) x = c x := by
  simp [exactGrad]

theorem C75_start_svc : C75_statement .svc := by
  intro F _ _ _ n threads C nu eps kcol y events hn hC _ h0 h1 hy _ _
  refine ⟨⟨fun x _ => ⟨le_refl _, le_of_lt hC⟩, by simp [coldAlpha], fun h => by cases h⟩, ?_⟩
  intro x hx
  show _ = exactGrad n n kcol _ _ (fun _ => 0) x
  rw [exact_zero]
  rfl

theorem C75_start_svr : C75_statement .svr := by
  intro F _ _ _ n threads C nu eps kcol y events hn hC _ h0 h1 hy _ _
  refine ⟨⟨fun x _ => ⟨le_refl _, le_of_lt hC⟩, by simp [coldAlpha], fun h => by cases h⟩, ?_⟩
  intro x hx
  have hx' : x < 2 * n := hx
  show _ = exactGrad n (2 * n) kcol _ _ (fun _ => 0) x
  rw [exact_zero]
  simp only [coldGrad, linearTerm, Kind.regression, Kind.isNu]
  by_cases h : x < n
  · rw [if_pos h, if_pos h, Nat.mod_eq_of_lt h]
  · rw [if_neg h, if_neg h, Nat.mod_eq_sub_mod (by omega), Nat.mod_eq_of_lt (by omega)]

theorem C75_start_nusvr : C75_statement .nusvr := by
  intro F _ _ _ n threads C nu eps kcol y events hn hC _ h0 h1 hy hth hperm
  have hs : 0 ≤ C * nu * n / 2 := by positivity
  obtain ⟨i1, i3, i4, i6⟩ := nusvr_spec C (C * nu * n / 2) (le_of_lt hC) hs n
  have hhalf : ∀ i, i < n → coldAlpha .nusvr n C nu (response .nusvr n y) (i + n) =
      coldAlpha .nusvr n C nu (response .nusvr n y) i := by
    intro i hi
    simp only [coldAlpha, Nat.add_mod_right]
  have hfirst : ∀ i, i < n → coldAlpha .nusvr n C nu (response .nusvr n y) i =
      (nusvrAlpha C (C * nu * n / 2) n).2 i := by
    intro i hi
    simp only [coldAlpha, Nat.mod_eq_of_lt hi]
  have hsum : ∑ x ∈ Finset.range n, (nusvrAlpha C (C * nu * n / 2) n).2 x = C * nu * n / 2 := by
    rw [nusvr_sum C _ (le_of_lt hC) hs n, min_eq_left]
    have : C * n * nu ≤ C * n * 1 := mul_le_mul_of_nonneg_left h1 (by positivity)
    have h3 : 0 ≤ C * (n : F) := by positivity
    linarith
  refine ⟨⟨fun x _ => i3 _, ?_, ?_⟩, ?_⟩
  · show ∑ x ∈ Finset.range (2 * n), _ = (0 : F)
    rw [Nat.two_mul, Finset.sum_range_add, ← Finset.sum_add_distrib]
    refine Finset.sum_eq_zero fun i hi => ?_
    have hi' := Finset.mem_range.1 hi
    rw [Nat.add_comm n i, hhalf i hi']
    have r1 : response .nusvr n y i = 1 := by simp [response, Kind.regression, hi']
    have r2 : response .nusvr n y (i + n) = -1 := by simp [response, Kind.regression]
    rw [r1, r2]
    ring
  · intro _ l hl
    show ∑ x ∈ Finset.range (2 * n) with _, _ = _
    rw [Finset.sum_filter, Nat.two_mul, Finset.sum_range_add, ← Finset.sum_add_distrib, ← hsum]
    refine Finset.sum_congr rfl fun i hi => ?_
    have hi' := Finset.mem_range.1 hi
    rw [Nat.add_comm n i, hhalf i hi', hfirst i hi']
    have r1 : response .nusvr n y i = 1 := by simp [response, Kind.regression, hi']
    have r2 : response .nusvr n y (i + n) = -1 := by simp [response, Kind.regression]
    have hne : (1 : F) ≠ -1 := by linarith [zero_lt_one (α := F)] 
    rw [r1, r2]
    rcases hl with rfl | rfl
    · rw [if_pos rfl, if_neg hne.symm, add_zero]
    · rw [if_neg hne, if_pos rfl, zero_add]
  · intro x hx
    exact C74_initial_gradient_nusvr n threads eps kcol y _ events hth (hperm _ rfl) hhalf x hx

/-- nu-SVC: box and gradient are right for every `nu`; the sum over a class is the
prescribed one, or the size of the class if that is smaller. -/
theorem C75_start_nusvc [IsStrictOrderedRing F] (n threads : Nat) (nu eps : F)
    (kcol : Nat → Nat → F) (y : Nat → F) (events : List (Nat × Nat)) (h0 : 0 < nu)
    (hy : ∀ i, y i = 0 ∨ y i = 1) (hth : ∀ e ∈ events, e.1 < threads)
    (hperm : ∀ k, k = (nonZero n (coldAlpha .nusvc n 1 nu (response .nusvc n y))).length →
      (events.map Prod.snd).Perm (List.range (k / nuBlockSize k + 1))) :
    let resp := response .nusvc n y
    let alpha := coldAlpha .nusvc n 1 nu resp
    InBox 1 n alpha ∧
    (∀ l, l = 1 ∨ l = -1 → ∑ x ∈ Finset.range n with resp x = l, alpha x =
      min (nu * n / 2) (classSize n resp l : F)) ∧
    ∀ x, x < n → coldGrad .nusvc n threads eps kcol y resp alpha events x =
      exactGrad n n kcol resp (fun _ => 0) alpha x := by
  have hs : 0 ≤ nu * n / 2 := by positivity
  obtain ⟨_, _, i3, _⟩ := nusvc_spec (response .nusvc n y) (nu * n / 2) hs n
  obtain ⟨p1, p2⟩ := nusvc_sums (response .nusvc n y) (nu * n / 2) hs n
  have hne : (1 : F) ≠ -1 := by linarith [zero_lt_one (α := F)]
  have hresp : ∀ x, response .nusvc n y x = 1 ∨ response .nusvc n y x = -1 := by
    intro x
    rcases hy x with h | h <;> simp [response, Kind.regression, h]
  have hpos : ∀ x, 0 < response .nusvc n y x ↔ response .nusvc n y x = 1 := by
    intro x
    rcases hresp x with h | h <;> simp [h, hne.symm]
  have hneg : ∀ x, ¬ 0 < response .nusvc n y x ↔ response .nusvc n y x = -1 := by
    intro x
    rcases hresp x with h | h <;> simp [h, hne]
  refine ⟨fun x _ => i3 x, ?_, ?_⟩
  · intro l hl
    rcases hl with rfl | rfl
    · rw [Finset.filter_congr fun x _ => hpos x] at p1
      exact p1
    · rw [Finset.filter_congr fun x _ => hneg x] at p2
      exact p2
  · intro x hx
    exact C74_initial_gradient_nusvc n threads eps kcol y _ events hth (hperm _ rfl) x

/-- nu-SVC: the start is feasible if neither class is smaller than `nu * n / 2`. -/
theorem C75_start_nusvc_partial [IsStrictOrderedRing F] (n threads : Nat) (nu eps : F)
    (kcol : Nat → Nat → F) (y : Nat → F) (events : List (Nat × Nat)) (h0 : 0 < nu)
    (hy : ∀ i, y i = 0 ∨ y i = 1) (hth : ∀ e ∈ events, e.1 < threads)
    (hperm : ∀ k, k = (nonZero n (coldAlpha .nusvc n 1 nu (response .nusvc n y))).length →
      (events.map Prod.snd).Perm (List.range (k / nuBlockSize k + 1)))
    (hnu : ∀ l, l = 1 ∨ l = -1 → nu * n / 2 ≤ (classSize n (response .nusvc n y) l : F)) :
    Feasible .nusvc n 1 nu (response .nusvc n y) (coldAlpha .nusvc n 1 nu (response .nusvc n y)) := by
  obtain ⟨hb, hsum, _⟩ := C75_start_nusvc n threads nu eps kcol y events h0 hy hth hperm
  have hcls : ∀ l, l = 1 ∨ l = -1 →
      ∑ x ∈ Finset.range n with response .nusvc n y x = l,
        coldAlpha .nusvc n 1 nu (response .nusvc n y) x = nu * n / 2 := by
    intro l hl
    rw [hsum l hl, min_eq_left (hnu l hl)]
  refine ⟨hb, ?_, fun _ l hl => ?_⟩
  · show ∑ x ∈ Finset.range n, _ = (0 : F)
    have hne : (1 : F) ≠ -1 := by linarith [zero_lt_one (α := F)]
    have e : ∀ x, response .nusvc n y x * coldAlpha .nusvc n 1 nu (response .nusvc n y) x =
        (if response .nusvc n y x = 1 then coldAlpha .nusvc n 1 nu (response .nusvc n y) x else 0) -
        (if response .nusvc n y x = -1 then coldAlpha .nusvc n 1 nu (response .nusvc n y) x else 0) := by
      intro x
      have hr : response .nusvc n y x = 1 ∨ response .nusvc n y x = -1 := by
        rcases hy x with h | h <;> simp [response, Kind.regression, h]
      rcases hr with h | h <;> rw [h] <;> simp [hne, hne.symm]
    rw [Finset.sum_congr rfl fun x _ => e x, Finset.sum_sub_distrib, ← Finset.sum_filter,
      ← Finset.sum_filter, hcls 1 (Or.inl rfl), hcls (-1) (Or.inr rfl), sub_self]
  · rw [one_mul]
    exact hcls l hl

/-- **Finding.** `nu` is not compared with the sizes of the classes: with one positive and
three negative samples and `nu = 1` the start violates the equality constraints, which
the training loop then keeps. -/
theorem C75_start_nusvc_violated : ¬ C75_statement .nusvc := by
  intro h
  have h1 := (h ℚ 4 1 1 1 0 (fun _ _ => 0) (fun i => if i = 0 then 1 else 0) [(0, 0), (0, 1)]
    (by omega) (by decide) (fun _ => rfl) (by decide) (by decide)
    (fun _ i => by by_cases h : i = 0 <;> simp [h]) (by decide)
    (by rintro k rfl; decide +kernel)).1.2.1
  revert h1
  decide +kernel

example : (List.range 4).map (coldAlpha .nusvc 4 (1 : ℚ) 1
    (response .nusvc 4 fun i => if i = 0 then 1 else 0)) = [1, 1, 1, 0] := by decide +kernel

example : (List.range 6).map (coldAlpha .nusvc 6 (1 : ℚ) (1 / 2)
    (response .nusvc 6 fun i => if i % 2 = 0 then 1 else 0)) = [1, 1, 1 / 2, 1 / 2, 0, 0] ∧
  (List.range 8).map (coldAlpha .nusvr 4 (3 : ℚ) (3 / 4)
    (response .nusvr 4 fun i => i)) = [3, 3 / 2, 0, 0, 3, 3 / 2, 0, 0] := by decide +kernel

/-- A whole training of C-SVC or epsilon-SVR from the cold start: after every number of
iterations the multipliers are in the box and balanced, and the gradient is exact. -/
theorem C75_trained_c [IsStrictOrderedRing F] (m : Kind) (hm : m.isNu = false) (p : Par F)
    (n threads ws : Nat) (eps : F) (kcol : Nat → Nat → F) (y : Nat → F)
    (sort : (Nat → F) → Nat → Nat) (w0 : Nat → Nat) (fd : F) (htau : 0 < p.tau) (hC : 0 < p.C)
    (hy : m.regression = false → ∀ i, y i = 0 ∨ y i = 1)
    (hsort : ∀ g, IsPerm (sort g) (m.size n) ∧ Sorted g (sort g) (m.size n)) (hws : ws ≤ m.size n)
    (hw : ∀ i, i < ws → w0 i < m.size n) (k : Nat) :
    let resp := response m n y
    let s0 : State F := { alpha := coldAlpha m n p.C 1 resp
                          grad := coldGrad m n threads eps kcol y resp (coldAlpha m n p.C 1 resp) []
                          ws := w0, firstDiff := fd }
    let s := train .c p n (m.size n) ws kcol resp sort k s0
    InBox p.C (m.size n) s.alpha ∧ (∑ x ∈ Finset.range (m.size n), resp x * s.alpha x = 0) ∧
    ∀ x, x < m.size n → s.grad x =
      exactGrad n (m.size n) kcol resp (linearTerm m.regression false n eps y resp) s.alpha x := by
  have hsigns : Signs (response m n y) := by
    intro x
    unfold response
    split
    · simp only; split
      · exact Or.inl rfl
      · exact Or.inr rfl
    · next hr =>
      rcases hy (by simpa using hr) x with h | h <;> simp [h]
  have hstart : Feasible m n p.C 1 (response m n y) (coldAlpha m n p.C 1 (response m n y)) ∧
      ∀ x, x < m.size n →
        coldGrad m n threads eps kcol y (response m n y) (coldAlpha m n p.C 1 (response m n y)) [] x =
        exactGrad n (m.size n) kcol (response m n y)
          (linearTerm m.regression m.isNu n eps y (response m n y))
          (coldAlpha m n p.C 1 (response m n y)) x := by
    cases m with
    | nusvc => cases hm
    | nusvr => cases hm
    | svc =>
      refine ⟨⟨fun x _ => ⟨le_refl _, le_of_lt hC⟩, by simp [coldAlpha], fun h => by cases h⟩, ?_⟩
      intro x hx
      show _ = exactGrad n n kcol _ _ (fun _ => 0) x
      rw [exact_zero]
      rfl
    | svr =>
      refine ⟨⟨fun x _ => ⟨le_refl _, le_of_lt hC⟩, by simp [coldAlpha], fun h => by cases h⟩, ?_⟩
      intro x hx
      have hx' : x < 2 * n := hx
      show _ = exactGrad n (2 * n) kcol _ _ (fun _ => 0) x
      rw [exact_zero]
      simp only [coldGrad, linearTerm, Kind.regression, Kind.isNu]
      by_cases h : x < n
      · rw [if_pos h, if_pos h, Nat.mod_eq_of_lt h]
      · rw [if_neg h, if_neg h, Nat.mod_eq_sub_mod (by omega), Nat.mod_eq_of_lt (by omega)]
  obtain ⟨⟨hb, hs, _⟩, hg⟩ := hstart
  rw [hm] at hg
  intro resp s0 s
  obtain ⟨b1, b2⟩ := C70_box_and_gradient .c p n (m.size n) ws kcol resp sort s0
    (linearTerm m.regression false n eps y resp) htau hsigns (fun g => (hsort g).1) hw hb hg k
  refine ⟨b1, ?_, b2⟩
  have := (C70_equality_c F p n (m.size n) ws kcol resp sort s0 htau hC hsigns hsort hws hb hw k).1
  rw [show s = train .c p n (m.size n) ws kcol resp sort k s0 from rfl, this]
  exact hs

end Verif.Smo
