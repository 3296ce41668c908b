import Verif.LeastSq.Lambda
import Verif.LeastSq.Svd
import Verif.LeastSq.Copy
import Verif.Coord.Spec

set_option linter.unusedSectionVars false

/-
C135–C141: the scaling of the data, of the penalty and of the coefficients in linear regression,
and the direct solvers.
-/
namespace Verif.LeastSq

open Finset (range)
open Verif.Logistic (lin icpt loop upd Stored costMse penalty)

/-! ### C135: a warm start -/

section
variable {K : Type} [Field K] [LinearOrder K] [IsStrictOrderedRing K]

/-- Scaling the coefficients of the user for a warm start and reverting the scaling are inverse to
each other, in both directions, when no scale is zero. -/
theorem C135_roundtrip (scaling : Scaling) (ic : Bool) (p : Nat) (shifts scales coef : Nat → K)
    (hs : scaling ≠ .none) (h : ∀ k, k ≤ p → scales k ≠ 0) :
    (∃ c c', warmstart ic p shifts scales coef = some c ∧
      revert scaling ic p shifts scales c = some c' ∧ ∀ k, c' k = coef k) ∧
    ∃ c c', revert scaling ic p shifts scales coef = some c ∧
      warmstart ic p shifts scales c = some c' ∧ ∀ k, c' k = coef k := by
  have hp := h p (Nat.le_refl p)
  constructor
  · obtain ⟨c, e, h1, h2, h3⟩ := warmstart_eq ic p shifts scales coef hp
    obtain ⟨c', e', k1, k2, k3⟩ := revert_eq scaling ic p shifts scales c hs fun k hk =>
      h k (by omega)
    have hlt : ∀ k, k < p → c' k = coef k := by
      intro k hk
      have := h k (by omega)
      rw [k1 k hk, h1 k hk]
      field_simp
    refine ⟨c, c', e, e', fun k => ?_⟩
    rcases Nat.lt_trichotomy k p with hk | hk | hk
    · exact hlt k hk
    · subst hk
      rw [k2, h2]
      cases ic with
      | false => simp
      | true =>
        have e3 : ∑ j ∈ range k, shifts j * c' j = ∑ j ∈ range k, shifts j * coef j :=
          Finset.sum_congr rfl fun j hj => by rw [hlt j (Finset.mem_range.mp hj)]
        simp only [if_true]
        rw [e3]
        field_simp
        ring
    · rw [k3 k hk, h3 k hk]
  · obtain ⟨c, e, h1, h2, h3⟩ := revert_eq scaling ic p shifts scales coef hs fun k hk =>
      h k (by omega)
    obtain ⟨c', e', k1, k2, k3⟩ := warmstart_eq ic p shifts scales c hp
    refine ⟨c, c', e, e', fun k => ?_⟩
    rcases Nat.lt_trichotomy k p with hk | hk | hk
    · have := h k (by omega)
      rw [k1 k hk, h1 k hk]
      field_simp
    · subst hk
      rw [k2, h2]
      cases ic with
      | false => simp
      | true =>
        simp only [if_true]
        field_simp
        ring
    · rw [k3 k hk, h3 k hk]

end

/-- Two features and an intercept; the coefficients on the scaled data are others. -/
example : ((warmstart true 2 (fun k => if k = 2 then 7 else (k : ℚ) + 1) (fun k => (k : ℚ) + 2)
      (fun k => (k : ℚ) - 5)).map fun c => (c 0, c 1, c 2)) = some (-5 / 2, -3, -23 / 4) ∧
    ((warmstart true 2 (fun k => if k = 2 then 7 else (k : ℚ) + 1) (fun k => (k : ℚ) + 2)
      (fun k => (k : ℚ) - 5)).bind fun c => (revert .standardize true 2
        (fun k => if k = 2 then 7 else (k : ℚ) + 1) (fun k => (k : ℚ) + 2) c).map
          fun c => (c 0, c 1, c 2)) = some (-5, -4, -3) := by decide +kernel

/-! ### C136: least squares on scaled data -/

/-- The property: for all data, the coefficients that minimise the squares of the scaled problem,
once the scaling is reverted, minimise the squares of the problem of the user. -/
def C136_statement : Prop :=
  ∀ (scaling : Scaling) (ic coord : Bool) (n p : Nat) (X : Nat → Nat → ℝ) (y : Nat → ℝ), 0 < n →
    ∃ P, preprocess Real.sqrt scaling ic coord n p X y = some P ∧
      ∀ c, Minimises (ssr ic n p P.X P.y) c →
        ∃ c', revert scaling ic p P.shifts P.scales c = some c' ∧ Minimises (ssr ic n p X y) c'

/-- It fails for a feature that is the same in all samples: with `standardize` its scale is zero,
and reverting the scaling divides by it. -/
theorem C136_constant_feature_violated : ¬ C136_statement := by
  intro h
  obtain ⟨P, hP, h⟩ := h .standardize true false 2 1 (fun _ _ => 3)
    (fun i => if i = 0 then 0 else 2) (by norm_num)
  have hP' := hP
  unfold preprocess at hP'
  simp only [Option.some.injEq] at hP'
  obtain ⟨s, hs⟩ : ∃ s : ℝ, s = if Real.sqrt (variance 2 fun i => if i = 0 then (0 : ℝ) else 2) = 0
    then 1 else Real.sqrt (variance 2 fun i => if i = 0 then (0 : ℝ) else 2) := ⟨_, rfl⟩
  have hm : mean 2 (fun i => if i = 0 then (0 : ℝ) else 2) = 1 := by
    rw [mean_eq]; simp [avg, Finset.sum_range_succ]
  have hX : ∀ i, P.X i 0 = 0 := by
    intro i
    rw [← hP']
    simp only [standardize, isZero_zero, if_true, mean_eq]
    simp [avg, Finset.sum_range_succ]
  have hy : P.y 0 = -1 / s ∧ P.y 1 = 1 / s := by
    rw [← hP']
    simp only [standardize, isZero_zero, if_true, hm, ← hs]
    norm_num
  obtain ⟨c', hc', _⟩ := h (fun _ => 0) (by
    intro d
    simp only [ssr, lin, icpt, Finset.sum_range_succ, Finset.sum_range_zero, hX, hy.1, hy.2, if_true]
    have : (0 : ℝ) ≤ 2 * d 1 ^ 2 := by positivity
    have e : (0 + (-1 / s - (0 + 0 * d 0 + d 1)) ^ 2 + (1 / s - (0 + 0 * d 0 + d 1)) ^ 2) =
      (-1 / s) ^ 2 + (1 / s) ^ 2 + 2 * d 1 ^ 2 := by ring
    rw [e]
    nlinarith)
  have hg := (good_of_some .standardize true false 1 (fun _ _ => 3)
    (fun i => if i = 0 then (0 : ℝ) else 2) (by norm_num) hP hc').1 rfl 0 (by norm_num)
  obtain ⟨i, i', _, _, hne⟩ := hg
  exact hne rfl

/-- It fails as well, with `scale only`, for responses that are all the same: the responses are
divided by their deviation. -/
theorem C136_constant_response_violated : ¬ C136_statement := by
  intro h
  obtain ⟨P, hP, _⟩ := h .scaleOnly true false 2 1 (fun i _ => (i : ℝ)) (fun _ => 3) (by norm_num)
  have hr : ∃ c', revert .scaleOnly true 1 P.shifts P.scales (fun _ => 0) = some c' := by
    have hz : Real.sqrt (variance 2 fun _ => (3 : ℝ)) = 0 := by
      rw [variance_eq]
      exact dev_eq_zero (by norm_num) (by rintro ⟨i, i', _, _, hne⟩; exact hne rfl)
    have := loopO_fail 2 (fun _ => (3 : ℝ)) (fun j y' => (dv (y' j - mean 2 fun _ => (3 : ℝ))
      (Real.sqrt (variance 2 fun _ => (3 : ℝ)) * Real.sqrt ((2 : Nat) : ℝ))).map (upd y' j)) 0
      (by norm_num) fun s => by simp only [hz, zero_mul, dv_zero, Option.map_none]
    unfold preprocess at hP
    simp only [this] at hP
    exact absurd hP (by simp)
  obtain ⟨c', hc'⟩ := hr
  obtain ⟨i, i', _, _, hne⟩ := (good_of_some .scaleOnly true false 1 _ _ (by norm_num) hP hc').2.1
    rfl rfl
  exact hne rfl

/-- The exact extent: no division by zero happens, on the way to the scaled data and back, if and
only if with `standardize` every feature takes two values, and with `scale only` the response takes
two values or, without an intercept, is not zero everywhere. -/
theorem C136_exact_extent (scaling : Scaling) (ic coord : Bool) (n p : Nat) (X : Nat → Nat → ℝ)
    (y : Nat → ℝ) (hn : 0 < n) :
    (∃ P, preprocess Real.sqrt scaling ic coord n p X y = some P ∧
      ∀ c, ∃ c', revert scaling ic p P.shifts P.scales c = some c') ↔
    (scaling = .standardize → ∀ j, j < p → ∃ i i', i < n ∧ i' < n ∧ X i j ≠ X i' j) ∧
    (scaling = .scaleOnly → ic = true → ∃ i i', i < n ∧ i' < n ∧ y i ≠ y i') ∧
    (scaling = .scaleOnly → ic = false → ∃ i, i < n ∧ y i ≠ 0) := by
  constructor
  · rintro ⟨P, hP, h⟩
    obtain ⟨c', hc'⟩ := h fun _ => 0
    exact good_of_some scaling ic coord p X y hn hP hc'
  · intro hg
    by_cases hs : scaling = .none
    · subst hs
      exact ⟨_, rfl, fun c => ⟨c, rfl⟩⟩
    · obtain ⟨P, hP, R⟩ := prep_ready scaling ic coord p X y hn hs hg
      refine ⟨P, hP, fun c => ?_⟩
      obtain ⟨c', e, _⟩ := revert_eq scaling ic p P.shifts P.scales c hs R.scaled.hσ
      exact ⟨c', e⟩

/-- What holds: whenever no division by zero happens, for coefficients that minimise the squares of
the scaled problem and, if the data are scaled, also for coefficients without an intercept that
minimise them among those, as the solvers return that cannot fit an intercept. -/
theorem C136_scaling_partial (scaling : Scaling) (ic coord : Bool) (n p : Nat) (X : Nat → Nat → ℝ)
    (y : Nat → ℝ) (hn : 0 < n) (P : Prep ℝ)
    (hP : preprocess Real.sqrt scaling ic coord n p X y = some P) (c c' : Nat → ℝ)
    (hr : revert scaling ic p P.shifts P.scales c = some c')
    (hc : Minimises (ssr ic n p P.X P.y) c ∨
      scaling ≠ .none ∧ Minimises0 p (ssr ic n p P.X P.y) c) :
    Minimises (ssr ic n p X y) c' := by
  have e : ∀ σ (Z : Nat → Nat → ℝ) z, cost 1 0 0 σ ic n p Z z = ssr ic n p Z z := fun σ Z z => by
    funext c
    simp [cost]
  have key := fit_units (w := 1) (l1 := 0) (l2 := 0) hn hP one_pos (le_refl 0) (le_refl 0)
    (c := c) (c' := c') (by rw [e]; exact hc) hr
  simp only [zero_mul] at key
  rw [e] at key
  exact key

/-- Two samples of a feature and an intercept; all kinds of scaling work. -/
example (scaling : Scaling) : ∃ P, preprocess Real.sqrt scaling true false 2 1
    (fun i _ => if i = 0 then 1 else 5) (fun i => if i = 0 then 2 else 4) = some P ∧
      ∀ c, ∃ c', revert scaling true 1 P.shifts P.scales c = some c' :=
  (C136_exact_extent scaling true false 2 1 _ _ (by norm_num)).mpr
    ⟨fun _ j _ => ⟨0, 1, by norm_num⟩, fun _ _ => ⟨0, 1, by norm_num⟩, fun _ h => by simp at h⟩

/-- The scaled data of an example with rational deviations. -/
example : ((preprocess (fun x : ℚ => if x = 4 then 2 else if x = 1 then 1 else 0) .standardize true
      true 2 1 (fun i _ => if i = 0 then 1 else 5) (fun i => if i = 0 then 2 else 4)).map fun P =>
    ([P.X 0 0, P.X 1 0, P.y 0, P.y 1], [P.shifts 0, P.shifts 1, P.scales 0, P.scales 1, P.xv 0])) =
      some ([-1, 1, -1, 1], [3, 3, 2, 1, 1]) := by decide +kernel

example : ((preprocess (fun x : ℚ => if x = 4 then 2 else if x = 16 then 4 else if x = 64 then 8
      else 0) .scaleOnly false true 4 1 (fun i _ => if i = 0 then 2 else 4)
      (fun _ => 4)).map fun P =>
    ([P.X 0 0, P.X 1 0, P.y 0], [P.shifts 0, P.shifts 1, P.scales 0, P.scales 1, P.xv 0])) =
      some ([1, 2, 1 / 2], [0, 0, 1, 4, 13]) := by decide +kernel

/-! ### C137: ridge regression -/

/-- With `alpha = 0` all solvers and all kinds of scaling return coefficients that minimise half the
squares and half `lambda` times the squares of the coefficients, except with `standardize`, where
each coefficient counts in units of the deviation of its feature and `lambda` in those of the
response for the mean of the squares. -/
theorem C137_ridge (m : Method) (scaling : Scaling) (ic : Bool) (n p : Nat) (X : Nat → Nat → ℝ)
    (y : Nat → ℝ) (lambda : ℝ) (hn : 0 < n) (hl : 0 ≤ lambda) (P : Prep ℝ)
    (hP : preprocess Real.sqrt scaling ic (decide (m = .coord)) n p X y = some P) (l : ℝ)
    (hlam : scaleLambda m scaling 0 lambda (P.scales p) n = some l) (c c' : Nat → ℝ)
    (hc : Minimises (solverCost m scaling 0 l ic n p P.X P.y) c ∨
      scaling ≠ .none ∧ Minimises0 p (solverCost m scaling 0 l ic n p P.X P.y) c)
    (hr : revert scaling ic p P.shifts P.scales c = some c') :
    (scaling ≠ .standardize →
      Minimises (fun β => 1 / 2 * ssr ic n p X y β + lambda / 2 * ∑ j ∈ range p, β j ^ 2) c') ∧
    (scaling = .standardize → Minimises (fun β => 1 / (2 * (n : ℝ)) * ssr ic n p X y β +
      lambda / (2 * (if ic then dev n y else Real.sqrt ((∑ i ∈ range n, y i ^ 2) / n))) *
        ∑ j ∈ range p, ((dev n fun i => X i j) * β j) ^ 2) c') := by
  have key := ridge_units hn hl hP hlam hc hr
  refine ⟨fun hs => ?_, fun hs => ?_⟩
  · rw [if_neg hs] at key
    intro d
    have h := key d
    simpa [cost, unitX, hs] using h
  · subst hs
    rw [if_pos rfl] at key
    have hn' : (0 : ℝ) < n := by exact_mod_cast hn
    have key := min_mul (w' := 1 / (2 * (n : ℝ))) (l1' := 0)
      (l2' := lambda / (2 * unitY .standardize ic n y)) (1 / (n : ℝ)) (by positivity)
      (by field_simp) (by simp) (by field_simp) key
    intro d
    have h := key d
    simpa [cost, unitX, unitY] using h

/-- No step fails, except for a division by zero in the cases of C136 and for `standardize` with a
response that does not vary. -/
theorem C137_succeeds (m : Method) (scaling : Scaling) (ic coord : Bool) (n p : Nat)
    (X : Nat → Nat → ℝ) (y : Nat → ℝ) (alpha lambda : ℝ) (hn : 0 < n)
    (hg : Good scaling ic n p X y)
    (hy : scaling = .standardize → lambda ≠ 0 → if ic then Varies n y else ∃ i, i < n ∧ y i ≠ 0) :
    ∃ P l, preprocess Real.sqrt scaling ic coord n p X y = some P ∧
      scaleLambda m scaling alpha lambda (P.scales p) n = some l ∧
      ∀ c, ∃ c', revert scaling ic p P.shifts P.scales c = some c' := by
  by_cases hs : scaling = .none
  · subst hs
    obtain ⟨l, e⟩ := scaleLambda_some (m := m) (scaling := .none) (alpha := alpha)
      (lambda := lambda) (sY := (0 : ℝ)) hn (by simp)
    exact ⟨_, l, rfl, e, fun c => ⟨c, rfl⟩⟩
  · obtain ⟨P, hP, R⟩ := prep_ready scaling ic coord p X y hn hs hg
    have hnz : (if ic then Varies n y else ∃ i, i < n ∧ y i ≠ 0) →
        (if ic then dev n y else Real.sqrt ((∑ i ∈ range n, y i ^ 2) / (n : ℝ))) ≠ 0 := by
      cases ic with
      | true =>
        simp only [if_true]
        exact dev_ne_zero
      | false =>
        simp only [Bool.false_eq_true, if_false]
        rintro ⟨i, hi, hne⟩ h0
        exact hne (norm_zero hn h0 i hi)
    obtain ⟨l, e⟩ := scaleLambda_some (m := m) (scaling := scaling) (alpha := alpha)
      (lambda := lambda) (sY := P.scales p) hn (by
        rw [R.yscale]
        by_cases h0 : lambda = 0
        · exact Or.inr (Or.inl h0)
        · cases scaling with
          | none => exact absurd rfl hs
          | centering => simp
          | standardize =>
            left
            simp only [unitY, true_or, if_true]
            exact hnz (hy rfl h0)
          | scaleOnly =>
            left
            simp only [unitY, or_true, if_true]
            refine hnz ?_
            cases ic with
            | true => simpa using hg.2.1 rfl rfl
            | false => simpa using hg.2.2 rfl rfl)
    refine ⟨P, l, hP, e, fun c => ?_⟩
    obtain ⟨c', e, _⟩ := revert_eq scaling ic p P.shifts P.scales c hs R.scaled.hσ
    exact ⟨c', e⟩

/-- What the solvers minimise is what the objective of L-BFGS-B (C134) and that of coordinate
descent (C95) are, for the data and the penalties that the handle passes on. -/
theorem C137_objectives (scaling : Scaling) (alpha l : ℝ) (ic : Bool) (n p : Nat)
    (Z : Nat → Nat → ℝ) (z c : Nat → ℝ) :
    solverCost .lbfgsb scaling alpha l ic n p Z z c = costMse Z z n p ic l alpha c ∧
    ∀ d : Verif.Coord.Data ℝ, d.m = n → d.n = (if ic then p + 1 else p) → d.icpt = ic → d.X = Z →
      d.y = z → d.l1reg = l * alpha → d.l2reg = l * (1 - alpha) / 2 →
      (d.scaling = .scaleOnly ↔ scaling = .scaleOnly) →
      solverCost .coord scaling alpha l ic n p Z z c =
        Verif.Coord.obj (Verif.Coord.weight d) d c := by
  constructor
  · simp only [solverCost, cost, costMse, penalty, ssr, true_or, if_true, one_mul]
    have : ∀ i, (lin Z p c (icpt ic (c p)) i - z i) ^ 2 =
        (z i - lin Z p c (icpt ic (c p)) i) ^ 2 := fun i => by ring
    simp only [this]
    ring
  · rintro ⟨dm, dn, dic, dX, dy, d1, d2, xv, dsc, pos⟩ rfl h2 rfl rfl rfl rfl rfl hsc
    have h2 : dn = if dic = true then p + 1 else p := h2
    simp only at hsc
    subst h2
    have hr : ∀ i, Verif.Coord.resid ⟨dm, if dic then p + 1 else p, dic, dX, dy, l * alpha,
        l * (1 - alpha) / 2, xv, dsc, pos⟩ c i = dy i - lin dX p c (icpt dic (c p)) i := by
      intro i
      cases dic with
      | true =>
        simp only [Verif.Coord.resid, Verif.Coord.Data.col, Verif.Coord.Data.nmod, if_true, lin, icpt,
          Nat.add_sub_cancel]
        rw [Finset.sum_range_succ]
        simp only [Nat.lt_irrefl, if_false, one_mul]
        rw [Finset.sum_congr rfl fun j hj => by rw [if_pos (Finset.mem_range.mp hj)]]
      | false =>
        simp only [Verif.Coord.resid, Verif.Coord.Data.col, Verif.Coord.Data.nmod,
          Bool.false_eq_true, if_false, lin, icpt, add_zero]
        rw [Finset.sum_congr rfl fun j hj => by rw [if_pos (Finset.mem_range.mp hj)]]
    have hm : Verif.Coord.Data.nmod (⟨dm, if dic then p + 1 else p, dic, dX, dy, l * alpha,
        l * (1 - alpha) / 2, xv, dsc, pos⟩ : Verif.Coord.Data ℝ) = p := by
      cases dic <;> simp [Verif.Coord.Data.nmod]
    simp only [Verif.Coord.obj, hr, hm, Verif.Coord.weight, solverCost, cost, ssr, one_mul]
    by_cases h : scaling = .scaleOnly
    · rw [if_pos (hsc.mpr h)]
      simp [h]
    · rw [if_neg (fun hh => h (hsc.mp hh))]
      simp only [h, reduceCtorEq, ne_eq, not_false_eq_true, and_self, or_true, if_true]
      ring

/-- And the data are as coordinate descent wants them (`Data.Ok`). -/
theorem C137_coord_data (scaling : Scaling) (ic : Bool) (n p : Nat) (X : Nat → Nat → ℝ)
    (y : Nat → ℝ) (hn : 0 < n) (hp : 0 < p) (hs : scaling = .none → ic = false) (P : Prep ℝ)
    (hP : preprocess Real.sqrt scaling ic true n p X y = some P) (c c' : Nat → ℝ)
    (hr : revert scaling ic p P.shifts P.scales c = some c') (l1 l2 : ℝ) (h1 : 0 ≤ l1)
    (h2 : 0 ≤ l2) (s : Verif.Coord.Scaling) (hsc : s = .standardize ↔ scaling = .standardize)
    (pos : Bool) :
    (⟨n, if ic then p + 1 else p, ic, P.X, P.y, l1, l2, P.xv, s, pos⟩ :
      Verif.Coord.Data ℝ).Ok := by
  have hm : Verif.Coord.Data.nmod (⟨n, if ic then p + 1 else p, ic, P.X, P.y, l1, l2, P.xv, s,
      pos⟩ : Verif.Coord.Data ℝ) = p := by
    cases ic <;> simp [Verif.Coord.Data.nmod]
  by_cases hne : scaling = .none
  · subst hne
    unfold preprocess at hP
    simp only [Option.some.injEq, if_true] at hP
    have hs' : s ≠ .standardize := fun h => by simpa using hsc.mp h
    refine ⟨hn, by rw [hm]; exact hp, h1, h2, ?_, ?_, ?_⟩
    · intro k hk
      simp only [if_neg hs', one_mul]
      rw [← hP]
      exact colDot_eq n X k
    · intro h
      rw [hs rfl] at h
      simp at h
    · intro h
      rw [hs rfl] at h
      simp at h
  · obtain ⟨P', hP', R⟩ := prep_ready scaling ic true p X y hn hne
      (good_of_some scaling ic true p X y hn hP hr)
    rw [hP] at hP'
    obtain rfl : P = P' := Option.some.inj hP'
    refine ⟨hn, by rw [hm]; exact hp, h1, h2, ?_, ?_, ?_⟩
    · intro k hk
      rw [hm] at hk
      have := R.xv rfl k hk
      by_cases h : scaling = .standardize
      · rw [if_pos h] at this
        simp only [if_pos (hsc.mpr h)]
        exact this
      · rw [if_neg h] at this
        simp only [if_neg (fun hh => h (hsc.mp hh))]
        exact this
    · intro h k hk
      rw [hm] at hk
      exact (R.scaled.centred h).1 k hk
    · intro h
      exact (R.scaled.centred h).2

/-- The penalty that each solver gets for `lambda = 12` and four samples, with a response of unit
3. -/
example : ([Method.lbfgsb, .coord, .svd].map fun m =>
    [Scaling.none, .scaleOnly, .standardize].map fun s => scaleLambda m s 0 (12 : ℚ) 3 4) =
    [[some 3, some (3 / 4), some 4], [some 3, some 3, some 4], [some 12, some 3, some 16]] := by
  decide +kernel

/-! ### C138: the elastic net -/

/-- The property: the coefficients of the elastic net, ridge regression and the lasso minimise the
documented cost function (doc/Algorithms/linear_models/linear_models.rst, "Mean square error"), for
data that are not scaled or only centred. -/
def C138_statement : Prop :=
  ∀ (scaling : Scaling) (ic : Bool) (n p : Nat) (X : Nat → Nat → ℝ) (y : Nat → ℝ)
    (alpha lambda : ℝ) (P : Prep ℝ) (l : ℝ) (c c' : Nat → ℝ), 0 < n → 0 ≤ lambda → 0 ≤ alpha →
    alpha ≤ 1 → (scaling = .none ∨ scaling = .centering) →
    preprocess Real.sqrt scaling ic true n p X y = some P →
    scaleLambda .coord scaling alpha lambda (P.scales p) n = some l →
    Minimises (solverCost .coord scaling alpha l ic n p P.X P.y) c →
    revert scaling ic p P.shifts P.scales c = some c' →
    Minimises (fun β => 1 / (2 * (n : ℝ)) * ssr ic n p X y β + lambda * (alpha *
      ∑ j ∈ range p, |β j| + (1 - alpha) / 2 * ∑ j ∈ range p, β j ^ 2)) c'

/-- It fails for ridge regression: `lambda` is divided by the number of samples, so the squares are
added up and not averaged. -/
theorem C138_ridge_violated : ¬ C138_statement := by
  intro h
  have h := h .none false 2 1 (fun _ _ => 1) (fun _ => 1) 0 1 _ (1 / 2) (fun _ => 2 / 3)
    (fun _ => 2 / 3) (by norm_num) (by norm_num) (le_refl 0) (by norm_num) (Or.inl rfl) rfl
    (by simp [scaleLambda, dv]) (by
      intro d
      simp only [solverCost, cost, ssr, lin, icpt, Finset.sum_range_succ, Finset.sum_range_zero,
        reduceCtorEq, ne_eq, not_false_eq_true, and_self, or_true, if_true]
      norm_num
      nlinarith [sq_nonneg (d 0 - 2 / 3)]) rfl (fun _ => 1 / 2)
  simp only [ssr, lin, icpt, Finset.sum_range_succ, Finset.sum_range_zero] at h
  norm_num at h

/-- The documentation also says that with `standardize` or `scale only` ridge regression is the
limit of the elastic net for `alpha = 0` (linear_models.rst:317-323, the internal part). -/
def C138_limit_statement (scaling : Scaling) : Prop :=
  ∀ (ic : Bool) (n p : Nat) (X : Nat → Nat → ℝ) (y : Nat → ℝ) (lambda : ℝ) (P : Prep ℝ) (l : ℝ)
    (c c' : Nat → ℝ), 0 < n → 0 ≤ lambda →
    preprocess Real.sqrt scaling ic true n p X y = some P →
    scaleLambda .coord scaling 0 lambda (P.scales p) n = some l →
    Minimises (solverCost .coord scaling 0 l ic n p P.X P.y) c →
    revert scaling ic p P.shifts P.scales c = some c' →
    Minimises (cost (1 / (2 * (n : ℝ))) 0 (lambda / (2 * unitY scaling ic n y)) (unitX scaling n X)
      ic n p X y) c'

/-- With `scale only` it is not: the penalty of ridge regression is divided by the number of
samples, that of the elastic net by the unit of the response. -/
theorem C138_limit_violated : ¬ C138_limit_statement .scaleOnly := by
  intro h
  obtain ⟨P, hP, R⟩ := prep_ready .scaleOnly false true (n := 1) 1 (fun _ _ => 1) (fun _ => 2)
    (by norm_num) (by decide) ⟨fun h => by simp at h, fun _ h => by simp at h,
      fun _ _ => ⟨0, by norm_num, by norm_num⟩⟩
  have hu : unitY .scaleOnly false 1 (fun _ => 2) = 2 := by
    have : Real.sqrt (2 ^ 2) = 2 := Real.sqrt_sq (by norm_num)
    simp [unitY, this]
  have hsc : P.scales 0 = 1 := by rw [R.scales 0 (by norm_num)]; simp [unitX]
  have hsy : P.scales 1 = 2 := by rw [R.yscale, hu]
  have hmu := R.scaled.plain rfl
  have hX : P.X 0 0 = 1 := by
    have := R.scaled.hX 0 0 (by norm_num) (by norm_num)
    rw [hmu.1 0 (by norm_num), hsc] at this
    simp [common] at this
    linarith
  have hy : P.y 0 = 1 := by
    have := R.scaled.hY 0 (by norm_num)
    rw [hmu.2, hsy] at this
    simp [common] at this
    linarith
  obtain ⟨c', e, k1, _⟩ := revert_eq .scaleOnly false 1 P.shifts P.scales (fun _ => 1 / 2)
    (by decide) (by intro k hk; rw [show k = 0 by omega, hsc]; norm_num)
  have h := h false 1 1 (fun _ _ => 1) (fun _ => 2) 1 P 1 (fun _ => 1 / 2) c' (by norm_num)
    (by norm_num) hP (by simp [scaleLambda, dv]) (by
      intro d
      simp only [solverCost, cost, ssr, lin, icpt, Finset.sum_range_succ, Finset.sum_range_zero, hX,
        hy, reduceCtorEq, ne_eq, not_true_eq_false, and_false, or_self, if_false]
      norm_num
      nlinarith [sq_nonneg (d 0 - 1 / 2)]) e (fun _ => 4 / 3)
  have hc0 : c' 0 = 1 := by rw [k1 0 (by norm_num), hsc, hsy]; norm_num
  rw [hu] at h
  simp only [cost, ssr, lin, icpt, Finset.sum_range_succ, Finset.sum_range_zero, hc0, unitX,
    reduceCtorEq, if_false] at h
  norm_num at h

/-- What holds.  For `alpha > 0` the coefficients minimise the mean of the squares with an `l1`
penalty of `lambda * alpha` and an `l2` penalty of `lambda * (1 - alpha)` in units of the response,
where with `standardize` each coefficient counts in units of the deviation of its feature.  Without
scaling this is the documented cost function.  And with `standardize` ridge regression is the limit
for `alpha = 0`. -/
theorem C138_elastic_partial (scaling : Scaling) (ic : Bool) (n p : Nat) (X : Nat → Nat → ℝ)
    (y : Nat → ℝ) (alpha lambda : ℝ) (hn : 0 < n) (hl : 0 ≤ lambda) (ha : 0 ≤ alpha)
    (ha1 : alpha ≤ 1) (P : Prep ℝ) (hP : preprocess Real.sqrt scaling ic true n p X y = some P)
    (l : ℝ) (hlam : scaleLambda .coord scaling alpha lambda (P.scales p) n = some l)
    (c c' : Nat → ℝ) (hc : Minimises (solverCost .coord scaling alpha l ic n p P.X P.y) c)
    (hr : revert scaling ic p P.shifts P.scales c = some c')
    (h : 0 < alpha ∨ scaling = .standardize) :
    Minimises (cost (1 / (2 * (n : ℝ))) (lambda * alpha)
      (lambda * (1 - alpha) / (2 * unitY scaling ic n y)) (unitX scaling n X) ic n p X y) c' ∧
    ((scaling = .none ∨ scaling = .centering) →
      Minimises (fun β => 1 / (2 * (n : ℝ)) * ssr ic n p X y β + lambda * (alpha *
        ∑ j ∈ range p, |β j| + (1 - alpha) / 2 * ∑ j ∈ range p, β j ^ 2)) c') := by
  have hmain : Minimises (cost (1 / (2 * (n : ℝ))) (lambda * alpha)
      (lambda * (1 - alpha) / (2 * unitY scaling ic n y)) (unitX scaling n X) ic n p X y) c' := by
    by_cases h0 : 0 < alpha
    · exact elastic_units hn hl h0 ha1 hP hlam hc hr
    · have hs : scaling = .standardize := h.resolve_left h0
      have ha0 : alpha = 0 := by linarith
      subst ha0
      have key := ridge_units hn hl hP hlam (Or.inl hc) hr
      rw [if_pos hs] at key
      have hn' : (0 : ℝ) < n := by exact_mod_cast hn
      exact min_mul (1 / (n : ℝ)) (by positivity) (by field_simp) (by simp) (by
        rw [sub_zero, mul_one]
        field_simp) key
  refine ⟨hmain, fun hs => ?_⟩
  intro d
  have h := hmain d
  have hu : unitY scaling ic n y = 1 := by
    unfold unitY
    rw [if_neg]
    rcases hs with hs | hs <;> simp [hs]
  have hx : unitX scaling n X = fun _ => 1 := funext fun j => by
    unfold unitX
    rw [if_neg]
    rcases hs with hs | hs <;> simp [hs]
  rw [hu, hx] at h
  simp only [cost, one_mul, mul_one] at h
  have e : ∀ β : Nat → ℝ, 1 / (2 * (n : ℝ)) * ssr ic n p X y β + lambda * (alpha *
      ∑ j ∈ range p, |β j| + (1 - alpha) / 2 * ∑ j ∈ range p, β j ^ 2) =
      1 / (2 * (n : ℝ)) * ssr ic n p X y β + lambda * alpha * ∑ j ∈ range p, |β j| +
        lambda * (1 - alpha) / 2 * ∑ j ∈ range p, β j ^ 2 := fun β => by ring
  simp only [e]
  exact h

/-- The lasso on two samples: the minimiser of the documented cost function, which the theorem
gives. -/
example : Minimises (fun β => 1 / (2 * ((2 : Nat) : ℝ)) * ssr false 2 1 (fun _ _ => 1) (fun _ => 1) β +
    1 / 2 * (1 * ∑ j ∈ range 1, |β j| + (1 - 1) / 2 * ∑ j ∈ range 1, β j ^ 2)) (fun _ => 1 / 2) :=
  (C138_elastic_partial .none false 2 1 (fun _ _ => 1) (fun _ => 1) 1 (1 / 2) (by norm_num)
    (by norm_num) (by norm_num) (by norm_num) _ rfl (1 / 2) (by simp [scaleLambda]) (fun _ => 1 / 2)
    (fun _ => 1 / 2) (by
      intro d
      simp only [solverCost, cost, ssr, lin, icpt, Finset.sum_range_succ, Finset.sum_range_zero,
        reduceCtorEq, ne_eq, not_false_eq_true, and_self, or_true, if_true]
      norm_num
      nlinarith [sq_nonneg (d 0 - 1 / 2), le_abs_self (d 0)]) rfl (Or.inl one_pos)).2 (Or.inl rfl)

example : ([Scaling.none, .centering, .scaleOnly, .standardize].map fun s =>
    scaleLambda .coord s (1 / 2) (12 : ℚ) 3 4) = [some 12, some 12, some 4, some 4] := by
  decide +kernel

/-! ### C139: Cholesky and conjugate gradients -/

section
variable {row ic : Bool} {n p : Nat} {Xf : Nat → ℝ} {ldX : Nat} {M : Nat → Nat → ℝ}
  {y : Nat → ℝ} {lambda : ℝ}

/-- More samples than coefficients: any solution of the system gives coefficients, with an intercept
that is not penalised, that minimise half the squares with the penalty, whatever was in the arrays
before and in either storage order. -/
theorem C139_well (hS : Stored row Xf ldX n p M) (hl : 0 ≤ lambda) (A b coef x : Nat → ℝ)
    (hx : Solves (if ic then p + 1 else p) (setupXtx true row ic n p Xf ldX y lambda A b).1
      (setupXtx true row ic n p Xf ldX y lambda A b).2 x) :
    Minimises (fun β => 1 / 2 * ssr ic n p M y β + lambda / 2 * ∑ j ∈ range p, β j ^ 2)
      (directCoef true row ic n p Xf ldX x coef) := by
  intro d
  have h := direct_well hS hl A b coef x hx d
  simpa [cost] using h

/-- Fewer samples: any solution of the dual system gives coefficients without an intercept that
minimise the same among those without an intercept. -/
theorem C139_under (hS : Stored row Xf ldX n p M) (hl : 0 ≤ lambda) (A b coef x : Nat → ℝ)
    (h0 : coef p = 0) (hx : Solves n (setupXtx false row ic n p Xf ldX y lambda A b).1
      (setupXtx false row ic n p Xf ldX y lambda A b).2 x) :
    Minimises0 p (fun β => 1 / 2 * ssr ic n p M y β + lambda / 2 * ∑ j ∈ range p, β j ^ 2)
      (directCoef false row ic n p Xf ldX x coef) := by
  obtain ⟨c, hc⟩ : ∃ c, c = directCoef false row ic n p Xf ldX x coef := ⟨_, rfl⟩
  have hcp : c p = 0 := by rw [hc, directCoef_under hS, if_neg (by omega), h0]
  have hck : ∀ k, k < p → c k = ∑ i ∈ range n, M i k * x i := fun k hk => by
    rw [hc, directCoef_under hS, if_pos hk]
  rw [← hc]
  refine ⟨hcp, fun d hd => ?_⟩
  have h := ridge_min0 (ic := ic) (n := n) (p := p) (X := M) (y := y) (c := c) hl (fun _ => hcp) ?_ d
    fun _ => hd
  · simpa [cost] using h
  · intro k hk
    rw [hck k hk, Finset.mul_sum]
    refine Finset.sum_congr rfl fun i hi => ?_
    have := setup_under hS hl A b x hx i (Finset.mem_range.mp hi)
    rw [Finset.sum_congr rfl fun j hj => by rw [hck j (Finset.mem_range.mp hj)]]
    rw [← this]
    ring

/-- And without a penalty these coefficients fit every sample exactly and have the least norm of all
that do. -/
theorem C139_min_norm (hS : Stored row Xf ldX n p M) (A b coef x : Nat → ℝ)
    (hx : Solves n (setupXtx false row ic n p Xf ldX y 0 A b).1
      (setupXtx false row ic n p Xf ldX y 0 A b).2 x) :
    (∀ i, i < n → ∑ j ∈ range p, M i j * directCoef false row ic n p Xf ldX x coef j = y i) ∧
    ∀ d : Nat → ℝ, (∀ i, i < n → ∑ j ∈ range p, M i j * d j = y i) →
      ∑ j ∈ range p, directCoef false row ic n p Xf ldX x coef j ^ 2 ≤ ∑ j ∈ range p, d j ^ 2 := by
  have hck : ∀ k, k < p → directCoef false row ic n p Xf ldX x coef k =
      ∑ i ∈ range n, M i k * x i := fun k hk => by rw [directCoef_under hS, if_pos hk]
  have hfit : ∀ i, i < n → ∑ j ∈ range p, M i j * directCoef false row ic n p Xf ldX x coef j =
      y i := by
    intro i hi
    have := setup_under hS (le_refl 0) A b x hx i hi
    rw [zero_mul, add_zero] at this
    rw [← this]
    exact Finset.sum_congr rfl fun j hj => by rw [hck j (Finset.mem_range.mp hj)]
  exact ⟨hfit, fun d hd => min_norm hck fun i hi => by rw [hd i hi, hfit i hi]⟩

/-- The fit from the data of the user to the coefficients: scaling, penalty, system, coefficients and
way back. -/
theorem C139_fit (well : Bool) (m : Method) (hm : m = .cholesky ∨ m = .cg) (scaling : Scaling)
    (X : Nat → Nat → ℝ) (hn : 0 < n) (hl : 0 ≤ lambda) (P : Prep ℝ)
    (hP : preprocess Real.sqrt scaling ic false n p X y = some P) (l : ℝ)
    (hlam : scaleLambda m scaling 0 lambda (P.scales p) n = some l)
    (hS : Stored row Xf ldX n p P.X)
    (hwell : well = false → ic = true → scaling ≠ .none) (A b x c' : Nat → ℝ)
    (hx : Solves (if well then if ic then p + 1 else p else n)
      (setupXtx well row ic n p Xf ldX P.y l A b).1
      (setupXtx well row ic n p Xf ldX P.y l A b).2 x)
    (hr : revert scaling ic p P.shifts P.scales
      (directCoef well row ic n p Xf ldX x fun _ => 0) = some c') :
    Minimises (cost (1 / 2) 0
      ((if scaling = .standardize then n * lambda / unitY scaling ic n y else lambda) / 2)
      (unitX scaling n X) ic n p X y) c' := by
  have hco : solverCost m scaling 0 l ic n p P.X P.y = fun β =>
      1 / 2 * ssr ic n p P.X P.y β + l / 2 * ∑ j ∈ range p, β j ^ 2 := by
    funext β
    unfold solverCost
    rw [if_neg (by rcases hm with hm | hm <;> simp [hm])]
    simp [cost]
  have hl0 : 0 ≤ l := (lam_nonneg hn hl hP hlam hr).2.2
  refine ridge_units (m := m) hn hl hP hlam ?_ hr
  rw [hco]
  cases well with
  | true => exact Or.inl (C139_well hS hl0 A b (fun _ => 0) x hx)
  | false =>
    have key := C139_under hS hl0 A b (fun _ => 0) x rfl hx
    by_cases hs : scaling = .none
    · left
      have hic : ic = false := by
        by_contra h
        exact hwell rfl (by simpa using h) hs
      subst hic
      intro d
      have h := key.2 (upd d p 0) (Verif.Logistic.upd_same _ _ _)
      have e : ∀ j ∈ range p, upd d p 0 j = d j := fun j hj =>
        Verif.Logistic.upd_ne _ _ (by have := Finset.mem_range.mp hj; omega)
      have e1 : ∑ j ∈ range p, upd d p 0 j ^ 2 = ∑ j ∈ range p, d j ^ 2 :=
        Finset.sum_congr rfl fun j hj => by rw [e j hj]
      have e2 : ssr false n p P.X P.y (upd d p 0) = ssr false n p P.X P.y d := by
        unfold ssr lin
        refine Finset.sum_congr rfl fun i _ => ?_
        simp only [icpt, Bool.false_eq_true, if_false]
        rw [Finset.sum_congr rfl fun j hj => by rw [e j hj]]
      simp only [e1, e2] at h
      exact h
    · exact Or.inr ⟨hs, key⟩

end

/-- The cells of a system of order 2 that are used. -/
def cells (r : (Nat → ℚ) × (Nat → ℚ)) : List ℚ × List ℚ :=
  ([r.1 0, r.1 2, r.1 3], [r.2 0, r.2 1])

/-- The system for three samples of one feature with an intercept, in both storage orders and with
rubbish in the arrays, and the coefficients from its solution. -/
example : cells (setupXtx true false true 3 1 (fun i => (i : ℚ)) 3 (fun i => 2 * (i : ℚ) + 1) 5
      (fun _ => 9) (fun _ => 8)) = ([10, 3, 3], [13, 9]) ∧
    cells (setupXtx true true true 3 1 (fun i => (i : ℚ) / 2) 2 (fun i => 2 * (i : ℚ) + 1) 5
      (fun _ => 9) (fun _ => 8)) = ([10, 3, 3], [13, 9]) ∧
    (directCoef true true true 3 1 (fun i => (i : ℚ)) 3 (fun i => (i : ℚ) + 4) (fun _ => 0) 1) = 5 :=
  by decide +kernel

/-- Two samples of three features, by rows with a gap and by columns: `X X'` with the penalty. -/
example : cells (setupXtx false true false 2 3 (fun i => (i : ℚ)) 4 (fun i => (i : ℚ) + 1) 1
      (fun _ => 9) (fun _ => 8)) = ([6, 17, 78], [1, 2]) ∧
    cells (setupXtx false false false 2 3 (fun i => (i : ℚ)) 2 (fun i => (i : ℚ) + 1) 0
      (fun _ => 9) (fun _ => 8)) = ([20, 26, 35], [1, 2]) ∧
    (List.range 4).map (directCoef false true false 2 3 (fun i => (i : ℚ)) 4 (fun i => (i : ℚ) + 1)
      (fun _ => 7)) = [8, 11, 14, 7] := by
  decide +kernel

/-- A solution of a system, and the minimiser that comes from it. -/
example : Minimises (fun β => 1 / 2 * ssr true 2 1 (fun i _ => (i : ℝ)) (fun i => (i : ℝ)) β +
    0 / 2 * ∑ j ∈ range 1, β j ^ 2) (directCoef true false true 2 1 (fun i => (i : ℝ)) 2
      (fun i => if i = 0 then 1 else 0) fun _ => 0) :=
  C139_well (M := fun i _ => (i : ℝ)) (by
      intro i j hi hj
      simp [show j = 0 by omega]) (le_refl 0) (fun _ => 7) (fun _ => 7) _ _ (by
    intro r hr
    simp only [if_true] at hr
    have hr : r = 0 ∨ r = 1 := by omega
    rcases hr with rfl | rfl <;>
      simp [symU, setupXtx, syrkT, gemvT, loop, upd, Verif.Logistic.entry])

/-! ### C140: the singular value decomposition -/

section
variable {ic : Bool} {n p : Nat} {M : Nat → Nat → ℝ} {U S Vt : Nat → ℝ}

/-- With a penalty the coefficients minimise, among those without an intercept, half the squares with
the penalty, for any decomposition. -/
theorem C140_ridge (H : IsSvd n p M U S Vt) (eps lambda : ℝ) (hl : 0 < lambda) (y coef : Nat → ℝ)
    (hc : coef p = 0) :
    Minimises0 p (fun β => 1 / 2 * ssr ic n p M y β + lambda / 2 * ∑ j ∈ range p, β j ^ 2)
      (svdCoef eps lambda n p U S Vt y coef) := by
  have key := svd_min (ic := ic) H (eps := eps) hl.le y coef hc fun k hk => by
    rw [svdDiag_ridge eps hl.ne' _ _ hk]
    have : S k * S k + lambda ≠ 0 := by nlinarith [mul_self_nonneg (S k)]
    field_simp
    ring
  refine ⟨key.1, fun d hd => ?_⟩
  have h := key.2 d hd
  simpa [cost] using h

end

/-- The property without a penalty: when all singular values are above the limit in the code, a
hundred times the machine precision relative to the largest one or to 1, the coefficients minimise
the squares. -/
def C140_statement : Prop :=
  ∀ (ic : Bool) (n p : Nat) (M : Nat → Nat → ℝ) (U S Vt : Nat → ℝ) (eps : ℝ) (y coef : Nat → ℝ),
    IsSvd n p M U S Vt → 0 < eps → coef p = 0 →
    (∀ k, k < min n p → 100 * eps * max (S 0) 1 < S k) →
    Minimises0 p (ssr ic n p M y) (svdCoef eps 0 n p U S Vt y coef)

/-- It fails.  The loop compares the later singular values with the inverse of the first one, which
it has already put in the place of that value.  For `10⁻⁷` times the identity and the precision of
`double` the second singular value is dropped. -/
theorem C140_violated : ¬ C140_statement := by
  intro h
  have H : IsSvd 2 2 (fun i j => if i = j then 1 / 10000000 else 0)
      (fun c => if c = 0 ∨ c = 3 then 1 else 0) (fun _ => 1 / 10000000)
      (fun c => if c = 0 ∨ c = 3 then 1 else 0) := by
    refine ⟨?_, ?_, ?_, fun _ _ => by norm_num, fun _ _ _ _ => le_refl _⟩
    · intro i j hi hj
      have hi : i = 0 ∨ i = 1 := by omega
      have hj : j = 0 ∨ j = 1 := by omega
      rcases hi with rfl | rfl <;> rcases hj with rfl | rfl <;> simp [Finset.sum_range_succ]
    · intro k l hk hl
      have hk : k = 0 ∨ k = 1 := by omega
      have hl : l = 0 ∨ l = 1 := by omega
      rcases hk with rfl | rfl <;> rcases hl with rfl | rfl <;> simp [Finset.sum_range_succ]
    · intro k l hk hl
      have hk : k = 0 ∨ k = 1 := by omega
      have hl : l = 0 ∨ l = 1 := by omega
      rcases hk with rfl | rfl <;> rcases hl with rfl | rfl <;> simp [Finset.sum_range_succ]
  have h := (h false 2 2 _ _ _ _ (1 / 2 ^ 52) (fun _ => 1) (fun _ => 0) H (by norm_num) rfl (by
    intro k _
    rw [max_eq_right (by norm_num)]
    norm_num)).2 (fun j => if j < 2 then 10000000 else 0) (by norm_num)
  have e0 : svdCoef (1 / 2 ^ 52) 0 2 2 (fun c => if c = 0 ∨ c = 3 then (1 : ℝ) else 0)
      (fun _ => 1 / 10000000) (fun c => if c = 0 ∨ c = 3 then 1 else 0) (fun _ => 1) (fun _ => 0) 1 =
      0 := by
    rw [svdCoef_at]
    have hd : svdDiag (1 / 2 ^ 52) 0 2 (fun _ => (1 / 10000000 : ℝ)) 1 = 0 := by
      rw [svdDiag_plain _ _ _ (by norm_num)]
      rw [max_eq_right (show (1 / 10000000 : ℝ) ≤ 1 by norm_num)]
      norm_num
    simp [Finset.sum_range_succ]
    left
    simpa using hd
  simp only [ssr, lin, icpt, Finset.sum_range_succ, Finset.sum_range_zero, e0] at h
  norm_num at h
  nlinarith [sq_nonneg (1 - 1 / 10000000 * svdCoef (1 / 2 ^ 52) 0 2 2
    (fun c => if c = 0 ∨ c = 3 then (1 : ℝ) else 0)
      (fun _ => 1 / 10000000) (fun c => if c = 0 ∨ c = 3 then 1 else 0) (fun _ => 1) (fun _ => 0) 0)]

/-- And the other way round: a singular value of `10⁻⁹` beside one of `10⁶`, which is below the limit,
is inverted. -/
theorem C140_limit_violated : ¬ ∀ (eps : ℝ) (m : Nat) (S : Nat → ℝ) (k : Nat), 0 < eps → k < m →
    (∀ k l, k ≤ l → l < m → S l ≤ S k) → 0 ≤ S k →
    S k ≤ 100 * eps * max (S 0) 1 → svdDiag eps 0 m S k = 0 := by
  intro h
  have h := h (1 / 2 ^ 52) 2 (fun k => if k = 0 then 1000000 else 1 / 1000000000) 1 (by norm_num)
    (by norm_num) (by
      intro k l hkl _
      by_cases hk : k = 0
      · by_cases hl : l = 0
        · simp [hk, hl]
        · simp only [hk, hl, if_true, if_false]
          norm_num
      · rw [if_neg hk, if_neg (by omega)]) (by norm_num) (by
      rw [max_eq_left (by norm_num)]
      norm_num)
  rw [svdDiag_plain _ _ _ (by norm_num)] at h
  rw [max_eq_right (by norm_num)] at h
  norm_num at h

section
variable {ic : Bool} {n p : Nat} {M : Nat → Nat → ℝ} {U S Vt : Nat → ℝ}

/-- The exact extent: for a given matrix the coefficients minimise the squares for every response if
and only if every singular value that is not zero is above the limit that the loop really uses. -/
theorem C140_exact_extent (H : IsSvd n p M U S Vt) (eps : ℝ) (coef : Nat → ℝ)
    (hc : coef p = 0) :
    (∀ y, Minimises0 p (ssr ic n p M y) (svdCoef eps 0 n p U S Vt y coef)) ↔
      ∀ k, k < min n p → S k ≠ 0 → 100 * eps * max (if k = 0 then S 0 else
        if 100 * eps * max (S 0) 1 < S 0 then 1 / S 0 else 0) 1 < S k := by
  have hcost : ∀ y, cost (1 / 2) 0 (0 / 2) (fun _ => 1) ic n p M y =
      fun β => 1 / 2 * ssr ic n p M y β := fun y => by
    funext β
    simp [cost]
  constructor
  · intro h k hk hne
    by_contra hno
    have hd : svdDiag eps 0 (min n p) S k = 0 := by
      rw [svdDiag_plain eps _ _ hk, if_neg hno]
    -- the response is a left singular vector
    obtain ⟨y, hy⟩ : ∃ y : Nat → ℝ, y = fun i => U (k * n + i) := ⟨_, rfl⟩
    have hu : ∀ l, l < min n p → ∑ i ∈ range n, U (l * n + i) * y i = if l = k then 1 else 0 := by
      intro l hl
      rw [hy]
      exact H.orthU l k hl hk
    have hzero : ∀ j, j < p → svdCoef eps 0 n p U S Vt y coef j = 0 := by
      intro j hj
      rw [svdCoef_at, if_pos hj]
      refine Finset.sum_eq_zero fun l hl => ?_
      rw [hu l (Finset.mem_range.mp hl)]
      by_cases e : l = k
      · rw [e, hd]; simp
      · rw [if_neg e]; simp
    obtain ⟨h0, h1⟩ := h y
    obtain ⟨d, hd'⟩ : ∃ d : Nat → ℝ, d = fun j => if j < p then
        ∑ l ∈ range (min n p), Vt (j * min n p + l) * (if l = k then 1 / S k else 0) else 0 := ⟨_, rfl⟩
    have hdp : d p = 0 := by rw [hd']; simp
    have h2 := h1 d hdp
    have e1 : ssr ic n p M y (svdCoef eps 0 n p U S Vt y coef) = 1 := by
      have : ∀ i ∈ range n, (y i - lin M p (svdCoef eps 0 n p U S Vt y coef)
          (icpt ic (svdCoef eps 0 n p U S Vt y coef p)) i) ^ 2 = y i * y i := by
        intro i _
        have z : ∑ j ∈ range p, M i j * svdCoef eps 0 n p U S Vt y coef j = 0 :=
          Finset.sum_eq_zero fun j hj => by rw [hzero j (Finset.mem_range.mp hj), mul_zero]
        have z2 : icpt ic (svdCoef eps 0 n p U S Vt y coef p) = 0 := by
          rw [h0]; simp [icpt]
        rw [lin, z, z2]
        ring
      unfold ssr
      rw [Finset.sum_congr rfl this, hy]
      have := H.orthU k k hk hk
      rw [if_pos rfl] at this
      exact this
    have e2 : ssr ic n p M y d = 0 := by
      unfold ssr
      refine Finset.sum_eq_zero fun i hi => ?_
      have z2 : icpt ic (d p) = 0 := by rw [hdp]; simp [icpt]
      have z : ∑ j ∈ range p, M i j * d j = y i := by
        have a : ∀ j ∈ range p, M i j * d j = M i j * ∑ l ∈ range (min n p),
            Vt (j * min n p + l) * (if l = k then 1 / S k else 0) := fun j hj => by
          rw [hd']
          simp only [if_pos (Finset.mem_range.mp hj)]
        rw [Finset.sum_congr rfl a, H.mulV _ (Finset.mem_range.mp hi), Finset.sum_eq_single k]
        · rw [if_pos rfl, hy]
          field_simp
        · intro l _ hl
          rw [if_neg hl]; simp
        · intro hh
          exact absurd (Finset.mem_range.mpr hk) hh
      rw [lin, z, z2]
      ring
    rw [e1, e2] at h2
    linarith
  · intro h y
    have key := svd_min (ic := ic) H (eps := eps) (lambda := 0) (le_refl 0) y coef hc fun k hk => by
      rw [zero_mul]
      by_cases h0 : S k = 0
      · rw [h0]; ring
      · rw [svdDiag_plain eps _ _ hk, if_pos (h k hk h0)]
        field_simp
        ring
    rw [hcost] at key
    refine ⟨key.1, fun d hd => ?_⟩
    have h := key.2 d hd
    simp only at h
    linarith

/-- What holds without a penalty: if the largest singular value is at least 1, a matrix all of whose
other singular values are zero or above the limit, or in general if the singular values that are not
zero, and their products with the first, are above a hundred times the precision, the coefficients
minimise the squares, and they have the least norm of all that do. -/
theorem C140_plain_partial (H : IsSvd n p M U S Vt) (eps : ℝ) (heps : 0 < eps) (y coef : Nat → ℝ)
    (hc : coef p = 0)
    (hS : ∀ k, k < min n p → S k ≠ 0 → 100 * eps * max (S 0) 1 < S k ∧
      (1 ≤ S 0 ∨ 100 * eps < S 0 * S k)) :
    Minimises0 p (ssr ic n p M y) (svdCoef eps 0 n p U S Vt y coef) ∧
    ∀ d, Minimises0 p (ssr ic n p M y) d →
      ∑ j ∈ range p, svdCoef eps 0 n p U S Vt y coef j ^ 2 ≤ ∑ j ∈ range p, d j ^ 2 := by
  have hlim : ∀ k, k < min n p → S k ≠ 0 → 100 * eps * max (if k = 0 then S 0 else
      if 100 * eps * max (S 0) 1 < S 0 then 1 / S 0 else 0) 1 < S k := by
    intro k hk hne
    obtain ⟨h1, h2⟩ := hS k hk hne
    have he : (0 : ℝ) < 100 * eps := by linarith
    have hmx : 100 * eps * 1 ≤ 100 * eps * max (S 0) 1 :=
      mul_le_mul_of_nonneg_left (le_max_right _ _) he.le
    by_cases hk0 : k = 0
    · rw [if_pos hk0]
      exact h1
    · rw [if_neg hk0]
      by_cases h0 : 100 * eps * max (S 0) 1 < S 0
      · rw [if_pos h0]
        have hpos : 0 < S 0 := by linarith
        rcases h2 with h2 | h2
        · rw [max_eq_right (by rw [div_le_one hpos]; exact h2)]
          linarith
        · rcases max_cases (1 / S 0) 1 with ⟨e, _⟩ | ⟨e, _⟩
          · rw [e, mul_one_div, div_lt_iff₀ hpos]
            linarith
          · rw [e]
            linarith
      · rw [if_neg h0, max_eq_right zero_le_one]
        linarith
  have hmin := (C140_exact_extent (ic := ic) H eps coef hc).mpr hlim y
  refine ⟨hmin, fun d hd => ?_⟩
  obtain ⟨w, hw⟩ := svd_rows H (eps := eps) y coef fun k hk h0 => by
    rw [svdDiag_plain eps _ _ hk, h0]
    simp
  have hcost : cost (1 / 2) 0 0 (fun _ => 1) ic n p M y = fun β => 1 / 2 * ssr ic n p M y β := by
    funext β
    simp [cost]
  refine min_norm hw fun i hi => same_fit (ic := ic) (y := y) (fun _ => hmin.1) (fun _ => hd.1) ?_ ?_
    i hi
  · rw [hcost]
    exact ⟨hmin.1, fun d hd => by
      have := hmin.2 d hd
      simp only
      linarith⟩
  · rw [hcost]
    have := hd.2 _ hmin.1
    simp only
    linarith

end

/-- A matrix with singular values 4 and 2, with and without a penalty of 4. -/
example : (List.range 3).map (svdCoef (1 / 2 ^ 52) (4 : ℚ) 2 2 (fun c => if c = 0 ∨ c = 3 then 1 else 0)
      (fun k => if k = 0 then 4 else 2) (fun c => if c = 1 ∨ c = 2 then 1 else 0)
      (fun i => (i : ℚ) + 1) (fun _ => 7)) = [1 / 2, 1 / 5, 7] ∧
    (List.range 3).map (svdCoef (1 / 2 ^ 52) (0 : ℚ) 2 2 (fun c => if c = 0 ∨ c = 3 then 1 else 0)
      (fun k => if k = 0 then 4 else 2) (fun c => if c = 1 ∨ c = 2 then 1 else 0)
      (fun i => (i : ℚ) + 1) (fun _ => 7)) = [1, 1 / 4, 7] := by decide +kernel

/-- A decomposition of a column of length 5, and the coefficient for it. -/
example : Minimises0 1 (ssr false 2 1 (fun i _ => if i = 0 then 3 else 4) fun i => (i : ℝ))
    (svdCoef (1 / 2 ^ 52) 0 2 1 (fun c => if c = 0 then 3 / 5 else 4 / 5) (fun _ => 5) (fun _ => 1)
      (fun i => (i : ℝ)) fun _ => 0) :=
  (C140_plain_partial (by
    refine ⟨?_, ?_, ?_, fun _ _ => by norm_num, fun _ _ _ _ => le_refl _⟩
    · intro i j hi hj
      have hi : i = 0 ∨ i = 1 := by omega
      rcases hi with rfl | rfl <;> simp
    · intro k l hk hl
      have hk : k = 0 := by omega
      have hl : l = 0 := by omega
      subst hk; subst hl
      simp [Finset.sum_range_succ]; norm_num
    · intro k l hk hl
      have hk : k = 0 := by omega
      have hl : l = 0 := by omega
      subst hk; subst hl
      simp) (1 / 2 ^ 52) (by norm_num) _ _ rfl fun k _ _ => ⟨by
        rw [max_eq_left (by norm_num)]; norm_num, Or.inl (by norm_num)⟩).1

/-! ### C141: the copy of the matrix -/

/-- Whatever solver, storage order and leading dimension, the copy holds the entries of the matrix of
the user where the increments say, and where BLAS and LAPACK look for them; only the cells of the
array are written. -/
theorem C141_copy (m : Method) (well row : Bool) (n p : Nat) (XU : Nat → ℝ) (ldU : Nat)
    (X0 : Nat → ℝ) (M : Nat → Nat → ℝ) (h : Stored row XU ldU n p M) :
    let C := prepX m well row n p XU ldU X0
    (∀ i j, i < n → j < p →
      C.X (if C.transposed then i * C.cinc + j * C.rinc else j * C.cinc + i * C.rinc) = M i j) ∧
    (∀ i j, i < n → j < p →
      C.X (if C.row ∨ C.transposed then i * C.ld + j else j * C.ld + i) = M i j) ∧
    (∀ c, n * p ≤ c → C.X c = X0 c) ∧
    C.ld = (if C.row ∨ C.transposed then p else n) ∧
    (m = .svd ∨ (m = .qr ∧ well = true) → C.row = false ∧ C.transposed = false) ∧
    (m = .qr → well = false → (C.row = true ∨ C.transposed = true)) := by
  intro C
  refine ⟨fun i j hi hj => prepX_at m well row n p XU ldU X0 h hi hj, fun i j hi hj => ?_,
    fun c hc => prepX_keep m well row n p XU ldU X0 hc, ?_, ?_, ?_⟩
  · have := prepX_stored m well row n p XU ldU X0 h i j hi hj
    simpa only [Bool.or_eq_true] using this
  · show (prepX m well row n p XU ldU X0).ld = _
    simp only [C, prepX, requiresT, requiresCol]
    cases row <;> cases well <;> cases m <;> simp
  · intro hm
    simp only [C, prepX, requiresT, requiresCol]
    rcases hm with hm | ⟨hm, hw⟩
    · subst hm
      cases row <;> simp
    · subst hm; subst hw
      cases row <;> simp
  · intro hm hw
    subst hm; subst hw
    simp only [C, prepX, requiresT, requiresCol]
    cases row <;> simp

/-- Two samples of three features: by rows with a gap to columns for the singular values, by rows
kept, by columns transposed for the underdetermined QR factorisation. -/
example : (List.range 7).map (prepX .svd true true 2 3 (fun c => (c : ℚ)) 4 (fun _ => 99)).X =
      [0, 4, 1, 5, 2, 6, 99] ∧
    (List.range 7).map (prepX .cg true true 2 3 (fun c => (c : ℚ)) 4 (fun _ => 99)).X =
      [0, 1, 2, 4, 5, 6, 99] ∧
    (List.range 7).map (prepX .cg true true 2 3 (fun c => (c : ℚ)) 3 (fun _ => 99)).X =
      [0, 1, 2, 3, 4, 5, 99] ∧
    (List.range 7).map (prepX .qr false false 2 3 (fun c => (c : ℚ)) 3 (fun _ => 99)).X =
      [0, 3, 6, 1, 4, 7, 99] ∧
    (List.range 7).map (prepX .coord true false 2 3 (fun c => (c : ℚ)) 3 (fun _ => 99)).X =
      [0, 1, 3, 4, 6, 7, 99] := by decide +kernel

end Verif.LeastSq
