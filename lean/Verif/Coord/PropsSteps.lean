import Verif.Coord.RunInv
import Verif.Coord.PropsGap

/-!
# Properties of the steps of coordinate descent for linear regression

C96: the residual the solver keeps is that of its coefficients.  C97: each step minimises along its coordinate and the
objective never grows.  C104: no step divides by zero.
Numbers of an ordered field; the data as `preprocess_data` leaves them (`Data.Ok`); no bounds (`Free`), as
`fit_linreg_coord` runs the solver.
-/

set_option linter.unusedSectionVars false

namespace Verif.Coord

open Finset

section
variable {K : Type} [Field K] [LinearOrder K]

/-- The state of a fit by coordinate descent after `f` passes, from coefficients `x`; `u` is what the residual holds
before. -/
def fit (p : Par K) (d : Data K) (e : Env) (x u : Nat → K) (f : Nat) : Drv (Nat → K) K :=
  drive p (calls d) e f (initial p x u)

end

section
variable (K : Type) [Field K] [LinearOrder K]

/-- C96, for the data that `S` selects: whenever the gap is measured (at the end of each cycle) the residual is that of
the coefficients. -/
def C96_statement (S : Data K → Prop) : Prop :=
  ∀ (p : Par K) (d : Data K) (e : Env) (x u : Nat → K) (f : Nat), p.Ok → 0 ≤ p.eps → Free p → d.Ok → p.n = d.n →
    Allowed d x → S d →
    (fit p d e x u f).w.task = .optimchk ∨ (fit p d e x u f).w.task = .newx ∨ (fit p d e x u f).w.task = .stop →
    ∀ i, i < d.m → (fit p d e x u f).u i = resid d (fit p d e x u f).w.x i

/-- C97, for the data that `S` selects: no pass of the solver raises the objective. -/
def C97_statement (S : Data K → Prop) : Prop :=
  ∀ (p : Par K) (d : Data K) (e : Env) (x u : Nat → K) (f : Nat), p.Ok → 0 ≤ p.eps → Free p → d.Ok → p.n = d.n →
    Allowed d x → S d →
    obj (weight d) d (fit p d e x u (f + 1)).w.x ≤ obj (weight d) d (fit p d e x u f).w.x

/-- C104: the divisors of the GLMnet step are not zero. -/
def C104_statement : Prop :=
  ∀ d : Data K, d.Ok → d.scaling = .standardize ∨ d.scaling = .scaleOnly → ∀ k, k < d.nmod → glmDivisor d k ≠ 0

end

/-! ## Runs against the properties -/

/-- The options by default, in double precision. -/
def usual (n : Nat) : Par ℚ where
  n := n
  eps := 1 / 2 ^ 51
  tol := 1 / 10 ^ 7
  optim := 1 / 10 ^ 7
  skiptol := 1 / 10 ^ 7
  skipmin := 2
  skipmaxReset := 100
  skipminReset := 10
  threshold := 1000
  restart := 2 ^ 31 - 1
  convType := 1
  maxit := 100
  imax := 2 ^ 31 - 1
  slowFactor := 9999 / 10000
  slowMax := 10
  lo := fun _ => none
  hi := fun _ => none

theorem usual_ok {n : Nat} (h : 0 < n) (h2 : n < 1000) : (usual n).Ok where
  n_pos := h
  restart := by show (2 ^ 31 - 1 : Nat) ≠ 0; decide
  maxit := by show 0 < 100; decide
  wide := by show 100 * n + n ≤ 2 ^ 31 - 1 + 1; omega

theorem usual_eps (n : Nat) : 0 ≤ (usual n).eps := by norm_num [usual]

theorem usual_free (n : Nat) : Free (usual n) := fun _ => ⟨rfl, rfl⟩

/-- Nothing happens from outside. -/
def quiet : Env := ⟨fun _ => false, fun _ => false, fun _ => false⟩

/-- One feature, standardized. -/
def single : Data ℚ where
  m := 2
  n := 1
  icpt := false
  X := fun i _ => if i = 0 then 1 else -1
  y := fun i => if i = 0 then 1 else -1
  l1reg := 1 / 2
  l2reg := 1 / 4
  xv := fun _ => 1
  scaling := .standardize
  positive := false

theorem single_ok : single.Ok where
  m_pos := by decide
  n_pos := by decide
  l1 := by norm_num [single]
  l2 := by norm_num [single]
  curve := by intro k _; norm_num [single, sum_range_succ]
  centredX := by intro h; cases h
  centredY := by intro h; cases h

/-- The GLMnet step puts a change into the residual only when the next coordinate is evaluated; the gap is computed
before. -/
theorem C96_violated : ¬ C96_statement ℚ (fun d => d.scaling = .standardize) := by
  intro h
  have h := h (usual 1) single quiet (fun _ => 0) (fun _ => 0) 2 (usual_ok (by decide) (by decide)) (usual_eps _)
    (usual_free _) single_ok rfl (by intro h; cases h) rfl (by decide +kernel) 0 (by decide)
  revert h
  decide +kernel

/-- A column with large entries and one with ones. -/
def steep : Data ℚ where
  m := 2
  n := 2
  icpt := false
  X := fun i j => if j = 0 then (if i = 0 then 2 ^ 60 else 0) else 1
  y := fun i => if i = 0 then 2 else -2
  l1reg := 0
  l2reg := 0
  xv := fun j => if j = 0 then 2 ^ 120 else 2
  scaling := .none
  positive := false

theorem steep_ok : steep.Ok where
  m_pos := by decide
  n_pos := by decide
  l1 := by norm_num [steep]
  l2 := by norm_num [steep]
  curve := by
    intro k _
    rw [if_neg (by decide)]
    by_cases hk : k = 0 <;> norm_num [steep, sum_range_succ, hk]
  centredX := by intro h; cases h
  centredY := by intro h; cases h

/-- The scikit-learn step changes the residual at once; when the solver drops the change of the coefficient because it
is below `2 eps`, the residual stays changed. -/
theorem C96_sklearn_violated : ¬ C96_statement ℚ (fun d => d.scaling = .none) := by
  intro h
  have h := h (usual 2) steep quiet (fun _ => 0) (fun _ => 0) 3 (usual_ok (by decide) (by decide)) (usual_eps _)
    (usual_free _) steep_ok rfl (by intro h; cases h) rfl (by decide +kernel) 0 (by decide)
  revert h
  decide +kernel

/-- With the wrong residual the next step raises the objective, here from 2 to 5/2. -/
theorem C97_violated : ¬ C97_statement ℚ (fun d => d.scaling = .none) := by
  intro h
  have h := h (usual 2) steep quiet (fun _ => 0) (fun _ => 0) 2 (usual_ok (by decide) (by decide)) (usual_eps _)
    (usual_free _) steep_ok rfl (by intro h; cases h) rfl
  revert h
  decide +kernel

/-- A feature that is zero for all samples. -/
def blank : Data ℚ where
  m := 2
  n := 1
  icpt := false
  X := fun _ _ => 0
  y := fun _ => 1
  l1reg := 1 / 2
  l2reg := 0
  xv := fun _ => 0
  scaling := .scaleOnly
  positive := false

/-- With `scale only` and no quadratic penalty, a feature that is zero (or constant, with an intercept) makes the step
divide zero by zero. -/
theorem C104_violated : ¬ C104_statement ℚ := by
  intro h
  have ok : blank.Ok :=
    { m_pos := by decide
      n_pos := by decide
      l1 := by norm_num [blank]
      l2 := by norm_num [blank]
      curve := by intro k _; rw [if_neg (by decide)]; norm_num [blank]
      centredX := by intro h; cases h
      centredY := by intro h; cases h }
  exact h blank ok (Or.inr rfl) 0 (by decide) (by decide +kernel)

/-! ## What holds -/

section
variable {K : Type} [Field K] [LinearOrder K] [IsStrictOrderedRing K]

/-- C104 exactly: the divisor is never negative, and zero only without a quadratic penalty and with a feature that is
zero for all samples.  The scikit-learn step leaves such features alone and its divisor is positive. -/
theorem C104_divisor_partial (d : Data K) (ok : d.Ok) (k : Nat) (hk : k < d.nmod) :
    (d.scaling = .standardize ∨ d.scaling = .scaleOnly →
      (glmDivisor d k = 0 ↔ d.l2reg = 0 ∧ ∀ i, i < d.m → d.X i k = 0))
    ∧ (d.xv k ≠ 0 → 0 < d.xv k + d.l2reg * ((d.m : K) * 2)) := by
  have hm : (0 : K) < (d.m : K) := by exact_mod_cast ok.m_pos
  have hx := curve_nonneg d ok hk
  have hl := ok.l2
  have hz : d.xv k = 0 ↔ ∀ i, i < d.m → d.X i k = 0 := by
    rw [ok.curve k hk]
    have hs : 0 ≤ ∑ i ∈ range d.m, d.X i k ^ 2 := sum_nonneg fun i _ => sq_nonneg _
    have h1 : (∑ i ∈ range d.m, d.X i k ^ 2 = 0) ↔ ∀ i, i < d.m → d.X i k = 0 := by
      rw [sum_eq_zero_iff_of_nonneg (fun i _ => sq_nonneg _)]
      constructor
      · intro h i hi; exact pow_eq_zero_iff (two_ne_zero) |>.mp (h i (mem_range.mpr hi))
      · intro h i hi; rw [h i (mem_range.mp hi)]; ring
    rw [← h1, mul_eq_zero]
    constructor
    · rintro (h | h)
      · exfalso
        split at h
        · exact absurd h (by positivity)
        · exact one_ne_zero h
      · exact h
    · exact Or.inr
  refine ⟨fun hs => ?_, fun h => ?_⟩
  · rw [← hz]
    unfold glmDivisor glmCurve
    rw [if_pos hs]
    constructor
    · intro h; exact ⟨by linarith, by linarith⟩
    · rintro ⟨h1, h2⟩; rw [h1, h2]; ring
  · have : 0 < d.xv k := lt_of_le_of_ne hx (Ne.symm h)
    positivity

/-- C96 for the GLMnet step (`standardize`, `scale only`): the residual is right whenever a step is computed, and at the
end of a cycle if its last coefficient did not change. -/
theorem C96_glm_partial (p : Par K) (d : Data K) (e : Env) (x u : Nat → K) (f : Nat) (okp : p.Ok) (ok : d.Ok)
    (hn : p.n = d.n) (hs : d.scaling = .standardize ∨ d.scaling = .scaleOnly) :
    ((fit p d e x u f).w.task = .eval → ∀ i, i < d.m → (fit p d e x u f).u i = resid d (fit p d e x u f).w.x i)
    ∧ ((fit p d e x u f).w.task = .optimchk ∨ (fit p d e x u f).w.task = .newx ∨ (fit p d e x u f).w.task = .stop →
      (fit p d e x u f).w.kdiff = 0 → ∀ i, i < d.m → (fit p d e x u f).u i = resid d (fit p d e x u f).w.x i) := by
  have hg := drive_gInv p okp d ok hn hs e x u f
  have ht := drive_settled p okp d ok hn hs e x u f
  unfold fit
  generalize drive p (calls d) e f (initial p x u) = s at *
  refine ⟨fun h => ?_, fun h => ?_⟩
  · simp only [GInv, h] at hg
    exact hg.1
  · rcases h with h | h | h <;> simp only [Settled, h] at ht <;> exact ht

/-- C96 for the scikit-learn step (no scaling, centring) if no step that is not zero is dropped: the residual is that of
the coefficients, with the new value in place after a step. -/
theorem C96_sklearn_partial (p : Par K) (d : Data K) (e : Env) (x u : Nat → K) (okp : p.Ok) (hfree : Free p)
    (ok : d.Ok) (hn : p.n = d.n) (hx : Allowed d x) (hs : d.scaling = .none ∨ d.scaling = .centering)
    (hnd : ∀ f, NoDrop p (fit p d e x u f)) (f : Nat) :
    ((fit p d e x u f).w.task = .optimchk ∨ (fit p d e x u f).w.task = .newx ∨ (fit p d e x u f).w.task = .stop →
      ∀ i, i < d.m → (fit p d e x u f).u i = resid d (fit p d e x u f).w.x i)
    ∧ ((fit p d e x u f).w.task = .eval → ∀ i, i < d.m → (fit p d e x u f).u i
      = resid d (fun j => if j = (fit p d e x u f).w.k then (fit p d e x u f).w.newxk else (fit p d e x u f).w.x j) i) := by
  have hk := drive_kInv p okp hfree d ok hn hs e x u hx hnd f
  unfold fit
  generalize drive p (calls d) e f (initial p x u) = s at *
  refine ⟨fun h => ?_, fun h => ?_⟩
  · rcases h with h | h | h <;> simp only [KInv, h] at hk <;> exact hk.2
  · simp only [KInv, h] at hk
    exact hk.2.1

/-- C97 for the GLMnet step with divisors that are not zero: each new value is a minimiser along its coordinate, and no
pass raises the objective. -/
theorem C97_glm (p : Par K) (d : Data K) (e : Env) (x u : Nat → K) (f : Nat) (okp : p.Ok) (hfree : Free p) (ok : d.Ok)
    (hn : p.n = d.n) (hs : d.scaling = .standardize ∨ d.scaling = .scaleOnly)
    (hd : ∀ k, k < d.nmod → glmDivisor d k ≠ 0) :
    obj (weight d) d (fit p d e x u (f + 1)).w.x ≤ obj (weight d) d (fit p d e x u f).w.x
    ∧ ((fit p d e x u f).w.task = .eval → ∀ t,
      obj (weight d) d (fun j => if j = (fit p d e x u f).w.k then (fit p d e x u f).w.newxk else (fit p d e x u f).w.x j)
        ≤ obj (weight d) d (fun j => if j = (fit p d e x u f).w.k then t else (fit p d e x u f).w.x j)) := by
  have hg := drive_gInv p okp d ok hn hs e x u f
  have hw := drive_where p okp (calls d) e x u f
  have hmin : (fit p d e x u f).w.task = .eval → ∀ t,
      obj (weight d) d (put (fit p d e x u f).w.x (fit p d e x u f).w.k (fit p d e x u f).w.newxk)
        ≤ obj (weight d) d (put (fit p d e x u f).w.x (fit p d e x u f).w.k t) := by
    unfold fit
    generalize drive p (calls d) e f (initial p x u) = s at *
    intro ht t
    simp only [GInv, ht] at hg
    simp only [Where, ht] at hw
    rw [hg.2]
    exact glmNew_min d ok hs s.w.x s.u hg.1 (by omega) (hd _) t
  refine ⟨?_, hmin⟩
  unfold fit at *
  rw [drive_succ]
  split
  · next hb =>
    rcases pass_x p okp hfree (calls d) e _ hw hb with h | ⟨ht, h⟩
    · rw [h]
    · rw [h]
      refine le_trans (hmin ht ((drive p (calls d) e f (initial p x u)).w.x (drive p (calls d) e f (initial p x u)).w.k)) ?_
      rw [put_self]
  · exact le_rfl

/-- C97 for the scikit-learn step if no step that is not zero is dropped: each new value is a minimiser along its
coordinate among the allowed ones, the coefficients stay allowed, and no pass raises the objective. -/
theorem C97_sklearn_partial (p : Par K) (d : Data K) (e : Env) (x u : Nat → K) (okp : p.Ok) (hfree : Free p)
    (ok : d.Ok) (hn : p.n = d.n) (hx : Allowed d x) (hs : d.scaling = .none ∨ d.scaling = .centering)
    (hnd : ∀ f, NoDrop p (fit p d e x u f)) (f : Nat) :
    obj (weight d) d (fit p d e x u (f + 1)).w.x ≤ obj (weight d) d (fit p d e x u f).w.x
    ∧ Allowed d (fit p d e x u f).w.x
    ∧ ((fit p d e x u f).w.task = .eval → ∀ t, (d.positive = true → (fit p d e x u f).w.k < d.nmod → 0 ≤ t) →
      obj (weight d) d (fun j => if j = (fit p d e x u f).w.k then (fit p d e x u f).w.newxk else (fit p d e x u f).w.x j)
        ≤ obj (weight d) d (fun j => if j = (fit p d e x u f).w.k then t else (fit p d e x u f).w.x j)) := by
  have hk := drive_kInv p okp hfree d ok hn hs e x u hx hnd f
  have hw := drive_where p okp (calls d) e x u f
  have hal : Allowed d (fit p d e x u f).w.x := by
    unfold fit
    generalize drive p (calls d) e f (initial p x u) = s at *
    cases ht : s.w.task <;> simp only [KInv, ht] at hk
    · exact hk
    · exact hk.1
    · exact hk.1
    · exact hk.1
    · exact hk.1
    · simp only [Where, ht] at hw
  have hmin : (fit p d e x u f).w.task = .eval → ∀ t, (d.positive = true → (fit p d e x u f).w.k < d.nmod → 0 ≤ t) →
      obj (weight d) d (put (fit p d e x u f).w.x (fit p d e x u f).w.k (fit p d e x u f).w.newxk)
        ≤ obj (weight d) d (put (fit p d e x u f).w.x (fit p d e x u f).w.k t) := by
    unfold fit
    generalize drive p (calls d) e f (initial p x u) = s at *
    intro ht t htp
    simp only [KInv, ht] at hk
    exact hk.2.2.2 t htp
  refine ⟨?_, hal, hmin⟩
  unfold fit at *
  rw [drive_succ]
  split
  · next hb =>
    rcases pass_x p okp hfree (calls d) e _ hw hb with h | ⟨ht, h⟩
    · rw [h]
    · rw [h]
      refine le_trans (hmin ht ((drive p (calls d) e f (initial p x u)).w.x (drive p (calls d) e f (initial p x u)).w.k) (fun hp hkk => hal hp _ hkk)) ?_
      rw [put_self]
  · exact le_rfl

/-- The solver never drops a step if `eps` is zero. -/
theorem C97_noDrop (p : Par K) (d : Data K) (e : Env) (x u : Nat → K) (h : p.eps = 0) (f : Nat) :
    NoDrop p (fit p d e x u f) := by
  intro _ hd
  rw [h] at hd
  exact sub_eq_zero.mp (abs_nonpos_iff.mp hd)

end

/-! ## Examples -/

/-- Two features, no scaling: the first steps lower the objective. -/
def plain : Data ℚ where
  m := 2
  n := 2
  icpt := false
  X := fun i j => if i = 0 then 1 else if j = 0 then 1 else -1
  y := fun i => if i = 0 then 3 else 1
  l1reg := 1 / 2
  l2reg := 0
  xv := fun _ => 2
  scaling := .none
  positive := true

example : obj (weight plain) plain (fit (usual 2) plain quiet (fun _ => 0) (fun _ => 0) 0).w.x = 5 / 2
    ∧ obj (weight plain) plain (fit (usual 2) plain quiet (fun _ => 0) (fun _ => 0) 2).w.x = 11 / 8
    ∧ (fit (usual 2) plain quiet (fun _ => 0) (fun _ => 0) 2).w.x 0 = 3 / 2
    ∧ (fit (usual 2) plain quiet (fun _ => 0) (fun _ => 0) 2).u 0 = 1
    ∧ (fit (usual 2) plain quiet (fun _ => 0) (fun _ => 0) 3).w.x 1 = 1 / 2
    ∧ (fit (usual 2) plain quiet (fun _ => 0) (fun _ => 0) 3).u 0 = 1 := by decide +kernel

/-- The same data standardized (they are already): the residual is that of the coefficients when the second step is
computed. -/
example : (fit (usual 2) { plain with scaling := .standardize, xv := fun _ => 1, positive := false } quiet
      (fun _ => 0) (fun _ => 0) 2).w.x 0 = 3 / 2
    ∧ (fit (usual 2) { plain with scaling := .standardize, xv := fun _ => 1, positive := false } quiet
      (fun _ => 0) (fun _ => 0) 2).u 0 = 3 / 2
    ∧ glmDivisor { plain with scaling := .standardize, xv := fun _ => 1 } 0 = 1 := by decide +kernel

end Verif.Coord
