import Verif.Coord.LedgerProof
import Verif.Coord.PropsSteps

/-!
# Properties of runs of the coordinate descent solver

C98: a run that ends with success has coefficients within the tolerance of the minimum.  C100: runs end and stay in
range.  C101: no coordinate is left out for long.  C102: failures of the call-backs are reported.  C103: the bounds are
kept.  Numbers of an ordered field; C100 to C103 hold for all call-backs, monitors and clocks.
-/

set_option linter.unusedSectionVars false

namespace Verif.Coord

open Finset

section
variable (K : Type) [Field K] [LinearOrder K]

/-- C98, for the data that `S` selects: with success no allowed coefficients have an objective lower by more than the
optimality tolerance. -/
def C98_statement (S : Data K → Prop) : Prop :=
  ∀ (p : Par K) (d : Data K) (e : Env) (x u : Nat → K) (f : Nat), p.Ok → 0 ≤ p.eps → Free p → d.Ok → p.n = d.n →
    Allowed d x → S d → (fit p d e x u f).w.task = .stop → (fit p d e x u f).status = .success →
    ∀ b', Allowed d b' → obj (weight d) d (fit p d e x u f).w.x ≤ obj (weight d) d b' + max p.eps p.optim

/-- C100: whatever the options (within what is registered for them), the call-backs, the monitor and the clock, a run
ends without undefined behaviour after at most `n` evaluations for each iteration allowed. -/
def C100_statement : Prop :=
  ∀ (U : Type) (p : Par K) (cb : Calls U K) (e : Env) (x : Nat → K) (u : U), 0 < p.n → 0 < p.maxit →
    ∃ f, (drive p cb e f (initial p x u)).w.task = .stop ∧ (drive p cb e f (initial p x u)).evals ≤ p.maxit * p.n

/-- C102: a run in which the step call-back has failed does not end with success. -/
def C102_statement : Prop :=
  ∀ (U : Type) (p : Par K) (cb : Calls U K) (e : Env) (x : Nat → K) (u : U) (f g : Nat), p.Ok → f ≤ g →
    (drive p cb e f (initial p x u)).w.task = .eval → (drive p cb e f (initial p x u)).cbstop = true →
    (drive p cb e g (initial p x u)).w.task = .stop → (drive p cb e g (initial p x u)).status ≠ .success

end

/-! ## Runs against the properties -/

/-- Two features, standardized without an intercept. -/
def stale : Data ℚ where
  m := 2
  n := 2
  icpt := false
  X := fun i j => if i = 0 then (if j = 0 then 1 else -1 / 4) else if j = 0 then 3 else 7 / 4
  y := fun i => if i = 0 then -1 / 5 else 7 / 5
  l1reg := 5 / 4
  l2reg := 0
  xv := fun j => if j = 0 then 5 else 25 / 16
  scaling := .standardize
  positive := false

theorem stale_ok : stale.Ok where
  m_pos := by decide
  n_pos := by decide
  l1 := by norm_num [stale]
  l2 := by norm_num [stale]
  curve := by
    intro k _
    rw [if_pos (by decide)]
    by_cases hk : k = 0 <;> norm_num [stale, sum_range_succ, hk]
  centredX := by intro h; cases h
  centredY := by intro h; cases h

/-- From the warm start (0, 4/5) the first cycle takes the second coefficient to zero.  The gap is computed with the
residual from before that change, and is zero: the run ends with success although the first coefficient can still be
improved, by 9/160 of the objective. -/
theorem C98_violated : ¬ C98_statement ℚ (fun d => d.scaling = .standardize) := by
  intro h
  have h := h (usual 2) stale quiet (fun j => if j = 0 then 0 else 4 / 5) (fun _ => 0) 4
    (usual_ok (by decide) (by decide)) (usual_eps _) (usual_free _) stale_ok rfl (by intro h; cases h) rfl
    (by decide +kernel) (by decide +kernel) (fun j => if j = 0 then 3 / 20 else 0) (by intro h; cases h)
  revert h
  decide +kernel

/-- One sample with a large feature. -/
def huge : Data ℚ where
  m := 1
  n := 1
  icpt := false
  X := fun _ _ => 2 ^ 60
  y := fun _ => 2 ^ 8
  l1reg := 0
  l2reg := 0
  xv := fun _ => 2 ^ 120
  scaling := .none
  positive := false

theorem huge_ok : huge.Ok where
  m_pos := by decide
  n_pos := by decide
  l1 := by norm_num [huge]
  l2 := by norm_num [huge]
  curve := by intro k _; rw [if_neg (by decide)]; norm_num [huge]
  centredX := by intro h; cases h
  centredY := by intro h; cases h

/-- Without scaling: the only step, to `2 ^ -52`, is dropped, but the residual has it in; the gap is zero and the run
ends with success and coefficient zero. -/
theorem C98_sklearn_violated : ¬ C98_statement ℚ (fun d => d.scaling = .none) := by
  intro h
  have h := h (usual 1) huge quiet (fun _ => 0) (fun _ => 0) 3
    (usual_ok (by decide) (by decide)) (usual_eps _) (usual_free _) huge_ok rfl (by intro h; cases h) rfl
    (by decide +kernel) (by decide +kernel) (fun _ => 1 / 2 ^ 52) (by intro h; cases h)
  revert h
  decide +kernel

/-- With `scale only` a run that starts at the minimiser does not find out: the gap never falls and the run ends for
slow progress. -/
example : (fit (usual 1) scaled quiet (fun _ => 3 / 4) (fun _ => 0) 40).w.x 0 = 3 / 4
    ∧ (fit (usual 1) scaled quiet (fun _ => 3 / 4) (fun _ => 0) 40).w.task = .stop
    ∧ (fit (usual 1) scaled quiet (fun _ => 3 / 4) (fun _ => 0) 40).status = .slow := by decide +kernel

/-- Call-backs with a step that fails after the first time and a check that is content. -/
def failing : Calls Nat ℚ where
  step := fun _ _ _ _ u => (1, u + 1, 1 ≤ u)
  value := fun _ _ => 0
  check := fun _ u => (0, u, false)

/-- `coord restart` can be set to zero, which the comment in the code describes as "every iteration expensive"; the
remainder by zero is undefined. -/
theorem C100_violated : ¬ C100_statement ℚ := by
  intro h
  obtain ⟨f, h, _⟩ := h Nat { usual 1 with restart := 0 } failing quiet (fun _ => 0) 0 (by decide) (by decide)
  have hcrash : ∀ g, (drive { usual 1 with restart := 0 } failing quiet (2 + g) (initial (usual 1) (fun _ => 0) 0)).w.task
      = .crash := by
    intro g
    induction g with
    | zero => decide +kernel
    | succ g ih =>
      rw [show 2 + (g + 1) = (2 + g) + 1 by omega, drive_succ, if_neg (by simp [Drv.busy, ih])]
      exact ih
  match f, h with
  | 0, h => exact absurd h (by decide +kernel)
  | 1, h => exact absurd h (by decide +kernel)
  | f + 2, h =>
    have := hcrash f
    rw [show 2 + f = f + 2 by omega] at this
    rw [show initial { usual 1 with restart := 0 } (fun _ => (0 : ℚ)) 0 = initial (usual 1) (fun _ => 0) 0 from rfl, this] at h
    cases h

/-- A failed step sets the flag that the next call of either call-back overwrites: the second step of this run fails and
the run ends with success. -/
theorem C102_violated : ¬ C102_statement ℚ := by
  intro h
  exact h Nat (usual 2) failing quiet (fun _ => 0) 0 2 7 (usual_ok (by decide) (by decide)) (by decide) (by decide +kernel)
    (by decide +kernel) (by decide +kernel) (by decide +kernel)

/-! ## What holds -/

section
variable {K : Type} [Field K] [LinearOrder K] [IsStrictOrderedRing K]

/-- With success the gap of the coefficients and the residual kept is within the tolerance. -/
theorem success_gap (p : Par K) (d : Data K) (e : Env) (x u : Nat → K) (f : Nat) (okp : p.Ok)
    (ht : (fit p d e x u f).w.task = .stop) (hs : (fit p d e x u f).status = .success) :
    dualGap d (fit p d e x u f).w.x (fit p d e x u f).u ≤ max p.eps p.optim := by
  have h := drive_sInv p okp (calls d) e x u f
  unfold fit at *
  generalize drive p (calls d) e f (initial p x u) = s at *
  simp only [SInv, ht] at h
  obtain ⟨h1, ⟨u0, v, h2, h3⟩, h4⟩ := h hs
  rw [h3 h1] at h4
  have hv : dualGap d s.w.x u0 = v := congrArg (fun t => t.1) h2
  have hu : u0 = s.u := congrArg (fun t => t.2.1) h2
  rw [← hu, hv]
  simpa [leInf, optimTol] using h4

/-- C98 for the scikit-learn step (no scaling, centring) if no step that is not zero is dropped. -/
theorem C98_sklearn_partial (p : Par K) (d : Data K) (e : Env) (x u : Nat → K) (okp : p.Ok) (hfree : Free p)
    (ok : d.Ok) (hn : p.n = d.n) (hx : Allowed d x) (hs : d.scaling = .none ∨ d.scaling = .centering)
    (hnd : ∀ f, NoDrop p (fit p d e x u f)) (f : Nat)
    (ht : (fit p d e x u f).w.task = .stop) (hsuc : (fit p d e x u f).status = .success) :
    Allowed d (fit p d e x u f).w.x
    ∧ ∀ b', Allowed d b' → obj (weight d) d (fit p d e x u f).w.x ≤ obj (weight d) d b' + max p.eps p.optim := by
  have hr := (C96_sklearn_partial p d e x u okp hfree ok hn hx hs hnd f).1 (Or.inr (Or.inr ht))
  have hgap := success_gap p d e x u f okp ht hsuc
  refine ⟨(C97_sklearn_partial p d e x u okp hfree ok hn hx hs hnd f).2.1, fun b' hb' => ?_⟩
  have h := C95_gap_partial d ok _ _ hr
  rw [h.2.2 (by rcases hs with hs | hs <;> simp [hs])]
  have := h.1 b' hb'
  linarith

/-- C98 for the GLMnet step if the last coefficient of the last cycle did not change; for `scale only` it is the
objective with the mean of the squares, which is not the one its steps minimise. -/
theorem C98_glm_partial (p : Par K) (d : Data K) (e : Env) (x u : Nat → K) (f : Nat) (okp : p.Ok) (ok : d.Ok)
    (hn : p.n = d.n) (hs : d.scaling = .standardize ∨ d.scaling = .scaleOnly)
    (ht : (fit p d e x u f).w.task = .stop) (hsuc : (fit p d e x u f).status = .success)
    (hk : (fit p d e x u f).w.kdiff = 0) :
    (∀ b', Allowed d b' →
      obj (1 / (d.m : K)) d (fit p d e x u f).w.x ≤ obj (1 / (d.m : K)) d b' + max p.eps p.optim)
    ∧ (d.scaling = .standardize → weight d = 1 / (d.m : K)) := by
  have hr := (C96_glm_partial p d e x u f okp ok hn hs).2 (Or.inr (Or.inr ht)) hk
  have hgap := success_gap p d e x u f okp ht hsuc
  refine ⟨fun b' hb' => ?_, fun h => by simp [weight, h]⟩
  have := (C95_gap_partial d ok _ _ hr).1 b' hb'
  linarith

variable {U : Type}

/-- C100 with a restart that is not zero and integers wide enough: the number of passes is known in advance, and until
then every coordinate the step call-back is asked for exists. -/
theorem C100_ends_partial (p : Par K) (okp : p.Ok) (cb : Calls U K) (e : Env) (x : Nat → K) (u : U) :
    (∀ f, p.maxit * (p.n + 2) + 1 ≤ f → (drive p cb e f (initial p x u)).w.task = .stop)
    ∧ ∀ f, (drive p cb e f (initial p x u)).w.task ≠ .crash
      ∧ (drive p cb e f (initial p x u)).evals ≤ p.maxit * p.n
      ∧ (drive p cb e f (initial p x u)).w.iter ≤ p.maxit
      ∧ ((drive p cb e f (initial p x u)).w.task = .eval → (drive p cb e f (initial p x u)).w.k < p.n) := by
  have hall : ∀ f, (drive p cb e f (initial p x u)).w.task ≠ .crash
      ∧ (drive p cb e f (initial p x u)).evals ≤ p.maxit * p.n
      ∧ (drive p cb e f (initial p x u)).w.iter ≤ p.maxit
      ∧ ((drive p cb e f (initial p x u)).w.task = .eval → (drive p cb e f (initial p x u)).w.k < p.n) := by
    intro f
    have hw := drive_where p okp cb e x u f
    have hst : (drive p cb e f (initial p x u)).w.task = .start → (drive p cb e f (initial p x u)).w.iter = 0 := by
      clear hw
      apply drive_ind p cb e _ (fun s => s.w.task = .start → s.w.iter = 0) (fun _ => rfl)
      intro f _ hb ht
      exact absurd ht (pass_w p okp cb e _ (drive_where p okp cb e x u f) hb).1
    generalize drive p cb e f (initial p x u) = s at *
    have hmul : ∀ a b, a ≤ b → a * p.n ≤ b * p.n := fun a b h => Nat.mul_le_mul_right _ h
    cases ht : s.w.task <;> simp only [Where, ht] at hw
    · exact ⟨by simp, by omega, by have := hst ht; omega, by simp⟩
    · exact ⟨by simp, le_trans hw.2.2 (hmul _ _ hw.1.le), hw.1.le, by simp⟩
    · refine ⟨by simp, ?_, hw.1.le, fun _ => hw.2.1⟩
      have h1 := hmul (s.w.iter + 1) p.maxit hw.1
      have h2 : (s.w.iter + 1) * p.n = s.w.iter * p.n + p.n := by ring
      omega
    · exact ⟨by simp, le_trans hw.2 (hmul _ _ hw.1), hw.1, by simp⟩
    · exact ⟨by simp, le_trans hw.2.2 (hmul _ _ hw.1), hw.1, by simp⟩
  refine ⟨fun f hf => ?_, hall⟩
  have h := drive_ends p okp cb e f (initial p x u) (drive_where p okp cb e x u 0) (by simpa [rank, initial] using hf)
  have h2 := (hall f).1
  unfold Drv.busy at h
  split at h
  · assumption
  · exact absurd (by assumption) h2
  · cases h

/-- C101: while a coordinate is not evaluated, at most `max skipmax threshold + 1` cycles end; and the counters stay in
their ranges. -/
theorem C101_fair (p : Par K) (okp : p.Ok) (h1 : 1 ≤ p.skipmaxReset) (cb : Calls U K) (e : Env) (x : Nat → K) (u : U) :
    (∀ j f g, j < p.n → f ≤ g →
      (∀ h, f ≤ h → h < g → (drive p cb e h (initial p x u)).w.task = .eval →
        (drive p cb e h (initial p x u)).w.k ≠ j) →
      (drive p cb e g (initial p x u)).w.iter
        ≤ (drive p cb e f (initial p x u)).w.iter + max p.skipmaxReset p.threshold + 1)
    ∧ ∀ f j, (drive p cb e f (initial p x u)).w.skip j ≤ (drive p cb e f (initial p x u)).w.skipmax j
      ∧ (drive p cb e f (initial p x u)).w.skipmax j ≤ max p.skipmaxReset p.threshold := by
  refine ⟨fun j f g hj hfg hno => ?_, fun f j => ?_⟩
  · obtain ⟨t, rfl⟩ : ∃ t, g = f + t := ⟨g - f, by omega⟩
    have h := drive_fair p okp h1 cb e x u hj f t hno
    have hb : p.big = max p.skipmaxReset p.threshold := rfl
    rw [hb] at h
    simp only [past] at h
    split at h <;> split at h <;> omega
  · have h := (drive_lInv p okp h1 cb e x u f).1 j
    exact ⟨h.1, h.2.2⟩

/-- C102 for the optimality check: its failure is reported at once, and the measure stays that from before.  Failures of the step call-back never are: if the
check does not fail no run at all ends with the status of a failed call-back. -/
theorem C102_check_partial (p : Par K) (okp : p.Ok) (cb : Calls U K) (e : Env) (x : Nat → K) (u : U) :
    (∀ f, (drive p cb e f (initial p x u)).w.task = .optimchk → (drive p cb e f (initial p x u)).cbstop = true →
      (drive p cb e (f + 1) (initial p x u)).w.task = .stop
      ∧ (drive p cb e (f + 1) (initial p x u)).status = .callback
      ∧ (drive p cb e f (initial p x u)).optim = (drive p cb e f (initial p x u)).optimOld)
    ∧ ((∀ b v, (cb.check b v).2.2 = false) → ∀ f, (drive p cb e f (initial p x u)).status ≠ .callback) :=
  ⟨fun f h1 h2 => ⟨(check_report p okp cb e x u f h1 h2).1, (check_report p okp cb e x u f h1 h2).2,
    check_keeps p okp cb e x u f h1 h2⟩, fun h f => no_report p okp cb h e x u f⟩

/-- C103: from the first pass on all coordinates are within their bounds, whatever the call-backs give. -/
theorem C103_bounds (p : Par K) (okp : p.Ok) (hlh : ∀ i l h, i < p.n → p.lo i = some l → p.hi i = some h → l ≤ h)
    (cb : Calls U K) (e : Env) (x : Nat → K) (u : U) (f i : Nat) (hi : i < p.n) :
    (∀ l, p.lo i = some l → l ≤ (drive p cb e (f + 1) (initial p x u)).w.x i)
    ∧ ∀ h, p.hi i = some h → (drive p cb e (f + 1) (initial p x u)).w.x i ≤ h := by
  have hs : ∀ f, (drive p cb e (f + 1) (initial p x u)).w.task ≠ .start := by
    intro f
    induction f with
    | zero => exact (pass_w p okp cb e _ (drive_where p okp cb e x u 0) rfl).1
    | succ f ih =>
      rw [drive_succ]
      split
      · next hb => exact (pass_w p okp cb e _ (drive_where p okp cb e x u (f + 1)) hb).1
      · exact ih
  exact (drive_bInv p okp hlh cb e x u (f + 1)).resolve_left (hs f) i hi

end

/-! ## Examples -/

/-- The run with the plain data of `PropsSteps` ends with success and the minimiser, and no step is dropped. -/
example : (fit (usual 2) plain quiet (fun _ => 0) (fun _ => 0) 9).w.task = .stop
    ∧ (fit (usual 2) plain quiet (fun _ => 0) (fun _ => 0) 9).status = .success
    ∧ (fit (usual 2) plain quiet (fun _ => 0) (fun _ => 0) 9).w.x 0 = 3 / 2
    ∧ (fit (usual 2) plain quiet (fun _ => 0) (fun _ => 0) 9).w.x 1 = 1 / 2
    ∧ (fit (usual 2) plain quiet (fun _ => 0) (fun _ => 0) 9).evals = 4
    ∧ (fit (usual 2) plain quiet (fun _ => 0) (fun _ => 0) 9).w.kdiff = 0 := by decide +kernel

example : ∀ f, f < 12 → ((fit (usual 2) plain quiet (fun _ => 0) (fun _ => 0) f).w.task = .eval →
    |(fit (usual 2) plain quiet (fun _ => 0) (fun _ => 0) f).w.newxk
      - (fit (usual 2) plain quiet (fun _ => 0) (fun _ => 0) f).w.x
        (fit (usual 2) plain quiet (fun _ => 0) (fun _ => 0) f).w.k| ≤ (usual 2).eps →
    (fit (usual 2) plain quiet (fun _ => 0) (fun _ => 0) f).w.newxk
      = (fit (usual 2) plain quiet (fun _ => 0) (fun _ => 0) f).w.x
        (fit (usual 2) plain quiet (fun _ => 0) (fun _ => 0) f).w.k) := by decide +kernel

/-- A step that halves coordinate 0 forever and leaves coordinate 1: coordinate 1 is passed over in the fourth cycle,
and looked at again in the fifth. -/
def halving : Calls Unit ℚ where
  step := fun x k _ _ _ => (if k = 0 then x 0 / 2 else x 1, (), false)
  value := fun _ _ => 0
  check := fun _ _ => (1, (), false)

def short : Par ℚ := { usual 2 with skipmaxReset := 5, threshold := 5, tol := 0, skiptol := 1 / 2 ^ 40 }

/-- The coordinates evaluated, in order. -/
def order (p : Par ℚ) (n : Nat) : List Nat :=
  ((List.range n).filter fun f => decide ((drive p halving quiet f (initial p (fun _ => 1) ())).w.task = .eval)).map
    fun f => (drive p halving quiet f (initial p (fun _ => 1) ())).w.k

example : order short 24 = [0, 1, 0, 1, 0, 1, 0, 0, 1, 0, 1, 0, 1, 0, 1] := by decide +kernel

/-- A box around the first coordinate keeps the step that would leave it. -/
example : (drive { usual 1 with lo := fun _ => some (-1), hi := fun _ => some (1 / 2) } failing quiet 3
    (initial (usual 1) (fun _ => 7) 0)).w.x 0 = 1 / 2 := by decide +kernel

/-- A check that fails is reported. -/
example : (drive (usual 1) { failing with check := fun _ u => (0, u, true) } quiet 9
    (initial (usual 1) (fun _ => 0) 0)).status = .callback := by decide +kernel

end Verif.Coord
