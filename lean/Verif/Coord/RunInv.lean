import Verif.Coord.RunProof
import Verif.Coord.GapProof

/-! # Invariants of runs of the solver with the call-backs of linear regression -/

set_option linter.unusedSectionVars false

namespace Verif.Coord

section
variable {U K : Type} [Field K] [LinearOrder K]

theorem drive_succ (p : Par K) (cb : Calls U K) (e : Env) : ∀ f d, drive p cb e (f + 1) d =
    if (drive p cb e f d).busy then pass p cb e (drive p cb e f d) else drive p cb e f d
  | 0, d => rfl
  | f + 1, d => by
    rw [drive]
    by_cases hb : d.busy = true
    · rw [if_pos hb, drive_succ p cb e f]
      have : drive p cb e (f + 1) d = drive p cb e f (pass p cb e d) := by rw [drive, if_pos hb]
      rw [this]
    · rw [if_neg hb]
      have : drive p cb e (f + 1) d = d := by rw [drive, if_neg hb]
      rw [this, if_neg hb]

/-- Induction over the states of a run. -/
theorem drive_ind (p : Par K) (cb : Calls U K) (e : Env) (d : Drv U K) (P : Drv U K → Prop) (h0 : P d)
    (hstep : ∀ f, P (drive p cb e f d) → (drive p cb e f d).busy = true → P (pass p cb e (drive p cb e f d))) :
    ∀ f, P (drive p cb e f d)
  | 0 => h0
  | f + 1 => by
    have h := drive_ind p cb e d P h0 hstep f
    rw [drive_succ]
    by_cases hb : (drive p cb e f d).busy = true
    · rw [if_pos hb]; exact hstep f h hb
    · rw [if_neg hb]; exact h

end

section
variable {U K : Type} [Field K] [LinearOrder K] [IsStrictOrderedRing K]

/-- What a pass does, by the task it begins with. -/
theorem pass_cases (p : Par K) (ok : p.Ok) (cb : Calls U K) (e : Env) (d : Drv U K) (h : Where p d)
    (hb : d.busy = true) :
    (d.w.task = .start ∧ pass p cb e d = driveEval cb { d with w := begin_ p d.w, status := .success })
    ∨ (d.w.task = .eval ∧ (evalTask p d.w).task = .eval ∧ (evalTask p d.w).iter = d.w.iter ∧ d.w.k < (evalTask p d.w).k
      ∧ pass p cb e d = driveEval cb { d with w := evalTask p d.w, status := .success })
    ∨ (d.w.task = .eval ∧ (evalTask p d.w).task = .optimchk ∧ (evalTask p d.w).iter = d.w.iter + 1
      ∧ pass p cb e d = driveCheck cb { d with w := evalTask p d.w, status := .success })
    ∨ (d.w.task = .eval ∧ (evalTask p d.w).task = .newx ∧ (evalTask p d.w).iter = d.w.iter + 1
      ∧ pass p cb e d = driveNewx p cb e { d with w := evalTask p d.w, status := .success })
    ∨ (d.w.task = .optimchk ∧ leInf d.optim (optimTol p) = true
      ∧ pass p cb e d = driveNewx p cb e { d with w := { d.w with task := .stop }, status := .success })
    ∨ (d.w.task = .optimchk ∧ leInf d.optim (optimTol p) = false
      ∧ pass p cb e d = driveNewx p cb e { d with w := { d.w with task := .newx }, status := .success })
    ∨ (d.w.task = .newx ∧ pass p cb e d = driveEval cb
        { d with w := { d.w with task := .eval, inorm := 0, inormbeta := 0 }, status := .success }) := by
  obtain ⟨t, ht⟩ : ∃ t, t = d.w.task := ⟨_, rfl⟩
  cases t with
  | stop => simp [Drv.busy, ← ht] at hb
  | crash => simp [Drv.busy, ← ht] at hb
  | start =>
    left
    exact ⟨ht.symm, by unfold pass rcomm; rw [← ht]; rfl⟩
  | eval =>
    have h0 : d.w.iter < p.maxit ∧ d.w.k < p.n ∧ d.evals ≤ d.w.iter * p.n + d.w.k + 1 := by
      simpa [Where, ← ht] using h
    have hwide : (d.w.iter + 1) * p.n + p.n ≤ p.imax + 1 := by
      have : (d.w.iter + 1) * p.n ≤ p.maxit * p.n := Nat.mul_le_mul_right _ h0.1
      have := ok.wide
      omega
    have hrc : (rcomm p d.optim d.w) = evalTask p d.w := by unfold rcomm; rw [← ht]
    rcases evalTask_task p d.w ok.n_pos ht.symm ok.restart hwide with ⟨h1, h2, h3, _⟩ | ⟨h1 | h1, h2, _⟩
    · right; left
      exact ⟨ht.symm, h1, h2, h3, by unfold pass; rw [hrc]; simp only [h1]⟩
    · right; right; left
      exact ⟨ht.symm, h1, h2, by unfold pass; rw [hrc]; simp only [h1]⟩
    · right; right; right; left
      exact ⟨ht.symm, h1, h2, by unfold pass; rw [hrc]; simp only [h1]⟩
  | optimchk =>
    by_cases hl : leInf d.optim (optimTol p) = true
    · right; right; right; right; left
      have hrc : (rcomm p d.optim d.w) = { d.w with task := .stop } := by unfold rcomm; rw [← ht]; simp [hl]
      exact ⟨ht.symm, hl, by unfold pass; rw [hrc]⟩
    · have hl : leInf d.optim (optimTol p) = false := by simpa using hl
      right; right; right; right; right; left
      have hrc : (rcomm p d.optim d.w) = { d.w with task := .newx } := by unfold rcomm; rw [← ht]; simp [hl]
      exact ⟨ht.symm, hl, by unfold pass; rw [hrc]⟩
  | newx =>
    right; right; right; right; right; right
    exact ⟨ht.symm, by unfold pass rcomm; rw [← ht]⟩

/-! ## What success means -/

/-- The last check was made with the coefficients as they are, and gave the measure as it is. -/
def Checked (cb : Calls U K) (d : Drv U K) : Prop :=
  ∃ u0 v, cb.check d.w.x u0 = (v, d.u, d.cbstop) ∧ (d.cbstop = false → d.optim = some v)

def SInv (p : Par K) (cb : Calls U K) (d : Drv U K) : Prop :=
  match d.w.task with
  | .stop => d.status = .success → d.cbstop = false ∧ Checked cb d ∧ leInf d.optim (optimTol p) = true
  | .optimchk => d.chkIter = d.w.iter ∧ Checked cb d
  | .crash => True
  | .start => d.chkIter ≤ 0
  | _ => d.chkIter ≤ d.w.iter

theorem decideStop_success (p : Par K) (e : Env) (d : Drv U K) (ht : (decideStop p e d).w.task = .stop)
    (hs : (decideStop p e d).status = .success) :
    d.w.task = .stop ∧ d.cbstop = false ∧ decideStop p e d = d := by
  unfold decideStop at *
  by_cases h1 : d.cbstop = true
  · rw [if_pos h1] at hs; cases hs
  · rw [if_neg h1] at ht hs ⊢
    by_cases h2 : d.w.task = .stop
    · rw [if_pos h2]; exact ⟨h2, by simpa using h1, rfl⟩
    · rw [if_neg h2] at ht hs
      exfalso
      split at hs
      · cases hs
      · split at hs
        · cases hs
        · split at hs
          · cases hs
          · split at hs
            · split at hs
              · cases hs
              · next h3 h4 h5 h6 h7 =>
                rw [if_neg h3, if_neg h4, if_neg h5, if_pos h6, if_neg h7] at ht
                exact h2 ht
            · next h3 h4 h5 h6 =>
              rw [if_neg h3, if_neg h4, if_neg h5, if_neg h6] at ht
              exact h2 ht

theorem decideStop_chk (p : Par K) (e : Env) (d : Drv U K) : (decideStop p e d).chkIter = d.chkIter
    ∧ (decideStop p e d).optim = d.optim ∧ (decideStop p e d).chkcnt = d.chkcnt := by
  unfold decideStop
  split
  · exact ⟨rfl, rfl, rfl⟩
  · split
    · exact ⟨rfl, rfl, rfl⟩
    · split
      · exact ⟨rfl, rfl, rfl⟩
      · split
        · exact ⟨rfl, rfl, rfl⟩
        · split
          · exact ⟨rfl, rfl, rfl⟩
          · split
            · split
              · exact ⟨rfl, rfl, rfl⟩
              · exact ⟨rfl, rfl, rfl⟩
            · exact ⟨rfl, rfl, rfl⟩

theorem measure_chk (p : Par K) (cb : Calls U K) (e : Env) (d : Drv U K) (h : d.chkIter ≤ d.w.iter) :
    (measure p cb e d).chkIter ≤ d.w.iter := by
  unfold measure
  simp only
  split
  · split
    · exact le_rfl
    · exact h
  · exact h

/-- After a check in this iteration nothing is checked again. -/
theorem measure_same (p : Par K) (cb : Calls U K) (e : Env) (d : Drv U K) (h : d.chkIter = d.w.iter) :
    (measure p cb e d).chkIter = d.chkIter ∧ (measure p cb e d).optim = d.optim ∧ (measure p cb e d).u = d.u
    ∧ (measure p cb e d).cbstop = d.cbstop ∧ (measure p cb e d).status = d.status := by
  unfold measure
  simp only [h, lt_irrefl, if_false]
  split <;> simp [h]

theorem sInv_newx (p : Par K) (cb : Calls U K) (e : Env) (d : Drv U K) (ht : d.w.task = .newx)
    (hc : d.chkIter ≤ d.w.iter) : SInv p cb (driveNewx p cb e d) := by
  unfold SInv
  rcases driveNewx_w p cb e d with h | h
  · simp only [h, ht]
    unfold driveNewx
    rw [(decideStop_chk p e _).1]
    exact measure_chk p cb e d hc
  · simp only [h]
    intro hs
    have := decideStop_success p e (measure p cb e d) (by
      show (driveNewx p cb e d).w.task = .stop
      rw [h]) hs
    rw [measure_w, ht] at this
    exact absurd this.1 (by simp)

theorem pass_sInv (p : Par K) (ok : p.Ok) (cb : Calls U K) (e : Env) (d : Drv U K) (hw : Where p d)
    (hb : d.busy = true) (h : SInv p cb d) : SInv p cb (pass p cb e d) := by
  rcases pass_cases p ok cb e d hw hb with ⟨ht, hp⟩ | ⟨ht, h1, h2, _, hp⟩ | ⟨ht, h1, h2, hp⟩ | ⟨ht, h1, h2, hp⟩
    | ⟨ht, hl, hp⟩ | ⟨ht, hl, hp⟩ | ⟨ht, hp⟩
  · have h0 : d.chkIter ≤ 0 := by simpa [SInv, ht] using h
    rw [hp]
    unfold SInv driveEval begin_
    simpa using h0
  · have h0 : d.chkIter ≤ d.w.iter := by simpa [SInv, ht] using h
    rw [hp]
    unfold SInv driveEval
    simp only [h1, h2]
    exact h0
  · rw [hp]
    unfold SInv driveCheck
    simp only [h1]
    refine ⟨trivial, ⟨d.u, (cb.check (evalTask p d.w).x d.u).1, rfl, ?_⟩⟩
    intro hc
    have hc : (cb.check (evalTask p d.w).x d.u).2.2 = false := hc
    simp [hc]
  · have h0 : d.chkIter ≤ d.w.iter := by simpa [SInv, ht] using h
    rw [hp]
    apply sInv_newx
    · exact h1
    · simp only [h2]; push_cast; omega
  · have h0 : d.chkIter = d.w.iter ∧ Checked cb d := by simpa [SInv, ht] using h
    rw [hp]
    have hm := measure_same p cb e { d with w := { d.w with task := .stop }, status := .success } h0.1
    have hmw := measure_w p cb e { d with w := { d.w with task := .stop }, status := .success }
    unfold driveNewx
    generalize measure p cb e { d with w := { d.w with task := .stop }, status := .success } = D at *
    unfold SInv
    rcases decideStop_w p e D with h | h
    all_goals
      have htk : (decideStop p e D).w.task = .stop := by rw [h]; try rw [hmw]
      simp only [htk]
      intro hs
      have hd := decideStop_success p e D htk hs
      rw [hd.2.2]
      refine ⟨hd.2.1, ?_, ?_⟩
      · obtain ⟨u0, v, h1, h2⟩ := h0.2
        refine ⟨u0, v, ?_, ?_⟩
        · rw [hmw, hm.2.2.1, hm.2.2.2.1]; exact h1
        · rw [hm.2.2.2.1, hm.2.1]; exact h2
      · rw [hm.2.1]; exact hl
  · have h0 : d.chkIter = d.w.iter ∧ Checked cb d := by simpa [SInv, ht] using h
    rw [hp]
    apply sInv_newx
    · rfl
    · exact le_of_eq h0.1
  · have h0 : d.chkIter ≤ d.w.iter := by simpa [SInv, ht] using h
    rw [hp]
    unfold SInv driveEval
    simp only
    exact h0

theorem drive_sInv (p : Par K) (ok : p.Ok) (cb : Calls U K) (e : Env) (x : Nat → K) (u : U) (f : Nat) :
    SInv p cb (drive p cb e f (initial p x u)) :=
  drive_ind p cb e _ (SInv p cb) (by simp [SInv, initial])
    (fun f h hb => pass_sInv p ok cb e _ (drive_where p ok cb e x u f) hb h) f

end

/-! ## Linear regression: the residual -/

section
variable {K : Type} [Field K] [LinearOrder K] [IsStrictOrderedRing K]

/-- The residual of the GLMnet variant between evaluations: right, or right before the last change, or to be computed
afresh. -/
def Pending (d : Data K) (x : Nat → K) (action : Int) (kdiff : K) (r : Nat → K) : Prop :=
  ∃ x0, 0 < action ∨ (action = 0 ∧ Right d x r) ∨
    (∃ k, k < d.n ∧ action = -((k : Int) + 1) ∧ kdiff = x k - x0 k ∧ x = put x0 k (x k) ∧ Right d x0 r)

/-- The residual is right if the last change was zero. -/
def Settled (d : Data K) (s : Drv (Nat → K) K) : Prop :=
  match s.w.task with
  | .start => True
  | .eval => True
  | .crash => True
  | _ => s.w.kdiff = 0 → Right d s.w.x s.u

/-- Invariant of runs with the GLMnet variant. -/
def GInv (d : Data K) (s : Drv (Nat → K) K) : Prop :=
  match s.w.task with
  | .start => True
  | .eval => Right d s.w.x s.u ∧ s.w.newxk = glmNew d s.w.x s.w.k s.u
  | .crash => True
  | _ => Pending d s.w.x s.w.action s.w.kdiff s.u

def IsGlm (d : Data K) : Prop := d.scaling = .standardize ∨ d.scaling = .scaleOnly

theorem calls_glm (d : Data K) (h : IsGlm d) (x : Nat → K) (k : Nat) (a : Int) (c : K) (r : Nat → K) :
    (calls d).step x k a c r = (glmNew d x k (glmResidual d x a c r), glmResidual d x a c r, false) := by
  have : ¬ (d.scaling = .none ∨ d.scaling = .centering) := by rcases h with h | h <;> simp [h]
  simp only [calls, if_neg this, glmStep]

theorem gInv_eval (d : Data K) (ok : d.Ok) (hg : IsGlm d) (s : Drv (Nat → K) K) (ht : s.w.task = .eval)
    (h : Pending d s.w.x s.w.action s.w.kdiff s.u) : GInv d (driveEval (calls d) s) := by
  obtain ⟨x0, h⟩ := h
  have hr := glmResidual_right d ok s.w.x x0 s.u s.w.action s.w.kdiff h
  unfold GInv driveEval
  simp only [ht, calls_glm d hg]
  exact ⟨hr, by simp⟩

theorem put_put_self {A : Type} (f : Nat → A) (k : Nat) (a : A) : put f k a = put f k (put f k a k) := by
  rw [put_same]

theorem put_self {A : Type} (f : Nat → A) (k : Nat) : put f k (f k) = f := by
  funext j
  unfold put
  split
  · next h => rw [h]
  · rfl

theorem pending_eval (p : Par K) (hn : 0 < p.n) (d : Data K) (hpn : p.n = d.n) (w : Work K) (r : Nat → K)
    (hk : w.k < p.n) (h : Right d w.x r) :
    Pending d (evalTask p w).x (evalTask p w).action (evalTask p w).kdiff r := by
  obtain ⟨v, h1, h2, _, _, _, h3, _⟩ := evalTask_facts p w hn
  refine ⟨w.x, ?_⟩
  rcases h3 with h3 | h3
  · left; rw [h3]; decide
  · right
    by_cases hv : v = w.x w.k
    · left
      rw [if_pos hv] at h3
      refine ⟨h3, ?_⟩
      rw [h1, hv, put_self]; exact h
    · right
      rw [if_neg hv] at h3
      refine ⟨w.k, by omega, h3, ?_, ?_, h⟩
      · rw [h1, h2, put_same]
      · rw [h1, put_same]

theorem driveNewx_u (p : Par K) (cb : Calls (Nat → K) K) (hcb : ∀ x u, (cb.check x u).2.1 = u) (e : Env)
    (s : Drv (Nat → K) K) : (driveNewx p cb e s).u = s.u := by
  unfold driveNewx
  rw [(decideStop_evals p e _).2]
  unfold measure
  simp only
  split
  · split
    · unfold driveCheck; simp only [hcb]
    · rfl
  · rfl

theorem gInv_newx (p : Par K) (cb : Calls (Nat → K) K) (hcb : ∀ x u, (cb.check x u).2.1 = u) (e : Env) (d : Data K)
    (s : Drv (Nat → K) K) (ht : s.w.task = .newx ∨ s.w.task = .stop)
    (h : Pending d s.w.x s.w.action s.w.kdiff s.u) : GInv d (driveNewx p cb e s) := by
  have hu := driveNewx_u p cb hcb e s
  unfold GInv
  rcases driveNewx_w p cb e s with hw | hw
  · rw [hw, hu]
    rcases ht with ht | ht <;> rw [ht] <;> exact h
  · rw [hw, hu]
    exact h

theorem drive_gInv (p : Par K) (okp : p.Ok) (d : Data K) (ok : d.Ok) (hpn : p.n = d.n) (hg : IsGlm d) (e : Env)
    (x u : Nat → K) (f : Nat) : GInv d (drive p (calls d) e f (initial p x u)) := by
  apply drive_ind p (calls d) e _ (GInv d) (by simp [GInv, initial])
  intro f h hb
  have hw := drive_where p okp (calls d) e x u f
  generalize drive p (calls d) e f (initial p x u) = s at *
  rcases pass_cases p okp (calls d) e s hw hb with ⟨ht, hp⟩ | ⟨ht, h1, h2, _, hp⟩ | ⟨ht, h1, h2, hp⟩ | ⟨ht, h1, h2, hp⟩
    | ⟨ht, hl, hp⟩ | ⟨ht, hl, hp⟩ | ⟨ht, hp⟩
  · rw [hp]
    apply gInv_eval d ok hg
    · rfl
    · exact ⟨s.w.x, Or.inl (by simp [begin_])⟩
  · have h0 : Right d s.w.x s.u ∧ s.w.newxk = glmNew d s.w.x s.w.k s.u := by simpa [GInv, ht] using h
    have hk : s.w.k < p.n := by simp only [Where, ht] at hw; exact hw.2.1
    rw [hp]
    exact gInv_eval d ok hg _ h1 (pending_eval p okp.n_pos d hpn s.w s.u hk h0.1)
  · have h0 : Right d s.w.x s.u ∧ s.w.newxk = glmNew d s.w.x s.w.k s.u := by simpa [GInv, ht] using h
    have hk : s.w.k < p.n := by simp only [Where, ht] at hw; exact hw.2.1
    rw [hp]
    unfold GInv driveCheck
    simp only [h1]
    exact pending_eval p okp.n_pos d hpn s.w s.u hk h0.1
  · have h0 : Right d s.w.x s.u ∧ s.w.newxk = glmNew d s.w.x s.w.k s.u := by simpa [GInv, ht] using h
    have hk : s.w.k < p.n := by simp only [Where, ht] at hw; exact hw.2.1
    rw [hp]
    exact gInv_newx p (calls d) (fun _ _ => rfl) e d _ (Or.inl h1) (pending_eval p okp.n_pos d hpn s.w s.u hk h0.1)
  · have h0 : Pending d s.w.x s.w.action s.w.kdiff s.u := by simpa [GInv, ht] using h
    rw [hp]
    exact gInv_newx p (calls d) (fun _ _ => rfl) e d _ (Or.inr rfl) h0
  · have h0 : Pending d s.w.x s.w.action s.w.kdiff s.u := by simpa [GInv, ht] using h
    rw [hp]
    exact gInv_newx p (calls d) (fun _ _ => rfl) e d _ (Or.inl rfl) h0
  · have h0 : Pending d s.w.x s.w.action s.w.kdiff s.u := by simpa [GInv, ht] using h
    rw [hp]
    exact gInv_eval d ok hg _ rfl h0

theorem settled_eval (p : Par K) (hn : 0 < p.n) (d : Data K) (w : Work K) (r : Nat → K) (h : Right d w.x r) :
    (evalTask p w).kdiff = 0 → Right d (evalTask p w).x r := by
  obtain ⟨v, h1, h2, _⟩ := evalTask_facts p w hn
  intro hz
  have : v = w.x w.k := by rw [h2] at hz; exact sub_eq_zero.mp hz
  rw [h1, this, put_self]
  exact h

theorem settled_newx (p : Par K) (cb : Calls (Nat → K) K) (hcb : ∀ x u, (cb.check x u).2.1 = u) (e : Env) (d : Data K)
    (s : Drv (Nat → K) K) (ht : s.w.task = .newx ∨ s.w.task = .stop)
    (h : s.w.kdiff = 0 → Right d s.w.x s.u) : Settled d (driveNewx p cb e s) := by
  have hu := driveNewx_u p cb hcb e s
  unfold Settled
  rcases driveNewx_w p cb e s with hw | hw
  · rw [hw, hu]
    rcases ht with ht | ht <;> rw [ht] <;> exact h
  · rw [hw, hu]
    exact h

theorem drive_settled (p : Par K) (okp : p.Ok) (d : Data K) (ok : d.Ok) (hpn : p.n = d.n) (hg : IsGlm d) (e : Env)
    (x u : Nat → K) (f : Nat) : Settled d (drive p (calls d) e f (initial p x u)) := by
  apply drive_ind p (calls d) e _ (Settled d) (by simp [Settled, initial])
  intro f h hb
  have hw := drive_where p okp (calls d) e x u f
  have hgi := drive_gInv p okp d ok hpn hg e x u f
  generalize drive p (calls d) e f (initial p x u) = s at *
  have hR : s.w.task = .eval → Right d s.w.x s.u := by
    intro ht
    have h0 : Right d s.w.x s.u ∧ s.w.newxk = glmNew d s.w.x s.w.k s.u := by simpa only [GInv, ht] using hgi
    exact h0.1
  rcases pass_cases p okp (calls d) e s hw hb with ⟨ht, hp⟩ | ⟨ht, h1, h2, _, hp⟩ | ⟨ht, h1, h2, hp⟩ | ⟨ht, h1, h2, hp⟩
    | ⟨ht, hl, hp⟩ | ⟨ht, hl, hp⟩ | ⟨ht, hp⟩
  · rw [hp]
    unfold Settled driveEval begin_
    trivial
  · rw [hp]
    unfold Settled driveEval
    simp only [h1]
  · rw [hp]
    unfold Settled driveCheck
    simp only [h1]
    exact settled_eval p okp.n_pos d s.w s.u (hR ht)
  · rw [hp]
    exact settled_newx p (calls d) (fun _ _ => rfl) e d _ (Or.inl h1) (settled_eval p okp.n_pos d s.w s.u (hR ht))
  · have h0 : s.w.kdiff = 0 → Right d s.w.x s.u := by simpa only [Settled, ht] using h
    rw [hp]
    exact settled_newx p (calls d) (fun _ _ => rfl) e d _ (Or.inr rfl) h0
  · have h0 : s.w.kdiff = 0 → Right d s.w.x s.u := by simpa only [Settled, ht] using h
    rw [hp]
    exact settled_newx p (calls d) (fun _ _ => rfl) e d _ (Or.inl rfl) h0
  · rw [hp]
    unfold Settled driveEval
    trivial

/-! ### The scikit-learn variant -/

def IsSk (d : Data K) : Prop := d.scaling = .none ∨ d.scaling = .centering

theorem calls_sk (d : Data K) (h : IsSk d) (x : Nat → K) (k : Nat) (a : Int) (c : K) (r : Nat → K) :
    (calls d).step x k a c r = ((skStep d x k a r).1, (skStep d x k a r).2, false) := by
  have : (d.scaling = .none ∨ d.scaling = .centering) := h
  simp only [calls, if_pos this]

/-- No bounds on the variables, as `fit_linreg_coord` calls the solver. -/
def Free (p : Par K) : Prop := ∀ i, p.lo i = none ∧ p.hi i = none

theorem proj_free (p : Par K) (h : Free p) (i : Nat) (v : K) : proj p i v = v := by
  simp [proj, (h i).1, (h i).2]

/-- The solver does not drop a step that is not zero. -/
def NoDrop (p : Par K) (s : Drv (Nat → K) K) : Prop :=
  s.w.task = .eval → |s.w.newxk - s.w.x s.w.k| ≤ p.eps → s.w.newxk = s.w.x s.w.k

/-- Invariant of runs with the scikit-learn variant. -/
def KInv (d : Data K) (s : Drv (Nat → K) K) : Prop :=
  match s.w.task with
  | .start => Allowed d s.w.x
  | .eval => Allowed d s.w.x ∧ Right d (put s.w.x s.w.k s.w.newxk) s.u
    ∧ (d.positive = true → s.w.k < d.nmod → 0 ≤ s.w.newxk)
    ∧ ∀ t, (d.positive = true → s.w.k < d.nmod → 0 ≤ t) →
        obj (weight d) d (put s.w.x s.w.k s.w.newxk) ≤ obj (weight d) d (put s.w.x s.w.k t)
  | .crash => True
  | _ => Allowed d s.w.x ∧ Right d s.w.x s.u

theorem kInv_eval (d : Data K) (ok : d.Ok) (hs : IsSk d) (s : Drv (Nat → K) K) (ht : s.w.task = .eval)
    (hk : s.w.k < d.n) (ha : Allowed d s.w.x) (h : s.w.action ≤ 0 → Right d s.w.x s.u) :
    KInv d (driveEval (calls d) s) := by
  have hst := skStep_spec d ok hs s.w.x s.u s.w.action h hk
  unfold KInv driveEval
  simp only [ht, calls_sk d hs]
  refine ⟨ha, ?_⟩
  simpa using hst

theorem kInv_step (p : Par K) (hn : 0 < p.n) (hfree : Free p) (d : Data K) (s : Drv (Nat → K) K) (ht : s.w.task = .eval)
    (hnd : NoDrop p s) (h : KInv d s) : Allowed d (evalTask p s.w).x ∧ Right d (evalTask p s.w).x s.u := by
  have h0 : Allowed d s.w.x ∧ Right d (put s.w.x s.w.k s.w.newxk) s.u
    ∧ (d.positive = true → s.w.k < d.nmod → 0 ≤ s.w.newxk)
    ∧ ∀ t, (d.positive = true → s.w.k < d.nmod → 0 ≤ t) →
        obj (weight d) d (put s.w.x s.w.k s.w.newxk) ≤ obj (weight d) d (put s.w.x s.w.k t) := by
    simpa only [KInv, ht] using h
  obtain ⟨v, h1, _, _, h4, h5, _⟩ := evalTask_facts p s.w hn
  rw [proj_free p hfree] at h4 h5
  have hv : v = s.w.newxk := by
    by_cases hd : |s.w.newxk - s.w.x s.w.k| ≤ p.eps
    · rw [h5 hd, hnd ht hd]
    · exact h4 hd
  rw [h1, hv]
  refine ⟨?_, h0.2.1⟩
  intro hp j hj
  by_cases hjk : j = s.w.k
  · subst hjk; rw [put_same]; exact h0.2.2.1 hp hj
  · rw [put_ne _ _ hjk]; exact h0.1 hp j hj

theorem kInv_newx (p : Par K) (cb : Calls (Nat → K) K) (hcb : ∀ x u, (cb.check x u).2.1 = u) (e : Env) (d : Data K)
    (s : Drv (Nat → K) K) (ht : s.w.task = .newx ∨ s.w.task = .stop)
    (h : Allowed d s.w.x ∧ Right d s.w.x s.u) : KInv d (driveNewx p cb e s) := by
  have hu := driveNewx_u p cb hcb e s
  unfold KInv
  rcases driveNewx_w p cb e s with hw | hw
  · rw [hw, hu]
    rcases ht with ht | ht <;> rw [ht] <;> exact h
  · rw [hw, hu]
    exact h

theorem begin_x (p : Par K) (hfree : Free p) (w : Work K) : (begin_ p w).x = w.x := by
  funext i
  simp [begin_, proj_free p hfree]

theorem drive_kInv (p : Par K) (okp : p.Ok) (hfree : Free p) (d : Data K) (ok : d.Ok) (hpn : p.n = d.n) (hs : IsSk d)
    (e : Env) (x u : Nat → K) (hx : Allowed d x) (hnd : ∀ f, NoDrop p (drive p (calls d) e f (initial p x u)))
    (f : Nat) : KInv d (drive p (calls d) e f (initial p x u)) := by
  apply drive_ind p (calls d) e _ (KInv d) (by simpa [KInv, initial] using hx)
  intro f h hb
  have hw := drive_where p okp (calls d) e x u f
  have hd := hnd f
  generalize drive p (calls d) e f (initial p x u) = s at *
  rcases pass_cases p okp (calls d) e s hw hb with ⟨ht, hp⟩ | ⟨ht, h1, h2, _, hp⟩ | ⟨ht, h1, h2, hp⟩ | ⟨ht, h1, h2, hp⟩
    | ⟨ht, hl, hp⟩ | ⟨ht, hl, hp⟩ | ⟨ht, hp⟩
  · have h0 : Allowed d s.w.x := by simpa [KInv, ht] using h
    rw [hp]
    apply kInv_eval d ok hs
    · rfl
    · have := okp.n_pos
      simp only [begin_]; omega
    · simp only [begin_x p hfree]; exact h0
    · intro ha; simp [begin_] at ha
  · have h0 := kInv_step p okp.n_pos hfree d s ht hd h
    have hk := (evalTask_facts p s.w okp.n_pos).choose_spec.2.2.2.2.2.2
    rw [hp]
    exact kInv_eval d ok hs _ h1 (by rw [← hpn]; exact hk) h0.1 (fun _ => h0.2)
  · have h0 := kInv_step p okp.n_pos hfree d s ht hd h
    rw [hp]
    unfold KInv driveCheck
    simp only [h1]
    exact h0
  · have h0 := kInv_step p okp.n_pos hfree d s ht hd h
    rw [hp]
    exact kInv_newx p (calls d) (fun _ _ => rfl) e d _ (Or.inl h1) h0
  · have h0 : Allowed d s.w.x ∧ Right d s.w.x s.u := by simpa [KInv, ht] using h
    rw [hp]
    exact kInv_newx p (calls d) (fun _ _ => rfl) e d _ (Or.inr rfl) h0
  · have h0 : Allowed d s.w.x ∧ Right d s.w.x s.u := by simpa [KInv, ht] using h
    rw [hp]
    exact kInv_newx p (calls d) (fun _ _ => rfl) e d _ (Or.inl rfl) h0
  · have h0 : Allowed d s.w.x ∧ Right d s.w.x s.u := by simpa [KInv, ht] using h
    have hk : s.w.k < p.n := by simp only [Where, ht] at hw; exact hw.2.1
    rw [hp]
    exact kInv_eval d ok hs _ rfl (by rw [← hpn]; exact hk) h0.1 (fun _ => h0.2)

/-! ### The objective -/

/-- The coefficients after a pass: as before, or with one step taken. -/
theorem pass_x (p : Par K) (okp : p.Ok) (hfree : Free p) (cb : Calls (Nat → K) K) (e : Env) (s : Drv (Nat → K) K)
    (hw : Where p s) (hb : s.busy = true) :
    (pass p cb e s).w.x = s.w.x ∨ (s.w.task = .eval ∧ (pass p cb e s).w.x = put s.w.x s.w.k s.w.newxk) := by
  have heval : s.w.task = .eval → (evalTask p s.w).x = s.w.x
      ∨ (s.w.task = .eval ∧ (evalTask p s.w).x = put s.w.x s.w.k s.w.newxk) := by
    intro ht
    obtain ⟨v, h1, _, h3, _⟩ := evalTask_facts p s.w okp.n_pos
    rw [proj_free p hfree] at h3
    rcases h3 with h3 | h3
    · left; rw [h1, h3, put_self]
    · right; exact ⟨ht, by rw [h1, h3]⟩
  have hnx : ∀ s' : Drv (Nat → K) K, (driveNewx p cb e s').w.x = s'.w.x := by
    intro s'
    rcases driveNewx_w p cb e s' with h | h <;> rw [h]
  rcases pass_cases p okp cb e s hw hb with ⟨ht, hp⟩ | ⟨ht, h1, h2, _, hp⟩ | ⟨ht, h1, h2, hp⟩ | ⟨ht, h1, h2, hp⟩
    | ⟨ht, hl, hp⟩ | ⟨ht, hl, hp⟩ | ⟨ht, hp⟩
  · left; rw [hp]; unfold driveEval; simp only [begin_x p hfree]
  · rw [hp]; exact heval ht
  · rw [hp]; exact heval ht
  · rw [hp, hnx]; exact heval ht
  · left; rw [hp, hnx]
  · left; rw [hp, hnx]
  · left; rw [hp]; rfl

end

end Verif.Coord
