import Verif.Coord.LinregProof

/-! # Proofs about the solver and its driver -/

set_option linter.unusedSectionVars false

namespace Verif.Coord

section
variable {K : Type} [Field K] [LinearOrder K]

/-! ## The loop that passes over coordinates -/

/-- The number of passes from `k` to `kold`. -/
def dist (n kold k : Nat) : Nat := if k ≤ kold then kold - k else kold + n - k

theorem skipLoop_lt (n kold sm : Nat) (sx : Nat → Nat) (hn : 0 < n) : ∀ f s k e, k < n →
    (skipLoop n kold sm sx f s k e).2.1 < n
  | 0, _, _, _, h => h
  | f + 1, s, k, e, h => by
    unfold skipLoop
    split
    · split
      · exact skipLoop_lt n kold sm sx hn f _ _ _ hn
      · exact skipLoop_lt n kold sm sx hn f _ _ _ (by omega)
    · exact h

/-- `n` passes are enough: the loop ends at a coordinate to be evaluated. -/
theorem skipLoop_done (n kold sm : Nat) (sx : Nat → Nat) (hk : kold < n) : ∀ f s k e, k < n → dist n kold k ≤ f →
    let r := skipLoop n kold sm sx f s k e
    ¬ (sm < r.1 r.2.1 ∧ r.1 r.2.1 < sx r.2.1 ∧ r.2.1 ≠ kold)
  | 0, s, k, e, h, hd => by
    simp only [skipLoop]
    have : k = kold := by unfold dist at hd; split at hd <;> omega
    intro hc
    exact hc.2.2 this
  | f + 1, s, k, e, h, hd => by
    simp only
    unfold skipLoop
    by_cases hc : sm < s k ∧ s k < sx k ∧ k ≠ kold
    · rw [if_pos hc]
      split
      · apply skipLoop_done n kold sm sx hk f _ _ _ (by omega)
        unfold dist at *
        split at hd <;> simp <;> omega
      · apply skipLoop_done n kold sm sx hk f _ _ _ (by omega)
        have := hc.2.2
        unfold dist at *
        split at hd <;> split <;> omega
    · rw [if_neg hc]; exact hc

theorem dist_le (n kold k : Nat) (hk : kold < n) : dist n kold k ≤ n := by
  unfold dist; split <;> omega

/-- Without the end of a cycle the coordinate only grows. -/
theorem skipLoop_mono (n kold sm : Nat) (sx : Nat → Nat) : ∀ f s k e,
    let r := skipLoop n kold sm sx f s k e
    (e = true → r.2.2 = true) ∧ (r.2.2 = false → k ≤ r.2.1)
  | 0, s, k, e => by simp [skipLoop]
  | f + 1, s, k, e => by
    simp only
    unfold skipLoop
    split
    · split
      · have h := skipLoop_mono n kold sm sx f (put s k (s k + 1)) 0 true
        exact ⟨fun _ => h.1 rfl, fun hf => absurd (h.1 rfl) (by simp [hf])⟩
      · have h := skipLoop_mono n kold sm sx f (put s k (s k + 1)) (k + 1) e
        exact ⟨h.1, fun hf => by have := h.2 hf; omega⟩
    · simp

/-- The loop adds to the counters of coordinates between their limits only. -/
theorem skipLoop_skip (n kold sm : Nat) (sx : Nat → Nat) : ∀ f s k e j,
    let r := skipLoop n kold sm sx f s k e
    s j ≤ r.1 j ∧ (s j ≤ sx j → r.1 j ≤ sx j) ∧ (r.1 j ≠ s j → sm < s j ∧ s j < sx j)
  | 0, s, k, e, j => by simp [skipLoop]
  | f + 1, s, k, e, j => by
    simp only
    unfold skipLoop
    split
    · next hc =>
      have hput : s j ≤ put s k (s k + 1) j ∧ (s j ≤ sx j → put s k (s k + 1) j ≤ sx j)
          ∧ (put s k (s k + 1) j ≠ s j → sm < s j ∧ s j < sx j) := by
        by_cases hj : j = k
        · subst hj; rw [put_same]; omega
        · rw [put_ne _ _ hj]; simp
      split
      · have h := skipLoop_skip n kold sm sx f (put s k (s k + 1)) 0 true j
        simp only at h
        refine ⟨by omega, fun h1 => h.2.1 (hput.2.1 h1), fun h1 => ?_⟩
        by_cases h2 : put s k (s k + 1) j = s j
        · rw [h2] at h; exact h.2.2 h1
        · exact hput.2.2 h2
      · have h := skipLoop_skip n kold sm sx f (put s k (s k + 1)) (k + 1) e j
        simp only at h
        refine ⟨by omega, fun h1 => h.2.1 (hput.2.1 h1), fun h1 => ?_⟩
        by_cases h2 : put s k (s k + 1) j = s j
        · rw [h2] at h; exact h.2.2 h1
        · exact hput.2.2 h2
    · simp

/-! ## What each part of an evaluation leaves alone -/

theorem advance_facts (p : Par K) (w : Work K) :
    (advance p w).1.x = w.x ∧ (advance p w).1.iter = w.iter ∧ (advance p w).1.kdiff = w.kdiff
    ∧ (advance p w).1.action = w.action ∧ (advance p w).1.task = w.task ∧ (advance p w).1.skipmax = w.skipmax
    ∧ (advance p w).1.skipmin = w.skipmin ∧ (advance p w).1.newxk = w.newxk := by
  simp [advance]

theorem advance_k (p : Par K) (w : Work K) (hn : 0 < p.n) :
    (advance p w).1.k < p.n ∧ ((advance p w).2 = false → w.k < (advance p w).1.k) := by
  unfold advance
  by_cases h : w.k + 1 < p.n
  · simp only [h, if_true]
    refine ⟨skipLoop_lt p.n w.k w.skipmin w.skipmax hn _ _ _ _ h, fun hf => ?_⟩
    have := (skipLoop_mono p.n w.k w.skipmin w.skipmax p.n w.skip (w.k + 1) false).2 hf
    omega
  · simp only [h, if_false]
    refine ⟨skipLoop_lt p.n w.k w.skipmin w.skipmax hn _ _ _ _ hn, fun hf => ?_⟩
    have := (skipLoop_mono p.n w.k w.skipmin w.skipmax p.n w.skip 0 true).1 rfl
    rw [hf] at this
    cases this

theorem ledgerStep_facts (p : Par K) (w : Work K) :
    (ledgerStep p w).x = w.x ∧ (ledgerStep p w).iter = w.iter ∧ (ledgerStep p w).kdiff = w.kdiff
    ∧ (ledgerStep p w).action = w.action ∧ (ledgerStep p w).task = w.task ∧ (ledgerStep p w).k = w.k
    ∧ (ledgerStep p w).skipmin = w.skipmin ∧ (ledgerStep p w).newxk = w.newxk := by
  unfold ledgerStep
  split
  · split <;> simp
  · split <;> simp

theorem endCycle_facts (p : Par K) (ko : Nat) (w : Work K) :
    (endCycle p ko w).x = w.x ∧ (endCycle p ko w).iter = w.iter + 1 ∧ (endCycle p ko w).kdiff = w.kdiff
    ∧ (endCycle p ko w).action = w.action ∧ (endCycle p ko w).k = w.k ∧ (endCycle p ko w).newxk = w.newxk
    ∧ ((endCycle p ko w).task = .optimchk ∨ (endCycle p ko w).task = .newx) := by
  unfold endCycle
  simp only
  split
  · split <;> simp
  · simp

theorem restartCheck_facts (p : Par K) (w : Work K) :
    (restartCheck p w).x = w.x ∧ (restartCheck p w).iter = w.iter ∧ (restartCheck p w).kdiff = w.kdiff
    ∧ (restartCheck p w).k = w.k ∧ (restartCheck p w).newxk = w.newxk
    ∧ (restartCheck p w).skip = w.skip ∧ (restartCheck p w).skipmax = w.skipmax
    ∧ (restartCheck p w).skipmin = w.skipmin
    ∧ ((restartCheck p w).action = w.action ∨ (restartCheck p w).action = 1) := by
  unfold restartCheck
  split
  · split
    · simp
    · split
      · simp
      · split <;> simp
  · simp

theorem restartCheck_task (p : Par K) (w : Work K) (hr : p.restart ≠ 0) (hi : w.iter * p.n + w.k ≤ p.imax) :
    (restartCheck p w).task = w.task := by
  unfold restartCheck
  split
  · rw [if_neg (by omega)]
    by_cases h : (w.iter * p.n + w.k) % p.restart = 0
    · rw [if_pos h]
    · rw [if_neg h]
  · rfl

/-- The step taken. -/
theorem takeStep_facts (p : Par K) (w : Work K) :
    (takeStep p w).iter = w.iter ∧ (takeStep p w).k = w.k ∧ (takeStep p w).task = w.task
    ∧ (takeStep p w).skip = w.skip ∧ (takeStep p w).skipmax = w.skipmax ∧ (takeStep p w).skipmin = w.skipmin := by
  simp [takeStep]

end

section
variable {K : Type} [Field K] [LinearOrder K] [IsStrictOrderedRing K]

theorem takeStep_x (p : Par K) (w : Work K) :
    ∃ v, (takeStep p w).x = put w.x w.k v ∧ (takeStep p w).kdiff = v - w.x w.k
      ∧ (v = w.x w.k ∨ v = proj p w.k w.newxk)
      ∧ (takeStep p w).action = (if v = w.x w.k then 0 else -((w.k : Int) + 1))
      ∧ (¬ |proj p w.k w.newxk - w.x w.k| ≤ p.eps → v = proj p w.k w.newxk)
      ∧ (|proj p w.k w.newxk - w.x w.k| ≤ p.eps → v = w.x w.k) := by
  by_cases h : |proj p w.k w.newxk - w.x w.k| ≤ p.eps
  · refine ⟨w.x w.k, ?_⟩
    simp [takeStep, h]
  · refine ⟨proj p w.k w.newxk, ?_⟩
    simp [takeStep, h, sub_eq_zero]

/-- What an evaluation does, put together. -/
theorem evalTask_facts (p : Par K) (w : Work K) (hn : 0 < p.n) :
    ∃ v, (evalTask p w).x = put w.x w.k v ∧ (evalTask p w).kdiff = v - w.x w.k
      ∧ (v = w.x w.k ∨ v = proj p w.k w.newxk)
      ∧ (¬ |proj p w.k w.newxk - w.x w.k| ≤ p.eps → v = proj p w.k w.newxk)
      ∧ (|proj p w.k w.newxk - w.x w.k| ≤ p.eps → v = w.x w.k)
      ∧ ((evalTask p w).action = 1 ∨ (evalTask p w).action = if v = w.x w.k then 0 else -((w.k : Int) + 1))
      ∧ (evalTask p w).k < p.n := by
  obtain ⟨v, h1, h2, h3, h4, h5, h6⟩ := takeStep_x p w
  refine ⟨v, ?_⟩
  have hl := ledgerStep_facts p (takeStep p w)
  have ha := advance_facts p (ledgerStep p (takeStep p w))
  have hk := advance_k p (ledgerStep p (takeStep p w)) hn
  unfold evalTask
  simp only
  split
  · have he := endCycle_facts p w.k (advance p (ledgerStep p (takeStep p w))).1
    have hr := restartCheck_facts p (endCycle p w.k (advance p (ledgerStep p (takeStep p w))).1)
    refine ⟨by rw [hr.1, he.1, ha.1, hl.1, h1], by rw [hr.2.2.1, he.2.2.1, ha.2.2.1, hl.2.2.1, h2], h3, h5, h6, ?_,
      by rw [hr.2.2.2.1, he.2.2.2.2.1]; exact hk.1⟩
    rcases hr.2.2.2.2.2.2.2.2 with h | h
    · right; rw [h, he.2.2.2.1, ha.2.2.2.1, hl.2.2.2.1, h4]
    · left; exact h
  · have hr := restartCheck_facts p (advance p (ledgerStep p (takeStep p w))).1
    refine ⟨by rw [hr.1, ha.1, hl.1, h1], by rw [hr.2.2.1, ha.2.2.1, hl.2.2.1, h2], h3, h5, h6, ?_,
      by rw [hr.2.2.2.1]; exact hk.1⟩
    rcases hr.2.2.2.2.2.2.2.2 with h | h
    · right; rw [h, ha.2.2.2.1, hl.2.2.2.1, h4]
    · left; exact h

/-- Where an evaluation leads: to the next coordinate of the cycle, or to the end of the cycle. -/
theorem evalTask_task (p : Par K) (w : Work K) (hn : 0 < p.n) (ht : w.task = .eval)
    (hr : p.restart ≠ 0) (hi : (w.iter + 1) * p.n + p.n ≤ p.imax + 1) :
    ((evalTask p w).task = .eval ∧ (evalTask p w).iter = w.iter ∧ w.k < (evalTask p w).k ∧ (evalTask p w).k < p.n)
    ∨ (((evalTask p w).task = .optimchk ∨ (evalTask p w).task = .newx) ∧ (evalTask p w).iter = w.iter + 1
      ∧ (evalTask p w).k < p.n) := by
  have hs := takeStep_facts p w
  have hl := ledgerStep_facts p (takeStep p w)
  have ha := advance_facts p (ledgerStep p (takeStep p w))
  have hkk := advance_k p (ledgerStep p (takeStep p w)) hn
  have hk0 : (ledgerStep p (takeStep p w)).k = w.k := by rw [hl.2.2.2.2.2.1, hs.2.1]
  have hit : (advance p (ledgerStep p (takeStep p w))).1.iter = w.iter := by rw [ha.2.1, hl.2.1, hs.1]
  have hta : (advance p (ledgerStep p (takeStep p w))).1.task = .eval := by
    rw [ha.2.2.2.2.1, hl.2.2.2.2.1, hs.2.2.1, ht]
  have e1 : (w.iter + 1) * p.n = w.iter * p.n + p.n := by ring
  unfold evalTask
  simp only
  by_cases he : (advance p (ledgerStep p (takeStep p w))).2 = true
  · rw [if_pos he]
    right
    have hc := endCycle_facts p w.k (advance p (ledgerStep p (takeStep p w))).1
    have hr' := restartCheck_facts p (endCycle p w.k (advance p (ledgerStep p (takeStep p w))).1)
    have ht' := restartCheck_task p (endCycle p w.k (advance p (ledgerStep p (takeStep p w))).1) hr (by
      rw [hc.2.1, hc.2.2.2.2.1, hit]
      have := hkk.1
      omega)
    rw [ht', hr'.2.1, hr'.2.2.2.1, hc.2.1, hc.2.2.2.2.1, hit]
    exact ⟨hc.2.2.2.2.2.2, rfl, hkk.1⟩
  · rw [if_neg he]
    left
    have hr' := restartCheck_facts p (advance p (ledgerStep p (takeStep p w))).1
    have ht' := restartCheck_task p (advance p (ledgerStep p (takeStep p w))).1 hr (by
      rw [hit]
      have := hkk.1
      omega)
    rw [ht', hr'.2.1, hr'.2.2.2.1, hit, hta]
    have := hkk.2 (by simpa using he)
    rw [hk0] at this
    exact ⟨rfl, rfl, this, hkk.1⟩

end

section
variable {U K : Type} [Field K] [LinearOrder K]

/-! ## The driver -/

/-- What one pass keeps, the whole run keeps. -/
theorem drive_inv (p : Par K) (cb : Calls U K) (e : Env) (P : Drv U K → Prop)
    (hstep : ∀ d, P d → d.busy = true → P (pass p cb e d)) : ∀ f d, P d → P (drive p cb e f d)
  | 0, _, h => h
  | f + 1, d, h => by
    unfold drive
    by_cases hb : d.busy = true
    · rw [if_pos hb]; exact drive_inv p cb e P hstep f _ (hstep d h hb)
    · rw [if_neg hb]; exact h

theorem measure_w (p : Par K) (cb : Calls U K) (e : Env) (d : Drv U K) : (measure p cb e d).w = d.w := by
  unfold measure
  simp only
  split
  · split <;> rfl
  · rfl

theorem decideStop_w (p : Par K) (e : Env) (d : Drv U K) :
    (decideStop p e d).w = d.w ∨ (decideStop p e d).w = { d.w with task := .stop } := by
  unfold decideStop
  split
  · exact Or.inr rfl
  · split
    · exact Or.inl rfl
    · split
      · exact Or.inr rfl
      · split
        · exact Or.inr rfl
        · split
          · exact Or.inr rfl
          · split
            · split
              · exact Or.inr rfl
              · exact Or.inl rfl
            · exact Or.inl rfl

/-- `driveNewx` leaves the coefficients alone and goes on or stops. -/
theorem driveNewx_w (p : Par K) (cb : Calls U K) (e : Env) (d : Drv U K) :
    (driveNewx p cb e d).w = d.w ∨ (driveNewx p cb e d).w = { d.w with task := .stop } := by
  have h := decideStop_w p e (measure p cb e d)
  rw [measure_w] at h
  exact h

theorem decideStop_evals (p : Par K) (e : Env) (d : Drv U K) : (decideStop p e d).evals = d.evals
    ∧ (decideStop p e d).u = d.u := by
  unfold decideStop
  split
  · exact ⟨rfl, rfl⟩
  · split
    · exact ⟨rfl, rfl⟩
    · split
      · exact ⟨rfl, rfl⟩
      · split
        · exact ⟨rfl, rfl⟩
        · split
          · exact ⟨rfl, rfl⟩
          · split
            · split
              · exact ⟨rfl, rfl⟩
              · exact ⟨rfl, rfl⟩
            · exact ⟨rfl, rfl⟩

theorem driveNewx_evals (p : Par K) (cb : Calls U K) (e : Env) (d : Drv U K) :
    (driveNewx p cb e d).evals = d.evals := by
  unfold driveNewx
  rw [(decideStop_evals p e _).1]
  unfold measure
  simp only
  split
  · split <;> rfl
  · rfl

/-- At the limit of iterations the run stops. -/
theorem driveNewx_limit (p : Par K) (cb : Calls U K) (e : Env) (d : Drv U K)
    (h : (driveNewx p cb e d).w.task = .newx) : d.w.iter < p.maxit := by
  unfold driveNewx decideStop at h
  have hw := measure_w p cb e d
  generalize measure p cb e d = D at *
  by_contra hc
  have hm : p.maxit ≤ D.w.iter := by rw [hw]; omega
  split at h
  · cases h
  · split at h
    · next hs => rw [hs] at h; cases h
    · cases h

end

section
variable {U K : Type} [Field K] [LinearOrder K] [IsStrictOrderedRing K]

/-- The options the solver can work with: variables, a positive restart, a limit of iterations, and integers wide
enough for `iter * n + k`. -/
structure Par.Ok (p : Par K) : Prop where
  n_pos : 0 < p.n
  restart : p.restart ≠ 0
  maxit : 0 < p.maxit
  wide : p.maxit * p.n + p.n ≤ p.imax + 1

/-- Where a run can be. -/
def Where (p : Par K) (d : Drv U K) : Prop :=
  match d.w.task with
  | .start => d.evals = 0
  | .eval => d.w.iter < p.maxit ∧ d.w.k < p.n ∧ d.evals ≤ d.w.iter * p.n + d.w.k + 1
  | .optimchk => d.w.iter ≤ p.maxit ∧ d.w.k < p.n ∧ d.evals ≤ d.w.iter * p.n
  | .newx => d.w.iter < p.maxit ∧ d.w.k < p.n ∧ d.evals ≤ d.w.iter * p.n
  | .stop => d.w.iter ≤ p.maxit ∧ d.evals ≤ d.w.iter * p.n
  | .crash => False

/-- The passes that are left at most. -/
def rank (p : Par K) (d : Drv U K) : Nat :=
  match d.w.task with
  | .start => p.maxit * (p.n + 2) + 1
  | .eval => (p.maxit - d.w.iter) * (p.n + 2) - d.w.k
  | .optimchk => (p.maxit - d.w.iter) * (p.n + 2) + 2
  | .newx => (p.maxit - d.w.iter) * (p.n + 2) + 1
  | .stop => 0
  | .crash => 0

theorem where_newx (p : Par K) (cb : Calls U K) (e : Env) (d : Drv U K) (hk : d.w.k < p.n) (hi : d.w.iter ≤ p.maxit)
    (he : d.evals ≤ d.w.iter * p.n) (ht : d.w.task = .newx ∨ d.w.task = .stop) :
    Where p (driveNewx p cb e d) ∧ ((driveNewx p cb e d).w.task = .newx ∨ (driveNewx p cb e d).w.task = .stop)
      ∧ (driveNewx p cb e d).w.iter = d.w.iter ∧ (driveNewx p cb e d).w.k = d.w.k := by
  have hev := driveNewx_evals p cb e d
  rcases driveNewx_w p cb e d with h | h
  · refine ⟨?_, by rw [h]; exact ht, by rw [h], by rw [h]⟩
    unfold Where
    rcases ht with ht | ht
    · have := driveNewx_limit p cb e d (by rw [h]; exact ht)
      simp only [h, ht, hev]
      exact ⟨this, hk, he⟩
    · simp only [h, ht, hev]
      exact ⟨hi, he⟩
  · refine ⟨?_, by rw [h]; right; rfl, by rw [h], by rw [h]⟩
    unfold Where
    simp only [h, hev]
    exact ⟨hi, he⟩

theorem pass_where (p : Par K) (ok : p.Ok) (cb : Calls U K) (e : Env) (d : Drv U K) (h : Where p d)
    (hb : d.busy = true) : Where p (pass p cb e d) ∧ rank p (pass p cb e d) < rank p d := by
  obtain ⟨t, ht⟩ : ∃ t, t = d.w.task := ⟨_, rfl⟩
  cases t with
  | stop => simp [Drv.busy, ← ht] at hb
  | crash => simp [Drv.busy, ← ht] at hb
  | start =>
    have h0 : d.evals = 0 := by simpa [Where, ← ht] using h
    have hp : pass p cb e d = driveEval cb { d with w := begin_ p d.w, status := .success } := by
      unfold pass rcomm; rw [← ht]; rfl
    rw [hp]
    constructor
    · unfold Where driveEval begin_
      simp only
      exact ⟨ok.maxit, ok.n_pos, by omega⟩
    · unfold rank driveEval begin_
      simp only [← ht, Nat.sub_zero]
      omega
  | eval =>
    have h0 : d.w.iter < p.maxit ∧ d.w.k < p.n ∧ d.evals ≤ d.w.iter * p.n + d.w.k + 1 := by
      simpa [Where, ← ht] using h
    have hwide : (d.w.iter + 1) * p.n + p.n ≤ p.imax + 1 := by
      have : (d.w.iter + 1) * p.n ≤ p.maxit * p.n := Nat.mul_le_mul_right _ h0.1
      have := ok.wide
      omega
    have hr : rank p d = (p.maxit - d.w.iter) * (p.n + 2) - d.w.k := by simp [rank, ← ht]
    have e1 : (d.w.iter + 1) * p.n = d.w.iter * p.n + p.n := by ring
    have e2 : (p.maxit - d.w.iter) * (p.n + 2) = (p.maxit - (d.w.iter + 1)) * (p.n + 2) + (p.n + 2) := by
      have : p.maxit - d.w.iter = (p.maxit - (d.w.iter + 1)) + 1 := by omega
      rw [this]; ring
    rcases evalTask_task p d.w ok.n_pos ht.symm ok.restart hwide with ⟨h1, h2, h3, h4⟩ | ⟨h1, h2, h3⟩
    · have hp : pass p cb e d = driveEval cb { d with w := evalTask p d.w, status := .success } := by
        have : (rcomm p d.optim d.w) = evalTask p d.w := by unfold rcomm; rw [← ht]
        unfold pass; rw [this]; simp only [h1]
      rw [hp]
      constructor
      · unfold Where driveEval
        simp only [h1, h2]
        exact ⟨h0.1, h4, by omega⟩
      · rw [hr]
        unfold rank driveEval
        simp only [h1, h2]
        omega
    · rcases h1 with h1 | h1
      · have hp : pass p cb e d = driveCheck cb { d with w := evalTask p d.w, status := .success } := by
          have : (rcomm p d.optim d.w) = evalTask p d.w := by unfold rcomm; rw [← ht]
          unfold pass; rw [this]; simp only [h1]
        rw [hp]
        constructor
        · unfold Where driveCheck
          simp only [h1, h2]
          exact ⟨by omega, h3, by omega⟩
        · rw [hr]
          unfold rank driveCheck
          simp only [h1, h2]
          omega
      · have hp : pass p cb e d = driveNewx p cb e { d with w := evalTask p d.w, status := .success } := by
          have : (rcomm p d.optim d.w) = evalTask p d.w := by unfold rcomm; rw [← ht]
          unfold pass; rw [this]; simp only [h1]
        rw [hp]
        have hw := where_newx p cb e { d with w := evalTask p d.w, status := .success } h3
          (by simp only [h2]; omega) (by simp only [h2]; omega) (Or.inl h1)
        refine ⟨hw.1, ?_⟩
        rw [hr]
        unfold rank
        rcases hw.2.1 with ht' | ht'
        · simp only [ht', hw.2.2.1, h2]; omega
        · simp only [ht']; omega
  | optimchk =>
    have h0 : d.w.iter ≤ p.maxit ∧ d.w.k < p.n ∧ d.evals ≤ d.w.iter * p.n := by
      simpa [Where, ← ht] using h
    have hr : rank p d = (p.maxit - d.w.iter) * (p.n + 2) + 2 := by simp [rank, ← ht]
    obtain ⟨w', hw', hx, htask⟩ : ∃ w', rcomm p d.optim d.w = w' ∧ (w'.iter = d.w.iter ∧ w'.k = d.w.k)
        ∧ (w'.task = .newx ∨ w'.task = .stop) := by
      refine ⟨_, rfl, ?_⟩
      unfold rcomm
      rw [← ht]
      simp only
      split <;> simp
    have hp : pass p cb e d = driveNewx p cb e { d with w := w', status := .success } := by
      unfold pass; rw [hw']; rcases htask with h | h <;> simp only [h]
    rw [hp]
    have hw := where_newx p cb e { d with w := w', status := .success } (by simp only [hx]; exact h0.2.1)
      (by simp only [hx]; exact h0.1) (by simp only [hx]; exact h0.2.2) htask
    refine ⟨hw.1, ?_⟩
    rw [hr]
    unfold rank
    rcases hw.2.1 with ht' | ht'
    · simp only [ht', hw.2.2.1, hx]; omega
    · simp only [ht']; omega
  | newx =>
    have h0 : d.w.iter < p.maxit ∧ d.w.k < p.n ∧ d.evals ≤ d.w.iter * p.n := by
      simpa [Where, ← ht] using h
    have hr : rank p d = (p.maxit - d.w.iter) * (p.n + 2) + 1 := by simp [rank, ← ht]
    have hp : pass p cb e d = driveEval cb
        { d with w := { d.w with task := .eval, inorm := 0, inormbeta := 0 }, status := .success } := by
      unfold pass rcomm; rw [← ht]
    rw [hp]
    constructor
    · unfold Where driveEval
      simp only
      exact ⟨h0.1, h0.2.1, by omega⟩
    · rw [hr]
      unfold rank driveEval
      simp only
      omega

theorem drive_where (p : Par K) (ok : p.Ok) (cb : Calls U K) (e : Env) (x : Nat → K) (u : U) (f : Nat) :
    Where p (drive p cb e f (initial p x u)) :=
  drive_inv p cb e (Where p) (fun d h hb => (pass_where p ok cb e d h hb).1) f _ (by simp [Where, initial])

/-- With as many passes as the rank the run has ended. -/
theorem drive_ends (p : Par K) (ok : p.Ok) (cb : Calls U K) (e : Env) : ∀ f d, Where p d → rank p d ≤ f →
    (drive p cb e f d).busy = false
  | 0, d, h, hr => by
    unfold drive
    by_contra hb
    have hb : d.busy = true := by simpa using hb
    have := (pass_where p ok cb e d h hb).2
    omega
  | f + 1, d, h, hr => by
    unfold drive
    by_cases hb : d.busy = true
    · rw [if_pos hb]
      have := pass_where p ok cb e d h hb
      exact drive_ends p ok cb e f _ this.1 (by omega)
    · rw [if_neg hb]; simpa using hb

end

end Verif.Coord
