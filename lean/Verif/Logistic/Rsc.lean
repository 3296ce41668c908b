import Verif.Logistic.Two

/-
The call-backs with a reference class.
-/
namespace Verif.Logistic

set_option linter.unusedSectionVars false

open Finset (range)

/-- `m` is the largest of `0` and the first `k` values. -/
def Top (m : ℝ) (k : Nat) (η : Nat → ℝ) : Prop :=
  0 ≤ m ∧ (∀ l, l < k → η l ≤ m) ∧ (m = 0 ∨ ∃ l, l < k ∧ m = η l)

theorem Top.step {m : ℝ} {k : Nat} {η : Nat → ℝ} (h : Top m k η) :
    Top (if m < η k then η k else m) (k + 1) η := by
  obtain ⟨h0, h1, h2⟩ := h
  by_cases hm : m < η k
  · rw [if_pos hm]
    refine ⟨by linarith, fun l hl => ?_, Or.inr ⟨k, by omega, rfl⟩⟩
    by_cases e : l = k
    · rw [e]
    · have := h1 l (by omega); linarith
  · rw [if_neg hm]
    refine ⟨h0, fun l hl => ?_, ?_⟩
    · by_cases e : l = k
      · rw [e]; linarith
      · exact h1 l (by omega)
    · rcases h2 with h2 | ⟨l, hl, e⟩
      · exact Or.inl h2
      · exact Or.inr ⟨l, by omega, e⟩

theorem cell_block {ns k k' i : Nat} (h : k' < k) (hi : i < ns) : k' * ns + i < k * ns := by
  have : (k' + 1) * ns ≤ k * ns := Nat.mul_le_mul_right ns h
  rw [Nat.add_mul, Nat.one_mul] at this
  omega

theorem cell_inj {ns k k' i i' : Nat} (hi : i < ns) (hi' : i' < ns)
    (h : k * ns + i = k' * ns + i') : k = k' ∧ i = i' := by
  have hk : k = k' := by
    rcases Nat.lt_trichotomy k k' with hlt | heq | hgt
    · have := cell_block hlt hi; omega
    · exact heq
    · have := cell_block hgt hi'; omega
  subst hk
  exact ⟨rfl, by omega⟩

section
variable {round : ℝ → ℝ} {row : Bool} {X : Nat → ℝ} {ld : Nat} {y : Nat → ℝ}
  {ns nf : Nat} {ic : Bool} {lambda alpha : ℝ} {nclass : Nat} {A : Nat → Nat → ℝ} {lab : Nat → Nat}

theorem rscScores_ok (hA : Stored row X ld ns nf A)
    (hy : ∀ i, i < ns → round (y i) = (lab i : ℝ)) (W : Work ℝ) (x : Nat → ℝ) :
    let s := rscScores (realOps round) (mkData row X ld y ns nf ic lambda alpha nclass) W x
    (∀ k i, k < nclass - 1 → i < ns → s.2.2 (k * ns + i) = linRef A nf ic x k i) ∧
      (∀ i, i < ns → Top (s.2.1 i) (nclass - 1) fun k => linRef A nf ic x k i) ∧
      s.1 = -∑ k ∈ range (nclass - 1), ∑ i ∈ range ns,
        if lab i = k then linRef A nf ic x k i else 0 := by
  obtain ⟨η, hη⟩ : ∃ η : Nat → Nat → ℝ, η = linRef A nf ic x := ⟨_, rfl⟩
  simp only [← hη]
  unfold rscScores
  refine loop_inv (fun k (s : ℝ × (Nat → ℝ) × (Nat → ℝ)) =>
    (∀ k' i, k' < k → i < ns → s.2.2 (k' * ns + i) = η k' i) ∧
      (∀ i, i < ns → Top (s.2.1 i) k fun k => η k i) ∧
      s.1 = -∑ k' ∈ range k, ∑ i ∈ range ns, if lab i = k' then η k' i else 0)
    (nclass - 1) _ _ ⟨fun k' i h => by omega, fun i hi => ?_, by simp⟩ ?_
  · show Top (fill W.maxexp 0 ns 0 i) 0 _
    rw [fill_in _ _ (Nat.zero_le _) hi]
    exact ⟨le_refl _, fun l hl => by omega, Or.inl rfl⟩
  · intro k s hk ⟨h1, h2, h3⟩
    obtain ⟨lc, hlc⟩ : ∃ lc : Nat → ℝ, lc = evalFeatureMatrix row (width ic nf) x
      (k * width ic nf) ns X ld s.2.2 (k * ns) ic := ⟨_, rfl⟩
    have e1 : ∀ k' i, k' < k + 1 → i < ns → lc (k' * ns + i) = η k' i := by
      intro k' i hk' hi
      rw [hlc]
      by_cases e : k' = k
      · subst e
        rw [eval_lin hA x _ _ _ ic hi, hη]; rfl
      · have := cell_block (k := k) (k' := k') (by omega) hi
        rw [evalFeatureMatrix_at, if_neg (by omega)]
        exact h1 k' i (by omega) hi
    have key := loop_inv (fun i (q : ℝ × (Nat → ℝ) × (Nat → ℝ)) =>
      q.2.2 = lc ∧ (∀ i', i' < ns → q.2.1 i' =
          if i' < i then (if s.2.1 i' < η k i' then η k i' else s.2.1 i') else s.2.1 i') ∧
        q.1 = s.1 - ∑ i' ∈ range i, if lab i' = k then η k i' else 0) ns (s.1, s.2.1, lc)
      (fun i s =>
        let idx := k * ns + i
        let mx := if s.2.1 i < s.2.2 idx then upd s.2.1 i (s.2.2 idx) else s.2.1
        let f := if round (y i) = (k : ℝ) then s.1 - s.2.2 idx else s.1
        (f, mx, s.2.2)) ⟨rfl, fun i' _ => by rw [if_neg (by omega)], by simp⟩ ?_
    · obtain ⟨q, hq⟩ : ∃ q : ℝ × (Nat → ℝ) × (Nat → ℝ), q = loop ns (s.1, s.2.1, lc)
        (fun i s =>
          let idx := k * ns + i
          let mx := if s.2.1 i < s.2.2 idx then upd s.2.1 i (s.2.2 idx) else s.2.1
          let f := if round (y i) = (k : ℝ) then s.1 - s.2.2 idx else s.1
          (f, mx, s.2.2)) := ⟨_, rfl⟩
      rw [← hq] at key
      have goal : (∀ k' i, k' < k + 1 → i < ns → q.2.2 (k' * ns + i) = η k' i) ∧
          (∀ i, i < ns → Top (q.2.1 i) (k + 1) fun k => η k i) ∧
          q.1 = -∑ k' ∈ range (k + 1), ∑ i ∈ range ns, if lab i = k' then η k' i else 0 := by
        obtain ⟨k1, k2, k3⟩ := key
        refine ⟨by rw [k1]; exact e1, fun i hi => ?_, ?_⟩
        · rw [k2 i hi, if_pos hi]
          exact (h2 i hi).step
        · rw [k3, h3, Finset.sum_range_succ]; ring
      rw [hq, hlc] at goal
      exact goal
    · intro i q hi ⟨k1, k2, k3⟩
      have el : q.2.2 (k * ns + i) = η k i := by rw [k1]; exact e1 k i (by omega) hi
      have em : q.2.1 i = s.2.1 i := by rw [k2 i hi, if_neg (by omega)]
      simp only [el, em]
      refine ⟨k1, fun i' hi' => ?_, ?_⟩
      · by_cases hlt : s.2.1 i < η k i
        · rw [if_pos hlt]
          by_cases e : i' = i
          · subst e; rw [upd_same, if_pos (by omega), if_pos hlt]
          · rw [upd_ne _ _ e, k2 i' hi']
            by_cases h : i' < i
            · rw [if_pos h, if_pos (show i' < i + 1 by omega)]
            · rw [if_neg h, if_neg (show ¬ i' < i + 1 by omega)]
        · rw [if_neg hlt, k2 i' hi']
          by_cases e : i' = i
          · subst e; rw [if_neg (by omega), if_pos (by omega), if_neg hlt]
          · by_cases h : i' < i
            · rw [if_pos h, if_pos (show i' < i + 1 by omega)]
            · rw [if_neg h, if_neg (show ¬ i' < i + 1 by omega)]
      · rw [hy i hi, Finset.sum_range_succ, k3]
        by_cases h : lab i = k
        · rw [if_pos (by rw [h]), if_pos h]; ring
        · rw [if_neg (by simpa using h), if_neg h]; ring

theorem one_add_sum_pos (m : Nat) (η : Nat → ℝ) : 0 < 1 + ∑ l ∈ range m, Real.exp (η l) := by
  have : 0 ≤ ∑ l ∈ range m, Real.exp (η l) := Finset.sum_nonneg fun l _ => (Real.exp_pos _).le
  linarith

/-- The log-sum-exp trick. -/
theorem lse_ref (M : ℝ) (m : Nat) (η : Nat → ℝ) :
    M + Real.log (Real.exp (-M) + ∑ k ∈ range m, Real.exp (η k - M)) =
      Real.log (1 + ∑ k ∈ range m, Real.exp (η k)) := by
  have h : Real.exp (-M) + ∑ k ∈ range m, Real.exp (η k - M) =
      Real.exp (-M) * (1 + ∑ k ∈ range m, Real.exp (η k)) := by
    rw [mul_add, mul_one, Finset.mul_sum]
    congr 1
    refine Finset.sum_congr rfl fun k _ => ?_
    rw [← Real.exp_add]; congr 1; ring
  rw [h, Real.log_mul (Real.exp_pos _).ne' (one_add_sum_pos m η).ne', Real.log_exp]
  ring

theorem loss_ref (η : Nat → ℝ) (k : Nat) :
    -Real.log (probRef nclass η k) =
      Real.log (1 + ∑ l ∈ range (nclass - 1), Real.exp (η l)) -
        ∑ l ∈ range (nclass - 1), if k = l then η l else 0 := by
  have h := (one_add_sum_pos (nclass - 1) η).ne'
  rw [Finset.sum_ite_eq (range (nclass - 1)) k]
  unfold probRef
  by_cases hk : k < nclass - 1
  · rw [if_pos hk, if_pos (Finset.mem_range.mpr hk), Real.log_div (Real.exp_pos _).ne' h,
      Real.log_exp]
    ring
  · rw [if_neg hk, if_neg (by simpa using hk), one_div, Real.log_inv]
    ring

/-- What the objective is: the likelihood with the penalty on the first class only. -/
theorem objfunRsc_eq (hA : Stored row X ld ns nf A)
    (hy : ∀ i, i < ns → round (y i) = (lab i : ℝ)) (h1 : 0 ≤ lambda) (h2 : 0 ≤ alpha)
    (h3 : alpha ≤ 1) (W : Work ℝ) (x : Nat → ℝ) :
    (objfunRsc (realOps round) (mkData row X ld y ns nf ic lambda alpha nclass) W x).1 =
      lossRef A lab ns nf nclass ic x + penalty lambda alpha nf x := by
  obtain ⟨s, hs⟩ : ∃ s, s = rscScores (realOps round)
    (mkData row X ld y ns nf ic lambda alpha nclass) W x := ⟨_, rfl⟩
  have ok := rscScores_ok (ic := ic) (lambda := lambda) (alpha := alpha) (nclass := nclass)
    hA hy W x
  simp only [← hs] at ok
  obtain ⟨k1, k2, k3⟩ := ok
  unfold objfunRsc
  rw [← hs]
  show loop ns s.1 (fun i f => f + (s.2.1 i + Real.log (loop (nclass - 1) (Real.exp (-(s.2.1 i)))
    fun k v => v + Real.exp (s.2.2 (k * ns + i) - s.2.1 i)))) +
      regfun nf x (lambda * alpha) (lambda * (1 - alpha) / 2) = _
  rw [pen_eq _ _ _ _ h1 h2 h3, loop_sum]
  congr 1
  unfold lossRef
  simp only [loss_ref]
  rw [Finset.sum_sub_distrib, k3, Finset.sum_comm, neg_add_eq_sub]
  congr 1
  refine Finset.sum_congr rfl fun i hi => ?_
  have hi := Finset.mem_range.mp hi
  rw [loop_sum, ← lse_ref (s.2.1 i)]
  congr 2
  congr 1
  exact Finset.sum_congr rfl fun k hk => by rw [k1 k i (Finset.mem_range.mp hk) hi]

/-- The derivative of `β_k X_i`. -/
noncomputable def dRef (A : Nat → Nat → ℝ) (nf : Nat) (ic : Bool) (p k i : Nat) : ℝ :=
  dlin A nf (fun j => k * width ic nf + j) ic (k * width ic nf + nf) p i

/-- Probability minus indicator. -/
noncomputable def resRef (nclass : Nat) (η : Nat → ℝ) (c k : Nat) : ℝ :=
  Real.exp (η k) / (1 + ∑ l ∈ range (nclass - 1), Real.exp (η l)) - if c = k then 1 else 0

theorem objgrdRsc_eq (hA : Stored false X ld ns nf A)
    (hy : ∀ i, i < ns → round (y i) = (lab i : ℝ)) (h1 : 0 ≤ lambda) (h2 : 0 ≤ alpha)
    (h3 : alpha ≤ 1) (W : Work ℝ) (x g : Nat → ℝ) (xnew : Bool)
    (hW : xnew = false → ∀ k i, k < nclass - 1 → i < ns →
      W.lincomb (k * ns + i) = linRef A nf ic x k i)
    {n p : Nat} (hp : p < n) :
    objgrdRsc (realOps round) (mkData false X ld y ns nf ic lambda alpha nclass) W n x g xnew p =
      ∑ i ∈ range ns, ∑ k ∈ range (nclass - 1),
          resRef nclass (fun k => linRef A nf ic x k i) (lab i) k * dRef A nf ic p k i +
        if p < nf then lambda * alpha * sgn (x p) + lambda * (1 - alpha) * x p else 0 := by
  obtain ⟨s, hs⟩ : ∃ s, s = rscScores (realOps round)
    (mkData false X ld y ns nf ic lambda alpha nclass) W x := ⟨_, rfl⟩
  have ok := rscScores_ok (ic := ic) (lambda := lambda) (alpha := alpha) (nclass := nclass)
    hA hy W x
  simp only [← hs] at ok
  obtain ⟨mx, hmx⟩ : ∃ mx : Nat → ℝ, mx = if xnew then s.2.1 else W.maxexp := ⟨_, rfl⟩
  obtain ⟨lc, hlc⟩ : ∃ lc : Nat → ℝ, lc = if xnew then s.2.2 else W.lincomb := ⟨_, rfl⟩
  have el : ∀ k i, k < nclass - 1 → i < ns → lc (k * ns + i) = linRef A nf ic x k i := by
    intro k i hk hi
    rw [hlc]
    cases xnew with
    | false => exact hW rfl k i hk hi
    | true => exact ok.1 k i hk hi
  unfold objgrdRsc
  rw [← hs, ← hmx, ← hlc]
  show reggrd nf x (lambda * alpha) (lambda * (1 - alpha) / 2) (loop ns (fill g 0 n 0) (fun i g =>
    loop (nclass - 1) g fun k g =>
      let val := if round (y i) = (k : ℝ) then
        -Real.exp (lc (k * ns + i) - (mx i + Real.log (loop (nclass - 1) (Real.exp (-(mx i)))
          fun k v => v + Real.exp (lc (k * ns + i) - mx i)))) + 1
        else -Real.exp (lc (k * ns + i) - (mx i + Real.log (loop (nclass - 1) (Real.exp (-(mx i)))
          fun k v => v + Real.exp (lc (k * ns + i) - mx i))))
      let g := loop (width ic nf - if ic then 1 else 0) g fun j g =>
        upd g (k * width ic nf + j) (g (k * width ic nf + j) - X (j * ld + i) * val)
      if ic then upd g ((k + 1) * width ic nf - 1) (g ((k + 1) * width ic nf - 1) - val) else g)) p
    = _
  rw [pengrd_eq _ _ _ _ _ _ h1 h2 h3]
  congr 1
  rw [loop_add ns _ _ p (fun i => ∑ k ∈ range (nclass - 1),
    resRef nclass (fun k => linRef A nf ic x k i) (lab i) k * dRef A nf ic p k i) ?_,
    fill_in _ _ (Nat.zero_le _) hp, zero_add]
  intro i v hi
  refine loop_add (nclass - 1) v _ p _ ?_
  intro k v hk
  have else_ : mx i + Real.log (loop (nclass - 1) (Real.exp (-(mx i)))
      fun k v => v + Real.exp (lc (k * ns + i) - mx i)) =
      Real.log (1 + ∑ l ∈ range (nclass - 1), Real.exp (linRef A nf ic x l i)) := by
    rw [loop_sum, ← lse_ref (mx i)]
    congr 3
    exact Finset.sum_congr rfl fun k hk => by rw [el k i (Finset.mem_range.mp hk) hi]
  obtain ⟨val, hval⟩ : ∃ val : ℝ, val = if round (y i) = (k : ℝ) then
        -Real.exp (lc (k * ns + i) - (mx i + Real.log (loop (nclass - 1) (Real.exp (-(mx i)))
          fun k v => v + Real.exp (lc (k * ns + i) - mx i)))) + 1
        else -Real.exp (lc (k * ns + i) - (mx i + Real.log (loop (nclass - 1) (Real.exp (-(mx i)))
          fun k v => v + Real.exp (lc (k * ns + i) - mx i)))) := ⟨_, rfl⟩
  have ev : val = -resRef nclass (fun k => linRef A nf ic x k i) (lab i) k := by
    rw [hval, else_, el k i hk hi, hy i hi, Real.exp_sub,
      Real.exp_log (one_add_sum_pos (nclass - 1) _)]
    unfold resRef
    by_cases h : lab i = k
    · rw [if_pos (by rw [h]), if_pos h]; ring
    · rw [if_neg (by simpa using h), if_neg h]; ring
  show (if ic then upd (loop (width ic nf - if ic then 1 else 0) v fun j g =>
        upd g (k * width ic nf + j) (g (k * width ic nf + j) - X (j * ld + i) * _))
        ((k + 1) * width ic nf - 1) (_ - _) else _) p = _
  rw [← hval, width_sub]
  have ew : ∀ c, (loop nf v fun j g =>
      upd g (k * width ic nf + j) (g (k * width ic nf + j) - X (j * ld + i) * val)) c =
      v c + ∑ j ∈ range nf, -(val * (A i j * one_ c (k * width ic nf + j))) := by
    intro c
    refine loop_add nf v _ c _ ?_
    intro j w hj
    have hx : X (j * ld + i) = A i j := by simpa using hA i j hi hj
    unfold one_
    by_cases h : k * width ic nf + j = c
    · rw [if_pos h, ← h, upd_same, hx]; ring
    · rw [if_neg h, upd_ne _ _ (fun e => h e.symm)]; ring
  have eq : ∀ c, v c + ∑ j ∈ range nf, -(val * (A i j * one_ c (k * width ic nf + j))) =
      v c - val * ∑ j ∈ range nf, A i j * one_ c (k * width ic nf + j) := by
    intro c
    rw [Finset.sum_neg_distrib, ← Finset.mul_sum]; ring
  unfold dRef dlin
  cases ic with
  | false =>
    simp only [Bool.false_eq_true, if_false, add_zero] at ew eq ⊢
    rw [ew, eq, ev]; ring
  | true =>
    simp only [if_true] at ew eq ⊢
    have hq : (k + 1) * width true nf - 1 = k * width true nf + nf := by
      simp only [width, if_true, Nat.add_mul, Nat.one_mul]; omega
    rw [hq]
    by_cases h : p = k * width true nf + nf
    · rw [h, upd_same, ew, eq, ev]
      have : one_ (k * width true nf + nf) (k * width true nf + nf) = 1 := if_pos rfl
      rw [this]; ring
    · rw [upd_ne _ _ h, ew, eq, ev]
      have : one_ p (k * width true nf + nf) = 0 := if_neg fun e => h e.symm
      rw [this]; ring

theorem lossRef_deriv (A : Nat → Nat → ℝ) (lab : Nat → Nat) (ns nf nclass : Nat) (ic : Bool)
    (x : Nat → ℝ) (p : Nat) :
    HasDerivAt (fun t => lossRef A lab ns nf nclass ic (moved x p t))
      (∑ i ∈ range ns, ∑ k ∈ range (nclass - 1),
        resRef nclass (fun k => linRef A nf ic x k i) (lab i) k * dRef A nf ic p k i) (x p) := by
  unfold lossRef
  refine HasDerivAt.fun_sum fun i _ => ?_
  simp only [loss_ref]
  have hl : ∀ k, HasDerivAt (fun t => linRef A nf ic (moved x p t) k i) (dRef A nf ic p k i) (x p) :=
    fun k => lin_deriv A nf (fun j => k * width ic nf + j) ic (k * width ic nf + nf) p i x
  have hs := HasDerivAt.fun_sum (u := range (nclass - 1)) fun k _ => (hl k).exp
  have hd := (hs.const_add 1).log (one_add_sum_pos (nclass - 1) fun l =>
    linRef A nf ic (moved x p (x p)) l i).ne'
  have hi := HasDerivAt.fun_sum (u := range (nclass - 1)) (fun k _ =>
    (show HasDerivAt (fun t => if lab i = k then linRef A nf ic (moved x p t) k i else 0)
      (if lab i = k then dRef A nf ic p k i else 0) (x p) from by
        by_cases h : lab i = k
        · simp only [if_pos h]; exact hl k
        · simp only [if_neg h]; exact hasDerivAt_const _ _))
  refine HasDerivAt.congr_deriv (hd.sub hi) ?_
  simp only [moved_self]
  rw [Finset.sum_div, ← Finset.sum_sub_distrib]
  refine Finset.sum_congr rfl fun k _ => ?_
  unfold resRef
  by_cases h : lab i = k
  · rw [if_pos h, if_pos h]; ring
  · rw [if_neg h, if_neg h]; ring

end

end Verif.Logistic
