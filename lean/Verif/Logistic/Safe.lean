import Verif.Logistic.Ssc

/-
The objective with classes that are all alike never leaves the range where the exponential and the
logarithm are safe when every sample has a score that is not negative.
-/
namespace Verif.Logistic

set_option linter.unusedSectionVars false

open Finset (range)

/-- Functions that agree with the exponential on the negative half line and with the logarithm from
`1` on; elsewhere they may return anything (an overflow, say). -/
def Safe (O : Ops ℝ) : Prop :=
  (∀ t, t ≤ 0 → O.exp t = Real.exp t) ∧ ∀ v, 1 ≤ v → O.log v = Real.log v

theorem loop_congr_inv {S : Type*} (P : Nat → S → Prop) (n : Nat) (s : S) (f g : Nat → S → S)
    (h0 : P 0 s) (hs : ∀ i s, i < n → P i s → P (i + 1) (g i s))
    (h : ∀ i s, i < n → P i s → f i s = g i s) : loop n s f = loop n s g := by
  have key : loop n s f = loop n s g ∧ P n (loop n s g) := by
    induction n with
    | zero => exact ⟨rfl, h0⟩
    | succ n ih =>
      obtain ⟨i1, i2⟩ := ih (fun i s hi => hs i s (by omega)) (fun i s hi => h i s (by omega))
      refine ⟨?_, hs n _ (by omega) i2⟩
      show f n (loop n s f) = g n (loop n s g)
      rw [i1, h n _ (by omega) i2]
  exact key.1

/-- The loop over the classes of a sample: the objective and the maximum. -/
theorem sample_max (nclass i : Nat) (lab : Nat → Bool) (sc m : Nat → ℝ) (f : ℝ) (hm : m i = 0) :
    let q := loop nclass (f, m) fun k q =>
      let m := if q.2 i < sc k then upd q.2 i (sc k) else q.2
      let f := if lab k then q.1 - sc k else q.1
      (f, m)
    Top (q.2 i) nclass sc ∧ ∀ c, c ≠ i → q.2 c = m c := by
  refine loop_inv (fun k (q : ℝ × (Nat → ℝ)) => Top (q.2 i) k sc ∧ ∀ c, c ≠ i → q.2 c = m c)
    nclass (f, m) _ ⟨?_, fun c _ => rfl⟩ ?_
  · show Top (m i) 0 sc
    rw [hm]
    exact ⟨le_refl _, fun l hl => by omega, Or.inl rfl⟩
  · intro k q hk ⟨j2, j3⟩
    refine ⟨?_, fun c hc => ?_⟩
    · have := j2.step
      by_cases h : q.2 i < sc k
      · simp only [if_pos h] at this ⊢
        rw [upd_same]; exact this
      · simp only [if_neg h] at this ⊢
        exact this
    · by_cases h : q.2 i < sc k
      · simp only [if_pos h]
        rw [upd_ne _ _ hc]; exact j3 c hc
      · simp only [if_neg h]; exact j3 c hc

theorem objfunSsc_safe (O : Ops ℝ) (hO : Safe O) {row : Bool} {X : Nat → ℝ} {ld : Nat}
    {y : Nat → ℝ} {ns nf : Nat} {ic : Bool} {lambda alpha : ℝ} {nclass : Nat}
    {A : Nat → Nat → ℝ} (hA : Stored false X ld ns nf A) (W : Work ℝ) (x : Nat → ℝ)
    (hs : ∀ i, i < ns → ∃ k, k < nclass ∧ 0 ≤ linSoft A nf nclass ic x k i) :
    objfunSsc O (mkData row X ld y ns nf ic lambda alpha nclass) W (nclass * width ic nf) x =
      objfunSsc (realOps O.round) (mkData row X ld y ns nf ic lambda alpha nclass) W
        (nclass * width ic nf) x := by
  unfold objfunSsc
  obtain ⟨lc, hlc⟩ : ∃ lc, lc = sscScores (mkData row X ld y ns nf ic lambda alpha nclass)
    (nclass * width ic nf) W.lincomb x := ⟨_, rfl⟩
  have el : ∀ k i, k < nclass → i < ns → lc (k * ns + i) = linSoft A nf nclass ic x k i :=
    fun k i hk hi => by rw [hlc]; exact sscScores_ok hA _ x hk hi
  rw [← hlc]
  have key := loop_congr_inv (fun i (s : ℝ × (Nat → ℝ) × (Nat → ℝ)) =>
    ∀ i', i ≤ i' → i' < ns → s.2.1 i' = 0) ns
    ((0 : ℝ), fill W.maxexp 0 ns 0, fill W.sumexp 0 ns 0) (fun i s =>
      let fm := loop nclass (s.1, s.2.1) fun k q =>
        let m := if q.2 i < lc (k * ns + i) then upd q.2 i (lc (k * ns + i)) else q.2
        let f := if O.round (y i) = (k : ℝ) then q.1 - lc (k * ns + i) else q.1
        (f, m)
      let se := upd s.2.2 i (loop nclass 0 fun k t => t + O.exp (lc (k * ns + i) - fm.2 i))
      (fm.1 + (fm.2 i + O.log (se i)), fm.2, se)) (fun i s =>
      let fm := loop nclass (s.1, s.2.1) fun k q =>
        let m := if q.2 i < lc (k * ns + i) then upd q.2 i (lc (k * ns + i)) else q.2
        let f := if O.round (y i) = (k : ℝ) then q.1 - lc (k * ns + i) else q.1
        (f, m)
      let se := upd s.2.2 i (loop nclass 0 fun k t => t + Real.exp (lc (k * ns + i) - fm.2 i))
      (fm.1 + (fm.2 i + Real.log (se i)), fm.2, se))
    (fun i' _ h => fill_in _ _ (Nat.zero_le _) h) ?_ ?_
  · exact congrArg (fun s : ℝ × (Nat → ℝ) × (Nat → ℝ) => (s.1 +
      regfun (nf * nclass) x (lambda * alpha) (lambda * (1 - alpha) / 2),
      ({ W with maxexp := s.2.1, sumexp := s.2.2, lincomb := lc } : Work ℝ))) key
  · intro i s hi ih i' h h'
    have := (sample_max nclass i (fun k => decide (O.round (y i) = (k : ℝ)))
      (fun k => lc (k * ns + i)) s.2.1 s.1 (ih i (le_refl _) hi)).2 i' (by omega)
    simp only [decide_eq_true_eq] at this
    show (loop nclass (s.1, s.2.1) fun k q =>
        let m := if q.2 i < lc (k * ns + i) then upd q.2 i (lc (k * ns + i)) else q.2
        let f := if O.round (y i) = (k : ℝ) then q.1 - lc (k * ns + i) else q.1
        (f, m)).2 i' = 0
    rw [this]
    exact ih i' (by omega) h'
  · intro i s hi ih
    have top := (sample_max nclass i (fun k => decide (O.round (y i) = (k : ℝ)))
      (fun k => lc (k * ns + i)) s.2.1 s.1 (ih i (le_refl _) hi)).1
    simp only [decide_eq_true_eq] at top
    obtain ⟨fm, hfm⟩ : ∃ fm : ℝ × (Nat → ℝ), fm = loop nclass (s.1, s.2.1) fun k q =>
        let m := if q.2 i < lc (k * ns + i) then upd q.2 i (lc (k * ns + i)) else q.2
        let f := if O.round (y i) = (k : ℝ) then q.1 - lc (k * ns + i) else q.1
        (f, m) := ⟨_, rfl⟩
    simp only [← hfm] at top ⊢
    obtain ⟨t0, t1, t2⟩ := top
    have ee : (loop nclass 0 fun k t => t + O.exp (lc (k * ns + i) - fm.2 i)) =
        loop nclass 0 fun k t => t + Real.exp (lc (k * ns + i) - fm.2 i) :=
      loop_congr _ _ _ _ fun k t hk => by rw [hO.1 _ (by have := t1 k hk; linarith)]
    rw [ee, upd_same, hO.2]
    rw [loop_sum, zero_add]
    have hnn : ∀ k ∈ range nclass, 0 ≤ Real.exp (lc (k * ns + i) - fm.2 i) :=
      fun k _ => (Real.exp_pos _).le
    obtain ⟨l, hl, e⟩ : ∃ l, l < nclass ∧ fm.2 i = lc (l * ns + i) := by
      rcases t2 with e | h
      · obtain ⟨k, hk, h⟩ := hs i hi
        rw [← el k i hk hi] at h
        exact ⟨k, hk, le_antisymm (le_trans e.le h) (t1 k hk)⟩
      · exact h
    have := Finset.single_le_sum hnn (Finset.mem_range.mpr hl)
    rw [← e, sub_self, Real.exp_zero] at this
    exact this

end Verif.Logistic
