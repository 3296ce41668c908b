import Verif.Logistic.Ssc

/-
The classification.
-/
namespace Verif.Logistic

set_option linter.unusedSectionVars false

open Finset (range)

/-- The class picked for a sample: the first one with the largest score if there is a positive
score, and whatever was stored before if there is none. -/
theorem pick_at (ns nclass : Nat) (sc : Nat → ℝ) (pred : Nat → Nat) {i : Nat} (hi : i < ns) :
    ((∀ k, k < nclass → sc (k * ns + i) ≤ 0) ∧ pick ns nclass sc pred i = pred i) ∨
      (pick ns nclass sc pred i < nclass ∧ 0 < sc (pick ns nclass sc pred i * ns + i) ∧
        (∀ k, k < nclass → sc (k * ns + i) ≤ sc (pick ns nclass sc pred i * ns + i)) ∧
        ∀ k, k < pick ns nclass sc pred i →
          sc (k * ns + i) < sc (pick ns nclass sc pred i * ns + i)) := by
  -- one sample
  have one : ∀ (p : Nat → Nat) (i : Nat),
      let s := loop nclass ((0 : ℝ), p) fun k s =>
        if s.1 < sc (k * ns + i) then (sc (k * ns + i), upd s.2 i k) else s
      (∀ c, c ≠ i → s.2 c = p c) ∧
        (((∀ k, k < nclass → sc (k * ns + i) ≤ 0) ∧ s.2 i = p i) ∨
          (s.2 i < nclass ∧ 0 < sc (s.2 i * ns + i) ∧
            (∀ k, k < nclass → sc (k * ns + i) ≤ sc (s.2 i * ns + i)) ∧
            ∀ k, k < s.2 i → sc (k * ns + i) < sc (s.2 i * ns + i))) := by
    intro p i
    have key := loop_inv (fun k (s : ℝ × (Nat → Nat)) => (∀ c, c ≠ i → s.2 c = p c) ∧
      ((s.1 = 0 ∧ (∀ l, l < k → sc (l * ns + i) ≤ 0) ∧ s.2 i = p i) ∨
        (s.2 i < k ∧ s.1 = sc (s.2 i * ns + i) ∧ 0 < s.1 ∧ (∀ l, l < k → sc (l * ns + i) ≤ s.1) ∧
          ∀ l, l < s.2 i → sc (l * ns + i) < s.1))) nclass ((0 : ℝ), p) (fun k s =>
        if s.1 < sc (k * ns + i) then (sc (k * ns + i), upd s.2 i k) else s)
      ⟨fun c _ => rfl, Or.inl ⟨rfl, fun l hl => by omega, rfl⟩⟩ ?_
    · refine ⟨key.1, ?_⟩
      rcases key.2 with ⟨_, h2, h3⟩ | ⟨h1, h2, h3, h4, h5⟩
      · exact Or.inl ⟨h2, h3⟩
      · refine Or.inr ⟨h1, ?_⟩
        rw [← h2]
        exact ⟨h3, h4, h5⟩
    · intro k s hk ⟨h0, h⟩
      by_cases hlt : s.1 < sc (k * ns + i)
      · rw [if_pos hlt]
        refine ⟨fun c hc => (upd_ne _ _ hc).trans (h0 c hc), Or.inr ?_⟩
        have hs : 0 ≤ s.1 ∧ ∀ l, l < k → sc (l * ns + i) ≤ s.1 := by
          rcases h with ⟨e, h2, _⟩ | ⟨_, _, h3, h4, _⟩
          · rw [e]; exact ⟨le_refl _, h2⟩
          · exact ⟨h3.le, h4⟩
        simp only [upd_same]
        refine ⟨by omega, trivial, by linarith, fun l hl => ?_, fun l hl => ?_⟩
        · by_cases e : l = k
          · rw [e]
          · have := hs.2 l (by omega); linarith
        · have := hs.2 l hl; linarith
      · rw [if_neg hlt]
        refine ⟨h0, ?_⟩
        rcases h with ⟨e, h2, h3⟩ | ⟨h1, h2, h3, h4, h5⟩
        · refine Or.inl ⟨e, fun l hl => ?_, h3⟩
          by_cases e' : l = k
          · rw [e', ← e]; linarith
          · exact h2 l (by omega)
        · refine Or.inr ⟨by omega, h2, h3, fun l hl => ?_, h5⟩
          by_cases e' : l = k
          · rw [e']; linarith
          · exact h4 l (by omega)
  have key := loop_inv (fun m (p : Nat → Nat) => (∀ c, m ≤ c → p c = pred c) ∧ ∀ i, i < m →
    ((∀ k, k < nclass → sc (k * ns + i) ≤ 0) ∧ p i = pred i) ∨
      (p i < nclass ∧ 0 < sc (p i * ns + i) ∧
        (∀ k, k < nclass → sc (k * ns + i) ≤ sc (p i * ns + i)) ∧
        ∀ k, k < p i → sc (k * ns + i) < sc (p i * ns + i))) ns pred (fun i p =>
    (loop nclass ((0 : ℝ), p) fun k s =>
      if s.1 < sc (k * ns + i) then (sc (k * ns + i), upd s.2 i k) else s).2)
    ⟨fun c _ => rfl, fun i h => by omega⟩ ?_
  · exact key.2 i hi
  · intro m p hm ⟨i1, i2⟩
    obtain ⟨o1, o2⟩ := one p m
    refine ⟨fun c hc => by rw [o1 c (by omega)]; exact i1 c (by omega), fun i hi => ?_⟩
    by_cases e : i = m
    · subst e
      rw [i1 i (le_refl _)] at o2
      exact o2
    · simp only [o1 i e]
      exact i2 i (by omega)

section
variable {round : ℝ → ℝ} {row : Bool} {X : Nat → ℝ} {ld : Nat} {y : Nat → ℝ}
  {ns nf : Nat} {ic : Bool} {lambda alpha : ℝ} {nclass : Nat} {A : Nat → Nat → ℝ}

theorem scoresSsc_ok (hA : Stored row X ld ns nf A) (x : Nat → ℝ) {k i : Nat}
    (hk : k < nclass) (hi : i < ns) :
    scoresSsc (mkData row X ld y ns nf ic lambda alpha nclass) (nclass * width ic nf) x
      (k * ns + i) = linSoft A nf nclass ic x k i := by
  unfold scoresSsc
  show loop nclass _ (fun k lc => loop ns lc fun i lc => upd lc (k * ns + i) (lc (k * ns + i) +
    loop nf 0 fun j t => t + entry row X ld i j * x (j * nclass + k))) (k * ns + i) = _
  rw [gemm_add ns nclass _ (fun k i => loop nf 0 fun j t =>
    t + entry row X ld i j * x (j * nclass + k)) hk hi, dot_lin hA x hi]
  unfold linSoft lin
  rw [add_comm]
  congr 1
  cases ic with
  | false => rfl
  | true =>
    show loop nclass (fun _ => 0) (fun k lc => fill lc (k * ns) ((k + 1) * ns)
      (x (nclass * width true nf - (nclass - k)))) (k * ns + i) = _
    rw [fill_classes ns nclass _ (fun k => x (nclass * width true nf - (nclass - k))) hk hi,
      icpt_index hk]
    rfl

/-- The unnormalised probabilities. -/
noncomputable def rawRef (nclass : Nat) (η : Nat → ℝ) (k : Nat) : ℝ :=
  if k < nclass - 1 then Real.exp (η k) else 1

theorem raw_sum (h : 0 < nclass) (η : Nat → ℝ) :
    ∑ k ∈ range nclass, rawRef nclass η k = 1 + ∑ k ∈ range (nclass - 1), Real.exp (η k) := by
  obtain ⟨m, rfl⟩ : ∃ m, nclass = m + 1 := ⟨nclass - 1, by omega⟩
  rw [Finset.sum_range_succ, Nat.add_sub_cancel, add_comm]
  congr 1
  · simp [rawRef]
  · exact Finset.sum_congr rfl fun k hk => by
      simp [rawRef, Finset.mem_range.mp hk]

theorem raw_div (η : Nat → ℝ) (k : Nat) :
    rawRef nclass η k / (1 + ∑ l ∈ range (nclass - 1), Real.exp (η l)) = probRef nclass η k := by
  unfold rawRef probRef
  by_cases h : k < nclass - 1
  · rw [if_pos h, if_pos h]
  · rw [if_neg h, if_neg h]

theorem probaRsc_ok (hA : Stored row X ld ns nf A) (x : Nat → ℝ) {k i : Nat} (hk : k < nclass)
    (hi : i < ns) :
    probaRsc (realOps round) (mkData row X ld y ns nf ic lambda alpha nclass) x (k * ns + i) =
      probRef nclass (fun k => linRef A nf ic x k i) k := by
  have hc : 0 < nclass := by omega
  -- the block of a class
  have blk : ∀ (k : Nat) (v : Nat → ℝ) (c : Nat),
      (loop ns (if ic then
          loop ns (loop ns v fun i lp => upd lp (k * ns + i)
            (loop nf 0 fun j s => s + entry row X ld i j * x (k * width ic nf + j))) fun i lp =>
            upd lp (k * ns + i) (lp (k * ns + i) + x ((k + 1) * width ic nf - 1))
        else loop ns v fun i lp => upd lp (k * ns + i)
          (loop nf 0 fun j s => s + entry row X ld i j * x (k * width ic nf + j))) fun i lp =>
        upd lp (k * ns + i) (Real.exp (lp (k * ns + i)))) c =
      if k * ns ≤ c ∧ c < k * ns + ns then Real.exp (linRef A nf ic x k (c - k * ns)) else v c := by
    intro k v c
    rw [loop_upd ns _ (k * ns) (fun _ t => Real.exp t) c]
    have e1 : ∀ c, (loop ns v fun i lp => upd lp (k * ns + i)
        (loop nf 0 fun j s => s + entry row X ld i j * x (k * width ic nf + j))) c =
        if k * ns ≤ c ∧ c < k * ns + ns then
          ∑ j ∈ range nf, A (c - k * ns) j * x (k * width ic nf + j) else v c := by
      intro c
      rw [loop_upd ns v (k * ns) (fun i _ => loop nf 0 fun j s =>
        s + entry row X ld i j * x (k * width ic nf + j)) c]
      by_cases h : k * ns ≤ c ∧ c < k * ns + ns
      · rw [if_pos h, if_pos h, loop_sum, zero_add]
        exact Finset.sum_congr rfl fun j hj => by
          rw [entry_stored hA (by omega) (Finset.mem_range.mp hj)]
      · rw [if_neg h, if_neg h]
    by_cases h : k * ns ≤ c ∧ c < k * ns + ns
    · rw [if_pos h, if_pos h]
      congr 1
      unfold linRef lin
      cases ic with
      | false =>
        simp only [Bool.false_eq_true, if_false, icpt, add_zero] at e1 ⊢
        rw [e1, if_pos h]
      | true =>
        simp only [if_true, icpt] at e1 ⊢
        have hq : (k + 1) * width true nf - 1 = k * width true nf + nf := by
          simp only [width, if_true, Nat.add_mul, Nat.one_mul]; omega
        rw [loop_upd ns _ (k * ns) (fun _ t => t + x ((k + 1) * width true nf - 1)) c, if_pos h, e1,
          if_pos h, hq]
    · rw [if_neg h, if_neg h]
      cases ic with
      | false =>
        simp only [Bool.false_eq_true, if_false] at e1 ⊢
        rw [e1, if_neg h]
      | true =>
        simp only [if_true] at e1 ⊢
        rw [loop_upd ns _ (k * ns) (fun _ t => t + x ((k + 1) * width true nf - 1)) c, if_neg h, e1,
          if_neg h]
  obtain ⟨v, hv⟩ : ∃ v : Nat → ℝ, v = loop (nclass - 1)
      (fill (fun _ => (0 : ℝ)) (ns * (nclass - 1)) (ns * nclass) 1) (fun k v =>
        (loop ns (if ic then
            loop ns (loop ns v fun i lp => upd lp (k * ns + i)
              (loop nf 0 fun j s => s + entry row X ld i j * x (k * width ic nf + j))) fun i lp =>
              upd lp (k * ns + i) (lp (k * ns + i) + x ((k + 1) * width ic nf - 1))
          else loop ns v fun i lp => upd lp (k * ns + i)
            (loop nf 0 fun j s => s + entry row X ld i j * x (k * width ic nf + j))) fun i lp =>
          upd lp (k * ns + i) (Real.exp (lp (k * ns + i))))) := ⟨_, rfl⟩
  have ev : ∀ k i, k < nclass → i < ns →
      v (k * ns + i) = rawRef nclass (fun k => linRef A nf ic x k i) k := by
    intro k i hk hi
    rw [hv]
    have key := loop_inv (fun m (w : Nat → ℝ) => m ≤ nclass - 1 → ∀ k i, i < ns →
      (k < m → w (k * ns + i) = Real.exp (linRef A nf ic x k i)) ∧
        (k = nclass - 1 → w (k * ns + i) = 1)) (nclass - 1)
      (fill (fun _ => (0 : ℝ)) (ns * (nclass - 1)) (ns * nclass) 1) (fun k v =>
        (loop ns (if ic then
            loop ns (loop ns v fun i lp => upd lp (k * ns + i)
              (loop nf 0 fun j s => s + entry row X ld i j * x (k * width ic nf + j))) fun i lp =>
              upd lp (k * ns + i) (lp (k * ns + i) + x ((k + 1) * width ic nf - 1))
          else loop ns v fun i lp => upd lp (k * ns + i)
            (loop nf 0 fun j s => s + entry row X ld i j * x (k * width ic nf + j))) fun i lp =>
          upd lp (k * ns + i) (Real.exp (lp (k * ns + i))))) (fun _ k i hi =>
        ⟨fun h => by omega, fun h => by
          subst h
          refine fill_in _ _ (by rw [Nat.mul_comm]; omega) ?_
          rw [Nat.mul_comm ns nclass]
          exact cell_block (by omega) hi⟩) ?_
    · have := key (le_refl _) k i hi
      unfold rawRef
      by_cases h : k < nclass - 1
      · rw [if_pos h]; exact this.1 h
      · rw [if_neg h]; exact this.2 (by omega)
    · intro m w hm ih hm' k i hi
      have := ih (by omega) k i hi
      simp only [blk]
      refine ⟨fun h => ?_, fun h => ?_⟩
      · by_cases e : k = m
        · subst e
          rw [if_pos (by omega), show k * ns + i - k * ns = i by omega]
        · have hb := cell_block (k := m) (k' := k) (by omega) hi
          rw [if_neg (by omega)]
          exact this.1 (by omega)
      · have hb : (m + 1) * ns ≤ k * ns := Nat.mul_le_mul_right ns (by omega)
        rw [Nat.add_mul, Nat.one_mul] at hb
        rw [if_neg (by omega)]
        exact this.2 h
  have e : probaRsc (realOps round) (mkData row X ld y ns nf ic lambda alpha nclass) x =
      loop ns v (fun i lp => loop nclass lp fun k w =>
        upd w (k * ns + i) (w (k * ns + i) / loop nclass 0 fun k a => a + lp (k * ns + i))) := by
    rw [hv]; rfl
  rw [e]
  have key := loop_inv (fun m (w : Nat → ℝ) => m ≤ ns → ∀ k i, k < nclass → i < ns →
    w (k * ns + i) = if i < m then probRef nclass (fun k => linRef A nf ic x k i) k
      else rawRef nclass (fun k => linRef A nf ic x k i) k) ns v
    (fun i lp => loop nclass lp fun k w =>
      upd w (k * ns + i) (w (k * ns + i) / loop nclass 0 fun k a => a + lp (k * ns + i)))
    (fun _ k i hk hi => by rw [if_neg (by omega)]; exact ev k i hk hi) ?_
  · rw [key (le_refl _) k i hk hi, if_pos hi]
  · intro m w hm ih hm' k i hk hi
    have ih := ih (by omega)
    have es : (loop nclass 0 fun k a => a + w (k * ns + m)) =
        1 + ∑ l ∈ range (nclass - 1), Real.exp (linRef A nf ic x l m) := by
      rw [loop_sum, zero_add, ← raw_sum hc]
      exact Finset.sum_congr rfl fun k hk => by
        rw [ih k m (Finset.mem_range.mp hk) hm, if_neg (by omega)]
    simp only [es]
    have inner := loop_inv (fun l (u : Nat → ℝ) => ∀ k' i', k' < nclass → i' < ns →
      u (k' * ns + i') = if i' = m ∧ k' < l then
        w (k' * ns + i') / (1 + ∑ l ∈ range (nclass - 1), Real.exp (linRef A nf ic x l m))
        else w (k' * ns + i')) nclass w (fun k w => upd w (k * ns + m) (w (k * ns + m) /
          (1 + ∑ l ∈ range (nclass - 1), Real.exp (linRef A nf ic x l m))))
      (fun k' i' _ _ => by rw [if_neg (by omega)]) (by
        intro l u hl ihu k' i' hk' hi'
        by_cases e : k' = l ∧ i' = m
        · obtain ⟨rfl, rfl⟩ := e
          rw [upd_same, ihu k' i' hk' hi', if_neg (by omega), if_pos (by omega)]
        · rw [upd_ne _ _ (fun h => e (cell_inj hi' hm h)), ihu k' i' hk' hi']
          by_cases h : i' = m ∧ k' < l
          · rw [if_pos h, if_pos (by omega)]
          · rw [if_neg h, if_neg (by omega)])
    rw [inner k i hk hi]
    by_cases e : i = m
    · subst e
      rw [if_pos ⟨rfl, hk⟩, if_pos (by omega), ih k i hk hi, if_neg (by omega), raw_div]
    · rw [if_neg (by omega), ih k i hk hi]
      by_cases h : i < m
      · rw [if_pos h, if_pos (show i < m + 1 by omega)]
      · rw [if_neg h, if_neg (show ¬ i < m + 1 by omega)]

theorem probRef_pos (η : Nat → ℝ) (k : Nat) : 0 < probRef nclass η k := by
  unfold probRef
  by_cases h : k < nclass - 1
  · rw [if_pos h]; exact div_pos (Real.exp_pos _) (one_add_sum_pos _ _)
  · rw [if_neg h]; exact div_pos one_pos (one_add_sum_pos _ _)

theorem probSoft_le (hc : 0 < nclass) (η : Nat → ℝ) {k l : Nat} :
    probSoft nclass η k ≤ probSoft nclass η l ↔ η k ≤ η l := by
  unfold probSoft
  rw [div_le_div_iff_of_pos_right (sum_exp_pos hc η), Real.exp_le_exp]

theorem predictTwo_at (hA : Stored row X ld ns nf A) (x : Nat → ℝ) (pred : Nat → Nat) {i : Nat}
    (hi : i < ns) :
    predictTwo (mkData row X ld y ns nf ic lambda alpha nclass) x pred i =
      if 0 < lin A nf x (icpt ic (x nf)) i then 1 else 0 := by
  unfold predictTwo
  show loop ns (fill pred 0 ns 0) (fun i p =>
    if 0 < evalFeatureMatrix row (width ic nf) x 0 ns X ld (fun _ => 0) 0 ic i then upd p i 1
    else upd p i 0) i = _
  rw [loop_congr ns _ _ (fun i p => upd p i
    (if 0 < lin A nf x (icpt ic (x nf)) i then 1 else 0)) ?_,
    loop_upd0 ns _ (fun i _ => if 0 < lin A nf x (icpt ic (x nf)) i then 1 else 0) i, if_pos hi]
  intro i p hi
  rw [eval_lin0 hA x _ ic hi]
  by_cases h : 0 < lin A nf x (icpt ic (x nf)) i
  · rw [if_pos h, if_pos h]
  · rw [if_neg h, if_neg h]

theorem prob1_half (η : ℝ) : 1 - prob1 η < prob1 η ↔ 0 < η := by
  unfold prob1
  have h := one_add_exp_pos η
  have e : 1 - Real.exp η / (1 + Real.exp η) = 1 / (1 + Real.exp η) := by field_simp; ring
  rw [e, div_lt_div_iff_of_pos_right h, Real.one_lt_exp_iff]

theorem scoreOf_eq (pred : Nat → Nat) (obs : Nat → ℝ) :
    scoreOf ns pred obs =
      (((range ns).filter fun i => (pred i : ℝ) = obs i).card : ℝ) / (ns : ℝ) := by
  unfold scoreOf
  rw [loop_add_num ns 0 _ (fun i => if (pred i : ℝ) = obs i then 1 else 0) ?_, zero_add,
    Finset.sum_boole]
  intro i s _
  by_cases h : (pred i : ℝ) = obs i
  · rw [if_pos h, if_pos h]
  · rw [if_neg h, if_neg h, add_zero]

end

end Verif.Logistic
