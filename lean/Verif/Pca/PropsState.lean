import Verif.Pca.Props

set_option linter.unusedSectionVars false

/-
C170-C172: what a handle holds after several calls.
-/
namespace Verif.Pca

open Finset

/-- The states of a handle; n_components lies between 1 and the smaller dimension, to which init and the options restrict it. -/
inductive Reached : Flags → Prop
  | start : Reached fresh
  | data {f : Flags} (ok row : Bool) (n p : Nat) : Reached f → (ok = true → 0 < n ∧ 0 < p) → Reached (setData ok row n p f)
  | run {f : Flags} (o : Opts) : Reached f → (f.initdone = true → 0 < o.npc ∧ o.npc ≤ min f.n f.p) → (compute o f).2 ≠ .outside →
      Reached (compute o f).1

/-! ### C170: the degrees of freedom -/

/-- **C170, the full statement.** After a successful compute the variances have been divided by what the total variance and the whitening are
divided by (for more than one sample). -/
def C170_statement : Prop :=
  ∀ (f f' : Flags) (o : Opts), Reached f → 1 < f.n → compute o f = (f', .success) →
    varianceDivisor f'.dof f'.n = divisor o.biased f'.n

theorem compute_success {o : Opts} {f f' : Flags} (h : compute o f = (f', .success)) :
    f'.dof = (if o.biased then -1 else f.dof) ∧ f'.n = f.n ∧ f'.p = f.p ∧ f'.trained = true ∧ f'.ns = o.npc ∧ f'.storeU = o.storeU ∧
      f'.uSize = uSizeOf o f ∧ ¬ (o.solver = .syevd ∧ o.storeU = true) ∧ f.initdone = true := by
  unfold compute at h
  split_ifs at h with h1 h2 h3 h4 h5
  all_goals try (have := (Prod.mk.inj h).2; exact absurd this (by decide))
  have := (Prod.mk.inj h).1
  subst this
  exact ⟨rfl, rfl, rfl, rfl, rfl, rfl, rfl, h2, by simpa using h1⟩

theorem reached_dof {f : Flags} (h : Reached f) : f.dof = 0 ∨ f.dof = -1 := by
  induction h with
  | start => left; rfl
  | @data f ok row n p _ _ ih =>
    unfold setData
    cases ok <;> cases f.hasTemp <;> exact ih
  | @run f o _ _ _ ih =>
    have : (if o.biased then (-1 : Int) else f.dof) = 0 ∨ (if o.biased then (-1 : Int) else f.dof) = -1 := by
      split
      · right; rfl
      · exact ih
    unfold compute
    split_ifs
    · exact ih
    · exact ih
    all_goals exact this

/-- **C170, how far it holds.** The divisors agree exactly when the option is 'biased' or no compute before, on any data, has had it biased. -/
theorem C170_extent {f f' : Flags} {o : Opts} (hr : Reached f) (hn : 1 < f.n) (h : compute o f = (f', .success)) :
    varianceDivisor f'.dof f'.n = divisor o.biased f'.n ↔ (o.biased = true ∨ f.dof = 0) := by
  obtain ⟨hd, hn', -⟩ := compute_success h
  rw [hd, hn']
  unfold varianceDivisor divisor
  cases o.biased with
  | true => simp
  | false =>
    have hne : f.n ≠ 1 := by omega
    rcases reached_dof hr with e | e <;> simp [e, hne] <;> omega

/-- **C170, partial.** It holds with the biased option, and for handles whose computes have all been unbiased. -/
theorem C170_divisor_partial {f f' : Flags} {o : Opts} (hr : Reached f) (hn : 1 < f.n) (h : compute o f = (f', .success))
    (hd : o.biased = true ∨ f.dof = 0) : varianceDivisor f'.dof f'.n = divisor o.biased f'.n :=
  (C170_extent hr hn h).2 hd

/-- Why it matters: with the correlation method the total variance is the number of features, if none is constant and the divisors
agree; in general it is that number times their quotient. -/
theorem C170_correlation {K : Type*} [Field K] [LinearOrder K] [IsStrictOrderedRing K] {n p : Nat} (hn : 0 < n) (lda : Nat)
    (A means sds C V : Nat → K) (div vdiv : K) (hm : ∀ j < p, means j = (∑ i ∈ range n, A (i + lda * j)) / n) (hv : vdiv ≠ 0)
    (hs : ∀ j < p, sds j ≠ 0 ∧ sds j ^ 2 = (∑ i ∈ range n, (A (i + lda * j) - means j) ^ 2) / vdiv) (syevd : Bool) :
    totalVariance syevd n p div (standardizedCopy .corr n p lda A means (nonzero sds) C)
        (gramOf .corr n p lda A means (nonzero sds) V) = p * (vdiv / div) := by
  rw [C166_total .corr hn lda A means sds C V div hm syevd]
  have : ∀ j ∈ range p, ∑ i ∈ range n, std .corr means sds (A (i + lda * j)) j ^ 2 = vdiv := by
    intro j hj
    obtain ⟨h0, h1⟩ := hs j (mem_range.1 hj)
    have h2 : sds j ^ 2 ≠ 0 := pow_ne_zero 2 h0
    simp only [std, if_neg h0, div_pow]
    rw [← sum_div]
    have : ∑ i ∈ range n, (A (i + lda * j) - means j) ^ 2 = sds j ^ 2 * vdiv := by rw [h1]; field_simp
    rw [this]
    field_simp
  rw [sum_congr rfl this, sum_const, card_range, nsmul_eq_mul, mul_div_assoc]

/-- The samples (1, 5), (3, 1) with the deviations of divisor 2 give the total variance 2 with divisor 2, but 4 with divisor 1. -/
example : totalVariance true 2 2 2 (fun _ => 0) (gramOf .corr 2 2 3 exA exMeans (nonzero fun j => [1, 2].getD j 0) fun _ => 9) = 2 ∧
    totalVariance true 2 2 1 (fun _ => 0) (gramOf .corr 2 2 3 exA exMeans (nonzero fun j => [1, 2].getD j 0) fun _ => 9) = 4 := by
  decide +kernel

/-- Options: unbiased, gesdd, U kept. -/
def exO : Opts := ⟨false, true, .gesdd, 2, true⟩

/-- Four samples of two features. -/
def exS : Flags := setData true false 4 2 fresh

theorem exS_reached : Reached exS := .data true false 4 2 .start (by decide)

/-- **C170 is violated:** after a biased compute an unbiased one divides the variances by 4 and the rest by 3. -/
theorem C170_violated : ¬ C170_statement := by
  intro h
  have r : Reached (compute { exO with biased := true } exS).1 := .run _ exS_reached (by decide) (by decide)
  have := h _ (compute exO (compute { exO with biased := true } exS).1).1 exO r (by decide) (by decide)
  revert this
  decide

example : (compute exO exS).2 = .success ∧ (compute exO exS).1.dof = 0 ∧ varianceDivisor 0 4 = 3 ∧ divisor false 4 = 3 := by decide

/-! ### C171: memory -/

/-- **C171, the full statement.** compute reads no null pointer and writes into no empty vector. -/
def C171_statement : Prop :=
  ∀ (f : Flags) (o : Opts), Reached f → (f.initdone = true → 0 < o.npc ∧ o.npc ≤ min f.n f.p) → (compute o f).2 ≠ .outside

/-- **C171, how far it holds.** compute goes wrong exactly when the options are compatible and either the data are gone, or the solver has succeeded,
U is wanted, this call has not done a QR decomposition, and an earlier one on the same data has. -/
theorem C171_extent (f : Flags) (o : Opts) :
    (compute o f).2 = .outside ↔ f.initdone = true ∧ ¬ (o.solver = .syevd ∧ o.storeU = true) ∧
      (f.hasData = false ∨ (o.svdOk = true ∧ f.qr = true ∧ o.storeU = true ∧
        (o.solver = .random ∨ 5 * f.n ≤ 6 * f.p))) := by
  have hn : o.solver ≠ .syevd → (needsQr o f = false ↔ (o.solver = .random ∨ 5 * f.n ≤ 6 * f.p)) := by
    intro h2'
    simp only [needsQr, Bool.and_eq_false_iff, decide_eq_false_iff_not, not_not, not_lt]
    constructor
    · rintro ((h | h) | h)
      · exact absurd h h2'
      · exact .inl h
      · exact .inr h
    · rintro (h | h)
      · exact .inl (.inr h)
      · exact .inr h
  have hq : (withQr o f).qr = (needsQr o f || f.qr) := rfl
  unfold compute
  split_ifs with h1 h2 h3 h4 h5
  · simp [h1]
  · simp [h2]
  · simp [h1, h2, h3]
  · simp [h3, h4]
  · obtain ⟨a, b, c⟩ := h5
    have h2' : o.solver ≠ .syevd := fun h => h2 ⟨h, b⟩
    rw [hq, c, Bool.false_or] at a
    simp [h1, h2', h4, a, b, (hn h2').1 c]
  · refine ⟨fun h => absurd h (by decide), ?_⟩
    rintro ⟨-, h2', h | ⟨-, a, b, c⟩⟩
    · exact absurd h h3
    · exact absurd ⟨by rw [hq, a, Bool.or_true], b, (hn fun h => h2' ⟨h, b⟩).2 c⟩ h5

/-- Where the data are gone: after a call of set_data that was refused on a handle with row-major data. -/
theorem C171_data {f : Flags} (hd : f.hasData = true) (ok row : Bool) (n p : Nat) :
    (setData ok row n p f).hasData = false ↔ ok = false ∧ f.hasTemp = true := by
  unfold setData
  cases ok <;> cases ht : f.hasTemp <;> simp [hd]

/-- **C171, partial.** The first compute after set_data has succeeded does not go wrong. Missing: later computes with another solver, and handles
on which set_data has been refused. -/
theorem C171_first_partial (f : Flags) (row : Bool) (n p : Nat) (o : Opts) :
    (compute o (setData true row n p f)).2 ≠ .outside := by
  intro h
  obtain ⟨-, -, h⟩ := (C171_extent _ _).1 h
  rcases h with h | ⟨-, h, -⟩ <;> (unfold setData at h; simp at h)

/-- **C171, partial.** Nor do the computes after it, while the solver stays one of gesdd, gesvd and gesvdx. -/
theorem C171_same_partial {f : Flags} (o o' : Opts) (hd : f.hasData = true) (hs' : o'.solver ≠ .random)
    (hq : f.qr = true → 6 * f.p < 5 * f.n) : (compute o' (compute o f).1).2 ≠ .outside := by
  intro ho
  obtain ⟨a, b, c⟩ := (C171_extent _ _).1 ho
  have key : (compute o f).1.n = f.n ∧ (compute o f).1.p = f.p ∧ (compute o f).1.initdone = f.initdone ∧
      (compute o f).1.hasData = f.hasData ∧ ((compute o f).1.qr = true → f.qr = true ∨ 6 * f.p < 5 * f.n) := by
    have hq : (needsQr o f || f.qr) = true → f.qr = true ∨ 6 * f.p < 5 * f.n := by
      intro h
      simp only [needsQr, Bool.or_eq_true, Bool.and_eq_true, decide_eq_true_eq] at h
      rcases h with h | h
      · exact .inr h.2
      · exact .inl h
    unfold compute
    split_ifs
    · exact ⟨rfl, rfl, rfl, rfl, .inl⟩
    · exact ⟨rfl, rfl, rfl, rfl, .inl⟩
    · exact ⟨rfl, rfl, rfl, rfl, .inl⟩
    all_goals exact ⟨rfl, rfl, rfl, rfl, hq⟩
  obtain ⟨k1, k2, k3, k4, k5⟩ := key
  rcases c with c | ⟨-, c1, -, c3⟩
  · rw [k4, hd] at c
    exact absurd c (by decide)
  · rcases c3 with c3 | c3
    · exact hs' c3
    · rw [k1, k2] at c3
      rcases k5 c1 with e | e
      · have := hq e; omega
      · omega

/-- **C171 is violated:** after gesdd with many samples, the randomized solver with U; and after a refused set_data. -/
theorem C171_violated : ¬ C171_statement := by
  intro h
  have r : Reached (compute exO exS).1 := .run _ exS_reached (by decide) (by decide)
  exact h _ { exO with solver := .random } r (by decide) (by decide)

theorem C171_violated_data : ∃ f o, Reached f ∧ (f.initdone = true → 0 < o.npc ∧ o.npc ≤ min f.n f.p) ∧ f.hasData = false ∧
    (compute o f).2 = .outside :=
  ⟨setData false true 0 0 (setData true true 4 2 fresh), exO,
    .data false true 0 0 (.data true true 4 2 .start (by decide)) (by decide), by decide, by decide, by decide⟩

example : (compute { exO with solver := .random } exS).2 = .success ∧
    (compute { exO with solver := .random, storeU := false } (compute exO exS).1).2 = .success := by decide

/-! ### C172: the scores -/

/-- **C172, the full statement.** The query for the scores reads only entries that U has. -/
def C172_statement : Prop := ∀ f, Reached f → queryScores f ≠ .outside

/-- **C172, partial.** It holds after a compute that has succeeded. -/
theorem C172_success_partial {f f' : Flags} {o : Opts} (hr : f.initdone = true → 0 < o.npc ∧ o.npc ≤ min f.n f.p)
    (h : compute o f = (f', .success)) : queryScores f' = if o.storeU then .success else .failed := by
  obtain ⟨-, hn, -, ht, hns, hu, hz, hsy, hi⟩ := compute_success h
  obtain ⟨-, hmin⟩ := hr hi
  unfold queryScores
  rw [ht, hu, hn, hns, hz]
  by_cases hU : o.storeU = true
  · have hle : f.n * o.npc ≤ f.n * min f.n f.p := Nat.mul_le_mul_left _ hmin
    cases hs : o.solver with
    | syevd => exact absurd ⟨hs, hU⟩ hsy
    | _ => simp [hU, uSizeOf, hs, hle]
  · simp [hU]

/-- **C172, how far it holds.** On a handle that has a model, a compute refused because of syevd and 'store u' makes the query read past the end of U
whenever U has fewer entries than the options ask for. -/
theorem C172_extent {f : Flags} (hi : f.initdone = true) (ht : f.trained = true) {o : Opts} (hs : o.solver = .syevd) (hU : o.storeU = true) :
    queryScores (compute o f).1 = .outside ↔ f.uSize < f.n * o.npc := by
  have : compute o f = ({ f with ns := o.npc, storeU := true }, .failed) := by
    unfold compute
    rw [if_neg (by simp [hi]), if_pos ⟨hs, hU⟩, withOptions, hU]
  rw [this]
  unfold queryScores
  simp only [ht]
  by_cases h : f.n * o.npc ≤ f.uSize
  · simp [h]
  · simp [h, not_le.1 h]

/-- Accepted data make the model before unavailable, refused data leave it. -/
theorem C172_data (ok row : Bool) (n p : Nat) (f : Flags) :
    (setData ok row n p f).trained = (!ok && f.trained) ∧ (ok = true → queryScores (setData ok row n p f) = .failed) := by
  unfold setData
  cases ok <;> cases f.hasTemp <;> simp [queryScores]

/-- **C172 is violated:** a model without U, then a compute that is refused. -/
theorem C172_violated : ¬ C172_statement := by
  intro h
  have r : Reached (compute { exO with solver := .syevd, storeU := false } exS).1 := .run _ exS_reached (by decide) (by decide)
  have r' : Reached (compute { exO with solver := .syevd } (compute { exO with solver := .syevd, storeU := false } exS).1).1 :=
    .run _ r (by decide) (by decide)
  exact h _ r' (by decide)

example : queryScores (compute exO exS).1 = .success ∧ queryScores exS = .failed := by decide

end Verif.Pca
