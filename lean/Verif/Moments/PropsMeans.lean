import Mathlib.Analysis.SpecialFunctions.Log.Basic
import Verif.Moments.MathProof

/-
C109, C110: the geometric and the harmonic mean.
-/
namespace Verif.Moments

set_option linter.unusedSectionVars false

open Finset

variable {K : Type} [Field K] [LinearOrder K] [IsStrictOrderedRing K]

theorem search_ok (n : Nat) (f : Nat → Bool → M Bool) (q : Nat → Prop) (b : Bool) (P : Prop)
    (hb : b = true ↔ P)
    (hf : ∀ i < n, ∀ b, ∃ b', f i b = .ok b' ∧ (b' = true ↔ b = true ∨ q i)) :
    ∃ b', forUp n f b = .ok b' ∧ (b' = true ↔ P ∨ ∃ i < n, q i) := by
  induction n with
  | zero => exact ⟨b, rfl, by simp [hb]⟩
  | succ n ih =>
    obtain ⟨b1, h1, h2⟩ := ih (fun i hi => hf i (by omega))
    obtain ⟨b2, h3, h4⟩ := hf n (by omega) b1
    refine ⟨b2, by rw [forUp_succ, h1, ok_bind, h3], ?_⟩
    rw [h4, h2]
    constructor
    · rintro ((h | ⟨i, hi, h⟩) | h)
      · exact Or.inl h
      · exact Or.inr ⟨i, by omega, h⟩
      · exact Or.inr ⟨n, by omega, h⟩
    · rintro (h | ⟨i, hi, h⟩)
      · exact Or.inl (Or.inl h)
      · by_cases he : i = n
        · subst he; exact Or.inr h
        · exact Or.inl (Or.inr ⟨i, by omega, h⟩)

theorem findNegative_ok (order : Order) {m n ldx : Nat} (x : List K) (X : Nat → Nat → K)
    (hx : Holds order m n ldx x X) :
    ∃ b, findNegative order m n x ldx = .ok b ∧
      (b = true ↔ ∃ i < m, ∃ j < n, X i j < 0) := by
  unfold findNegative
  simp only
  have inner : ∀ (k i : Nat) (Y : Nat → K) (b : Bool),
      (∀ j < k, x[j + ldx * i]? = some (Y j)) →
      ∃ b', forUp k (fun j found =>
        if found then .ok true
        else do
          let a ← rd x (j + ldx * i)
          .ok (decide (a < 0))) b = .ok b' ∧ (b' = true ↔ b = true ∨ ∃ j < k, Y j < 0) := by
    intro k i Y b hY
    apply search_ok k _ (fun j => Y j < 0) b _ Iff.rfl
    intro j hj b
    cases b
    · exact ⟨decide (Y j < 0), by
        simp only [Bool.false_eq_true, if_false]; rw [rd_ok (hY j hj), ok_bind], by simp⟩
    · exact ⟨true, by simp, by simp⟩
  cases order with
  | col =>
    simp only [if_true]
    obtain ⟨b, h1, h2⟩ := search_ok n (fun i found => forUp m (fun j found =>
        if found then .ok true
        else do
          let a ← rd x (j + ldx * i)
          .ok (decide (a < 0))) found) (fun i => ∃ j < m, X j i < 0) false False (by simp)
      (fun i hi b => inner m i (fun j => X j i) b (fun j hj => by
        have := hx j hj i hi
        simp only [at'] at this
        rw [show j + ldx * i = i * ldx + j by ring]
        exact this))
    refine ⟨b, h1, ?_⟩
    rw [h2, false_or]
    constructor
    · rintro ⟨i, hi, j, hj, h⟩; exact ⟨j, hj, i, hi, h⟩
    · rintro ⟨i, hi, j, hj, h⟩; exact ⟨j, hj, i, hi, h⟩
  | row =>
    simp only [reduceCtorEq, if_false]
    obtain ⟨b, h1, h2⟩ := search_ok m (fun i found => forUp n (fun j found =>
        if found then .ok true
        else do
          let a ← rd x (j + ldx * i)
          .ok (decide (a < 0))) found) (fun i => ∃ j < n, X i j < 0) false False (by simp)
      (fun i hi b => inner n i (fun j => X i j) b (fun j hj => by
        have := hx i hi j hj
        simp only [at'] at this
        rw [show j + ldx * i = i * ldx + j by ring]
        exact this))
    refine ⟨b, h1, ?_⟩
    rw [h2, false_or]

/-- Sums of logarithms, some of which may be minus infinity. -/
theorem log_total {ι : Type} (s : Finset ι) (f log : ι → K) [DecidablePred fun c => f c = 0] :
    (∑ c ∈ s, (if f c = 0 then (⊥ : WithBot K) else ((log c : K) : WithBot K))) =
      if ∃ c ∈ s, f c = 0 then ⊥ else ((∑ c ∈ s, log c : K) : WithBot K) := by
  classical
  induction s using Finset.induction_on with
  | empty => simp
  | insert a s ha ih =>
    rw [sum_insert ha, ih, sum_insert ha]
    by_cases h : f a = 0
    · rw [if_pos h, WithBot.bot_add, if_pos]
      exact ⟨a, mem_insert_self a s, h⟩
    · rw [if_neg h]
      by_cases h2 : ∃ c ∈ s, f c = 0
      · obtain ⟨c, hc, h3⟩ := h2
        rw [if_pos ⟨c, hc, h3⟩, if_pos ⟨c, mem_insert_of_mem hc, h3⟩, WithBot.add_bot]
      · rw [if_neg h2, if_neg, WithBot.coe_add]
        rintro ⟨c, hc, h3⟩
        rcases mem_insert.1 hc with h4 | h4
        · exact h (h4 ▸ h3)
        · exact h2 ⟨c, h4, h3⟩

/-- C109.  `da_geometric_mean` refuses exactly the matrices with a negative entry, leaving
the result array alone.  Otherwise result `k` is not negative and its power, with the number
of entries of the line as exponent, is the product of the entries.  `log` and `exp` are any
functions with `exp (a + b) = exp a * exp b` and `exp (log a) = a` for positive `a`. -/
theorem C109_geometric_mean (log exp : K → K) (hadd : ∀ a b, exp (a + b) = exp a * exp b)
    (hlog : ∀ a, 0 < a → exp (log a) = a)
    (thr : Nat) (e : Env) (order : Order) (axis : Axis) {m n ldx : Nat}
    (x : List K) (X : Nat → Nat → K) (out : List K) (hm : 0 < m) (hn : 0 < n) (ht : 0 < thr)
    (hld : LdOk order m n ldx) (hx : Holds order m n ldx x X) (he : e.OkFor thr order m n)
    (hout : outLen axis m n ≤ out.length) :
    ((∃ i < m, ∃ j < n, X i j < 0) →
      geometricMean log exp thr e order axis m n (some x) ldx (some out) =
        .ok (.negativeData, some out)) ∧
    ((∀ i < m, ∀ j < n, 0 ≤ X i j) →
      ∃ out', geometricMean log exp thr e order axis m n (some x) ldx (some out) =
          .ok (.success, some out') ∧ out'.length = out.length ∧
        ∀ k < outLen axis m n, ∃ g, out'[k]? = some g ∧ 0 ≤ g ∧
          g ^ obs axis m n = ∏ c ∈ cells axis m n k, X c.1 c.2) := by
  obtain ⟨b, hb, hbi⟩ := findNegative_ok order x X hx
  have hcall : geometricMean log exp thr e order axis m n (some x) ldx (some out) =
      (if b then .ok (.negativeData, some out)
      else do
        let sums ← daSum thr e order axis m n (logSum log) x ldx
          (List.replicate out.length (⊥ : WithBot K)) none
        let out ← mapN (axisSize axis m n) (fun i _ => do
          let s ← rd sums i
          match s with
          | ⊥ => .ok 0
          | some s => do
            let q ← divM s ((divisor axis m n : Nat) : K)
            .ok (exp q)) out
        .ok (.success, some out)) := by
    unfold geometricMean
    rw [checkData_ok order x out hm hn hld]
    simp only [Int.toNat_natCast]
    rw [hb, ok_bind]
    rfl
  rw [hcall]
  constructor
  · intro h
    rw [if_pos (hbi.2 h)]
  · intro hpos
    rw [if_neg (fun h => by
      obtain ⟨i, hi, j, hj, h⟩ := hbi.1 h
      exact absurd h (not_lt.2 (hpos i hi j hj)))]
    obtain ⟨o1, h1, h2⟩ := daSum_ok thr e order axis (logSum log) x X
      (List.replicate out.length (⊥ : WithBot K)) none
      (fun _ a => if a = 0 then ⊥ else (log a : WithBot K)) hm hn ht hld hx he
      (by simpa using hout) (fun _ _ => rfl)
    rw [h1, ok_bind, axisSize_eq, divisor_eq]
    have hoK : (obs axis m n : K) ≠ 0 := by exact_mod_cast (obs_pos axis hm hn).ne'
    obtain ⟨G, hG⟩ : ∃ G : Nat → K, G = fun k =>
        if ∃ c ∈ cells axis m n k, X c.1 c.2 = 0 then 0
        else exp ((∑ c ∈ cells axis m n k, log (X c.1 c.2)) / (obs axis m n : K)) := by
      classical exact ⟨_, rfl⟩
    obtain ⟨o2, h3, h4⟩ := mapN_ok (outLen axis m n) (fun i _ => do
          let s ← rd o1 i
          match s with
          | ⊥ => .ok 0
          | some s => do
            let q ← divM s (obs axis m n : K)
            .ok (exp q)) G out hout (by
      intro i hi a _
      have h5 := h2 i
      rw [if_pos hi, total_cells, log_total] at h5
      rw [rd_ok h5, ok_bind, hG]
      simp only
      by_cases hz : ∃ c ∈ cells axis m n i, X c.1 c.2 = 0
      · rw [if_pos hz, if_pos hz]
      · rw [if_neg hz, if_neg hz]
        show (divM _ _ >>= fun q => .ok (exp q)) = _
        unfold divM
        rw [if_neg hoK, ok_bind])
    rw [h3, ok_bind]
    refine ⟨o2, rfl, same_length hout h4, ?_⟩
    intro k hk
    refine ⟨G k, by rw [h4 k, if_pos hk], ?_⟩
    have hpos' : ∀ c ∈ cells axis m n k, 0 ≤ X c.1 c.2 := by
      intro c hc
      obtain ⟨h1, h2, _⟩ := (mem_cells hk).1 hc
      exact hpos _ h1 _ h2
    rw [hG]
    simp only
    by_cases hz : ∃ c ∈ cells axis m n k, X c.1 c.2 = 0
    · rw [if_pos hz]
      refine ⟨le_refl _, ?_⟩
      rw [zero_pow (obs_pos axis hm hn).ne']
      obtain ⟨c, hc, h5⟩ := hz
      exact (prod_eq_zero hc h5).symm
    · rw [if_neg hz]
      have hexp0 : exp 0 = 1 := by
        have h6 : exp (log 1) = 1 := hlog 1 one_pos
        have h7 := hadd 0 (log 1)
        rw [zero_add, h6, mul_one] at h7
        exact h7.symm
      have hsum : ∀ s : Finset (Nat × Nat), ∀ f : Nat × Nat → K,
          exp (∑ c ∈ s, f c) = ∏ c ∈ s, exp (f c) := by
        intro s f
        induction s using Finset.induction_on with
        | empty => simpa using hexp0
        | insert a s ha ih => rw [sum_insert ha, prod_insert ha, hadd, ih]
      constructor
      · -- an exponential is a square
        have h8 := hadd ((∑ c ∈ cells axis m n k, log (X c.1 c.2)) / (obs axis m n : K) / 2)
          ((∑ c ∈ cells axis m n k, log (X c.1 c.2)) / (obs axis m n : K) / 2)
        rw [add_halves] at h8
        rw [h8]
        exact mul_self_nonneg _
      · have hpow : ∀ (a : K) (d : Nat), exp a ^ d = exp (d * a) := by
          intro a d
          induction d with
          | zero => simp [hexp0]
          | succ d ih =>
            rw [pow_succ, ih, ← hadd]
            congr 1
            push_cast
            ring
        rw [hpow, mul_div_cancel₀ _ hoK, hsum]
        apply prod_congr rfl
        intro c hc
        apply hlog
        have h9 := hpos' c hc
        exact lt_of_le_of_ne h9 (fun h => hz ⟨c, hc, h.symm⟩)

/-- The real functions satisfy the assumptions. -/
example : (∀ a b : ℝ, Real.exp (a + b) = Real.exp a * Real.exp b) ∧
    ∀ a : ℝ, 0 < a → Real.exp (Real.log a) = a :=
  ⟨Real.exp_add, fun _ h => Real.exp_log h⟩

/-- Base 2 logarithms of the numbers in the matrix: the geometric means of the rows 1, 4 and
8, 2 are 2 and 4; the row 0, 2 gives 0, and a negative entry is refused. -/
example :
    let log : Rat → Rat := fun q => if q = 1 then 0 else if q = 2 then 1 else if q = 4 then 2 else 3
    let exp : Rat → Rat := fun q => if q = 1 then 2 else if q = 2 then 4 else 0
    geometricMean log exp 2 (Env.plain 2 1 3 2) .row .row 3 2 (some [1, 4, 8, 2, 0, 2]) 2
      (some [9, 9, 9]) = .ok (.success, some [2, 4, 0]) ∧
    geometricMean log exp 2 (Env.plain 2 1 3 2) .row .row 3 2 (some [1, 4, 8, 2, 0, -2]) 2
      (some [9, 9, 9]) = .ok (.negativeData, some [9, 9, 9]) := by decide +kernel

/-- The value that the harmonic mean of a line gets. -/
theorem harmonicMean_ok (thr : Nat) (e : Env) (order : Order) (axis : Axis) {m n ldx : Nat}
    (x : List K) (X : Nat → Nat → K) (out : List K) (hm : 0 < m) (hn : 0 < n) (ht : 0 < thr)
    (hld : LdOk order m n ldx) (hx : Holds order m n ldx x X) (he : e.OkFor thr order m n)
    (hout : outLen axis m n ≤ out.length) :
    ∃ out', harmonicMean thr e order axis m n (some x) ldx (some out) =
        .ok (.success, some out') ∧ out'.length = out.length ∧
      ∀ k < outLen axis m n, out'[k]? = some
        (if ∑ c ∈ cells axis m n k, (X c.1 c.2)⁻¹ = 0 then 0
          else (obs axis m n : K) / ∑ c ∈ cells axis m n k, (X c.1 c.2)⁻¹) := by
  unfold harmonicMean
  rw [checkData_ok order x out hm hn hld]
  simp only [Int.toNat_natCast]
  obtain ⟨o1, h1, h2⟩ := daSum_ok thr e order axis (inverseSum : Kern K K) x X out none
    (fun _ a => if a = 0 then 0 else 1 / a) hm hn ht hld hx he hout (fun _ _ => rfl)
  rw [h1, ok_bind, axisSize_eq, divisor_eq]
  obtain ⟨o2, h3, h4⟩ := mapN_ok (outLen axis m n)
    (fun _ a => if a = 0 then .ok 0 else divM (obs axis m n : K) a)
    (fun k => if ∑ c ∈ cells axis m n k, (X c.1 c.2)⁻¹ = 0 then 0
          else (obs axis m n : K) / ∑ c ∈ cells axis m n k, (X c.1 c.2)⁻¹) o1
    (by rw [Gives.length h2 hout]; exact hout) (by
      intro i hi a ha
      have h5 := h2 i
      rw [if_pos hi, ha, Option.some.injEq, total_cells] at h5
      have h6 : a = ∑ c ∈ cells axis m n i, (X c.1 c.2)⁻¹ := by
        rw [h5]
        apply sum_congr rfl
        intro c _
        by_cases h : X c.1 c.2 = 0
        · rw [if_pos h, h, inv_zero]
        · rw [if_neg h, one_div]
      rw [← h6]
      by_cases h : a = 0
      · rw [if_pos h, if_pos h]
      · rw [if_neg h, if_neg h]
        unfold divM
        rw [if_neg h])
  rw [h3, ok_bind]
  exact ⟨o2, rfl, (same_length (by rw [Gives.length h2 hout]; exact hout) h4).trans
    (Gives.length h2 hout), fun k hk => by rw [h4 k, if_pos hk]⟩

/-- C110, in full: for entries that are not negative the harmonic mean of every line lies
between the smallest and the largest entry of the line. -/
def C110_statement : Prop :=
  ∀ (thr : Nat) (e : Env) (order : Order) (axis : Axis) (m n ldx : Nat) (x : List Rat)
    (X : Nat → Nat → Rat) (out : List Rat), 0 < m → 0 < n → 0 < thr →
    LdOk order m n ldx → Holds order m n ldx x X → e.OkFor thr order m n →
    outLen axis m n ≤ out.length → (∀ i < m, ∀ j < n, 0 ≤ X i j) →
    ∃ out', harmonicMean thr e order axis m n (some x) ldx (some out) =
        .ok (.success, some out') ∧
      ∀ k < outLen axis m n, ∃ h, out'[k]? = some h ∧
        ∀ lo hi, (∀ c ∈ cells axis m n k, lo ≤ X c.1 c.2) →
          (∀ c ∈ cells axis m n k, X c.1 c.2 ≤ hi) → lo ≤ h ∧ h ≤ hi

/-- C110 does not hold: the harmonic mean of 0 and 1 is reported as 2, because a zero adds
nothing to the sum of inverses and is still counted. -/
theorem C110_between_violated : ¬ C110_statement := by
  intro h
  obtain ⟨out', h1, h2⟩ := h 2 (Env.plain 2 1 1 2) .row .row 1 2 2 [0, 1]
    (fun _ j => if j = 0 then 0 else 1) [0] (by decide) (by decide) (by decide) (by show 2 ≤ 2; decide)
    (by
      intro i hi j hj
      have : i = 0 := by omega
      subst this
      rcases (by omega : j = 0 ∨ j = 1) with rfl | rfl <;> rfl)
    (Env.plain_ok 2 1 1 2 (by decide)) (by decide)
    (by intro i _ j _; split <;> decide)
  have h3 : harmonicMean 2 (Env.plain 2 1 1 2) .row .row 1 2 (some [(0 : Rat), 1]) 2 (some [0]) =
      .ok (.success, some [2]) := by decide +kernel
  have h4 : out' = [2] := by
    have := h3.symm.trans h1
    simpa using this.symm
  subst h4
  obtain ⟨v, h5, h6⟩ := h2 0 (by decide)
  have h7 : v = 2 := by simpa using h5.symm
  subst h7
  have h8 := (h6 0 1 (by
    intro c _; show (0 : Rat) ≤ if c.2 = 0 then 0 else 1; split <;> decide) (by
    intro c _; show (if c.2 = 0 then 0 else 1 : Rat) ≤ 1; split <;> decide)).2
  exact absurd h8 (by decide)

/-- C110, the part that holds: for positive entries the result is the documented one and
lies between the smallest and the largest entry.  What is missing are lines with zeros. -/
theorem C110_between_partial (thr : Nat) (e : Env) (order : Order) (axis : Axis)
    {m n ldx : Nat} (x : List K) (X : Nat → Nat → K) (out : List K) (hm : 0 < m) (hn : 0 < n)
    (ht : 0 < thr) (hld : LdOk order m n ldx) (hx : Holds order m n ldx x X)
    (he : e.OkFor thr order m n) (hout : outLen axis m n ≤ out.length)
    (hpos : ∀ i < m, ∀ j < n, 0 < X i j) :
    ∃ out', harmonicMean thr e order axis m n (some x) ldx (some out) =
        .ok (.success, some out') ∧ out'.length = out.length ∧
      ∀ k < outLen axis m n, ∃ h, out'[k]? = some h ∧
        h * ∑ c ∈ cells axis m n k, (X c.1 c.2)⁻¹ = (obs axis m n : K) ∧
        ∀ lo hi, (∀ c ∈ cells axis m n k, lo ≤ X c.1 c.2) →
          (∀ c ∈ cells axis m n k, X c.1 c.2 ≤ hi) → lo ≤ h ∧ h ≤ hi := by
  obtain ⟨out', h1, h2, h3⟩ := harmonicMean_ok thr e order axis x X out hm hn ht hld hx he hout
  refine ⟨out', h1, h2, ?_⟩
  intro k hk
  have hpos' : ∀ c ∈ cells axis m n k, 0 < X c.1 c.2 := by
    intro c hc
    obtain ⟨h1, h2, _⟩ := (mem_cells hk).1 hc
    exact hpos _ h1 _ h2
  have hne : (cells axis m n k).Nonempty := by
    rw [← card_pos, card_cells]; exact obs_pos axis hm hn
  have hS : 0 < ∑ c ∈ cells axis m n k, (X c.1 c.2)⁻¹ :=
    sum_pos (fun c hc => inv_pos.2 (hpos' c hc)) hne
  refine ⟨_, by rw [h3 k hk], ?_, ?_⟩
  · rw [if_neg hS.ne', div_mul_cancel₀ _ hS.ne']
  · intro lo hi hlo hhi
    rw [if_neg hS.ne']
    have := (harmonic_between (cells axis m n k) (fun c => X c.1 c.2) hne hpos' lo hi hlo hhi).2
    rw [card_cells] at this
    simpa only [one_div] using this

/-- C110: what a zero does.  A line with `z` zeros among `c` entries, the rest positive, gets
the harmonic mean of the rest, times `c / (c - z)`; a line of zeros gets 0. -/
theorem C110_zeros (thr : Nat) (e : Env) (order : Order) (axis : Axis)
    {m n ldx : Nat} (x : List K) (X : Nat → Nat → K) (out : List K) (hm : 0 < m) (hn : 0 < n)
    (ht : 0 < thr) (hld : LdOk order m n ldx) (hx : Holds order m n ldx x X)
    (he : e.OkFor thr order m n) (hout : outLen axis m n ≤ out.length)
    (hpos : ∀ i < m, ∀ j < n, 0 ≤ X i j) :
    ∃ out', harmonicMean thr e order axis m n (some x) ldx (some out) =
        .ok (.success, some out') ∧
      ∀ k < outLen axis m n, ∃ h, out'[k]? = some h ∧
        ((∀ c ∈ cells axis m n k, X c.1 c.2 = 0) → h = 0) ∧
        ((∃ c ∈ cells axis m n k, X c.1 c.2 ≠ 0) →
          h * ∑ c ∈ (cells axis m n k).filter (fun c => X c.1 c.2 ≠ 0), (X c.1 c.2)⁻¹ =
            (obs axis m n : K)) := by
  obtain ⟨out', h1, h2, h3⟩ := harmonicMean_ok thr e order axis x X out hm hn ht hld hx he hout
  refine ⟨out', h1, ?_⟩
  intro k hk
  have hpos' : ∀ c ∈ cells axis m n k, 0 ≤ X c.1 c.2 := by
    intro c hc
    obtain ⟨h1, h2, _⟩ := (mem_cells hk).1 hc
    exact hpos _ h1 _ h2
  refine ⟨_, by rw [h3 k hk], ?_, ?_⟩
  · intro hz
    rw [if_pos]
    apply sum_eq_zero
    intro c hc
    rw [hz c hc, inv_zero]
  · rintro ⟨c, hc, hne⟩
    have hS : 0 < ∑ c ∈ cells axis m n k, (X c.1 c.2)⁻¹ := by
      apply sum_pos' (fun c hc => inv_nonneg.2 (hpos' c hc))
      exact ⟨c, hc, inv_pos.2 (lt_of_le_of_ne (hpos' c hc) (Ne.symm hne))⟩
    have hf : ∑ c ∈ (cells axis m n k).filter (fun c => X c.1 c.2 ≠ 0), (X c.1 c.2)⁻¹ =
        ∑ c ∈ cells axis m n k, (X c.1 c.2)⁻¹ := by
      rw [sum_filter]
      apply sum_congr rfl
      intro c _
      by_cases h : X c.1 c.2 = 0
      · rw [if_neg (by simpa using h), h, inv_zero]
      · rw [if_pos h]
    rw [hf, if_neg hS.ne', div_mul_cancel₀ _ hS.ne']

/-- Harmonic means of the columns of a matrix. -/
example : harmonicMean 2 (Env.plain 2 1 3 2) .col .col 2 3 (some [(1 : Rat), 3, 0, 1, 0, 0]) 2
    (some [7, 7, 7]) = .ok (.success, some [3 / 2, 2, 0]) := by decide +kernel

end Verif.Moments
