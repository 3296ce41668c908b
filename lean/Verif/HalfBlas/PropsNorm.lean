import Verif.HalfBlas.Proof
import Verif.HalfBlas.Norm
import Mathlib.Tactic.FieldSimp
import Mathlib.Analysis.Real.Sqrt
import Mathlib.Tactic.Positivity
import Mathlib.Algebra.Order.BigOperators.Group.Finset

/-! C67: the norms of `lange` for `_Float16`.  C68: `cblas_iamax`. -/
namespace Verif.HalfBlas

variable {K : Type} [Field K] [LinearOrder K] [IsStrictOrderedRing K]

/-! ### The statement -/

/-- `v` is the largest of the numbers `f t`, t < n. -/
def Largest (n : Nat) (f : Nat → K) (v : K) : Prop := (∃ t < n, v = f t) ∧ ∀ t < n, f t ≤ v

/-- `v` is the norm of the matrix with the elements `a i j`, i < m, j < n. -/
def NormOf (kind : Kind) (m n : Nat) (a : Nat → Nat → K) (v : K) : Prop :=
  match kind with
  | .max => (∃ i < m, ∃ j < n, v = |a i j|) ∧ ∀ i < m, ∀ j < n, |a i j| ≤ v
  | .one => Largest n (fun j => ∑ i ∈ Finset.range m, |a i j|) v
  | .inf => Largest m (fun i => ∑ j ∈ Finset.range n, |a i j|) v
  | .fro => 0 ≤ v ∧ v ^ 2 = ∑ j ∈ Finset.range n, ∑ i ∈ Finset.range m, a i j ^ 2

/-- The square root. -/
def IsSqrt (sqrt : K → K) : Prop := ∀ x, 0 ≤ x → 0 ≤ sqrt x ∧ sqrt x ^ 2 = x

/-- The value of `lange` is right: NaN if an element is NaN, otherwise the norm. -/
def LangeRight (kind : Kind) (m n : Nat) (A : Nat → Option K) (lda : Nat) (v : Option K) : Prop :=
  ((∃ i < m, ∃ j < n, A (i + j * lda) = none) → v = none) ∧
  (∀ a : Nat → Nat → K, (∀ i < m, ∀ j < n, A (i + j * lda) = some (a i j)) → ∃ x, v = some x ∧ NormOf kind m n a x)

/-! ### Largest value -/

/-- `v` is the result of `larger` over the values in `Q`. -/
def Top (Q : Option K → Prop) (v : Option K) : Prop :=
  Q v ∧ (Q none → v = none) ∧ ∀ x y, v = some x → Q (some y) → y ≤ x

theorem Top.step {Q : Option K → Prop} {v t : Option K} (h : Top Q v) : Top (fun q => Q q ∨ q = t) (larger v t) := by
  obtain ⟨h1, h2, h3⟩ := h
  unfold larger
  cases t with
  | none =>
    simp only [Option.isNone_none, Bool.or_true, if_true]
    exact ⟨Or.inr rfl, fun _ => rfl, by simp⟩
  | some t =>
    cases v with
    | none =>
      simp only [less, Option.isNone_some, Bool.or_false, Bool.false_eq_true, if_false]
      exact ⟨Or.inl h1, fun _ => rfl, by simp⟩
    | some v =>
      have hn : ¬ Q none := fun hq => by simpa using h2 hq
      simp only [less, Option.isNone_some, Bool.or_false, decide_eq_true_eq]
      by_cases hlt : v < t
      · rw [if_pos hlt]
        refine ⟨Or.inr rfl, fun hq => absurd hq (by simp [hn]), ?_⟩
        intro x y hx hy
        have ex : x = t := by simpa using hx.symm
        subst ex
        rcases hy with hy | hy
        · exact le_trans (h3 v y rfl hy) hlt.le
        · have : y = x := by simpa using hy
          exact this.le
      · rw [if_neg hlt]
        refine ⟨Or.inl h1, fun hq => absurd hq (by simp [hn]), ?_⟩
        intro x y hx hy
        have ex : x = v := by simpa using hx.symm
        subst ex
        rcases hy with hy | hy
        · exact h3 x y rfl hy
        · have : y = t := by simpa using hy
          rw [this]
          exact not_lt.mp hlt

theorem Top.congr {Q Q' : Option K → Prop} {v : Option K} (h : Top Q v) (e : ∀ q, Q q ↔ Q' q) : Top Q' v := by
  have : Q = Q' := funext fun q => propext (e q)
  rwa [← this]

theorem top_loop (g : Nat → Option K) {Q : Option K → Prop} {v : Option K} (h : Top Q v) : ∀ n, Top (fun q => Q q ∨ ∃ t < n, q = g t) (forUp n (fun t v => larger v (g t)) v) := by
  intro n
  induction n with
  | zero => exact h.congr (fun q => by simp)
  | succ n ih =>
    refine (ih.step (t := g n)).congr (fun q => ?_)
    constructor
    · rintro ((hq | ⟨t, ht, hq⟩) | hq)
      · exact Or.inl hq
      · exact Or.inr ⟨t, by omega, hq⟩
      · exact Or.inr ⟨n, by omega, hq⟩
    · rintro (hq | ⟨t, ht, hq⟩)
      · exact Or.inl (Or.inl hq)
      · by_cases htn : t = n
        · subst htn; exact Or.inr hq
        · exact Or.inl (Or.inr ⟨t, by omega, hq⟩)

theorem top_loop2 (m : Nat) (g : Nat → Nat → Option K) {Q : Option K → Prop} {v : Option K} (h : Top Q v) : ∀ n,
    Top (fun q => Q q ∨ ∃ j < n, ∃ i < m, q = g i j) (forUp n (fun j v => forUp m (fun i v => larger v (g i j)) v) v) := by
  intro n
  induction n with
  | zero => exact h.congr (fun q => by simp)
  | succ n ih =>
    refine (top_loop (fun i => g i n) ih m).congr (fun q => ?_)
    constructor
    · rintro ((hq | ⟨t, ht, hq⟩) | ⟨i, hi, hq⟩)
      · exact Or.inl hq
      · exact Or.inr ⟨t, by omega, hq⟩
      · exact Or.inr ⟨n, by omega, i, hi, hq⟩
    · rintro (hq | ⟨t, ht, i, hi, hq⟩)
      · exact Or.inl (Or.inl hq)
      · by_cases htn : t = n
        · subst htn; exact Or.inr ⟨i, hi, hq⟩
        · exact Or.inl (Or.inr ⟨t, by omega, i, hi, hq⟩)

theorem top_zero : Top (fun q : Option K => q = some 0) (some 0) :=
  ⟨rfl, fun h => by simp at h, fun x y hx hy => by
    have e1 : x = 0 := by simpa using hx.symm
    have e2 : y = 0 := by simpa using hy
    rw [e1, e2]⟩

/-- The largest of nonnegative numbers, starting with 0. -/
theorem top_largest {n : Nat} (hn : n ≠ 0) {g : Nat → Option K} {v : Option K} (h : Top (fun q => q = some 0 ∨ ∃ t < n, q = g t) v) :
    ((∃ t < n, g t = none) → v = none) ∧ (∀ f : Nat → K, (∀ t < n, g t = some (f t) ∧ 0 ≤ f t) → ∃ x, v = some x ∧ Largest n f x) := by
  obtain ⟨h1, h2, h3⟩ := h
  refine ⟨fun ⟨t, ht, e⟩ => h2 (Or.inr ⟨t, ht, e.symm⟩), ?_⟩
  intro f hf
  rcases h1 with rfl | ⟨t, ht, e⟩
  · have h0 := h3 0 (f 0) rfl (Or.inr ⟨0, by omega, (hf 0 (by omega)).1.symm⟩)
    refine ⟨0, rfl, ⟨0, by omega, le_antisymm (hf 0 (by omega)).2 h0⟩, fun t ht => h3 0 (f t) rfl (Or.inr ⟨t, ht, (hf t ht).1.symm⟩)⟩
  · have e' := e.trans (hf t ht).1
    exact ⟨f t, e', ⟨t, ht, rfl⟩, fun t' ht' => h3 _ _ e' (Or.inr ⟨t', ht', (hf t' ht').1.symm⟩)⟩

theorem absolute_some (x : K) : absolute (some x) = some |x| := by
  unfold absolute less
  by_cases h : x < 0
  · simp [h, abs_of_neg h]
  · simp [h, abs_of_nonneg (not_lt.mp h)]

theorem absolute_none : absolute (none : Option K) = none := rfl

/-- Sum of numbers; NaN if one is NaN. -/
theorem sum_loop (g : Nat → Option K) : ∀ n, ((∃ t < n, g t = none) → forUp n (fun t s => op2 (· + ·) s (g t)) (some 0) = none) ∧
    (∀ f : Nat → K, (∀ t < n, g t = some (f t)) → forUp n (fun t s => op2 (· + ·) s (g t)) (some 0) = some (∑ t ∈ Finset.range n, f t)) := by
  intro n
  induction n with
  | zero => exact ⟨by rintro ⟨t, ht, -⟩; omega, fun f _ => by simp [forUp]⟩
  | succ n ih =>
    refine ⟨?_, ?_⟩
    · rintro ⟨t, ht, e⟩
      show op2 (· + ·) (forUp n _ _) (g n) = none
      by_cases h : t = n
      · subst h
        rw [e]
        cases forUp t (fun t s => op2 (· + ·) s (g t)) (some 0) <;> rfl
      · rw [ih.1 ⟨t, by omega, e⟩]
        rfl
    · intro f hf
      show op2 (· + ·) (forUp n _ _) (g n) = _
      rw [ih.2 f (fun t ht => hf t (by omega)), hf n (by omega), Finset.sum_range_succ]
      rfl

/-! ### Rows sums in the work array -/

theorem work_zero (m : Nat) (work : Nat → Option K) : ∀ i < m, forUp m (fun i w => put w i (some 0)) work i = some 0 :=
  (row_spec (fun i => i) (fun _ _ => (some 0 : Option K)) work m (fun _ _ _ _ h => h)).1

theorem work_sums (m : Nat) (g : Nat → Nat → Option K) (work : Nat → Option K) (h0 : ∀ i < m, work i = some 0) : ∀ n, ∀ i < m,
    forUp n (fun j w => forUp m (fun i w => put w i (op2 (· + ·) (w i) (g i j))) w) work i = forUp n (fun j s => op2 (· + ·) s (g i j)) (some 0) := by
  intro n
  induction n with
  | zero => exact h0
  | succ n ih =>
    intro i hi
    have := (row_spec (fun i => i) (fun i c => op2 (· + ·) c (g i n)) (forUp n (fun j w => forUp m (fun i w => put w i (op2 (· + ·) (w i) (g i j))) w) work) m
      (fun _ _ _ _ h => h)).1 i hi
    refine this.trans ?_
    rw [ih i hi]
    rfl

/-! ### Frobenius norm -/

/-- The state after elements with the sum of squares `S`; elements that are NaN count as 0. -/
def Fro (S : K) (s : Option K × Option K) : Prop := ∃ c u, s = (some c, some u) ∧ 0 ≤ c ∧ 0 ≤ u ∧ c ^ 2 * u = S

theorem Fro.step {S : K} {s : Option K × Option K} (h : Fro S s) (a : Option K) : Fro (S + (a.getD 0) ^ 2) (froStep a s) := by
  obtain ⟨c, u, rfl, hc, hu, hS⟩ := h
  unfold froStep
  cases a with
  | none =>
    rw [absolute_none]
    refine ⟨c, u, by simp [less], hc, hu, by simpa using hS⟩
  | some a =>
    rw [absolute_some]
    simp only [less, decide_eq_true_eq, op2, Option.getD_some]
    have hsq : a ^ 2 = |a| ^ 2 := (sq_abs a).symm
    rw [hsq]
    have hnn := abs_nonneg a
    generalize |a| = t at hnn
    by_cases h1 : c < t
    · rw [if_pos h1]
      have ht : 0 < t := lt_of_le_of_lt hc h1
      refine ⟨t, _, rfl, ht.le, ?_, ?_⟩
      · have : 0 ≤ u * (c / t) * (c / t) := by positivity
        linarith
      · rw [← hS]
        field_simp
        ring
    · rw [if_neg h1]
      by_cases h2 : 0 < t
      · rw [if_pos h2]
        have hc' : 0 < c := lt_of_lt_of_le h2 (not_lt.mp h1)
        refine ⟨c, _, rfl, hc, by positivity, ?_⟩
        rw [← hS]
        field_simp
      · rw [if_neg h2]
        have : t = 0 := le_antisymm (not_lt.mp h2) hnn
        refine ⟨c, u, rfl, hc, hu, ?_⟩
        rw [this, hS]
        ring

theorem fro_loop {S : K} {s : Option K × Option K} (g : Nat → Option K) (h : Fro S s) : ∀ m,
    Fro (S + ∑ i ∈ Finset.range m, ((g i).getD 0) ^ 2) (forUp m (fun i s => froStep (g i) s) s) := by
  intro m
  induction m with
  | zero => simpa [forUp] using h
  | succ m ih =>
    rw [Finset.sum_range_succ, ← add_assoc]
    exact ih.step (g m)

theorem fro_loop2 (m : Nat) (g : Nat → Nat → Option K) : ∀ n,
    Fro (∑ j ∈ Finset.range n, ∑ i ∈ Finset.range m, ((g i j).getD 0) ^ 2) (forUp n (fun j s => forUp m (fun i s => froStep (g i j) s) s) (some 0, some 1)) := by
  intro n
  induction n with
  | zero => exact ⟨0, 1, rfl, le_refl _, zero_le_one, by simp⟩
  | succ n ih =>
    rw [Finset.sum_range_succ]
    exact fro_loop (fun i => g i n) ih m

/-! ### C67 -/

/-- The property C67: for every kind of norm and every matrix that is not empty. -/
def C67_statement (K : Type) [Field K] [LinearOrder K] : Prop := ∀ (sqrt : K → K) (kind : Kind) (m n : Nat) (A : Nat → Option K) (lda : Nat) (work : Nat → Option K),
  IsSqrt sqrt → m ≠ 0 → n ≠ 0 → LangeRight kind m n A lda (lange sqrt (some kind) m n A lda work)

/-- The Frobenius norm with NaN elements: they are left out. -/
theorem C67_frobenius {sqrt : K → K} (hs : IsSqrt sqrt) {m n : Nat} (hm : m ≠ 0) (hn : n ≠ 0) (A : Nat → Option K) (lda : Nat) (work : Nat → Option K) :
    ∃ v, lange sqrt (some .fro) m n A lda work = some v ∧ 0 ≤ v ∧ v ^ 2 = ∑ j ∈ Finset.range n, ∑ i ∈ Finset.range m, ((A (i + j * lda)).getD 0) ^ 2 := by
  obtain ⟨c, u, e, hc, hu, h⟩ := fro_loop2 m (fun i j => A (i + j * lda)) n
  obtain ⟨s1, s2⟩ := hs u hu
  refine ⟨c * sqrt u, ?_, mul_nonneg hc s1, ?_⟩
  · unfold lange
    rw [if_neg (by omega)]
    dsimp only
    rw [e]
    rfl
  · rw [← h, mul_pow, s2]

/-- Missing from C67: matrices with NaN elements and the Frobenius norm. -/
theorem C67_norms_partial {sqrt : K → K} (hs : IsSqrt sqrt) {kind : Kind} {m n : Nat} (hm : m ≠ 0) (hn : n ≠ 0) {A : Nat → Option K} {lda : Nat} (work : Nat → Option K)
    (h : kind = .fro → ∀ i < m, ∀ j < n, A (i + j * lda) ≠ none) : LangeRight kind m n A lda (lange sqrt (some kind) m n A lda work) := by
  cases kind with
  | fro =>
    obtain ⟨v, h1, h2, h3⟩ := C67_frobenius hs hm hn A lda work
    refine ⟨fun ⟨i, hi, j, hj, e⟩ => absurd e (h rfl i hi j hj), ?_⟩
    intro a ha
    refine ⟨v, h1, h2, h3.trans ?_⟩
    apply Finset.sum_congr rfl
    intro j hj
    apply Finset.sum_congr rfl
    intro i hi
    rw [ha i (Finset.mem_range.mp hi) j (Finset.mem_range.mp hj)]
    rfl
  | max =>
    unfold lange
    rw [if_neg (by omega)]
    obtain ⟨h1, h2, h3⟩ := top_loop2 m (fun i j => absolute (A (i + j * lda))) (top_zero (K := K)) n
    dsimp only
    generalize forUp n _ _ = v at h1 h2 h3
    refine ⟨?_, ?_⟩
    · rintro ⟨i, hi, j, hj, e⟩
      exact h2 (Or.inr ⟨j, hj, i, hi, by rw [e]; rfl⟩)
    · intro a ha
      have hb : ∀ x, v = some x → ∀ i < m, ∀ j < n, |a i j| ≤ x := fun x hx i hi j hj =>
        h3 x _ hx (Or.inr ⟨j, hj, i, hi, by rw [ha i hi j hj, absolute_some]⟩)
      rcases h1 with e | ⟨j, hj, i, hi, e⟩
      · have h0 := hb 0 e 0 (by omega) 0 (by omega)
        exact ⟨0, e, ⟨0, by omega, 0, by omega, le_antisymm (abs_nonneg _) h0⟩, hb 0 e⟩
      · rw [ha i hi j hj, absolute_some] at e
        exact ⟨_, e, ⟨i, hi, j, hj, rfl⟩, hb _ e⟩
  | one =>
    unfold lange
    rw [if_neg (by omega)]
    obtain ⟨h1, h2⟩ := top_largest hn (top_loop (fun j => forUp m (fun i sum => op2 (· + ·) sum (absolute (A (i + j * lda)))) (some 0)) (top_zero (K := K)) n)
    dsimp only
    refine ⟨?_, ?_⟩
    · rintro ⟨i, hi, j, hj, e⟩
      exact h1 ⟨j, hj, (sum_loop (fun i => absolute (A (i + j * lda))) m).1 ⟨i, hi, by rw [e]; rfl⟩⟩
    · intro a ha
      refine h2 (fun j => ∑ i ∈ Finset.range m, |a i j|) (fun j hj => ⟨?_, Finset.sum_nonneg (fun i _ => abs_nonneg _)⟩)
      exact (sum_loop (fun i => absolute (A (i + j * lda))) m).2 (fun i => |a i j|) (fun i hi => by rw [ha i hi j hj, absolute_some])
  | inf =>
    unfold lange
    rw [if_neg (by omega)]
    dsimp only
    have hw := work_sums m (fun i j => absolute (A (i + j * lda))) _ (work_zero m work) n
    generalize forUp n (fun j w => forUp m _ w) _ = w at hw
    obtain ⟨h1, h2⟩ := top_largest hm (top_loop w (top_zero (K := K)) m)
    refine ⟨?_, ?_⟩
    · rintro ⟨i, hi, j, hj, e⟩
      refine h1 ⟨i, hi, ?_⟩
      rw [hw i hi]
      exact (sum_loop (fun j => absolute (A (i + j * lda))) n).1 ⟨j, hj, by rw [e]; rfl⟩
    · intro a ha
      refine h2 (fun i => ∑ j ∈ Finset.range n, |a i j|) (fun i hi => ⟨?_, Finset.sum_nonneg (fun i _ => abs_nonneg _)⟩)
      rw [hw i hi]
      exact (sum_loop (fun j => absolute (A (i + j * lda))) n).2 (fun j => |a i j|) (fun j hj => by rw [ha i hi j hj, absolute_some])

/-- C67 is violated: the Frobenius norm of every matrix with a NaN element is a number. -/
theorem C67_violated {sqrt : K → K} (hs : IsSqrt sqrt) : ¬ C67_statement K := by
  intro h
  obtain ⟨v, h1, -⟩ := C67_frobenius hs (m := 1) (n := 1) (by decide) (by decide) (fun _ => none) 1 (fun _ => none)
  have := (h sqrt .fro 1 1 (fun _ => none) 1 (fun _ => none) hs (by decide) (by decide)).1 ⟨0, by decide, 0, by decide, rfl⟩
  rw [h1] at this
  simp at this

/-- The real numbers have a square root. -/
example : IsSqrt Real.sqrt := fun x hx => ⟨Real.sqrt_nonneg x, Real.sq_sqrt hx⟩

example : ¬ C67_statement ℝ := C67_violated (fun x hx => ⟨Real.sqrt_nonneg x, Real.sq_sqrt hx⟩)

/-- An empty matrix has norm 0. -/
theorem C67_empty {sqrt : K → K} {kind : Option Kind} {m n : Nat} (h : m = 0 ∨ n = 0) (A : Nat → Option K) (lda : Nat) (work : Nat → Option K) :
    lange sqrt kind m n A lda work = some 0 := by
  unfold lange
  rw [if_pos h]

/-- The letters. -/
theorem C67_letters : (∀ c ∈ "Mm".toList, kindOf c = some .max) ∧ (∀ c ∈ "Oo1".toList, kindOf c = some .one) ∧ (∀ c ∈ "Ii".toList, kindOf c = some .inf) ∧
    (∀ c ∈ "FfEe".toList, kindOf c = some .fro) := by decide +kernel

/-- The matrix with the columns (3, -4) and (0, 1), leading dimension 3. -/
def sample : Nat → Option Rat := fun p => [some 3, some (-4), none, some 0, some 1].getD p none

example : lange id (some .max) 2 2 sample 3 (fun _ => none) = some 4 ∧ lange id (some .one) 2 2 sample 3 (fun _ => none) = some 7 ∧
    lange id (some .inf) 2 2 sample 3 (fun _ => none) = some 5 ∧ lange (fun x => if x = 25 / 16 then 5 / 4 else 0) (some .fro) 2 1 sample 3 (fun _ => none) = some 5 ∧
    lange id (some .one) 3 2 sample 3 (fun _ => none) = none := by decide +kernel

/-! ### C68 -/

/-- The property C68: without NaN elements, `cblas_iamax` gives the first position of an element with the largest absolute value. -/
theorem C68_iamax {n : Nat} (hn : n ≠ 0) {x : Nat → Option K} {incx : Nat} {a : Nat → K} (h : ∀ t < n, x (t * incx) = some (a t)) :
    iamax n x incx < n ∧ (∀ t < n, |a t| ≤ |a (iamax n x incx)|) ∧ (∀ t < iamax n x incx, |a t| < |a (iamax n x incx)|) := by
  have key : ∀ k < n, ∃ p, (forUp k (fun t s =>
      let v := absolute (x ((t + 1) * incx))
      if less s.2 v then (t + 1, v) else s) (0, absolute (x 0))) = (p, some |a p|) ∧ p ≤ k ∧ (∀ t ≤ k, |a t| ≤ |a p|) ∧ (∀ t < p, |a t| < |a p|) := by
    intro k
    induction k with
    | zero =>
      intro _
      have := h 0 (by omega)
      rw [Nat.zero_mul] at this
      refine ⟨0, ?_, Nat.le_refl 0, fun t ht => ?_, fun t ht => by omega⟩
      · show ((0 : Nat), absolute (x 0)) = _
        rw [this, absolute_some]
      · have : t = 0 := by omega
        rw [this]
    | succ k ih =>
      intro hk
      obtain ⟨p, e, h1, h2, h3⟩ := ih (by omega)
      rw [show forUp (k + 1) _ _ = (fun t s =>
        let v := absolute (x ((t + 1) * incx))
        if less s.2 v then (t + 1, v) else s) k (forUp k _ _) from rfl, e]
      dsimp only
      rw [h (k + 1) hk, absolute_some]
      simp only [less, decide_eq_true_eq]
      by_cases hlt : |a p| < |a (k + 1)|
      · rw [if_pos hlt]
        refine ⟨k + 1, rfl, Nat.le_refl _, fun t ht => ?_, fun t ht => ?_⟩
        · by_cases htk : t = k + 1
          · rw [htk]
          · exact le_trans (h2 t (by omega)) hlt.le
        · exact lt_of_le_of_lt (h2 t (by omega)) hlt
      · rw [if_neg hlt]
        refine ⟨p, rfl, by omega, fun t ht => ?_, h3⟩
        by_cases htk : t = k + 1
        · rw [htk]; exact not_lt.mp hlt
        · exact h2 t (by omega)
  obtain ⟨p, e, h1, h2, h3⟩ := key (n - 1) (by omega)
  have : iamax n x incx = p := by
    unfold iamax
    rw [if_neg hn, e]
  rw [this]
  exact ⟨by omega, fun t ht => h2 t (by omega), h3⟩

/-- An empty vector gives 0. -/
theorem C68_empty {x : Nat → Option K} {incx : Nat} : iamax 0 x incx = 0 := rfl

/-- With NaN as first element the result is always 0. -/
theorem C68_nan {n : Nat} {x : Nat → Option K} {incx : Nat} (h : x 0 = none) : iamax n x incx = 0 := by
  unfold iamax
  by_cases hn : n = 0
  · rw [if_pos hn]
  · rw [if_neg hn, h]
    generalize n - 1 = k
    have : ∀ k, forUp k (fun t s =>
      let v := absolute (x ((t + 1) * incx))
      if less s.2 v then (t + 1, v) else s) (0, absolute none) = (0, none) := by
      intro k
      induction k with
      | zero => rfl
      | succ k ih =>
        rw [show forUp (k + 1) _ _ = (fun t s =>
          let v := absolute (x ((t + 1) * incx))
          if less s.2 v then (t + 1, v) else s) k (forUp k _ _) from rfl, ih]
        rfl
    rw [this]

example : iamax 5 (fun p => some ([1, 0, -3, 0, 3, 0, 2, 0, -3].getD p (0 : Rat))) 2 = 1 := by decide +kernel

end Verif.HalfBlas
