import Mathlib.Algebra.Order.BigOperators.Group.Finset
import Mathlib.Algebra.Order.Ring.Cast
import Mathlib.Tactic.FieldSimp
import Mathlib.Tactic.Linarith
import Mathlib.Tactic.Positivity
import Verif.Moments.DaSum
import Verif.Moments.Stats

/-
The statistics computed from the sums.
-/
namespace Verif.Moments

set_option linter.unusedSectionVars false

open Finset

section Loops

variable {α : Type}

theorem mapN_ok (n : Nat) (f : Nat → α → M α) (g : Nat → α) (s : List α) (h : n ≤ s.length)
    (hf : ∀ i < n, ∀ a, s[i]? = some a → f i a = .ok (g i)) :
    ∃ s', mapN n f s = .ok s' ∧ ∀ k, s'[k]? = if k < n then some (g k) else s[k]? := by
  induction n with
  | zero => exact ⟨s, rfl, by simp⟩
  | succ n ih =>
    obtain ⟨s1, h1, h2⟩ := ih (by omega) (fun i hi => hf i (by omega))
    have hl : s1.length = s.length := same_length (by omega) h2
    have hn : n < s.length := by omega
    have h3 : s1[n]? = some s[n] := by
      rw [h2 n, if_neg (by omega), List.getElem?_eq_getElem hn]
    unfold mapN at h1 ⊢
    refine ⟨s1.set n (g n), ?_, ?_⟩
    · rw [forUp_succ, h1, ok_bind, rd_ok h3, ok_bind,
        hf n (by omega) _ (List.getElem?_eq_getElem hn), ok_bind, wr_ok _ (by omega)]
    · intro k
      rw [List.getElem?_set, h2 k]
      by_cases hk : n = k
      · subst hk
        rw [if_pos rfl, if_pos (by omega), if_pos (by omega)]
      · rw [if_neg hk]
        by_cases hkn : k < n
        · rw [if_pos hkn, if_pos (by omega)]
        · rw [if_neg hkn, if_neg (by omega)]

end Loops

variable {K : Type} [Field K] [LinearOrder K] [IsStrictOrderedRing K]

theorem axisSize_eq (axis : Axis) (m n : Nat) : axisSize axis m n = outLen axis m n := by
  cases axis <;> rfl

theorem divisor_eq (axis : Axis) (m n : Nat) : divisor axis m n = obs axis m n := by
  cases axis <;> rfl

theorem obs_pos (axis : Axis) {m n : Nat} (hm : 0 < m) (hn : 0 < n) : 0 < obs axis m n := by
  cases axis
  · exact Nat.mul_pos hm hn
  · exact hm
  · exact hn

theorem outLen_pos (axis : Axis) {m n : Nat} (hm : 0 < m) (hn : 0 < n) :
    0 < outLen axis m n := by
  cases axis
  · exact Nat.one_pos
  · exact hn
  · exact hm

theorem checkData_ok (order : Order) {m n ldx : Nat} (x d : List K) (hm : 0 < m) (hn : 0 < n)
    (hld : LdOk order m n ldx) :
    checkData order (m : Int) (n : Int) (some x) (ldx : Int) (some d) = .success := by
  unfold checkData
  rw [if_neg (by omega), if_neg (by simp)]
  cases order
  · have : m ≤ ldx := hld
    rw [if_pos rfl, if_neg (by omega)]
  · have : n ≤ ldx := hld
    rw [if_neg (by simp), if_neg (by omega)]

/-- The list holds `g k` in cell `k` for `k < L` and is otherwise `s`. -/
def Gives (s s' : List K) (L : Nat) (g : Nat → K) : Prop :=
  ∀ k, s'[k]? = if k < L then some (g k) else s[k]?

theorem Gives.length {s s' : List K} {L : Nat} {g : Nat → K} (h : Gives s s' L g)
    (hL : L ≤ s.length) : s'.length = s.length := same_length hL h

theorem Gives.trans {s s' s'' : List K} {L : Nat} {g g' : Nat → K} (h : Gives s s' L g)
    (h' : Gives s' s'' L g') : Gives s s'' L g' := by
  intro k
  rw [h' k]
  by_cases hk : k < L
  · rw [if_pos hk, if_pos hk]
  · rw [if_neg hk, if_neg hk, h k, if_neg hk]

/-- Dividing the first cells by a number that is not zero. -/
theorem divAll {s s' : List K} {L : Nat} {g : Nat → K} (h : Gives s s' L g) (hL : L ≤ s.length)
    {c : K} (hc : c ≠ 0) :
    ∃ s'', mapN L (fun _ a => divM a c) s' = .ok s'' ∧ Gives s s'' L (fun k => g k / c) := by
  obtain ⟨s'', h1, h2⟩ := mapN_ok L (fun _ a => divM a c) (fun k => g k / c) s'
    (by rw [h.length hL]; exact hL) (by
      intro i hi a ha
      have h3 := h i
      rw [if_pos hi, ha, Option.some.injEq] at h3
      rw [h3]
      exact if_neg hc)
  exact ⟨s'', h1, h.trans h2⟩

/-- The mean of the entries of line `k`. -/
def avg (axis : Axis) (m n : Nat) (X : Nat → Nat → K) (k : Nat) : K :=
  total axis m n X (fun a => a) k / (obs axis m n : K)

section Calls

variable (thr : Nat) (order : Order) (axis : Axis) {m n ldx : Nat} (x : List K)
  (X : Nat → Nat → K) (hm : 0 < m) (hn : 0 < n) (ht : 0 < thr)
  (hld : LdOk order m n ldx) (hx : Holds order m n ldx x X)

include hm hn ht hld hx

theorem mean_ok (e : Env) (he : e.OkFor thr order m n) (out : List K)
    (hout : outLen axis m n ≤ out.length) :
    ∃ out', mean thr e order axis (m : Int) (n : Int) (some x) (ldx : Int) (some out) =
        .ok (.success, some out') ∧ Gives out out' (outLen axis m n) (avg axis m n X) := by
  unfold mean
  rw [checkData_ok order x out hm hn hld]
  simp only [Int.toNat_natCast]
  obtain ⟨o1, h1, h2⟩ := daSum_ok thr e order axis (arithmeticSum : Kern K K) x X out none
    (fun _ a => a) hm hn ht hld hx he hout (fun _ _ => rfl)
  rw [h1, ok_bind, axisSize_eq, divisor_eq]
  obtain ⟨o2, h3, h4⟩ := divAll (c := (obs axis m n : K)) h2 hout
    (by exact_mod_cast (obs_pos axis hm hn).ne')
  rw [h3, ok_bind]
  exact ⟨o2, rfl, h4⟩

/-- A sum about given centres. -/
theorem about_ok (e : Env) (he : e.OkFor thr order m n) (f : K → K → K) (am out : List K)
    (c : Nat → K) (hc : ∀ k < outLen axis m n, am[k]? = some (c k))
    (hout : outLen axis m n ≤ out.length) :
    ∃ out', daSum thr e order axis m n (.two f) x ldx out (some am) = .ok out' ∧
      Gives out out' (outLen axis m n) (fun k => total axis m n X (fun a => f a (c k)) k) :=
  daSum_ok thr e order axis (.two f) x X out (some am) (fun k a => f a (c k)) hm hn ht hld hx he
    hout (fun k hk => ⟨c k, hc k hk, fun _ => rfl⟩)

theorem variance_ok (env : Nat → Env) (he : ∀ k, (env k).OkFor thr order m n) (dof : Int)
    (am var : List K) (ham : outLen axis m n ≤ am.length) (hvar : outLen axis m n ≤ var.length) :
    ∃ am' var', variance thr env order axis (m : Int) (n : Int) (some x) (ldx : Int) dof
        (some am) (some var) = .ok (.success, some am', some var') ∧
      Gives am am' (outLen axis m n) (avg axis m n X) ∧
      Gives var var' (outLen axis m n) (fun k =>
        total axis m n X (fun a => (a - avg axis m n X k) * (a - avg axis m n X k)) k /
          (if 1 < scaleFactor dof (obs axis m n) then
            ((scaleFactor dof (obs axis m n) : Int) : K) else 1)) := by
  obtain ⟨am', h1, h2⟩ := mean_ok thr order axis x X hm hn ht hld hx (env 0) (he 0) am ham
  obtain ⟨v1, h3, h4⟩ := about_ok thr order axis x X hm hn ht hld hx (env 1) (he 1)
    (fun x mean => (x - mean) * (x - mean)) am' var (avg axis m n X)
    (fun k hk => by rw [h2 k, if_pos hk]) hvar
  unfold variance
  rw [checkData_ok order x am hm hn hld]
  simp only
  rw [h1, ok_bind]
  simp only [Int.toNat_natCast, sumOfSquares]
  rw [h3, ok_bind, axisSize_eq, divisor_eq]
  by_cases hsf : 1 < scaleFactor dof (obs axis m n)
  · obtain ⟨v2, h5, h6⟩ := divAll (c := ((scaleFactor dof (obs axis m n) : Int) : K)) h4 hvar (by
      have : scaleFactor dof (obs axis m n) ≠ 0 := by omega
      exact_mod_cast this)
    rw [if_pos hsf, h5, ok_bind]
    refine ⟨am', v2, rfl, h2, ?_⟩
    rw [if_pos hsf]
    exact h6
  · rw [if_neg hsf]
    refine ⟨am', v1, rfl, h2, ?_⟩
    rw [if_neg hsf]
    simpa using h4

end Calls

theorem powerGo_eq (fuel : Nat) : ∀ (r : K) (e : Nat) (b : K), e < fuel →
    powerGo fuel r e b = r * b ^ e := by
  induction fuel with
  | zero => intro r e b h; omega
  | succ fuel ih =>
    intro r e b h
    unfold powerGo
    by_cases he : e > 0
    · rw [if_pos he]
      simp only
      rw [ih _ _ _ (by omega)]
      have hsplit : e = 2 * (e / 2) + e % 2 := (Nat.div_add_mod e 2).symm
      have hb : (b * b) ^ (e / 2) = b ^ (2 * (e / 2)) := by rw [← pow_two, ← pow_mul]
      rw [hb]
      by_cases ho : e % 2 = 1
      · rw [if_pos ho]
        conv_rhs => rw [hsplit, ho, pow_succ]
        ring
      · rw [if_neg ho]
        have : e % 2 = 0 := by omega
        conv_rhs => rw [hsplit, this, Nat.add_zero]
    · have : e = 0 := by omega
      rw [if_neg he, this, pow_zero, mul_one]

theorem power_eq (a : K) (e : Nat) : power a e = a ^ e := by
  unfold power
  rw [powerGo_eq _ _ _ _ (Nat.lt_succ_self e), one_mul]

section Calls

variable (thr : Nat) (order : Order) (axis : Axis) {m n ldx : Nat} (x : List K)
  (X : Nat → Nat → K) (hm : 0 < m) (hn : 0 < n) (ht : 0 < thr)
  (hld : LdOk order m n ldx) (hx : Holds order m n ldx x X)

include hm hn ht hld hx

theorem shape_ok (env : Nat → Env) (he : ∀ k, (env k).OkFor thr order m n) (pw : Nat)
    (post : Nat → K → K → M K) (g : K → K → K) (am var res : List K)
    (hpost : ∀ k < outLen axis m n,
      post (obs axis m n)
        (total axis m n X (fun a => (a - avg axis m n X k) * (a - avg axis m n X k)) k)
        (total axis m n X (fun a => (a - avg axis m n X k) ^ pw) k) =
      .ok (g (total axis m n X (fun a => (a - avg axis m n X k) * (a - avg axis m n X k)) k)
        (total axis m n X (fun a => (a - avg axis m n X k) ^ pw) k)))
    (ham : outLen axis m n ≤ am.length) (hvar : outLen axis m n ≤ var.length)
    (hres : outLen axis m n ≤ res.length) :
    ∃ am' var' res', shape thr env order axis (m : Int) (n : Int) (some x) (ldx : Int) pw post
        (some am) (some var) (some res) = .ok (.success, some am', some var', some res') ∧
      Gives am am' (outLen axis m n) (avg axis m n X) ∧
      Gives var var' (outLen axis m n) (fun k =>
        total axis m n X (fun a => (a - avg axis m n X k) * (a - avg axis m n X k)) k /
          (obs axis m n : K)) ∧
      Gives res res' (outLen axis m n) (fun k =>
        g (total axis m n X (fun a => (a - avg axis m n X k) * (a - avg axis m n X k)) k)
          (total axis m n X (fun a => (a - avg axis m n X k) ^ pw) k)) := by
  obtain ⟨am', h1, h2⟩ := mean_ok thr order axis x X hm hn ht hld hx (env 0) (he 0) am ham
  obtain ⟨v1, h3, h4⟩ := about_ok thr order axis x X hm hn ht hld hx (env 1) (he 1)
    (fun x mean => (x - mean) * (x - mean)) am' var (avg axis m n X)
    (fun k hk => by rw [h2 k, if_pos hk]) hvar
  obtain ⟨r1, h5, h6⟩ := about_ok thr order axis x X hm hn ht hld hx (env 2) (he 2)
    (fun x mean => power (x - mean) pw) am' res (avg axis m n X)
    (fun k hk => by rw [h2 k, if_pos hk]) hres
  simp only [power_eq] at h6
  unfold shape
  rw [checkData_ok order x am hm hn hld]
  simp only
  rw [h1, ok_bind]
  simp only [Int.toNat_natCast, sumOfSquares, sumOfPowers]
  rw [h3, ok_bind, h5, ok_bind, axisSize_eq, divisor_eq]
  obtain ⟨r2, h7, h8⟩ := mapN_ok (outLen axis m n) (fun i a => do
      let s ← rd v1 i
      post (obs axis m n) s a) (fun k =>
        g (total axis m n X (fun a => (a - avg axis m n X k) * (a - avg axis m n X k)) k)
          (total axis m n X (fun a => (a - avg axis m n X k) ^ pw) k)) r1
    (by rw [Gives.length h6 hres]; exact hres) (by
      intro i hi a ha
      have h9 := h6 i
      rw [if_pos hi, ha, Option.some.injEq] at h9
      have h10 := h4 i
      rw [if_pos hi] at h10
      rw [rd_ok h10, ok_bind, h9]
      exact hpost i hi)
  rw [h7, ok_bind]
  obtain ⟨v2, h11, h12⟩ := divAll (c := (obs axis m n : K)) h4 hvar
    (by exact_mod_cast (obs_pos axis hm hn).ne')
  rw [h11, ok_bind]
  exact ⟨am', v2, r2, rfl, h2, h12, Gives.trans h6 h8⟩

theorem moment_ok (env : Nat → Env) (he : ∀ k, (env k).OkFor thr order m n) (pw : Nat)
    (pre : Bool) (am mom : List K) (c : Nat → K)
    (hc : pre = true → ∀ k < outLen axis m n, am[k]? = some (c k))
    (hc' : pre = false → c = avg axis m n X)
    (ham : outLen axis m n ≤ am.length) (hmom : outLen axis m n ≤ mom.length) :
    ∃ am' mom', moment thr env order axis (m : Int) (n : Int) (some x) (ldx : Int) (pw : Int)
        pre (some am) (some mom) = .ok (.success, some am', some mom') ∧
      (if pre then am' = am else Gives am am' (outLen axis m n) (avg axis m n X)) ∧
      Gives mom mom' (outLen axis m n) (fun k =>
        total axis m n X (fun a => (a - c k) ^ pw) k / (obs axis m n : K)) := by
  obtain ⟨am', h1, h2, h3⟩ : ∃ am', (if pre then .ok (.success, some am)
      else mean thr (env 0) order axis (m : Int) (n : Int) (some x) (ldx : Int) (some am)) =
        (.ok (.success, some am') : M (Status × Option (List K))) ∧
      (∀ k < outLen axis m n, am'[k]? = some (c k)) ∧
      (if pre then am' = am else Gives am am' (outLen axis m n) (avg axis m n X)) := by
    cases pre with
    | true => exact ⟨am, rfl, hc rfl, by simp⟩
    | false =>
      obtain ⟨am', h1, h2⟩ := mean_ok thr order axis x X hm hn ht hld hx (env 0) (he 0) am ham
      refine ⟨am', by simpa using h1, fun k hk => ?_, by simpa using h2⟩
      rw [h2 k, if_pos hk, hc' rfl]
  unfold moment
  rw [checkData_ok order x am hm hn hld]
  simp only
  rw [if_neg (by omega), h1, ok_bind]
  simp only [Int.toNat_natCast]
  obtain ⟨v1, h4, h5⟩ : ∃ v1, daSum thr (env 1) order axis m n
      (if (pw : Int) = 2 then sumOfSquares else sumOfPowers pw : Kern K K) x ldx mom (some am') =
        .ok v1 ∧ Gives mom v1 (outLen axis m n) (fun k =>
          total axis m n X (fun a => (a - c k) ^ pw) k) := by
    by_cases h2 : (pw : Int) = 2
    · have hp : pw = 2 := by omega
      rw [if_pos h2]
      obtain ⟨v1, h4, h5⟩ := about_ok thr order axis x X hm hn ht hld hx (env 1) (he 1)
        (fun x mean => (x - mean) * (x - mean)) am' mom c (fun k hk => by rw [‹∀ k < outLen axis m n, am'[k]? = some (c k)› k hk]) hmom
      refine ⟨v1, h4, ?_⟩
      rw [hp]
      simpa only [pow_two] using h5
    · rw [if_neg h2]
      obtain ⟨v1, h4, h5⟩ := about_ok thr order axis x X hm hn ht hld hx (env 1) (he 1)
        (fun x mean => power (x - mean) pw) am' mom c
        (fun k hk => by rw [‹∀ k < outLen axis m n, am'[k]? = some (c k)› k hk]) hmom
      refine ⟨v1, h4, ?_⟩
      simpa only [power_eq] using h5
  rw [h4, ok_bind, axisSize_eq, divisor_eq]
  obtain ⟨v2, h11, h12⟩ := divAll (c := (obs axis m n : K)) h5 hmom
    (by exact_mod_cast (obs_pos axis hm hn).ne')
  rw [h11, ok_bind]
  exact ⟨am', v2, rfl, h3, h12⟩

end Calls

end Verif.Moments
