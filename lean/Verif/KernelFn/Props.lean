import Verif.KernelFn.Bridge

set_option linter.unusedSectionVars false

/-
C147–C149: the kernel functions `da_linear_kernel`, `da_polynomial_kernel`, `da_sigmoid_kernel` and
`da_rbf_kernel`.
-/
namespace Verif.KernelFn

open Finset (range)
open Verif.PairDist (cell cell_pos Status total sqOf)
open Verif.PairDist.Spec (Call Filled pos)

/-- The functions of `std` in exact arithmetic. -/
noncomputable def real : Ops ℝ := ⟨Real.exp, Real.tanh⟩

/-- A kernel function on a call. -/
noncomputable def run (r : Run) (c : Call ℝ) (D : Nat → ℝ) (kind : Kind ℝ) :
    Except Status (Option (Nat → ℝ)) :=
  kernelCall real r c.row c.m c.n c.k (some c.X) c.ldx c.Y c.ldy (some D) c.ldd kind

/-- Every block of 256 by 256 entries is done once, in any order; registers are not empty. -/
structure Run.Ok (r : Run) (m n : Nat) : Prop where
  sched : r.sched.Perm (List.range ((m + 255) / 256 * ((n + 255) / 256)))
  simd : ∀ w, r.simd = some w → 0 < w

/-! ### Lemmas -/

theorem tanh_exp (x : ℝ) : 2 / (1 + real.exp (x * -2)) - 1 = real.tanh x := by
  show 2 / (1 + Real.exp (x * -2)) - 1 = Real.tanh x
  rw [Real.tanh_eq_sinh_div_cosh, Real.sinh_eq, Real.cosh_eq]
  have h1 : Real.exp (x * -2) = Real.exp (-x) * Real.exp (-x) := by
    rw [← Real.exp_add]; congr 1; ring
  have h2 : Real.exp x * Real.exp (-x) = 1 := by rw [← Real.exp_add]; simp
  rw [h1]
  have p1 := Real.exp_pos x
  have p2 := Real.exp_pos (-x)
  have p3 : 0 < 1 + Real.exp (-x) * Real.exp (-x) := by positivity
  have p4 : 0 < Real.exp x + Real.exp (-x) := by positivity
  field_simp
  linear_combination (-2 * Real.exp (-x)) * h2

theorem ipow_eq (d : Nat) (hd : 1 ≤ d) (b : ℝ) : ipow d b = b ^ d := by
  obtain ⟨e, rfl⟩ : ∃ e, d = e + 1 := ⟨d - 1, by omega⟩
  unfold ipow
  rw [Nat.add_sub_cancel]
  clear hd
  induction e with
  | zero => simp [Verif.Logistic.loop]
  | succ e ih =>
    show Verif.Logistic.loop e b (fun _ r => r * b) * b = _
    rw [ih]
    exact (pow_succ _ _).symm

theorem blocks_eq {m : Nat} (h : 0 < m) : blockCount m (min m maxBlock) = (m + 255) / 256 := by
  rw [blockCount_eq (by unfold maxBlock; omega)]
  by_cases hm : m ≤ 256
  · rw [show min m maxBlock = m by unfold maxBlock; omega]
    have a : (m + m - 1) / m = 1 := Nat.div_eq_of_lt_le (by omega) (by omega)
    rw [a]
    omega
  · rw [show min m maxBlock = 256 by unfold maxBlock; omega]
    rfl

theorem blocked_iff {t m : Nat} (h : 0 < m) : blocked t m m = true ↔ 256 < m ∧ 1 < t := by
  unfold blocked
  simp only [decide_eq_true_eq]
  rw [blocks_eq h]
  unfold maxBlock pad
  constructor
  · rintro ⟨h1, h2, h3⟩
    refine ⟨?_, by omega⟩
    by_contra hm
    have : (m + 255) / 256 = 1 := by omega
    rw [this] at h1
    omega
  · rintro ⟨h1, h2⟩
    have : 2 ≤ (m + 255) / 256 := by omega
    have := Nat.mul_le_mul this this
    refine ⟨by omega, by omega, by omega⟩

section
variable {K : Type*} [Field K] [LinearOrder K]

/-- The arguments that are documented as valid: no dimension below 1, leading dimensions that fit
the storage order, no null pointer but for the second matrix. -/
def argsOk (row : Bool) (m n k : Int) (X : Option (Nat → K)) (ldx : Int) (Y : Option (Nat → K))
    (ldy : Int) (D : Option (Nat → K)) (ldd : Int) : Prop :=
  1 ≤ m ∧ 1 ≤ k ∧ X.isSome ∧ D.isSome ∧ (if row then k ≤ ldx else m ≤ ldx) ∧
  (Y.isSome → 1 ≤ n ∧ (if row then k ≤ ldy ∧ n ≤ ldd else n ≤ ldy ∧ m ≤ ldd)) ∧
  (Y.isNone → m ≤ ldd)

/-- The parameters that are documented as valid: `gamma` not negative, `degree` at least 1. -/
def paramsOk : Kind K → Prop
  | .rbf gamma => 0 ≤ gamma
  | .linear => True
  | .polynomial gamma degree _ => 0 ≤ gamma ∧ 1 ≤ degree
  | .sigmoid gamma _ => 0 ≤ gamma

theorem checkInput_iff (row : Bool) (m n k : Int) (X : Option (Nat → K)) (ldx : Int)
    (Y : Option (Nat → K)) (ldy : Int) (D : Option (Nat → K)) (ldd : Int) :
    checkInput row m n k X ldx Y ldy D ldd = none ↔ argsOk row m n k X ldx Y ldy D ldd := by
  unfold checkInput argsOk
  cases row <;> cases X <;> cases Y <;> cases D <;>
    simp <;> (repeat' split) <;> simp <;> omega

theorem checkParams_iff (kind : Kind K) : checkParams kind = none ↔ paramsOk kind := by
  unfold checkParams paramsOk
  cases kind <;> simp

end

/-- What a call computes once it is accepted. -/
noncomputable def outcome (r : Run) (c : Call ℝ) (D : Nat → ℝ) : Kind ℝ → Option (Nat → ℝ)
  | .rbf gamma => some (rbfInternal real r c.row c.m c.cols c.k c.X (fun _ => 0) c.ldx c.Y
      (fun _ => 0) c.ldy D c.ldd gamma)
  | .linear => kernelSetup real r c.row c.m c.cols c.k c.X c.ldx c.Y c.ldy D c.ldd 1 .none
  | .polynomial gamma degree coef0 => kernelSetup real r c.row c.m c.cols c.k c.X c.ldx c.Y c.ldy
      D c.ldd gamma (.power coef0 degree.toNat)
  | .sigmoid gamma coef0 => kernelSetup real r c.row c.m c.cols c.k c.X c.ldx c.Y c.ldy D c.ldd
      gamma (.tanh coef0)

theorem run_ok {r : Run} {c : Call ℝ} {D : Nat → ℝ} {kind : Kind ℝ} {res : Option (Nat → ℝ)}
    (h : run r c D kind = .ok res) :
    (if c.row then c.cols ≤ c.ldd else c.m ≤ c.ldd) ∧ 0 < c.m ∧ 0 < c.cols ∧ paramsOk kind ∧
    res = outcome r c D kind := by
  unfold run kernelCall at h
  cases h1 : checkInput c.row c.m c.n c.k (some c.X) c.ldx c.Y c.ldy (some D) c.ldd with
  | some s => rw [h1] at h; cases h
  | none =>
    cases h2 : checkParams kind with
    | some s => rw [h1, h2] at h; cases h
    | none =>
      have hcols : (if c.Y.isNone then (c.m : Int).toNat else (c.n : Int).toNat) = c.cols := by
        unfold Call.cols
        cases c.Y <;> simp
      rw [h1, h2] at h
      obtain ⟨a1, a2, -, -, -, a3, a4⟩ := (checkInput_iff _ _ _ _ _ _ _ _ _ _).1 h1
      refine ⟨?_, by omega, ?_, (checkParams_iff _).1 h2, ?_⟩
      · unfold Call.cols
        cases hY : c.Y <;> cases hr : c.row <;> simp [hY, hr] at a3 a4 ⊢ <;> omega
      · unfold Call.cols
        cases hY : c.Y <;> simp [hY] at a3 ⊢ <;> omega
      · injection h with h
        rw [← h, hcols]
        cases kind <;> rfl

theorem x_row (c : Call ℝ) (i : Nat) : (fun l => c.X (cell c.row c.ldx i l)) = c.x i :=
  PairDist.x_eq c i

theorem y_row (c : Call ℝ) {Y : Nat → ℝ} (h : c.Y = some Y) (j : Nat) :
    (fun l => Y (cell c.row c.ldy j l)) = c.y j := by
  funext l
  unfold Call.y
  rw [h, cell_pos]

theorem y_none (c : Call ℝ) (h : c.Y = none) (j : Nat) : c.y j = c.x j := by
  funext l
  unfold Call.y
  rw [h]
  rfl

theorem cols_some (c : Call ℝ) {Y : Nat → ℝ} (h : c.Y = some Y) : c.cols = c.n := by
  unfold Call.cols; rw [h]

theorem cols_none (c : Call ℝ) (h : c.Y = none) : c.cols = c.m := by
  unfold Call.cols; rw [h]

theorem setup_filled {r : Run} {c : Call ℝ} (hr : r.Ok c.m c.cols)
    (hl : if c.row then c.cols ≤ c.ldd else c.m ≤ c.ldd) (hm : 0 < c.m) (hn : 0 < c.cols)
    (hc : ¬ (c.Y = none ∧ 256 < c.m ∧ 1 < r.threads)) (D : Nat → ℝ) (gamma : ℝ) (f : Math ℝ) :
    ∃ D', kernelSetup real r c.row c.m c.cols c.k c.X c.ldx c.Y c.ldy D c.ldd gamma f = some D' ∧
      Filled c.row c.m c.cols c.ldd D D' fun i j =>
        mathVal real f (gamma * ∑ l ∈ range c.k, c.x i l * c.y j l) := by
  cases hY : c.Y with
  | some Y =>
    obtain ⟨F, hF, W⟩ := setup_two tanh_exp hr.simd hm hn
      (by rw [blocks_eq hm, blocks_eq hn]; exact hr.sched) hl c.k c.X c.ldx Y c.ldy gamma f
    refine ⟨F D, hF D, W.filled D fun i j v _ _ => ?_⟩
    rw [x_row, y_row c hY]
    rfl
  | none =>
    rw [cols_none c hY] at hl ⊢
    have hb : ¬ blocked r.threads c.m c.m = true := by
      rw [blocked_iff hm]
      exact fun h => hc ⟨hY, h⟩
    obtain ⟨F, hF, W⟩ := setup_one tanh_exp hr.simd (row := c.row) (ldd := c.ldd) hb
      (by cases h : c.row <;> simpa [h] using hl) c.k c.X c.ldx c.ldy gamma f
    refine ⟨F D, hF D, W.filled D fun i j v _ _ => ?_⟩
    rw [x_row, x_row, y_none c hY]
    rfl

/-! ### C147: linear, polynomial and sigmoid kernel -/

/-- A call that is accepted computes the matrix of `x · y`. -/
def C147_statement : Prop :=
  ∀ (r : Run) (c : Call ℝ) (D : Nat → ℝ) (res : Option (Nat → ℝ)), r.Ok c.m c.cols →
    run r c D .linear = .ok res → ∃ D', res = some D' ∧
      Filled c.row c.m c.cols c.ldd D D' fun i j => Spec.linear c.k (c.x i) (c.y j)

/-- With one matrix of more than 256 samples and more than one thread the null pointer is
dereferenced, and only then. -/
theorem C147_crash {r : Run} {c : Call ℝ} {D : Nat → ℝ} {kind : Kind ℝ} {res : Option (Nat → ℝ)}
    (hr : r.Ok c.m c.cols) (h : run r c D kind = .ok res) (hk : ∀ gamma, kind ≠ .rbf gamma) :
    res = none ↔ c.Y = none ∧ 256 < c.m ∧ 1 < r.threads := by
  obtain ⟨hl, hm, hn, -, e⟩ := run_ok h
  have key : ∀ gamma f, kernelSetup real r c.row c.m c.cols c.k c.X c.ldx c.Y c.ldy D c.ldd gamma f =
      none ↔ c.Y = none ∧ 256 < c.m ∧ 1 < r.threads := by
    intro gamma f
    constructor
    · intro h0
      by_contra hc
      obtain ⟨D', h1, -⟩ := setup_filled hr hl hm hn hc D gamma f
      rw [h0] at h1
      cases h1
    · rintro ⟨hY, h1⟩
      rw [hY, cols_none c hY]
      unfold kernelSetup
      rw [if_pos ((blocked_iff hm).2 h1)]
  cases kind with
  | rbf gamma => exact absurd rfl (hk gamma)
  | linear => rw [e]; exact key _ _
  | polynomial gamma degree coef0 => rw [e]; exact key _ _
  | sigmoid gamma coef0 => rw [e]; exact key _ _

/-- 512 samples with one feature, two threads. -/
noncomputable def bigCall (X : Nat → ℝ) : Call ℝ := ⟨true, 512, 0, 1, X, 1, none, 0, 512⟩

def twoThreads : Run := ⟨2, none, List.range 4⟩

theorem twoThreads_ok (X : Nat → ℝ) : twoThreads.Ok (bigCall X).m (bigCall X).cols :=
  ⟨show (List.range 4).Perm (List.range ((512 + 255) / 256 * ((512 + 255) / 256))) from
    List.Perm.refl (List.range 4), fun w h => by cases h⟩

theorem big_accepted (X D : Nat → ℝ) {kind : Kind ℝ} (hk : paramsOk kind) :
    ∃ res, run twoThreads (bigCall X) D kind = .ok res := by
  have h1 := (checkInput_iff (bigCall X).row (bigCall X).m (bigCall X).n (bigCall X).k
    (some (bigCall X).X) (bigCall X).ldx (bigCall X).Y (bigCall X).ldy (some D) (bigCall X).ldd).2
    (by simp [argsOk, bigCall])
  have h2 := (checkParams_iff kind).2 hk
  unfold run kernelCall
  rw [h1, h2]
  exact ⟨_, rfl⟩

theorem C147_linear_violated : ¬ C147_statement := by
  intro h
  obtain ⟨res, hres⟩ := big_accepted (fun _ => 1) (fun _ => 0) (kind := .linear) trivial
  obtain ⟨D', e, -⟩ := h _ _ _ _ (twoThreads_ok _) hres
  have := (C147_crash (twoThreads_ok _) hres fun _ => by simp).2
    ⟨rfl, by decide, by decide⟩
  rw [this] at e
  cases e

/-- The linear kernel in all other cases.  Missing: one matrix of more than 256 samples with more
than one thread. -/
theorem C147_linear_partial {r : Run} {c : Call ℝ} {D : Nat → ℝ} {res : Option (Nat → ℝ)}
    (hr : r.Ok c.m c.cols) (h : run r c D .linear = .ok res)
    (hc : ¬ (c.Y = none ∧ 256 < c.m ∧ 1 < r.threads)) :
    ∃ D', res = some D' ∧
      Filled c.row c.m c.cols c.ldd D D' fun i j => Spec.linear c.k (c.x i) (c.y j) := by
  obtain ⟨hl, hm, hn, -, e⟩ := run_ok h
  obtain ⟨D', h1, h2⟩ := setup_filled hr hl hm hn hc D 1 .none
  refine ⟨D', e.trans h1, fun i j hi hj => (h2.entry i j hi hj).trans ?_, h2.rest⟩
  simp [mathVal, Spec.linear]

/-- The polynomial kernel. -/
theorem C147_polynomial_partial {r : Run} {c : Call ℝ} {D : Nat → ℝ} {res : Option (Nat → ℝ)}
    {gamma coef0 : ℝ} {degree : Int} (hr : r.Ok c.m c.cols)
    (h : run r c D (.polynomial gamma degree coef0) = .ok res)
    (hc : ¬ (c.Y = none ∧ 256 < c.m ∧ 1 < r.threads)) :
    ∃ D', res = some D' ∧ Filled c.row c.m c.cols c.ldd D D' fun i j =>
      Spec.polynomial gamma degree.toNat coef0 c.k (c.x i) (c.y j) := by
  obtain ⟨hl, hm, hn, hp, e⟩ := run_ok h
  obtain ⟨D', h1, h2⟩ := setup_filled hr hl hm hn hc D gamma (.power coef0 degree.toNat)
  refine ⟨D', e.trans h1, fun i j hi hj => (h2.entry i j hi hj).trans ?_, h2.rest⟩
  have hd : 1 ≤ degree := hp.2
  simp only [mathVal, Spec.polynomial]
  rw [ipow_eq _ (by omega)]

/-- The sigmoid kernel. -/
theorem C147_sigmoid_partial {r : Run} {c : Call ℝ} {D : Nat → ℝ} {res : Option (Nat → ℝ)}
    {gamma coef0 : ℝ} (hr : r.Ok c.m c.cols)
    (h : run r c D (.sigmoid gamma coef0) = .ok res)
    (hc : ¬ (c.Y = none ∧ 256 < c.m ∧ 1 < r.threads)) :
    ∃ D', res = some D' ∧ Filled c.row c.m c.cols c.ldd D D' fun i j =>
      Spec.sigmoid gamma coef0 c.k (c.x i) (c.y j) := by
  obtain ⟨hl, hm, hn, -, e⟩ := run_ok h
  obtain ⟨D', h1, h2⟩ := setup_filled hr hl hm hn hc D gamma (.tanh coef0)
  exact ⟨D', e.trans h1, fun i j hi hj => (h2.entry i j hi hj).trans rfl, h2.rest⟩

/-- For the examples: functions that are not used. -/
def noOps : Ops ℚ := ⟨fun x => x, fun x => x⟩

def okAnd (r : Except Status (Option (Nat → ℚ))) (P : (Nat → ℚ) → Bool) : Bool :=
  match r with
  | .ok (some D) => P D
  | _ => false

/-- Three samples with two features against two others: `(2 · (x · y) + 1)³`, registers of two. -/
example : okAnd (kernelCall noOps ⟨8, some 2, []⟩ true 3 2 2 (some fun c => (c : ℚ)) 2
    (some fun c => (c : ℚ) - 1) 2 (some fun _ => -1) 3 (.polynomial 2 3 1))
    (fun D => decide (D 0 = 1) && decide (D 1 = (2 * 2 + 1) ^ 3) &&
      decide (D 4 = (2 * (2 + 6) + 1) ^ 3) && decide (D 2 = -1)) = true := by decide +kernel

example : okAnd (kernelCall noOps ⟨8, none, []⟩ false 3 0 2 (some fun c => (c : ℚ)) 3
    none 0 (some fun _ => -1) 4 .linear)
    (fun D => decide (D 0 = 9) && decide (D 1 = 12) && decide (D 4 = 12) && decide (D 8 = 15) &&
      decide (D 3 = -1)) = true := by decide +kernel

example : Spec.polynomial 2 3 1 2 (fun l => l) (fun l => l) = 27 := by
  simp [Spec.polynomial, Finset.sum_range_succ]; norm_num

/-! ### C148: RBF kernel -/

/-- A call that is accepted computes the matrix of `exp (-γ ‖x - y‖²)`. -/
def C148_statement : Prop :=
  ∀ (r : Run) (c : Call ℝ) (D : Nat → ℝ) (gamma : ℝ) (res : Option (Nat → ℝ)), r.Ok c.m c.cols →
    run r c D (.rbf gamma) = .ok res → ∃ D', res = some D' ∧
      Filled c.row c.m c.cols c.ldd D D' fun i j => Spec.rbf gamma c.k (c.x i) (c.y j)

/-- What is computed for one matrix whose samples make up more than one block, all of them full,
with more than one thread: in blocks off the diagonal the products are those of the samples of the
first block, and below its diagonal what was in the array before. -/
theorem C148_blocked {r : Run} {c : Call ℝ} {D : Nat → ℝ} {gamma : ℝ} {res : Option (Nat → ℝ)}
    (hr : r.Ok c.m c.cols) (h : run r c D (.rbf gamma) = .ok res) (hY : c.Y = none)
    (h256 : 256 ∣ c.m) (hm' : 256 < c.m) (ht : 1 < r.threads) :
    ∃ D', res = some D' ∧ ∀ i j, i ≤ j → j < c.m → D' (pos c.row c.ldd i j) = Real.exp (-gamma *
      ((if i % 256 ≤ j % 256 then
          -2 * ∑ l ∈ range c.k, c.x i l * c.x (i / 256 * 256 + j % 256) l
        else D (pos c.row c.ldd i j)) +
        (∑ l ∈ range c.k, c.x i l ^ 2 + ∑ l ∈ range c.k, c.x j l ^ 2))) := by
  obtain ⟨hl, hm, hn, -, e⟩ := run_ok h
  simp only [outcome] at e
  refine ⟨_, e, fun i j hij hj => ?_⟩
  have hs := hr.sched
  rw [cols_none c hY] at hl hs ⊢
  have := rbf_one_blocked real hr.simd (row := c.row) (ldd := c.ldd) hm
    (show maxBlock ∣ c.m from h256)
    ((blocked_iff hm).2 ⟨hm', ht⟩) (by rw [blocks_eq hm]; exact hs)
    (by cases h : c.row <;> simpa [h] using hl) c.k c.X (fun _ => 0) c.ldx (fun _ => 0) c.ldy gamma D
    i j hij hj
  rw [← cell_pos, hY, this]
  have e1 : ∀ i, sqOf c.k (c.x i) = ∑ l ∈ range c.k, c.x i l ^ 2 := fun i =>
    Finset.sum_congr rfl fun l _ => (sq _).symm
  rw [x_row, x_row, x_row, e1, e1]
  rfl

/-- 256 samples at 1 and 256 at 0: the kernel of two of them comes out as `e` instead of `1/e`. -/
theorem C148_rbf_violated : ¬ C148_statement := by
  intro h
  obtain ⟨X, hX⟩ : ∃ X : Nat → ℝ, X = fun i => if i < 256 then 1 else 0 := ⟨_, rfl⟩
  obtain ⟨res, hres⟩ := big_accepted X (fun _ => 0) (kind := .rbf 1) zero_le_one
  obtain ⟨D1, e1, h1⟩ := h _ _ _ _ _ (twoThreads_ok X) hres
  obtain ⟨D2, e2, h2⟩ := C148_blocked (twoThreads_ok X) hres rfl (show 256 ∣ 512 by decide)
    (show 256 < 512 by decide) (by decide)
  have h3 : D1 = D2 := Option.some.inj (e1.symm.trans e2)
  have a := h1.entry 0 256 (show 0 < 512 by decide) (show 256 < 512 by decide)
  have b := h2 0 256 (by decide) (show 256 < 512 by decide)
  rw [h3, b] at a
  have f0 : ∀ i, (bigCall X).x i 0 = if i < 256 then 1 else 0 := fun i => by
    rw [hX]; simp [bigCall, Call.x, pos]
  have g0 : (bigCall X).y 256 0 = 0 := by
    rw [y_none _ rfl, f0]; simp
  have k1 : (bigCall X).k = 1 := rfl
  simp only [Spec.rbf, k1, Finset.sum_range_one, f0, g0] at a
  have := Real.exp_injective a
  norm_num at this

/-- The RBF kernel in all other cases.  Missing: one matrix of more than 256 samples with more than
one thread. -/
theorem C148_rbf_partial {r : Run} {c : Call ℝ} {D : Nat → ℝ} {gamma : ℝ}
    {res : Option (Nat → ℝ)} (hr : r.Ok c.m c.cols) (h : run r c D (.rbf gamma) = .ok res)
    (hc : ¬ (c.Y = none ∧ 256 < c.m ∧ 1 < r.threads)) :
    ∃ D', res = some D' ∧
      Filled c.row c.m c.cols c.ldd D D' fun i j => Spec.rbf gamma c.k (c.x i) (c.y j) := by
  obtain ⟨hl, hm, hn, -, e⟩ := run_ok h
  simp only [outcome] at e
  refine ⟨_, e, ?_⟩
  cases hY : c.Y with
  | some Y =>
    refine (rbf_two real hr.simd hm hn (by rw [blocks_eq hm, blocks_eq hn]; exact hr.sched) hl c.k c.X
      (fun _ => 0) c.ldx Y (fun _ => 0) c.ldy gamma).filled D fun i j v _ _ => ?_
    rw [x_row, y_row c hY, PairDist.sq_expand]
    rfl
  | none =>
    rw [cols_none c hY] at hl ⊢
    have hb : ¬ blocked r.threads c.m c.m = true := by
      rw [blocked_iff hm]
      exact fun h => hc ⟨hY, h⟩
    refine (rbf_one real hr.simd (row := c.row) (ldd := c.ldd) hb
      (by cases h : c.row <;> simpa [h] using hl) c.k c.X (fun _ => 0) c.ldx (fun _ => 0) c.ldy
      gamma).filled D fun i j v _ _ => ?_
    rw [x_row, x_row, y_none c hY, PairDist.sq_expand]
    rfl

/-- Then all entries lie in `(0, 1]`, and with one matrix the result is symmetric with ones on the
diagonal. -/
theorem C148_range_partial {r : Run} {c : Call ℝ} {D : Nat → ℝ} {gamma : ℝ}
    {res : Option (Nat → ℝ)} (hr : r.Ok c.m c.cols) (h : run r c D (.rbf gamma) = .ok res)
    (hc : ¬ (c.Y = none ∧ 256 < c.m ∧ 1 < r.threads)) :
    ∃ D', res = some D' ∧
      (∀ i j, i < c.m → j < c.cols →
        0 < D' (pos c.row c.ldd i j) ∧ D' (pos c.row c.ldd i j) ≤ 1) ∧
      (c.Y = none → ∀ i j, i < c.m → j < c.m →
        D' (pos c.row c.ldd i i) = 1 ∧ D' (pos c.row c.ldd i j) = D' (pos c.row c.ldd j i)) := by
  obtain ⟨-, -, -, hp, -⟩ := run_ok h
  have hg : 0 ≤ gamma := hp
  obtain ⟨D', e, F⟩ := C148_rbf_partial hr h hc
  refine ⟨D', e, fun i j hi hj => ?_, fun hY i j hi hj => ?_⟩
  · rw [F.entry i j hi hj]
    refine ⟨Real.exp_pos _, Real.exp_le_one_iff.2 ?_⟩
    have := Finset.sum_nonneg fun l (_ : l ∈ range c.k) => sq_nonneg (c.x i l - c.y j l)
    nlinarith
  · have hn : c.cols = c.m := cols_none c hY
    rw [F.entry i i hi (by omega), F.entry i j hi (by omega), F.entry j i hj (by omega),
      y_none c hY, y_none c hY]
    refine ⟨by simp [Spec.rbf], ?_⟩
    unfold Spec.rbf
    congr 2
    exact Finset.sum_congr rfl fun l _ => by ring

/-- Samples 0 and 2 against 1 with `gamma = 3`, and the identity in place of `exp`:
`-3 · (x - y)²`. -/
example : okAnd (kernelCall noOps ⟨8, some 2, []⟩ true 2 1 1 (some fun c => 2 * (c : ℚ)) 1
    (some fun _ => 1) 1 (some fun _ => -1) 3 (.rbf 3))
    (fun D => decide (D 0 = -3) && decide (D 3 = -3) && decide (D 1 = -1)) = true := by
  decide +kernel

example : okAnd (kernelCall noOps ⟨8, some 2, []⟩ false 3 0 1 (some fun c => 2 * (c : ℚ)) 3
    none 0 (some fun _ => -1) 3 (.rbf 3))
    (fun D => decide (D 0 = 0) && decide (D 1 = -12) && decide (D 6 = -48) && decide (D 2 = -48)) =
    true := by decide +kernel

example : Spec.rbf 2 1 (fun _ => 1) (fun _ => 0) = Real.exp (-2) := by
  simp [Spec.rbf]

/-! ### C149: arguments -/

section
variable {K : Type} [Field K] [LinearOrder K]

/-- A call returns without an error if and only if its arguments and parameters are valid. -/
theorem C149_accepts (o : Ops K) (r : Run) (row : Bool) (m n k : Int) (X : Option (Nat → K))
    (ldx : Int) (Y : Option (Nat → K)) (ldy : Int) (D : Option (Nat → K)) (ldd : Int)
    (kind : Kind K) :
    (∃ res, kernelCall o r row m n k X ldx Y ldy D ldd kind = .ok res) ↔
      argsOk row m n k X ldx Y ldy D ldd ∧ paramsOk kind := by
  rw [← checkInput_iff, ← checkParams_iff]
  unfold kernelCall
  cases h1 : checkInput row m n k X ldx Y ldy D ldd with
  | some s => simp
  | none =>
    cases h2 : checkParams kind with
    | some s => simp
    | none => simp

/-- The error says what is wrong: parameters only if the arrays are in order. -/
theorem C149_invalid_input (o : Ops K) (r : Run) (row : Bool) (m n k : Int) (X : Option (Nat → K))
    (ldx : Int) (Y : Option (Nat → K)) (ldy : Int) (D : Option (Nat → K)) (ldd : Int)
    (kind : Kind K) :
    kernelCall o r row m n k X ldx Y ldy D ldd kind = .error .invalidInput ↔
      argsOk row m n k X ldx Y ldy D ldd ∧ ¬ paramsOk kind := by
  have hne : ∀ s, checkInput row m n k X ldx Y ldy D ldd = some s → s ≠ .invalidInput := by
    intro s h e
    subst e
    unfold checkInput at h
    revert h
    (repeat' split) <;> simp
  have hp : ∀ s, checkParams kind = some s → s = .invalidInput := by
    intro s h
    unfold checkParams at h
    cases kind <;> simp at h <;> exact h.2.symm
  rw [← checkInput_iff, ← checkParams_iff]
  unfold kernelCall
  cases h1 : checkInput row m n k X ldx Y ldy D ldd with
  | some s => simp [hne s h1]
  | none =>
    cases h2 : checkParams kind with
    | some s => simp [hp s h2]
    | none => simp

end

example : kernelCall noOps ⟨1, none, []⟩ true 3 2 2 (some fun c => (c : ℚ)) 2
    (some fun c => (c : ℚ)) 2 (some fun _ => 0) 1 .linear = .error .invalidLeading := by
  simp [kernelCall, checkInput]

example : argsOk true 3 2 2 (some fun c => (c : ℚ)) 2 (some fun c => (c : ℚ)) 2 (some fun _ => 0) 2 ∧
    ¬ paramsOk (.polynomial (1 : ℚ) 0 0) := by
  constructor
  · simp [argsOk]
  · simp [paramsOk]

end Verif.KernelFn
