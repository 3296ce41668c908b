import Mathlib.Data.Rat.Defs
import Verif.Moments.StdProof

/-
C111, C112: standardization of a matrix.
-/
namespace Verif.Moments

set_option linter.unusedSectionVars false

open Finset

section Doc

variable {K : Type} [Field K] [LinearOrder K] [IsStrictOrderedRing K]

/-- The degrees of freedom of the documentation (aoclda_basic_statistics.h:386-389). -/
def stdDof (dof : Int) (count : Nat) : Int :=
  if dof < 0 then count else if dof = 0 then (count : Int) - 1 else dof

/-- The standard deviation of line `k` about `c k`, with the documented degrees of freedom. -/
def docSd (sqrt : K → K) (axis : Axis) (n p : Nat) (X : Nat → Nat → K) (dof : Int)
    (c : Nat → K) (k : Nat) : K :=
  sqrt ((∑ d ∈ cells axis n p k, (X d.1 d.2 - c k) ^ 2) / ((stdDof dof (obs axis n p) : Int) : K))

/-- The mean of line `k`. -/
def docMean (axis : Axis) (n p : Nat) (X : Nat → Nat → K) (k : Nat) : K :=
  (∑ d ∈ cells axis n p k, X d.1 d.2) / (obs axis n p : K)

/-- The documented effect of a call (aoclda_basic_statistics.h:366-404): the entries are
shifted and scaled, or with mode 1 scaled back and shifted back, a zero scale counting as
one; shifts and scales are the caller's, or the means and deviations for arrays of zeros or
if both arrays are null; arrays that the caller gave hold what was used.  Nothing else of
the buffer changes. -/
def Documented (sqrt : K → K) (order : Order) (axis : Axis) (n p ldx : Nat) (x : List K)
    (X : Nat → Nat → K) (dof mode : Int) (shift scale : Option (List K)) (x' : List K)
    (sh' sc' : Option (List K)) : Prop :=
  let L := outLen axis n p
  let h := pickShift L (docMean axis n p X) shift scale
  let s := pickScale L (docSd sqrt axis n p X dof (docMean axis n p X))
    (docSd sqrt axis n p X dof) shift scale
  x'.length = x.length ∧
  (∀ i < n, ∀ j < p, x'[at' order ldx i j]? = some
    (let k := line axis i j
     let t := if s k = 0 then 1 else s k
     if mode = 0 then (X i j - h k) / t else X i j * t + h k)) ∧
  (∀ q, (∀ i < n, ∀ j < p, q ≠ at' order ldx i j) → x'[q]? = x[q]?) ∧
  Leaves L shift sh' h ∧ Leaves L scale sc' s

theorem docMean_eq (axis : Axis) (n p : Nat) (X : Nat → Nat → K) :
    docMean axis n p X = avg axis n p X := by
  funext k; unfold docMean avg; rw [total_cells]

theorem docSd_eq (sqrt : K → K) (axis : Axis) {n p : Nat} (X : Nat → Nat → K) (dof : Int)
    (hn : 0 < n) (hp : 0 < p) (hd : stdDof dof (obs axis n p) ≠ 0) :
    docSd sqrt axis n p X dof (docMean axis n p X) = sdMean sqrt axis n p X dof := by
  funext k
  have hge : 0 ≤ stdDof dof (obs axis n p) := scaleFactor_nonneg dof (obs_pos axis hn hp)
  unfold docSd sdMean
  rw [docMean_eq, total_cells]
  have e : scaleFactor dof (obs axis n p) = stdDof dof (obs axis n p) := rfl
  rw [e]
  congr 2
  · apply sum_congr rfl; intro c _; exact pow_two _
  · split
    · rfl
    · have : stdDof dof (obs axis n p) = 1 := by omega
      rw [this]; simp

theorem docSd_about (sqrt : K → K) (axis : Axis) {n p : Nat} (X : Nat → Nat → K) (dof : Int)
    (hn : 0 < n) (hp : 0 < p)
    (hg : dof < 0 ∨ outLen axis n p = obs axis n p) :
    docSd sqrt axis n p X dof = sdAbout sqrt axis n p X dof := by
  funext c k
  have ho : (obs axis n p : K) ≠ 0 := by exact_mod_cast (obs_pos axis hn hp).ne'
  have hl : (outLen axis n p : K) ≠ 0 := by exact_mod_cast (outLen_pos axis hn hp).ne'
  unfold docSd sdAbout
  rw [total_cells]
  congr 1
  rcases hg with h | h
  · unfold stdDof scaleFactor
    rw [if_pos h, if_pos h]
    push_cast
    field_simp
  · rw [h]
    have e : scaleFactor dof (obs axis n p) = stdDof dof (obs axis n p) := rfl
    rw [e, mul_div_cancel₀ _ ho]

end Doc

/-- C111, in full. -/
def C111_statement : Prop :=
  ∀ (sqrt : Rat → Rat) (thr : Nat) (env : Nat → Env) (junk : List Rat) (order : Order)
    (axis : Axis) (n p ldx : Nat) (x : List Rat) (X : Nat → Nat → Rat) (dof mode : Int)
    (shift scale : Option (List Rat)), 0 < n → 0 < p → 0 < thr → LdOk order n p ldx →
    Holds order n p ldx x X → (∀ k, (env k).OkFor thr order n p) → mode = 0 ∨ mode = 1 →
    (∀ l, shift = some l → outLen axis n p ≤ l.length) →
    (∀ l, scale = some l → outLen axis n p ≤ l.length) → stdDof dof (obs axis n p) ≠ 0 →
    ∃ x' sh' sc', standardize sqrt thr env junk order axis n p (some x) ldx dof mode shift scale
        = .ok (.success, some x', sh', sc') ∧
      Documented sqrt order axis n p ldx x X dof mode shift scale x' sh' sc'

/-- C111 does not hold: with shifts given and scales to be computed the code takes the number
of results for the number of observations.  A column of four entries 2, shift 1, one degree
of freedom: the deviation is 2, but the code finds 1. -/
theorem C111_documented_violated : ¬ C111_statement := by
  intro h
  obtain ⟨x', sh', sc', h1, h2⟩ := h (fun q => if q = 4 then 2 else q) 2
    (fun _ => Env.plain 2 1 1 4) [] .col .col 4 1 4 [2, 2, 2, 2] (fun _ _ => 2) 1 0 (some [1])
    (some [0]) (by decide) (by decide) (by decide) (by show 4 ≤ 4; decide)
    (by
      intro i hi j hj
      have : j = 0 := by omega
      subst this
      rcases (by omega : i = 0 ∨ i = 1 ∨ i = 2 ∨ i = 3) with rfl | rfl | rfl | rfl <;> rfl)
    (fun _ => Env.plain_ok 2 1 1 4 (by decide)) (Or.inl rfl)
    (by intro l hl; cases hl; decide) (by intro l hl; cases hl; decide) (by decide)
  have h3 : standardize (fun q : Rat => if q = 4 then 2 else q) 2 (fun _ => Env.plain 2 1 1 4) []
      .col .col 4 1 (some [2, 2, 2, 2]) 4 1 0 (some [1]) (some [0]) =
      .ok (.success, some [1, 1, 1, 1], some [1], some [1]) := by decide +kernel
  have h4 := h3.symm.trans h1
  simp only [Except.ok.injEq, Prod.mk.injEq, Option.some.injEq, true_and] at h4
  obtain ⟨rfl, rfl, rfl⟩ := h4
  obtain ⟨_, _, _, _, h5⟩ := h2
  obtain ⟨l', h6, h7⟩ := h5.2 [0] rfl
  cases h6
  have h8 := h7 0
  rw [if_pos (by decide)] at h8
  simp only [pickScale] at h8
  rw [if_pos (by intro k hk; have : k = 0 := by simp only [outLen] at hk; omega
                 subst this; rfl),
    if_neg (by intro hz; have := hz 0 (by decide); exact absurd this (by decide))] at h8
  have h9 : docSd (fun q : Rat => if q = 4 then 2 else q) .col 4 1 (fun _ _ => 2) 1
      (fun k => [(1 : Rat)].getD k 0) 0 = 2 := by
    unfold docSd
    have e : ∑ d ∈ cells .col 4 1 0, (2 - [(1 : Rat)].getD 0 0) ^ 2 /
        ((stdDof 1 (obs .col 4 1) : Int) : Rat) = 4 := by
      rw [sum_const, card_cells]
      norm_num [obs, stdDof]
    rw [← sum_div] at e
    rw [e]
    simp
  rw [h9] at h8
  exact absurd h8 (by decide)

section Std

variable {K : Type} [Field K] [LinearOrder K] [IsStrictOrderedRing K]

/-- C111, the part that holds: all calls, except those in which the caller gives shifts and
an array of zeros for the scales, the degrees of freedom are not negative, and the number of
results is not the number of observations.  What is missing are those calls. -/
theorem C111_documented_partial (sqrt : K → K) (thr : Nat) (env : Nat → Env) (junk : List K)
    (order : Order) (axis : Axis) {n p ldx : Nat} (x : List K) (X : Nat → Nat → K) (dof mode : Int)
    (shift scale : Option (List K)) (hn : 0 < n) (hp : 0 < p) (ht : 0 < thr)
    (hld : LdOk order n p ldx) (hx : Holds order n p ldx x X)
    (he : ∀ k, (env k).OkFor thr order n p) (hmode : mode = 0 ∨ mode = 1)
    (hsh : ∀ l, shift = some l → outLen axis n p ≤ l.length)
    (hsc : ∀ l, scale = some l → outLen axis n p ≤ l.length)
    (hd : stdDof dof (obs axis n p) ≠ 0)
    (hG : (∃ sh sc, shift = some sh ∧ scale = some sc ∧ (∃ k < outLen axis n p, sh.getD k 0 ≠ 0) ∧
      ∀ k < outLen axis n p, sc.getD k 0 = 0) → dof < 0 ∨ outLen axis n p = obs axis n p) :
    ∃ x' sh' sc', standardize sqrt thr env junk order axis n p (some x) ldx dof mode shift scale
        = .ok (.success, some x', sh', sc') ∧
      Documented sqrt order axis n p ldx x X dof mode shift scale x' sh' sc' := by
  have hG' : Given (outLen axis n p) shift scale →
      dof < 0 ∨ outLen axis n p = obs axis n p := by
    rintro ⟨sh, sc, h1, h2, h3, h4⟩
    apply hG
    refine ⟨sh, sc, h1, h2, ?_, h4⟩
    by_contra hne
    apply h3
    intro k hk
    by_contra h5
    exact hne ⟨k, hk, h5⟩
  obtain ⟨h1, _⟩ := standardize_ok sqrt thr env junk order axis x X dof mode shift scale hn hp ht
    hld hx he hmode hsh hsc
  obtain ⟨x', sh', sc', h2, h3, h4, h5, h6, h7⟩ := h1 (by
    rintro ⟨hg, h0⟩
    rcases hG' hg with h | h
    · unfold scaleFactor at h0
      rw [if_pos h] at h0
      have := outLen_pos axis hn hp
      omega
    · rw [h] at h0
      exact hd h0)
  have eh : pickShift (outLen axis n p) (docMean axis n p X) shift scale =
      shifts axis n p X shift scale := by rw [docMean_eq]; rfl
  have es : pickScale (outLen axis n p) (docSd sqrt axis n p X dof (docMean axis n p X))
      (docSd sqrt axis n p X dof) shift scale = scales sqrt axis n p X dof shift scale := by
    rw [docSd_eq sqrt axis X dof hn hp hd]
    by_cases hg : Given (outLen axis n p) shift scale
    · rw [docSd_about sqrt axis X dof hn hp (hG' hg)]
      rfl
    · funext k
      unfold scales
      cases shift with
      | none => cases scale <;> rfl
      | some sh =>
        cases scale with
        | none => rfl
        | some sc =>
          simp only [pickScale]
          split
          · split
            · rfl
            · rename_i a b
              exact absurd ⟨sh, sc, rfl, rfl, b, a⟩ hg
          · rfl
  refine ⟨x', sh', sc', h2, ?_⟩
  unfold Documented
  simp only
  rw [eh, es]
  refine ⟨h3, ?_, h5, h6, h7⟩
  intro i hi j hj
  rw [h4 i hi j hj]
  congr 1
  unfold change
  have : ∀ t : K, (if t ≠ 0 then t else 1) = if t = 0 then 1 else t := by
    intro t; split <;> simp_all
  simp only [this]

/-- C111: what the excluded calls do.  With `L` results of `c` observations each and the sum
`S` of the squared deviations from the given shift, the scale is the root of
`L * (S / c) / f`, where `f` is `L`, `L - 1` or the given degrees of freedom; if `f` is zero,
that is for one result and `dof = 0`, the call divides by zero. -/
theorem C111_given_shifts (sqrt : K → K) (thr : Nat) (env : Nat → Env) (junk : List K)
    (order : Order) (axis : Axis) {n p ldx : Nat} (x : List K) (X : Nat → Nat → K) (dof mode : Int)
    (sh sc : List K) (hn : 0 < n) (hp : 0 < p) (ht : 0 < thr)
    (hld : LdOk order n p ldx) (hx : Holds order n p ldx x X)
    (he : ∀ k, (env k).OkFor thr order n p) (hmode : mode = 0 ∨ mode = 1)
    (hsh : outLen axis n p ≤ sh.length) (hsc : outLen axis n p ≤ sc.length)
    (h0 : ∃ k < outLen axis n p, sh.getD k 0 ≠ 0) (hz : ∀ k < outLen axis n p, sc.getD k 0 = 0) :
    (stdDof dof (outLen axis n p) = 0 →
      standardize sqrt thr env junk order axis n p (some x) ldx dof mode (some sh) (some sc) =
        .error .divZero) ∧
    (stdDof dof (outLen axis n p) ≠ 0 →
      ∃ x' sh' sc', standardize sqrt thr env junk order axis n p (some x) ldx dof mode (some sh)
          (some sc) = .ok (.success, some x', some sh', some sc') ∧
        ∀ k < outLen axis n p, sh'[k]? = sh[k]? ∧ sc'[k]? = some (sqrt
          ((outLen axis n p : K) * ((∑ d ∈ cells axis n p k, (X d.1 d.2 - sh.getD k 0) ^ 2) /
            (obs axis n p : K)) / ((stdDof dof (outLen axis n p) : Int) : K)))) := by
  obtain ⟨k0, hk0, hne⟩ := h0
  have hA : ¬ ZeroOn (outLen axis n p) sh := fun h => hne (h k0 hk0)
  have hG : Given (outLen axis n p) (some sh) (some sc) := ⟨sh, sc, rfl, rfl, hA, hz⟩
  obtain ⟨h1, h2⟩ := standardize_ok sqrt thr env junk order axis x X dof mode (some sh) (some sc)
    hn hp ht hld hx he hmode (by intro l h; cases h; exact hsh) (by intro l h; cases h; exact hsc)
  refine ⟨fun h => h2 hG h, fun h => ?_⟩
  obtain ⟨x', sh', sc', h3, _, _, _, h4, h5⟩ := h1 (fun hb => h hb.2)
  obtain ⟨l, rfl, h6⟩ := h4.2 sh rfl
  obtain ⟨l', rfl, h7⟩ := h5.2 sc rfl
  refine ⟨x', l, l', h3, ?_⟩
  intro k hk
  have h8 := h6 k
  have h9 := h7 k
  rw [if_pos hk] at h8 h9
  constructor
  · rw [h8]
    unfold shifts
    simp only [pickShift]
    rw [if_neg hA]
    exact (get_of hsh hk).symm
  · rw [h9]
    unfold scales
    simp only [pickScale]
    have hzz : ZeroOn (outLen axis n p) sc := hz
    rw [if_pos hzz, if_neg hA]
    unfold sdAbout
    rw [total_cells]
    rfl

/-- C111: arguments outside their documented range are reported, and nothing is written. -/
theorem C111_errors (sqrt : K → K) (thr : Nat) (env : Nat → Env) (junk : List K)
    (order : Order) (axis : Axis) (n p ldx : Int) (x : Option (List K)) (dof mode : Int)
    (shift scale : Option (List K)) :
    (n < 1 ∨ p < 1 → standardize sqrt thr env junk order axis n p x ldx dof mode shift scale =
      .ok (.invalidDim, x, shift, scale)) ∧
    (1 ≤ n → 1 ≤ p → ldx < (if order = .col then n else p) →
      standardize sqrt thr env junk order axis n p x ldx dof mode shift scale =
        .ok (.invalidLd, x, shift, scale)) ∧
    (1 ≤ n → 1 ≤ p → (if order = .col then n else p) ≤ ldx →
      (x = none → standardize sqrt thr env junk order axis n p x ldx dof mode shift scale =
        .ok (.invalidPtr, none, shift, scale)) ∧
      (x ≠ none → mode ≠ 0 → mode ≠ 1 →
        standardize sqrt thr env junk order axis n p x ldx dof mode shift scale =
          .ok (.invalidInput, x, shift, scale))) := by
  refine ⟨?_, ?_, ?_⟩
  · intro h
    unfold standardize rowToCol
    rw [if_pos h]
  · intro h1 h2 h3
    unfold standardize rowToCol
    rw [if_neg (by omega)]
    cases order
    · rw [if_pos rfl] at h3 ⊢
      rw [if_pos h3]
    · rw [if_neg (by decide)] at h3 ⊢
      rw [if_pos h3]
  · intro h1 h2 h3
    have h4 : ∃ a b c, rowToCol order axis n p ldx = .ok (a, b, c) := by
      unfold rowToCol
      rw [if_neg (by omega)]
      cases order
      · rw [if_pos rfl] at h3 ⊢
        rw [if_neg (by omega)]
        exact ⟨_, _, _, rfl⟩
      · rw [if_neg (by decide)] at h3 ⊢
        rw [if_neg (by omega)]
        exact ⟨_, _, _, rfl⟩
    obtain ⟨a, b, c, h4⟩ := h4
    unfold standardize
    rw [h4]
    refine ⟨?_, ?_⟩
    · intro h; subst h; rfl
    · intro h h5 h6
      cases x with
      | none => exact absurd rfl h
      | some x => simp only; rw [if_pos ⟨h5, h6⟩]

/-- A leading dimension that is too small for row-major storage. -/
example : standardize (fun q : Rat => q) 2 (fun _ => Env.plain 2 1 2 2) [] .row .col 2 3
    (some [1, 3, 5, 5, 6, 7]) 2 0 0 none none =
    .ok (.invalidLd, some [1, 3, 5, 5, 6, 7], none, none) := by decide +kernel

/-- A column-wise standardization with everything computed: columns 1, 3 and 5, 5. -/
example : standardize (fun q : Rat => q) 2 (fun _ => Env.plain 2 1 2 2) [9] .col .col 2 2
    (some [1, 3, 5, 5]) 2 (-1) 0 (some [0, 0]) (some [0, 0]) =
    .ok (.success, some [-1, 1, 0, 0], some [2, 5], some [1, 0]) := by decide +kernel

/-- A row-wise scaling in row-major order with one cell of padding. -/
example : standardize (fun q : Rat => q) 2 (fun _ => Env.plain 2 1 2 2) [] .row .row 2 2
    (some [1, 3, 77, 5, 10]) 3 0 1 none (some [2, 3]) =
    .ok (.success, some [2, 6, 77, 15, 30], none, some [2, 3]) := by decide +kernel

end Std

/-- C112, in full: a call with mode 0 is undone by a call with mode 1 and the arrays that the
first call left, provided one of them was given.  The square root is zero only at zero. -/
def C112_statement : Prop :=
  ∀ (sqrt : Rat → Rat), (∀ a, 0 ≤ a → sqrt a = 0 → a = 0) →
  ∀ (thr : Nat) (env env' : Nat → Env) (junk junk' : List Rat) (order : Order)
    (axis : Axis) (n p ldx : Nat) (x : List Rat) (X : Nat → Nat → Rat) (dof : Int)
    (shift scale : Option (List Rat)) (x1 : List Rat) (sh1 sc1 : Option (List Rat)),
    0 < n → 0 < p → 0 < thr → LdOk order n p ldx → Holds order n p ldx x X →
    (∀ k, (env k).OkFor thr order n p) → (∀ k, (env' k).OkFor thr order n p) →
    (∀ l, shift = some l → outLen axis n p ≤ l.length) →
    (∀ l, scale = some l → outLen axis n p ≤ l.length) → shift ≠ none ∨ scale ≠ none →
    standardize sqrt thr env junk order axis n p (some x) ldx dof 0 shift scale =
      .ok (.success, some x1, sh1, sc1) →
    ∃ sh2 sc2, standardize sqrt thr env' junk' order axis n p (some x1) ldx dof 1 sh1 sc1 =
      .ok (.success, some x, sh2, sc2)

/-- C112 does not hold: a constant column that is not zero gets scale 0, which the second call
takes as a request to compute a deviation about the shift; for one column and `dof = 0` that
divides by zero.  (In floating point the scale becomes infinite and the data NaN.) -/
theorem C112_undo_violated : ¬ C112_statement := by
  intro h
  have h1 : standardize (fun q : Rat => q) 2 (fun _ => Env.plain 2 1 1 2) [] .col .col 2 1
      (some [3, 3]) 2 0 0 (some [0]) (some [0]) =
      .ok (.success, some [0, 0], some [3], some [0]) := by decide +kernel
  obtain ⟨sh2, sc2, h2⟩ := h (fun q => q) (fun a _ h => h) 2 (fun _ => Env.plain 2 1 1 2)
    (fun _ => Env.plain 2 1 1 2) [] [] .col .col 2 1 2 [3, 3] (fun _ _ => 3) 0 (some [0])
    (some [0]) [0, 0] (some [3]) (some [0]) (by decide) (by decide) (by decide)
    (by show 2 ≤ 2; decide)
    (by
      intro i hi j hj
      have : j = 0 := by omega
      subst this
      rcases (by omega : i = 0 ∨ i = 1) with rfl | rfl <;> rfl)
    (fun _ => Env.plain_ok 2 1 1 2 (by decide)) (fun _ => Env.plain_ok 2 1 1 2 (by decide))
    (by intro l hl; cases hl; decide) (by intro l hl; cases hl; decide) (Or.inl (by simp)) h1
  have h3 : standardize (fun q : Rat => q) 2 (fun _ => Env.plain 2 1 1 2) [] .col .col 2 1
      (some [0, 0]) 2 0 1 (some [3]) (some [0]) = .error .divZero := by decide +kernel
  have h4 := h3.symm.trans h2
  cases h4

section Undo

variable {K : Type} [Field K] [LinearOrder K] [IsStrictOrderedRing K]

theorem total_const (axis : Axis) {m n : Nat} (X : Nat → Nat → K) (c : K) (k : Nat)
    (hk : k < outLen axis m n)
    (h : total axis m n X (fun a => (a - c) * (a - c)) k = 0) :
    ∀ i < m, ∀ j < n, line axis i j = k → X i j = c := by
  intro i hi j hj hl
  rw [total_cells, sq_sum_zero_iff] at h
  have := h (i, j) ((mem_cells hk).2 ⟨hi, hj, hl⟩)
  exact sub_eq_zero.1 this

theorem line_lt (axis : Axis) {m n i j : Nat} (hi : i < m) (hj : j < n) :
    line axis i j < outLen axis m n := by
  cases axis
  · exact Nat.one_pos
  · exact hj
  · exact hi

theorem sd_zero (sqrt : K → K) (hsq : ∀ a, 0 ≤ a → sqrt a = 0 → a = 0) (axis : Axis) {m n : Nat}
    (X : Nat → Nat → K) (dof : Int) (k : Nat) (hm : 0 < m) (hn : 0 < n)
    (h : sdMean sqrt axis m n X dof k = 0) :
    total axis m n X (fun a => (a - avg axis m n X k) * (a - avg axis m n X k)) k = 0 := by
  have h1 := hsq _ (var_nonneg axis X dof (avg axis m n X k) k hm hn) h
  rcases div_eq_zero_iff.1 h1 with h2 | h2
  · exact h2
  · exfalso
    split at h2
    · rename_i h3
      have : scaleFactor dof (obs axis m n) = 0 := by exact_mod_cast h2
      omega
    · exact one_ne_zero h2

theorem about_zero (sqrt : K → K) (hsq : ∀ a, 0 ≤ a → sqrt a = 0 → a = 0) (axis : Axis)
    {m n : Nat} (X : Nat → Nat → K) (dof : Int) (c : Nat → K) (k : Nat) (hm : 0 < m) (hn : 0 < n)
    (hsf : scaleFactor dof (outLen axis m n) ≠ 0) (h : sdAbout sqrt axis m n X dof c k = 0) :
    total axis m n X (fun a => (a - c k) * (a - c k)) k = 0 := by
  have hL : (outLen axis m n : K) ≠ 0 := by exact_mod_cast (outLen_pos axis hm hn).ne'
  have ho : (obs axis m n : K) ≠ 0 := by exact_mod_cast (obs_pos axis hm hn).ne'
  have hsK : ((scaleFactor dof (outLen axis m n) : Int) : K) ≠ 0 := by exact_mod_cast hsf
  have hpow : total axis m n X (fun a => (a - c k) ^ 2) k =
      total axis m n X (fun a => (a - c k) * (a - c k)) k := by simp only [pow_two]
  have h1 := hsq _ (by
    apply div_nonneg
    · apply mul_nonneg (Nat.cast_nonneg _)
      apply div_nonneg _ (Nat.cast_nonneg _)
      rw [hpow]
      exact total_sq_nonneg _ _ _ _ _ _
    · exact_mod_cast scaleFactor_nonneg dof (outLen_pos axis hm hn)) h
  rw [hpow] at h1
  simpa [hL, ho, hsK] using h1

/-- C112, the part that holds: the call is undone unless there is one result, `dof` is 0, both
arrays are given and the data are constant and not zero.  What is missing is that case. -/
theorem C112_undo_partial (sqrt : K → K) (hsq : ∀ a, 0 ≤ a → sqrt a = 0 → a = 0)
    (thr : Nat) (env env' : Nat → Env) (junk junk' : List K) (order : Order) (axis : Axis)
    {n p ldx : Nat} (x : List K) (X : Nat → Nat → K) (dof : Int) (shift scale : Option (List K))
    (x1 : List K) (sh1 sc1 : Option (List K)) (hn : 0 < n) (hp : 0 < p) (ht : 0 < thr)
    (hld : LdOk order n p ldx) (hx : Holds order n p ldx x X)
    (he : ∀ k, (env k).OkFor thr order n p) (he' : ∀ k, (env' k).OkFor thr order n p)
    (hsh : ∀ l, shift = some l → outLen axis n p ≤ l.length)
    (hsc : ∀ l, scale = some l → outLen axis n p ≤ l.length)
    (hnull : shift ≠ none ∨ scale ≠ none)
    (hcase : ¬ (outLen axis n p = 1 ∧ dof = 0 ∧ shift ≠ none ∧ scale ≠ none ∧
      ∃ c, c ≠ 0 ∧ ∀ i < n, ∀ j < p, X i j = c))
    (hfirst : standardize sqrt thr env junk order axis n p (some x) ldx dof 0 shift scale =
      .ok (.success, some x1, sh1, sc1)) :
    ∃ sh2 sc2, standardize sqrt thr env' junk' order axis n p (some x1) ldx dof 1 sh1 sc1 =
      .ok (.success, some x, sh2, sc2) := by
  classical
  obtain ⟨h1, h2⟩ := standardize_ok sqrt thr env junk order axis x X dof 0 shift scale hn hp ht
    hld hx he (Or.inl rfl) hsh hsc
  have hgood : ¬ (Given (outLen axis n p) shift scale ∧ scaleFactor dof (outLen axis n p) = 0) := by
    rintro ⟨hg, h0⟩
    rw [h2 hg h0] at hfirst
    cases hfirst
  obtain ⟨x1', sh1', sc1', h3, hlen1, hX1, hpad1, hl1, hl2⟩ := h1 hgood
  rw [h3] at hfirst
  simp only [Except.ok.injEq, Prod.mk.injEq, Option.some.injEq, true_and] at hfirst
  obtain ⟨rfl, rfl, rfl⟩ := hfirst
  obtain ⟨L, hL⟩ : ∃ L, L = outLen axis n p := ⟨_, rfl⟩
  obtain ⟨h, hh⟩ : ∃ h, h = shifts axis n p X shift scale := ⟨_, rfl⟩
  obtain ⟨s, hs⟩ : ∃ s, s = scales sqrt axis n p X dof shift scale := ⟨_, rfl⟩
  rw [← hh] at hl1 hX1
  rw [← hs] at hl2 hX1
  rw [← hL] at hl1 hl2
  obtain ⟨X1, hX1d⟩ : ∃ X1 : Nat → Nat → K, X1 = fun i j => change 0 (X i j) (h (line axis i j))
    (s (line axis i j)) := ⟨_, rfl⟩
  rw [← hX1d] at hX1
  have hsh' : ∀ l, sh1' = some l → outLen axis n p ≤ l.length := by
    intro l hl
    cases hshift : shift with
    | none => rw [hl1.1 hshift] at hl; cases hl
    | some l0 =>
      obtain ⟨l', h4, h5⟩ := hl1.2 l0 hshift
      rw [h4] at hl; cases hl
      have := hsh l0 hshift
      rw [← hL] at this
      rw [h5.length this, ← hL]; exact this
  have hsc' : ∀ l, sc1' = some l → outLen axis n p ≤ l.length := by
    intro l hl
    cases hscale : scale with
    | none => rw [hl2.1 hscale] at hl; cases hl
    | some l0 =>
      obtain ⟨l', h4, h5⟩ := hl2.2 l0 hscale
      rw [h4] at hl; cases hl
      have := hsc l0 hscale
      rw [← hL] at this
      rw [h5.length this, ← hL]; exact this
  obtain ⟨g1, _⟩ := standardize_ok sqrt thr env' junk' order axis x1' X1 dof 1 sh1' sc1' hn hp ht
    hld hX1 he' (Or.inr rfl) hsh' hsc'
  -- it is enough that the second call gives back the entries
  suffices hmain : ¬ (Given L sh1' sc1' ∧ scaleFactor dof L = 0) ∧
      ∀ i < n, ∀ j < p, change 1 (X1 i j) (shifts axis n p X1 sh1' sc1' (line axis i j))
        (scales sqrt axis n p X1 dof sh1' sc1' (line axis i j)) = X i j by
    rw [hL] at hmain
    obtain ⟨x2, sh2, sc2, g2, hlen2, hX2, hpad2, _, _⟩ := g1 hmain.1
    refine ⟨sh2, sc2, ?_⟩
    rw [g2]
    have : x2 = x := by
      apply List.ext_getElem?
      intro q
      by_cases hq : ∃ i < n, ∃ j < p, q = at' order ldx i j
      · obtain ⟨i, hi, j, hj, rfl⟩ := hq
        rw [hX2 i hi j hj, hx i hi j hj, ← hmain.2 i hi j hj]
      · have hq' : ∀ i < n, ∀ j < p, q ≠ at' order ldx i j := by
          intro i hi j hj h; exact hq ⟨i, hi, j, hj, h⟩
        rw [hpad2 q hq', hpad1 q hq']
    rw [this]
  -- undoing with the same shift and an equivalent scale
  have hundo : ∀ i j (h' s' : K), h' = h (line axis i j) → (s' = s (line axis i j)) →
      change 1 (X1 i j) h' s' = X i j := by
    intro i j h' s' e1 e2
    rw [e1, e2, hX1d]
    simp only [change]
    rw [if_pos trivial, if_neg (by decide)]
    split
    · rename_i hne
      field_simp
      ring
    · ring
  -- what the arrays hold
  have hG1 : ∀ l, sh1' = some l → ∀ k < L, l.getD k 0 = h k := by
    intro l hl k hk
    cases hshift : shift with
    | none => rw [hl1.1 hshift] at hl; cases hl
    | some l0 =>
      obtain ⟨l', h4, h5⟩ := hl1.2 l0 hshift
      rw [h4] at hl; cases hl
      have h6 := h5 k
      rw [if_pos hk] at h6
      simp [List.getD, h6]
  have hG2 : ∀ l, sc1' = some l → ∀ k < L, l.getD k 0 = s k := by
    intro l hl k hk
    cases hscale : scale with
    | none => rw [hl2.1 hscale] at hl; cases hl
    | some l0 =>
      obtain ⟨l', h4, h5⟩ := hl2.2 l0 hscale
      rw [h4] at hl; cases hl
      have h6 := h5 k
      rw [if_pos hk] at h6
      simp [List.getD, h6]
  -- the means of data shifted by nothing and scaled, if they were zero
  have hmean0 : (∀ k < L, avg axis n p X k = 0) → (∀ k < L, h k = 0) →
      ∀ k < L, avg axis n p X1 k = 0 := by
    intro hz hz' k hk
    have : total axis n p X1 (fun a => a) k =
        total axis n p X (fun a => a) k / (if s k ≠ 0 then s k else 1) := by
      rw [total_cells, total_cells, sum_div]
      apply sum_congr rfl
      intro c hc
      have hl := ((mem_cells (by rw [← hL]; exact hk)).1 hc).2.2
      rw [hX1d]
      simp only [change]
      rw [hl, if_pos trivial, hz' k hk, sub_zero]
    unfold avg
    rw [this]
    have h5 := hz k hk
    unfold avg at h5
    rw [div_right_comm, h5, zero_div]
  have hL' : ∀ {i j}, i < n → j < p → line axis i j < L := by
    intro i j hi hj; rw [hL]; exact line_lt axis hi hj
  -- data that do not change
  have hsame : (∀ k < L, h k = 0) → (∀ k < L, s k = 0 ∨ s k = 1) →
      ∀ i < n, ∀ j < p, X1 i j = X i j := by
    intro a b i hi j hj
    rw [hX1d]
    simp only [change]
    rw [if_pos trivial, a _ (hL' hi hj)]
    rcases b _ (hL' hi hj) with e | e
    · rw [e]; simp
    · rw [e]; simp
  have hcells : (∀ i < n, ∀ j < p, X1 i j = X i j) → ∀ (g : K → K) (k : Nat), k < L →
      total axis n p X1 g k = total axis n p X g k := by
    intro hsm g k hk
    rw [total_cells, total_cells]
    apply sum_congr rfl
    intro c hc
    obtain ⟨a, b, _⟩ := (mem_cells (by rw [← hL]; exact hk)).1 hc
    rw [hsm _ a _ b]
  have havgs : (∀ i < n, ∀ j < p, X1 i j = X i j) → ∀ k < L, avg axis n p X1 k = avg axis n p X k := by
    intro hsm k hk
    unfold avg
    rw [hcells hsm _ k hk]
  have hsds : (∀ i < n, ∀ j < p, X1 i j = X i j) → ∀ k < L,
      sdMean sqrt axis n p X1 dof k = sdMean sqrt axis n p X dof k := by
    intro hsm k hk
    unfold sdMean
    rw [hcells hsm _ k hk, havgs hsm k hk]
  cases hshift : shift with
  | none =>
    cases hscale : scale with
    | none => rw [hshift, hscale] at hnull; simp at hnull
    | some sc =>
      have e1 := hl1.1 hshift
      obtain ⟨l, e2, _⟩ := hl2.2 sc hscale
      have hv := hG2 l e2
      have hh0 : ∀ k < L, h k = 0 := by intro k _; rw [hh, hshift, hscale]; rfl
      refine ⟨fun hb => ?_, ?_⟩
      · obtain ⟨⟨a, _, ea, _⟩, _⟩ := hb
        rw [e1] at ea; cases ea
      · intro i hi j hj
        apply hundo
        · rw [e1, e2, hh0 _ (hL' hi hj)]; rfl
        · rw [e1, e2]
          unfold scales
          simp only [pickScale]
          rw [← hL]
          by_cases hz : ZeroOn L l
          · rw [if_pos hz]
            have hs0 : ∀ k < L, s k = 0 := fun k hk => by rw [← hv k hk]; exact hz k hk
            have hsm := hsame hh0 (fun k hk => Or.inl (hs0 k hk))
            rw [hsds hsm _ (hL' hi hj), hs, hshift, hscale]
            unfold scales
            simp only [pickScale]
            rw [← hL]
            by_cases hz0 : ZeroOn L sc
            · rw [if_pos hz0]
            · exfalso
              apply hz0
              intro k hk
              have := hs0 k hk
              rw [hs, hshift, hscale] at this
              unfold scales at this
              simp only [pickScale] at this
              rw [← hL, if_neg hz0] at this
              exact this
          · rw [if_neg hz]
            exact hv _ (hL' hi hj)
  | some sh =>
    obtain ⟨l, e1, _⟩ := hl1.2 sh hshift
    have hv1 := hG1 l e1
    -- if the shifts that were left are zero, they were computed
    have hzero : ZeroOn L l → (∀ k < L, h k = 0) ∧ ∀ k < L, avg axis n p X k = 0 := by
      intro hz
      have a : ∀ k < L, h k = 0 := fun k hk => by rw [← hv1 k hk]; exact hz k hk
      refine ⟨a, ?_⟩
      intro k hk
      have b := a k hk
      by_cases hz0 : ZeroOn L sh
      · rw [hh, hshift] at b
        unfold shifts at b
        simp only [pickShift] at b
        rw [← hL, if_pos hz0] at b
        exact b
      · exfalso
        apply hz0
        intro k' hk'
        have b' := a k' hk'
        rw [hh, hshift] at b'
        unfold shifts at b'
        simp only [pickShift] at b'
        rw [← hL, if_neg hz0] at b'
        exact b'
    cases hscale : scale with
    | none =>
      have e2 := hl2.1 hscale
      have hs1 : ∀ k, s k = 1 := by intro k; rw [hs, hshift, hscale]; rfl
      refine ⟨fun hb => ?_, ?_⟩
      · obtain ⟨⟨_, a, _, ea, _⟩, _⟩ := hb
        rw [e2] at ea; cases ea
      · intro i hi j hj
        apply hundo
        · rw [e1, e2]
          unfold shifts
          simp only [pickShift]
          rw [← hL]
          by_cases hz : ZeroOn L l
          · obtain ⟨a, b⟩ := hzero hz
            rw [if_pos hz, hmean0 b a _ (hL' hi hj), a _ (hL' hi hj)]
          · rw [if_neg hz]
            exact hv1 _ (hL' hi hj)
        · rw [e1, e2, hs1]; rfl
    | some sc =>
      obtain ⟨l2, e2, _⟩ := hl2.2 sc hscale
      have hv2 := hG2 l2 e2
      -- if all scales are zero, every line is constant
      have hconst : ZeroOn L l2 → (∀ k < L, s k = 0) ∧ ∀ i < n, ∀ j < p,
          X i j = h (line axis i j) := by
        intro hz
        have a : ∀ k < L, s k = 0 := fun k hk => by rw [← hv2 k hk]; exact hz k hk
        refine ⟨a, ?_⟩
        have hz0 : ZeroOn L sc := by
          by_contra hz0
          apply hz0
          intro k hk
          have b := a k hk
          rw [hs, hshift, hscale] at b
          unfold scales at b
          simp only [pickScale] at b
          rw [← hL, if_neg hz0] at b
          exact b
        intro i hi j hj
        have hk := hL' (j := j) hi hj
        have b := a _ hk
        rw [hs, hshift, hscale] at b
        unfold scales at b
        simp only [pickScale] at b
        rw [← hL, if_pos hz0] at b
        rw [hh, hshift, hscale]
        unfold shifts
        simp only [pickShift]
        rw [← hL]
        by_cases hzs : ZeroOn L sh
        · rw [if_pos hzs] at b ⊢
          exact total_const axis X _ _ (by rw [← hL]; exact hk)
            (sd_zero sqrt hsq axis X dof _ hn hp b) i hi j hj rfl
        · rw [if_neg hzs] at b ⊢
          have hsf : scaleFactor dof (outLen axis n p) ≠ 0 := by
            intro h0
            exact hgood ⟨by rw [← hL, hshift, hscale]; exact ⟨sh, sc, rfl, rfl, hzs, hz0⟩, h0⟩
          exact total_const axis X _ _ (by rw [← hL]; exact hk)
            (about_zero sqrt hsq axis X dof _ _ hn hp hsf b) i hi j hj rfl
      refine ⟨?_, ?_⟩
      · rintro ⟨⟨a, b, ea, eb, hna, hzb⟩, h0⟩
        rw [e1] at ea; cases ea
        rw [e2] at eb; cases eb
        obtain ⟨_, hc⟩ := hconst hzb
        apply hcase
        have hL1 : L = 1 ∧ dof = 0 := by
          have hLp : 0 < L := by rw [hL]; exact outLen_pos axis hn hp
          unfold scaleFactor at h0
          split at h0
          · omega
          · split at h0
            · exact ⟨by omega, by assumption⟩
            · exact absurd h0 (by assumption)
        refine ⟨by rw [← hL]; exact hL1.1, hL1.2, by rw [hshift]; simp, by rw [hscale]; simp,
          h 0, ?_, ?_⟩
        · intro hz
          apply hna
          intro k hk
          have : k = 0 := by omega
          rw [this, hv1 0 (by omega), hz]
        · intro i hi j hj
          rw [hc i hi j hj]
          have : line axis i j = 0 := by have := hL' (j := j) hi hj; omega
          rw [this]
      · intro i hi j hj
        have hk := hL' (j := j) hi hj
        by_cases hz2 : ZeroOn L l2
        · obtain ⟨hs0, hc⟩ := hconst hz2
          by_cases hz1 : ZeroOn L l
          · -- nothing was changed
            obtain ⟨hh0, ha0⟩ := hzero hz1
            have hsm := hsame hh0 (fun k hk => Or.inl (hs0 k hk))
            apply hundo
            · rw [e1, e2]
              unfold shifts
              simp only [pickShift]
              rw [← hL, if_pos hz1, havgs hsm _ hk, ha0 _ hk, hh0 _ hk]
            · rw [e1, e2]
              unfold scales
              simp only [pickScale]
              rw [← hL, if_pos hz2, if_pos hz1, hsds hsm _ hk, hs0 _ hk]
              -- the first call computed the same deviation
              have hzs : ZeroOn L sh := by
                intro k' hk'
                by_contra hne
                have b := hh0 k' hk'
                have hns : ¬ ZeroOn L sh := fun hz => hne (hz k' hk')
                rw [hh, hshift] at b
                unfold shifts at b
                simp only [pickShift] at b
                rw [← hL, if_neg hns] at b
                exact hne b
              have b := hs0 _ hk
              rw [hs, hshift, hscale] at b
              unfold scales at b
              simp only [pickScale] at b
              rw [← hL] at b
              by_cases hz0 : ZeroOn L sc
              · rw [if_pos hz0, if_pos hzs] at b
                exact b
              · exfalso
                apply hz0
                intro k' hk'
                have b' := hs0 k' hk'
                rw [hs, hshift, hscale] at b'
                unfold scales at b'
                simp only [pickScale] at b'
                rw [← hL, if_neg hz0] at b'
                exact b'
          · -- the data became zero, and the shift brings them back
            have hX10 : X1 i j = 0 := by
              rw [hX1d]
              simp only [change]
              rw [if_pos trivial, hc i hi j hj, sub_self, zero_div]
            have hsh2 : shifts axis n p X1 sh1' sc1' (line axis i j) = h (line axis i j) := by
              rw [e1, e2]
              unfold shifts
              simp only [pickShift]
              rw [← hL, if_neg hz1]
              exact hv1 _ hk
            rw [hX10, hsh2, hc i hi j hj]
            unfold change
            rw [if_neg (by decide), zero_mul, zero_add]
        · -- the scales are used as they are
          apply hundo
          · rw [e1, e2]
            unfold shifts
            simp only [pickShift]
            rw [← hL]
            by_cases hz : ZeroOn L l
            · obtain ⟨a, b⟩ := hzero hz
              rw [if_pos hz, hmean0 b a _ hk, a _ hk]
            · rw [if_neg hz]
              exact hv1 _ hk
          · rw [e1, e2]
            unfold scales
            simp only [pickScale]
            rw [← hL, if_neg hz2]
            exact hv2 _ hk

/-- Two columns, one of them constant, standardized and brought back. -/
example : standardize (fun q : Rat => q) 2 (fun _ => Env.plain 2 1 2 2) [] .col .col 2 2
    (some [1, 3, 5, 5]) 2 0 0 (some [0, 0]) (some [0, 0]) =
    .ok (.success, some [-1 / 2, 1 / 2, 0, 0], some [2, 5], some [2, 0]) ∧
  standardize (fun q : Rat => q) 2 (fun _ => Env.plain 2 1 2 2) [] .col .col 2 2
    (some [-1 / 2, 1 / 2, 0, 0]) 2 0 1 (some [2, 5]) (some [2, 0]) =
    .ok (.success, some [1, 3, 5, 5], some [2, 5], some [2, 0]) :=
  ⟨by decide +kernel, by decide +kernel⟩

end Undo

end Verif.Moments
