import Verif.Interp.SplineProof
import Mathlib.LinearAlgebra.FiniteDimensional.Basic
import Mathlib.LinearAlgebra.FiniteDimensional.Lemmas
import Mathlib.Algebra.Polynomial.Derivative
import Mathlib.Data.Rat.Defs
import Mathlib.Algebra.Order.Field.Rat
import Mathlib.Algebra.Order.AbsoluteValue.Basic
import Mathlib.Tactic.Linarith
import Mathlib.Tactic.Positivity

/-
C84: the coefficients of the cubic splines and their evaluation.
-/
namespace Verif.Interp

variable {F : Type} [Field F]

/-- Value and derivatives of the polynomial of cell `i`, dimension `d`, at distance `t`
from the left site of the cell; the layout is the documented one. -/
def S (c : Nat → F) (n d i : Nat) (t : F) : F :=
  c (4 * (d * (n - 1) + i) + 0) + c (4 * (d * (n - 1) + i) + 1) * t + c (4 * (d * (n - 1) + i) + 2) * t ^ 2 +
    c (4 * (d * (n - 1) + i) + 3) * t ^ 3
def S' (c : Nat → F) (n d i : Nat) (t : F) : F :=
  c (4 * (d * (n - 1) + i) + 1) + 2 * c (4 * (d * (n - 1) + i) + 2) * t + 3 * c (4 * (d * (n - 1) + i) + 3) * t ^ 2
def S'' (c : Nat → F) (n d i : Nat) (t : F) : F :=
  2 * c (4 * (d * (n - 1) + i) + 2) + 6 * c (4 * (d * (n - 1) + i) + 3) * t

/-- The polynomials pass through the values at both ends of their cells. -/
def Interpolates (n dim : Nat) (dx : Nat → F) (Y : Nat → Nat → F) (c : Nat → F) : Prop :=
  ∀ d, d < dim → ∀ i, i + 1 < n → S c n d i 0 = Y d i ∧ S c n d i (dx i) = Y d (i + 1)

/-- First and second derivatives are continuous at the inner sites. -/
def Smooth (n dim : Nat) (dx : Nat → F) (c : Nat → F) : Prop :=
  ∀ d, d < dim → ∀ i, i + 2 < n → S' c n d i (dx i) = S' c n d (i + 1) 0 ∧ S'' c n d i (dx i) = S'' c n d (i + 1) 0

/-- The boundary conditions of a kind of spline. -/
def Boundary (n dim : Nat) (dx : Nat → F) (c : Nat → F) : Kind F → Prop
  | .natural => ∀ d, d < dim → S'' c n d 0 0 = 0 ∧ S'' c n d (n - 2) (dx (n - 2)) = 0
  | .clamped => ∀ d, d < dim → S' c n d 0 0 = 0 ∧ S' c n d (n - 2) (dx (n - 2)) = 0
  | .custom lord rord lbc rbc => ∀ d, d < dim →
    (if lord = 1 then S' c n d 0 0 = lbc d else S'' c n d 0 0 = lbc d) ∧
    (if rord = 1 then S' c n d (n - 2) (dx (n - 2)) = rbc d else S'' c n d (n - 2) (dx (n - 2)) = rbc d)
  | .hermite _ => True

section
variable [CharZero F]

theorem z_pieces (rowMajor : Bool) (n dim : Nat) (dx y z : Nat → F) (d i : Nat) (hd : d < dim) (hi : i + 1 < n)
    (hx : dx i ≠ 0) :
    let dy := setDy rowMajor n dim y
    let c := coeffsFromZ rowMajor n dim dx y dy z
    S c n d i 0 = yAt rowMajor n dim y d i ∧ S c n d i (dx i) = yAt rowMajor n dim y d (i + 1) ∧
    S' c n d i 0 = dy (d * (n - 1) + i) / dx i - dx i * z (d * n + i + 1) / 6 - dx i * z (d * n + i) / 3 ∧
    S' c n d i (dx i) = dy (d * (n - 1) + i) / dx i + dx i * z (d * n + i + 1) / 3 + dx i * z (d * n + i) / 6 ∧
    S'' c n d i 0 = z (d * n + i) ∧ S'' c n d i (dx i) = z (d * n + i + 1) := by
  intro dy c
  have hc : ∀ k, k < 4 → c (4 * (d * (n - 1) + i) + k) = zCoef rowMajor n dim dx y dy z d i k :=
    fun k hk => coeffsFromZ_get rowMajor n dim dx y dy z hd hi hk
  have hdy : dy (d * (n - 1) + i) = yAt rowMajor n dim y d (i + 1) - yAt rowMajor n dim y d i :=
    setDy_get rowMajor n dim y d i hd hi
  unfold S S' S''
  rw [hc 0 (by omega), hc 1 (by omega), hc 2 (by omega), hc 3 (by omega)]
  simp only [zCoef]
  rw [hdy]
  generalize yAt rowMajor n dim y d (i + 1) = y1
  generalize yAt rowMajor n dim y d i = y0
  generalize z (d * n + i + 1) = z1
  generalize z (d * n + i) = z0
  generalize dx i = h at *
  refine ⟨by ring, ?_, by ring, ?_, ?_, ?_⟩ <;> field_simp <;> ring

/-- Every kind of spline passes through the values; all but Hermite splines are twice
continuously differentiable and satisfy their boundary conditions.  `s` are the arrays
left by earlier fits. -/
theorem C84_spline (gtsv : Solver F) (hg : Gtsv gtsv) (uniform rowMajor : Bool) (n dim : Nat) (hn : 2 ≤ n)
    (dx y : Nat → F) (hx : ∀ i, i + 1 < n → dx i ≠ 0) (hu : uniform = true → ∀ i, i + 1 < n → dx i = dx 0)
    (k : Kind F) (s : Sys F) (c : Nat → F) (h : interpolate gtsv uniform rowMajor n dim dx y k s = some c) :
    Interpolates n dim dx (fun d i => y (if rowMajor then i * dim + d else d * n + i)) c ∧
    ((∀ yd, k ≠ .hermite yd) → Smooth n dim dx c) ∧ Boundary n dim dx c k := by
  -- the three kinds with second derivatives
  have fromZ : ∀ z, (∀ d, d < dim → Interior n dx (setDy rowMajor n dim y) z d) →
      Interpolates n dim dx (fun d i => y (if rowMajor then i * dim + d else d * n + i))
        (coeffsFromZ rowMajor n dim dx y (setDy rowMajor n dim y) z) ∧
      Smooth n dim dx (coeffsFromZ rowMajor n dim dx y (setDy rowMajor n dim y) z) := by
    intro z hz
    constructor
    · intro d hd i hi
      obtain ⟨a, b, -⟩ := z_pieces rowMajor n dim dx y z d i hd hi (hx i hi)
      exact ⟨a, b⟩
    · intro d hd i hi
      obtain ⟨-, -, -, a1, -, a2⟩ := z_pieces rowMajor n dim dx y z d i hd (by omega) (hx i (by omega))
      obtain ⟨-, -, b1, -, b2, -⟩ := z_pieces rowMajor n dim dx y z d (i + 1) hd (by omega) (hx (i + 1) (by omega))
      have hz' := hz d hd i hi
      rw [a1, a2, b1, b2]
      rw [show d * n + (i + 1) + 1 = d * n + i + 2 by omega, show d * n + (i + 1) = d * n + i + 1 by omega]
      refine ⟨?_, rfl⟩
      generalize setDy rowMajor n dim y (d * (n - 1) + (i + 1)) = dy1 at *
      generalize setDy rowMajor n dim y (d * (n - 1) + i) = dy0 at *
      generalize z (d * n + i + 2) = z2 at *
      generalize z (d * n + i + 1) = z1 at *
      generalize z (d * n + i) = z0 at *
      have h6 : (6 : F) ≠ 0 := by norm_num
      have : 6 * (dy0 / dx i + dx i * z1 / 3 + dx i * z0 / 6) =
          6 * (dy1 / dx (i + 1) - dx (i + 1) * z2 / 6 - dx (i + 1) * z1 / 3) := by
        have e1 : 6 * (dx i * z1 / 3) = 2 * (dx i * z1) := by ring
        have e2 : 6 * (dx i * z0 / 6) = dx i * z0 := by field_simp
        have e3 : 6 * (dx (i + 1) * z2 / 6) = dx (i + 1) * z2 := by field_simp
        have e4 : 6 * (dx (i + 1) * z1 / 3) = 2 * (dx (i + 1) * z1) := by ring
        rw [mul_add, mul_add, mul_sub, mul_sub, e1, e2, e3, e4]
        have e5 : 6 * (dy0 / dx i) = 6 * dy0 / dx i := by ring
        have e6 : 6 * (dy1 / dx (i + 1)) = 6 * dy1 / dx (i + 1) := by ring
        rw [e5, e6]
        linear_combination hz'
      exact mul_left_cancel₀ h6 this
  -- slope at the ends
  have hleft : ∀ z d v, d < dim → 2 * dx 0 * z (d * n) + dx 0 * z (d * n + 1) =
      6 * setDy rowMajor n dim y (d * (n - 1)) / dx 0 - 6 * v →
      S' (coeffsFromZ rowMajor n dim dx y (setDy rowMajor n dim y) z) n d 0 0 = v := by
    intro z d v hd e
    obtain ⟨-, -, a, -⟩ := z_pieces rowMajor n dim dx y z d 0 hd (by omega) (hx 0 (by omega))
    rw [a]
    simp only [Nat.add_zero]
    generalize setDy rowMajor n dim y (d * (n - 1)) = dy0 at *
    have h6 : (6 : F) ≠ 0 := by norm_num
    apply mul_left_cancel₀ h6
    have e2 : 6 * (dx 0 * z (d * n + 1) / 6) = dx 0 * z (d * n + 1) := by field_simp
    have e4 : 6 * (dx 0 * z (d * n) / 3) = 2 * (dx 0 * z (d * n)) := by ring
    have e5 : 6 * (dy0 / dx 0) = 6 * dy0 / dx 0 := by ring
    rw [mul_sub, mul_sub, e2, e4, e5]
    linear_combination -e
  have hright : ∀ z d v, d < dim → dx (n - 2) * z (d * n + (n - 2)) + 2 * dx (n - 2) * z (d * n + (n - 1)) =
      -6 * setDy rowMajor n dim y (d * (n - 1) + n - 2) / dx (n - 2) + 6 * v →
      S' (coeffsFromZ rowMajor n dim dx y (setDy rowMajor n dim y) z) n d (n - 2) (dx (n - 2)) = v := by
    intro z d v hd e
    obtain ⟨-, -, -, a, -⟩ := z_pieces rowMajor n dim dx y z d (n - 2) hd (by omega) (hx (n - 2) (by omega))
    rw [a, show d * n + (n - 2) + 1 = d * n + (n - 1) by omega]
    rw [show d * (n - 1) + n - 2 = d * (n - 1) + (n - 2) by omega] at e
    generalize setDy rowMajor n dim y (d * (n - 1) + (n - 2)) = dy0 at *
    have h6 : (6 : F) ≠ 0 := by norm_num
    apply mul_left_cancel₀ h6
    have e2 : 6 * (dx (n - 2) * z (d * n + (n - 2)) / 6) = dx (n - 2) * z (d * n + (n - 2)) := by field_simp
    have e4 : 6 * (dx (n - 2) * z (d * n + (n - 1)) / 3) = 2 * (dx (n - 2) * z (d * n + (n - 1))) := by ring
    have e5 : -6 * dy0 / dx (n - 2) = -(6 * (dy0 / dx (n - 2))) := by ring
    rw [mul_add, mul_add, e2, e4]
    rw [e5] at e
    linear_combination e
  have hends : ∀ z d, d < dim →
      S'' (coeffsFromZ rowMajor n dim dx y (setDy rowMajor n dim y) z) n d 0 0 = z (d * n) ∧
      S'' (coeffsFromZ rowMajor n dim dx y (setDy rowMajor n dim y) z) n d (n - 2) (dx (n - 2)) = z (d * n + (n - 1)) := by
    intro z d hd
    obtain ⟨-, -, -, -, a, -⟩ := z_pieces rowMajor n dim dx y z d 0 hd (by omega) (hx 0 (by omega))
    obtain ⟨-, -, -, -, -, b⟩ := z_pieces rowMajor n dim dx y z d (n - 2) hd (by omega) (hx (n - 2) (by omega))
    rw [show d * n + (n - 2) + 1 = d * n + (n - 1) by omega] at b
    exact ⟨a, b⟩
  cases k with
  | natural =>
    simp only [interpolate, interpolateDy, Option.map_eq_some_iff] at h
    obtain ⟨z, hz, rfl⟩ := h
    have sp := natural_spec gtsv hg uniform n dim hn dx _ s hu z hz
    obtain ⟨a, b⟩ := fromZ z fun d hd => (sp d hd).1
    refine ⟨a, fun _ => b, fun d hd => ?_⟩
    rw [(hends z d hd).1, (hends z d hd).2]
    exact (sp d hd).2
  | clamped =>
    simp only [interpolate, interpolateDy, Option.map_eq_some_iff] at h
    obtain ⟨z, hz, rfl⟩ := h
    unfold clamped at hz
    simp only at hz
    have sp := full_spec gtsv hg uniform n dim hn dx (setDy rowMajor n dim y) s hu
      (initSystem uniform n dim dx (setDy rowMajor n dim y) s).lo
      (store (initSystem uniform n dim dx (setDy rowMajor n dim y) s).diag [(0, 2 * dx 0), (n - 1, 2 * dx (n - 2))])
      (initSystem uniform n dim dx (setDy rowMajor n dim y) s).up
      (fun d => 6 * setDy rowMajor n dim y (d * (n - 1)) / dx 0)
      (fun d => -6 * setDy rowMajor n dim y (d * (n - 1) + n - 2) / dx (n - 2)) z
      (fun i hi => (initSystem_up uniform n dim dx _ s hu i (by omega)).2)
      (fun i _ hi => (initSystem_up uniform n dim dx _ s hu i hi).1)
      (fun i h0 hi => store_other _ _ _ (by intro v' hv; simp at hv; omega)) hz
    obtain ⟨a, b⟩ := fromZ z fun d hd => (sp d hd).1
    refine ⟨a, fun _ => b, fun d hd => ?_⟩
    obtain ⟨-, s1, s2⟩ := sp d hd
    rw [store_get _ _ 0 (2 * dx 0) (by simp) (by intro v' hv; simp at hv; rcases hv with hv | hv; exact hv; omega),
      (initSystem_up uniform n dim dx _ s hu 0 (by omega)).1] at s1
    rw [store_get _ _ (n - 1) (2 * dx (n - 2)) (by simp) (by intro v' hv; simp at hv; rcases hv with hv | hv; omega; exact hv),
      (initSystem_up uniform n dim dx _ s hu (n - 2) (by omega)).2] at s2
    exact ⟨hleft z d 0 hd (by rw [s1]; ring), hright z d 0 hd (by rw [s2]; ring)⟩
  | custom lord rord lbc rbc =>
    simp only [interpolate, interpolateDy, Option.map_eq_some_iff] at h
    obtain ⟨z, hz, rfl⟩ := h
    unfold custom at hz
    simp only at hz
    have hs := (fun i hi => initSystem_up uniform n dim dx (setDy rowMajor n dim y) s hu i hi)
    generalize hI : initSystem uniform n dim dx (setDy rowMajor n dim y) s = I at hz hs
    have sp := full_spec gtsv hg uniform n dim hn dx (setDy rowMajor n dim y) s hu
      (if rord = 1 then I.lo else store I.lo [(n - 2, 0)])
      (store (store I.diag [(0, if lord = 1 then 2 * dx 0 else 1)]) [(n - 1, if rord = 1 then 2 * dx (n - 2) else 1)])
      (if lord = 1 then I.up else store I.up [(0, 0)])
      (fun d => if lord = 1 then 6 * setDy rowMajor n dim y (d * (n - 1)) / dx 0 - 6 * lbc d else lbc d)
      (fun d => if rord = 1 then -6 * setDy rowMajor n dim y (d * (n - 1) + n - 2) / dx (n - 2) + 6 * rbc d else rbc d) z
      (fun i hi => by
        split
        · exact (hs i (by omega)).2
        · rw [store_other _ _ _ (by intro v' hv; simp at hv; omega)]; exact (hs i (by omega)).2)
      (fun i h0 hi => by
        split
        · exact (hs i hi).1
        · rw [store_other _ _ _ (by intro v' hv; simp at hv; omega)]; exact (hs i hi).1)
      (fun i h0 hi => by
        rw [store_other _ _ _ (by intro v' hv; simp at hv; omega),
          store_other _ _ _ (by intro v' hv; simp at hv; omega), hI])
      (by rw [hI]; exact hz)
    obtain ⟨a, b⟩ := fromZ z fun d hd => (sp d hd).1
    refine ⟨a, fun _ => b, fun d hd => ?_⟩
    obtain ⟨-, s1, s2⟩ := sp d hd
    rw [store_other _ _ _ (by intro v' hv; simp at hv; omega),
      store_get _ _ 0 (if lord = 1 then 2 * dx 0 else 1) (by simp) (by intro v' hv; simpa using hv)] at s1
    rw [store_get _ _ (n - 1) (if rord = 1 then 2 * dx (n - 2) else 1) (by simp) (by intro v' hv; simpa using hv)] at s2
    constructor
    · by_cases hl : lord = 1
      · rw [if_pos hl]
        simp only [if_pos hl] at s1
        rw [(hs 0 (by omega)).1] at s1
        exact hleft z d _ hd s1
      · rw [if_neg hl]
        simp only [if_neg hl] at s1
        rw [store_get _ _ 0 0 (by simp) (by intro v' hv; simpa using hv)] at s1
        rw [(hends z d hd).1, ← s1]; ring
    · by_cases hl : rord = 1
      · rw [if_pos hl]
        simp only [if_pos hl] at s2
        rw [(hs (n - 2) (by omega)).2] at s2
        exact hright z d _ hd s2
      · rw [if_neg hl]
        simp only [if_neg hl] at s2
        rw [store_get _ _ (n - 2) 0 (by simp) (by intro v' hv; simpa using hv)] at s2
        rw [(hends z d hd).2, ← s2]; ring
  | hermite yd =>
    simp only [interpolate, interpolateDy, Option.some.injEq] at h
    subst h
    refine ⟨fun d hd i hi => ?_, fun hk => absurd rfl (hk yd), trivial⟩
    have hc := fun k hk => hermite_get rowMajor n dim dx y yd (setDy rowMajor n dim y) (k := k) hd hi hk
    have hdy := setDy_get rowMajor n dim y d i hd hi
    have h0 := hx i hi
    unfold S
    rw [hc 0 (by omega), hc 1 (by omega), hc 2 (by omega), hc 3 (by omega)]
    simp only [hCoef]
    rw [hdy]
    change _ = yAt rowMajor n dim y d i ∧ _ = yAt rowMajor n dim y d (i + 1)
    generalize yAt rowMajor n dim y d (i + 1) = y1
    generalize yAt rowMajor n dim y d i = y0
    generalize yAt rowMajor n dim yd d (i + 1) = p1
    generalize yAt rowMajor n dim yd d i = p0
    generalize dx i = h at *
    refine ⟨by ring, ?_⟩
    field_simp
    ring

/-- Hermite splines have the given first derivatives at both ends of every cell. -/
theorem C84_hermite (gtsv : Solver F) (uniform rowMajor : Bool) (n dim : Nat)
    (dx y yd : Nat → F) (hx : ∀ i, i + 1 < n → dx i ≠ 0) (s : Sys F) (c : Nat → F)
    (h : interpolate gtsv uniform rowMajor n dim dx y (.hermite yd) s = some c) (d i : Nat) (hd : d < dim) (hi : i + 1 < n) :
    S' c n d i 0 = yd (if rowMajor then i * dim + d else d * n + i) ∧
    S' c n d i (dx i) = yd (if rowMajor then (i + 1) * dim + d else d * n + (i + 1)) := by
  simp only [interpolate, interpolateDy, Option.some.injEq] at h
  subst h
  have hc := fun k hk => hermite_get rowMajor n dim dx y yd (setDy rowMajor n dim y) (k := k) hd hi hk
  have h0 := hx i hi
  unfold S'
  rw [hc 1 (by omega), hc 2 (by omega), hc 3 (by omega)]
  simp only [hCoef]
  change _ = yAt rowMajor n dim yd d i ∧ _ = yAt rowMajor n dim yd d (i + 1)
  generalize setDy rowMajor n dim y (d * (n - 1) + i) = dy
  generalize yAt rowMajor n dim yd d (i + 1) = p1
  generalize yAt rowMajor n dim yd d i = p0
  generalize dx i = h at *
  refine ⟨by ring, ?_⟩
  field_simp
  ring

/-- With one value per cell: full property with the leading dimension of the caller. -/
def C84_ld_statement (F : Type) [Field F] : Prop :=
  ∀ (gtsv : Solver F), Gtsv gtsv → ∀ (n dim ldy : Nat) (dx y : Nat → F) (s : Sys F) (c : Nat → F), 2 ≤ n → n ≤ ldy →
    (∀ i, i + 1 < n → dx i ≠ 0) → interpolate gtsv false false n dim dx y .natural s = some c →
    Interpolates n dim dx (fun d i => y (d * ldy + i)) c

/-- Violated: two sites, two dimensions, leading dimension three. -/
theorem C84_ld_violated : ¬ C84_ld_statement ℚ := by
  intro h
  have := h (fun _ _ _ _ _ _ _ => none) (by intro _ _ _ _ _ _ _ _ h; cases h) 2 2 3 (fun _ => 1)
    (fun k => (k : ℚ)) ⟨fun _ => 0, fun _ => 0, fun _ => 0, fun _ => 0⟩ _ (by decide) (by decide)
    (by intro _ _; decide) rfl
  have h1 := (this 1 (by decide) 0 (by decide)).1
  revert h1
  decide +kernel

/-- It holds if the leading dimension is the number of sites. -/
theorem C84_ld_partial (gtsv : Solver F) (hg : Gtsv gtsv) (n dim ldy : Nat) (dx y : Nat → F) (s : Sys F)
    (c : Nat → F) (hn : 2 ≤ n) (hl : ldy = n) (hx : ∀ i, i + 1 < n → dx i ≠ 0) (k : Kind F)
    (h : interpolate gtsv false false n dim dx y k s = some c) :
    Interpolates n dim dx (fun d i => y (d * ldy + i)) c := by
  subst hl
  exact (C84_spline gtsv hg false false ldy dim hn dx y hx (by intro h; cases h) k s c h).1

end

/-! ### Uniqueness -/

section
variable [LinearOrder F] [IsStrictOrderedRing F]

/-- Left and right equations of a system: a second derivative or a slope is given. -/
def LeftEq (first : Bool) (h w0 w1 v : F) : Prop := (if first then 2 * h * w0 + h * w1 else w0) = v
def RightEq (first : Bool) (h w0 w1 v : F) : Prop := (if first then h * w0 + 2 * h * w1 else w1) = v

theorem tri_zero (n : Nat) (hn : 2 ≤ n) (dx w : Nat → F) (hx : ∀ i, i + 1 < n → 0 < dx i) (fl fr : Bool)
    (hl : LeftEq fl (dx 0) (w 0) (w 1) 0) (hr : RightEq fr (dx (n - 2)) (w (n - 2)) (w (n - 1)) 0)
    (hi : ∀ i, i + 2 < n → dx i * w i + 2 * (dx i + dx (i + 1)) * w (i + 1) + dx (i + 1) * w (i + 2) = 0) :
    ∀ i, i < n → w i = 0 := by
  obtain ⟨m, hm, hmax⟩ := Finset.exists_max_image (Finset.range n) (fun i => |w i|) ⟨0, Finset.mem_range.2 (by omega)⟩
  rw [Finset.mem_range] at hm
  have hmax' : ∀ i, i < n → |w i| ≤ |w m| := fun i hi => hmax i (Finset.mem_range.2 hi)
  have h0 : |w m| = 0 := by
    have hab := abs_nonneg (w m)
    rcases Nat.eq_zero_or_pos m with rfl | hmp
    · unfold LeftEq at hl
      cases fl
      · simp only [Bool.false_eq_true, if_false] at hl
        rw [hl, abs_zero]
      · simp only [if_true] at hl
        have h1 := hx 0 (by omega)
        have e : w 1 = -(2 * w 0) := by
          have : dx 0 * (w 1 + 2 * w 0) = 0 := by linear_combination hl
          have := (mul_eq_zero.1 this).resolve_left (ne_of_gt h1)
          linear_combination this
        have := hmax' 1 (by omega)
        rw [e, abs_neg, abs_mul, abs_two] at this
        linarith
    · rcases Nat.lt_or_ge (m + 1) n with hmn | hmn
      · have e := hi (m - 1) (by omega)
        rw [show m - 1 + 1 = m by omega, show m - 1 + 2 = m + 1 by omega] at e
        have h1 := hx (m - 1) (by omega)
        have h2 := hx m (by omega)
        have e1 : 2 * (dx (m - 1) + dx m) * w m = -(dx (m - 1) * w (m - 1) + dx m * w (m + 1)) := by
          linear_combination e
        have e2 : 2 * (dx (m - 1) + dx m) * |w m| ≤ dx (m - 1) * |w m| + dx m * |w m| := by
          calc 2 * (dx (m - 1) + dx m) * |w m| = |2 * (dx (m - 1) + dx m) * w m| := by
                rw [abs_mul, abs_of_pos (by positivity : 0 < 2 * (dx (m - 1) + dx m))]
            _ = |dx (m - 1) * w (m - 1) + dx m * w (m + 1)| := by rw [e1, abs_neg]
            _ ≤ |dx (m - 1) * w (m - 1)| + |dx m * w (m + 1)| := abs_add_le _ _
            _ = dx (m - 1) * |w (m - 1)| + dx m * |w (m + 1)| := by
                rw [abs_mul, abs_mul, abs_of_pos h1, abs_of_pos h2]
            _ ≤ dx (m - 1) * |w m| + dx m * |w m| :=
                add_le_add (mul_le_mul_of_nonneg_left (hmax' _ (by omega)) h1.le)
                  (mul_le_mul_of_nonneg_left (hmax' _ (by omega)) h2.le)
        have e3 : (dx (m - 1) + dx m) * |w m| ≤ 0 := by linarith
        have h3 : 0 < dx (m - 1) + dx m := by linarith
        by_contra hc
        have := mul_pos h3 (lt_of_le_of_ne hab (Ne.symm hc))
        linarith
      · have hmn' : m = n - 1 := by omega
        unfold RightEq at hr
        rw [← hmn'] at hr
        cases fr
        · simp only [Bool.false_eq_true, if_false] at hr
          rw [hr, abs_zero]
        · simp only [if_true] at hr
          have h1 := hx (n - 2) (by omega)
          have e : w (n - 2) = -(2 * w m) := by
            have : dx (n - 2) * (w (n - 2) + 2 * w m) = 0 := by linear_combination hr
            have := (mul_eq_zero.1 this).resolve_left (ne_of_gt h1)
            linear_combination this
          have := hmax' (n - 2) (by omega)
          rw [e, abs_neg, abs_mul, abs_two] at this
          linarith
  intro i hi'
  have := hmax' i hi'
  rw [h0] at this
  exact abs_eq_zero.1 (le_antisymm this (abs_nonneg _))

/-- The systems always have a solution: whatever the right-hand sides. -/
theorem C84_solvable (n : Nat) (hn : 2 ≤ n) (dx : Nat → F) (hx : ∀ i, i + 1 < n → 0 < dx i) (fl fr : Bool)
    (b : Nat → F) : ∃ z : Nat → F, LeftEq fl (dx 0) (z 0) (z 1) (b 0) ∧
      RightEq fr (dx (n - 2)) (z (n - 2)) (z (n - 1)) (b (n - 1)) ∧
      ∀ i, i + 2 < n → dx i * z i + 2 * (dx i + dx (i + 1)) * z (i + 1) + dx (i + 1) * z (i + 2) = b (i + 1) := by
  let ext : (Fin n → F) → Nat → F := fun w i => if h : i < n then w ⟨i, h⟩ else 0
  have ext_add : ∀ w w' i, ext (w + w') i = ext w i + ext w' i := by
    intro w w' i; simp only [ext]; split <;> simp
  have ext_smul : ∀ (a : F) w i, ext (a • w) i = a * ext w i := by
    intro a w i; simp only [ext]; split <;> simp
  let row : (Nat → F) → Nat → F := fun z i =>
    if i = 0 then (if fl then 2 * dx 0 * z 0 + dx 0 * z 1 else z 0)
    else if i = n - 1 then (if fr then dx (n - 2) * z (n - 2) + 2 * dx (n - 2) * z (n - 1) else z (n - 1))
    else dx (i - 1) * z (i - 1) + 2 * (dx (i - 1) + dx i) * z i + dx i * z (i + 1)
  let T : (Fin n → F) →ₗ[F] (Fin n → F) :=
    { toFun := fun w i => row (ext w) i.val
      map_add' := by
        intro w w'
        funext i
        simp only [Pi.add_apply, row, ext_add]
        split
        · split <;> ring
        · split
          · split <;> ring
          · ring
      map_smul' := by
        intro a w
        funext i
        simp only [Pi.smul_apply, row, ext_smul, RingHom.id_apply, smul_eq_mul]
        split
        · split <;> ring
        · split
          · split <;> ring
          · ring }
  have hT : ∀ w i (h : i < n), T w ⟨i, h⟩ = row (ext w) i := fun w i h => rfl
  have inj : Function.Injective T := by
    rw [injective_iff_map_eq_zero]
    intro w hw
    have hrow : ∀ i, i < n → row (ext w) i = 0 := by
      intro i hi
      rw [← hT w i hi, hw]; rfl
    have hz := tri_zero n hn dx (ext w) hx fl fr
      (by
        have := hrow 0 (by omega)
        simp only [row, if_true] at this
        exact this)
      (by
        have := hrow (n - 1) (by omega)
        simp only [row] at this
        rw [if_neg (by omega), if_pos trivial] at this
        exact this)
      (by
        intro i hi
        have := hrow (i + 1) (by omega)
        simp only [row] at this
        rw [if_neg (by omega), if_neg (by omega), Nat.add_sub_cancel] at this
        exact this)
    funext i
    have := hz i.val i.isLt
    simp only [ext, i.isLt, dif_pos] at this
    exact this
  obtain ⟨w, hw⟩ := LinearMap.injective_iff_surjective.1 inj fun i => b i.val
  have hrow : ∀ i, i < n → row (ext w) i = b i := by
    intro i hi
    rw [← hT w i hi, hw]
  refine ⟨ext w, ?_, ?_, ?_⟩
  · have := hrow 0 (by omega)
    simp only [row, if_true] at this
    exact this
  · have := hrow (n - 1) (by omega)
    simp only [row] at this
    rw [if_neg (by omega), if_pos trivial] at this
    exact this
  · intro i hi
    have := hrow (i + 1) (by omega)
    simp only [row] at this
    rw [if_neg (by omega), if_neg (by omega), Nat.add_sub_cancel] at this
    exact this

/-- The values, the continuity of the derivatives and the boundary conditions leave
exactly one spline. -/
theorem C84_unique (n dim : Nat) (hn : 2 ≤ n) (dx : Nat → F) (hx : ∀ i, i + 1 < n → 0 < dx i) (Y : Nat → Nat → F)
    (k : Kind F) (hk : ∀ yd, k ≠ .hermite yd) (c c' : Nat → F)
    (h1 : Interpolates n dim dx Y c) (h2 : Smooth n dim dx c) (h3 : Boundary n dim dx c k)
    (h1' : Interpolates n dim dx Y c') (h2' : Smooth n dim dx c') (h3' : Boundary n dim dx c' k)
    (d i : Nat) (hd : d < dim) (hi : i + 1 < n) (t : F) : S c n d i t = S c' n d i t := by
  -- the difference of the coefficients
  let e : Nat → Nat → F := fun i k => c (4 * (d * (n - 1) + i) + k) - c' (4 * (d * (n - 1) + i) + k)
  have a0 : ∀ i, i + 1 < n → e i 0 = 0 := by
    intro i hi
    have p := (h1 d hd i hi).1
    have q := (h1' d hd i hi).1
    unfold S at p q
    simp only [e]
    linear_combination p - q
  have a1 : ∀ i, i + 1 < n → e i 1 * dx i + e i 2 * dx i ^ 2 + e i 3 * dx i ^ 3 = 0 := by
    intro i hi
    have p := (h1 d hd i hi).2
    have q := (h1' d hd i hi).2
    have r := a0 i hi
    unfold S at p q
    simp only [e] at r ⊢
    linear_combination p - q - r
  have a2 : ∀ i, i + 2 < n → e i 1 + 2 * e i 2 * dx i + 3 * e i 3 * dx i ^ 2 = e (i + 1) 1 ∧
      2 * e i 2 + 6 * e i 3 * dx i = 2 * e (i + 1) 2 := by
    intro i hi
    have p := h2 d hd i hi
    have q := h2' d hd i hi
    unfold S' S'' at p q
    simp only [e]
    exact ⟨by linear_combination p.1 - q.1, by linear_combination p.2 - q.2⟩
  -- second derivatives at the sites
  let w : Nat → F := fun i => if i = n - 1 then 2 * e (n - 2) 2 + 6 * e (n - 2) 3 * dx (n - 2) else 2 * e i 2
  have w0 : ∀ i, i + 1 < n → w i = 2 * e i 2 := fun i hi => by simp only [w]; rw [if_neg (by omega)]
  have w1 : ∀ i, i + 1 < n → w (i + 1) = 2 * e i 2 + 6 * e i 3 * dx i := by
    intro i hi
    rcases Nat.lt_or_ge (i + 2) n with h | h
    · rw [w0 (i + 1) (by omega), (a2 i h).2]
    · have : i = n - 2 := by omega
      subst this
      simp only [w]
      rw [if_pos (by omega)]
  -- slopes from the second derivatives
  have s0 : ∀ i, i + 1 < n → 6 * e i 1 = -(dx i * w (i + 1)) - 2 * (dx i * w i) := by
    intro i hi
    have hne := ne_of_gt (hx i hi)
    have := a1 i hi
    have h' : e i 1 + e i 2 * dx i + e i 3 * dx i ^ 2 = 0 := by
      have : dx i * (e i 1 + e i 2 * dx i + e i 3 * dx i ^ 2) = 0 := by linear_combination this
      exact (mul_eq_zero.1 this).resolve_left hne
    rw [w1 i hi, w0 i hi]
    linear_combination 6 * h'
  have s1 : ∀ i, i + 1 < n → 6 * (e i 1 + 2 * e i 2 * dx i + 3 * e i 3 * dx i ^ 2) =
      2 * (dx i * w (i + 1)) + dx i * w i := by
    intro i hi
    have := s0 i hi
    rw [w1 i hi, w0 i hi] at this ⊢
    linear_combination this
  have wz : ∀ i, i < n → w i = 0 := by
    have key : ∀ fl fr : Bool, (if fl then e 0 1 = 0 else 2 * e 0 2 = 0) →
        (if fr then e (n - 2) 1 + 2 * e (n - 2) 2 * dx (n - 2) + 3 * e (n - 2) 3 * dx (n - 2) ^ 2 = 0
          else 2 * e (n - 2) 2 + 6 * e (n - 2) 3 * dx (n - 2) = 0) → ∀ i, i < n → w i = 0 := by
      intro fl fr b1 b2
      refine tri_zero n hn dx w hx fl fr ?_ ?_ ?_
      · unfold LeftEq
        cases fl
        · simp only [Bool.false_eq_true, if_false] at b1 ⊢
          rw [w0 0 (by omega)]; exact b1
        · simp only [if_true] at b1 ⊢
          have := s0 0 (by omega)
          rw [b1] at this
          linear_combination this
      · unfold RightEq
        cases fr
        · simp only [Bool.false_eq_true, if_false] at b2 ⊢
          have := w1 (n - 2) (by omega)
          rw [show n - 2 + 1 = n - 1 by omega] at this
          rw [this]; exact b2
        · simp only [if_true] at b2 ⊢
          have := s1 (n - 2) (by omega)
          rw [show n - 2 + 1 = n - 1 by omega, b2] at this
          linear_combination -this
      · intro i hi
        have p := s1 i (by omega)
        have q := s0 (i + 1) (by omega)
        rw [(a2 i hi).1] at p
        linear_combination q - p
    have hS0 : ∀ c : Nat → F, S' c n d 0 0 = c (4 * (d * (n - 1) + 0) + 1) ∧ S'' c n d 0 0 = 2 * c (4 * (d * (n - 1) + 0) + 2) := by
      intro c
      unfold S' S''
      exact ⟨by ring, by ring⟩
    cases k with
    | natural =>
      have p := h3 d hd
      have q := h3' d hd
      rw [(hS0 c).2] at p
      rw [(hS0 c').2] at q
      unfold S'' at p q
      refine key false false ?_ ?_ <;> simp only [Bool.false_eq_true, if_false, e]
      · linear_combination p.1 - q.1
      · linear_combination p.2 - q.2
    | clamped =>
      have p := h3 d hd
      have q := h3' d hd
      rw [(hS0 c).1] at p
      rw [(hS0 c').1] at q
      unfold S' at p q
      refine key true true ?_ ?_ <;> simp only [if_true, e]
      · linear_combination p.1 - q.1
      · linear_combination p.2 - q.2
    | custom lord rord lbc rbc =>
      have p := h3 d hd
      have q := h3' d hd
      rw [(hS0 c).1, (hS0 c).2] at p
      rw [(hS0 c').1, (hS0 c').2] at q
      unfold S' S'' at p q
      refine key (decide (lord = 1)) (decide (rord = 1)) ?_ ?_
      · have p := p.1
        have q := q.1
        by_cases hl : lord = 1
        · rw [if_pos hl] at p q
          simp only [hl, decide_true, if_true, e]
          linear_combination p - q
        · rw [if_neg hl] at p q
          simp only [hl, decide_false, Bool.false_eq_true, if_false, e]
          linear_combination p - q
      · have p := p.2
        have q := q.2
        by_cases hl : rord = 1
        · rw [if_pos hl] at p q
          simp only [hl, decide_true, if_true, e]
          linear_combination p - q
        · rw [if_neg hl] at p q
          simp only [hl, decide_false, Bool.false_eq_true, if_false, e]
          linear_combination p - q
    | hermite yd => exact absurd rfl (hk yd)
  have hne := ne_of_gt (hx i hi)
  have e2 : e i 2 = 0 := by
    have := w0 i hi
    rw [wz i (by omega)] at this
    exact (mul_eq_zero.1 this.symm).resolve_left (by norm_num)
  have e3 : e i 3 = 0 := by
    have := w1 i hi
    rw [wz (i + 1) hi, e2] at this
    have h6 : (6 * dx i) * e i 3 = 0 := by linear_combination -this
    exact (mul_eq_zero.1 h6).resolve_left (mul_ne_zero (by norm_num) hne)
  have e1 : e i 1 = 0 := by
    have := s0 i hi
    rw [wz (i + 1) hi, wz i (by omega)] at this
    have h6 : 6 * e i 1 = 0 := by linear_combination this
    exact (mul_eq_zero.1 h6).resolve_left (by norm_num)
  have e0 := a0 i hi
  simp only [e] at e0 e1 e2 e3
  unfold S
  linear_combination e0 + t * e1 + t ^ 2 * e2 + t ^ 3 * e3

/-- A cubic polynomial is reproduced: values and boundary conditions taken from it give
the polynomial on every cell. -/
theorem C84_reproduces (gtsv : Solver F) (hg : Gtsv gtsv) (uniform : Bool) (n : Nat) (hn : 2 ≤ n)
    (x : Nat → F) (hx : ∀ i, i + 1 < n → x i < x (i + 1))
    (hu : uniform = true → ∀ i, i + 1 < n → x (i + 1) - x i = x 1 - x 0) (a0 a1 a2 a3 : F) (lord rord : Nat) (s : Sys F)
    (c : Nat → F)
    (h : interpolate gtsv uniform false n 1 (fun i => x (i + 1) - x i)
      (fun i => a0 + a1 * x i + a2 * x i ^ 2 + a3 * x i ^ 3)
      (.custom lord rord
        (fun _ => if lord = 1 then a1 + 2 * a2 * x 0 + 3 * a3 * x 0 ^ 2 else 2 * a2 + 6 * a3 * x 0)
        (fun _ => if rord = 1 then a1 + 2 * a2 * x (n - 1) + 3 * a3 * x (n - 1) ^ 2 else 2 * a2 + 6 * a3 * x (n - 1))) s = some c)
    (i : Nat) (hi : i + 1 < n) (v : F) :
    S c n 0 i (v - x i) = a0 + a1 * v + a2 * v ^ 2 + a3 * v ^ 3 := by
  have hx' : ∀ i, i + 1 < n → 0 < x (i + 1) - x i := fun i hi => by have := hx i hi; linarith
  obtain ⟨p1, p2, p3⟩ := C84_spline gtsv hg uniform false n 1 hn _ _ (fun i hi => ne_of_gt (hx' i hi)) hu _ s c h
  -- the coefficients of the polynomial around the sites
  let c' : Nat → F := fun k =>
    let j := k / 4
    if k % 4 = 0 then a0 + a1 * x j + a2 * x j ^ 2 + a3 * x j ^ 3
    else if k % 4 = 1 then a1 + 2 * a2 * x j + 3 * a3 * x j ^ 2
    else if k % 4 = 2 then a2 + 3 * a3 * x j else a3
  have c0 : ∀ i, c' (4 * (0 * (n - 1) + i) + 0) = a0 + a1 * x i + a2 * x i ^ 2 + a3 * x i ^ 3 := by
    intro i
    simp only [c']
    rw [if_pos (by omega), show (4 * (0 * (n - 1) + i) + 0) / 4 = i by omega]
  have c1 : ∀ i, c' (4 * (0 * (n - 1) + i) + 1) = a1 + 2 * a2 * x i + 3 * a3 * x i ^ 2 := by
    intro i
    simp only [c']
    rw [if_neg (by omega), if_pos (by omega), show (4 * (0 * (n - 1) + i) + 1) / 4 = i by omega]
  have c2 : ∀ i, c' (4 * (0 * (n - 1) + i) + 2) = a2 + 3 * a3 * x i := by
    intro i
    simp only [c']
    rw [if_neg (by omega), if_neg (by omega), if_pos (by omega), show (4 * (0 * (n - 1) + i) + 2) / 4 = i by omega]
  have c3 : ∀ i, c' (4 * (0 * (n - 1) + i) + 3) = a3 := by
    intro i
    simp only [c']
    rw [if_neg (by omega), if_neg (by omega), if_neg (by omega)]
  have hS : ∀ i t, S c' n 0 i t = a0 + a1 * (x i + t) + a2 * (x i + t) ^ 2 + a3 * (x i + t) ^ 3 := by
    intro i t
    unfold S
    rw [c0, c1, c2, c3]; ring
  have hS' : ∀ i t, S' c' n 0 i t = a1 + 2 * a2 * (x i + t) + 3 * a3 * (x i + t) ^ 2 := by
    intro i t
    unfold S'
    rw [c1, c2, c3]; ring
  have hS'' : ∀ i t, S'' c' n 0 i t = 2 * a2 + 6 * a3 * (x i + t) := by
    intro i t
    unfold S''
    rw [c2, c3]; ring
  have hxx : ∀ i, x i + (x (i + 1) - x i) = x (i + 1) := fun i => by ring
  have hz : ∀ d, d < 1 → d = 0 := fun d hd => by omega
  rw [C84_unique n 1 hn (fun i => x (i + 1) - x i) hx' _ _ (by intro yd h; cases h) c c' p1
    (p2 (by intro yd h; cases h)) p3 ?_ ?_ ?_ 0 i (by omega) hi, hS]
  · ring
  · intro d hd i hi
    rw [hz d hd]
    simp only [Bool.false_eq_true, if_false, Nat.zero_mul, Nat.zero_add, hS, hxx]
    exact ⟨by ring, trivial⟩
  · intro d hd i hi
    rw [hz d hd]
    simp only [hS', hS'', hxx]
    exact ⟨by ring, by ring⟩
  · intro d hd
    rw [hz d hd]
    simp only [hS', hS'', add_zero, show n - 2 + 1 = n - 1 by omega]
    rw [show x (n - 2) + (x (n - 1) - x (n - 2)) = x (n - 1) by ring]
    constructor
    · split <;> rfl
    · split <;> rfl

end

/-! ### Evaluation -/

open Polynomial in
/-- `spline_eval` gives the derivatives of the polynomial. -/
theorem C84_eval (o : Nat) (A B C' D h : F) :
    splineEval o A B C' D h =
      ((Polynomial.derivative^[o]) (Polynomial.C D + Polynomial.C C' * X + Polynomial.C B * X ^ 2 + Polynomial.C A * X ^ 3)).eval h := by
  have c2 : (Polynomial.C (2 : F)) = 2 := map_ofNat _ _
  have c3 : (Polynomial.C (3 : F)) = 3 := map_ofNat _ _
  have c6 : (Polynomial.C (6 : F)) = 6 := map_ofNat _ _
  have d1 : Polynomial.derivative (Polynomial.C D + Polynomial.C C' * X + Polynomial.C B * X ^ 2 + Polynomial.C A * X ^ 3) =
      Polynomial.C C' + Polynomial.C (2 * B) * X + Polynomial.C (3 * A) * X ^ 2 := by
    simp [c2, c3]; ring
  have d2 : Polynomial.derivative (Polynomial.C C' + Polynomial.C (2 * B) * X + Polynomial.C (3 * A) * X ^ 2) =
      Polynomial.C (2 * B) + Polynomial.C (6 * A) * X := by
    simp [c2, c3, c6]; ring
  have d3 : Polynomial.derivative (Polynomial.C (2 * B) + Polynomial.C (6 * A) * X) = Polynomial.C (6 * A) := by
    simp
  match o with
  | 0 => simp [splineEval]; ring
  | 1 => simp only [Function.iterate_one, d1, splineEval]; simp; ring
  | 2 => simp only [Function.iterate_succ, Function.iterate_zero, Function.comp, d1, d2, splineEval, id]; simp
  | 3 => simp only [Function.iterate_succ, Function.iterate_zero, Function.comp, d1, d2, d3, splineEval, id]; simp
  | o + 4 =>
    have d4 : Polynomial.derivative (Polynomial.C (6 * A)) = 0 := Polynomial.derivative_C
    simp only [Function.iterate_succ, Function.comp, d1, d2, d3, d4, splineEval]
    rw [Polynomial.iterate_derivative_zero]; simp

/-- Full property: block `p` of the result holds the derivative of order `orders[p]`. -/
def C84_orders_statement (F : Type) [Field F] : Prop :=
  ∀ (n dim nEval : Nat) (x xEval coeffs : Nat → F) (cells : Nat → Nat) (orders : List Nat) (y0 y : Nat → F),
    evaluate n dim nEval x xEval coeffs cells orders y0 = some y →
    ∀ p (hp : p < orders.length) d i, d < dim → i < nEval →
      y (p * (nEval * dim) + (d * nEval + i)) = splineEval orders[p]
        (coeffs (4 * (d * (n - 1) + cells i) + 3)) (coeffs (4 * (d * (n - 1) + cells i) + 2))
        (coeffs (4 * (d * (n - 1) + cells i) + 1)) (coeffs (4 * (d * (n - 1) + cells i) + 0)) (xEval i - x (cells i))

/-- Violated: the blocks are in increasing order whatever the order of the request. -/
theorem C84_orders_violated : ¬ C84_orders_statement ℚ := by
  intro h
  have := h 2 1 1 (fun i => i) (fun _ => 0) (fun k => if k = 1 then 1 else 0) (fun _ => 0) [1, 0] (fun _ => 0) _ rfl 0
    (by decide) 0 0 (by decide) (by decide)
  revert this
  decide +kernel

/-- What `evaluate` writes: block `p` holds the derivative of the `p`-th order in
increasing order, without repetitions, and nothing else is written. -/
theorem C84_evaluate (n dim nEval : Nat) (x xEval coeffs : Nat → F) (cells : Nat → Nat) (orders os : List Nat)
    (ho : ordersOf orders = some os) (y0 : Nat → F) :
    ∃ y, evaluate n dim nEval x xEval coeffs cells orders y0 = some y ∧
    (∀ p (hp : p < os.length) d i, d < dim → i < nEval →
      y (p * (nEval * dim) + (d * nEval + i)) = splineEval os[p]
        (coeffs (4 * (d * (n - 1) + cells i) + 3)) (coeffs (4 * (d * (n - 1) + cells i) + 2))
        (coeffs (4 * (d * (n - 1) + cells i) + 1)) (coeffs (4 * (d * (n - 1) + cells i) + 0)) (xEval i - x (cells i))) ∧
    ∀ k, os.length * (nEval * dim) ≤ k → y k = y0 k := by
  have hin : ∀ d i, d < dim → i < nEval → d * nEval + i < nEval * dim := by
    intro d i hd hi
    have h1 : (d + 1) * nEval ≤ dim * nEval := Nat.mul_le_mul_right _ hd
    rw [Nat.succ_mul] at h1
    rw [Nat.mul_comm nEval dim]
    omega
  have hmem : ∀ (q : Nat × F), q ∈ (loop2 dim nEval fun d i =>
      os.zipIdx.map fun p =>
        (d * nEval + i + p.2 * (nEval * dim),
          splineEval p.1 (coeffs (d * 4 * (n - 1) + 4 * cells i + 3)) (coeffs (d * 4 * (n - 1) + 4 * cells i + 2))
            (coeffs (d * 4 * (n - 1) + 4 * cells i + 1)) (coeffs (d * 4 * (n - 1) + 4 * cells i + 0))
            (xEval i - x (cells i)))).flatten ↔
      ∃ d, d < dim ∧ ∃ i, i < nEval ∧ ∃ p, ∃ hp : p < os.length, q = (p * (nEval * dim) + (d * nEval + i),
        splineEval os[p]
        (coeffs (4 * (d * (n - 1) + cells i) + 3)) (coeffs (4 * (d * (n - 1) + cells i) + 2))
        (coeffs (4 * (d * (n - 1) + cells i) + 1)) (coeffs (4 * (d * (n - 1) + cells i) + 0)) (xEval i - x (cells i))) := by
    intro q
    rw [List.mem_flatten]
    constructor
    · rintro ⟨l, hl, hq⟩
      obtain ⟨d, hd, i, hi, rfl⟩ := mem_loop2.1 hl
      obtain ⟨⟨o, p⟩, hp, rfl⟩ := List.mem_map.1 hq
      obtain ⟨h1, h2⟩ := List.mem_zipIdx' hp
      refine ⟨d, hd, i, hi, p, h1, ?_⟩
      simp only at h2 ⊢
      rw [idx4, ← h2, Nat.add_comm]
    · rintro ⟨d, hd, i, hi, p, hp, rfl⟩
      refine ⟨_, mem_loop2.2 ⟨d, hd, i, hi, rfl⟩, List.mem_map.2 ⟨(os[p], p), ?_, ?_⟩⟩
      · rw [List.mem_zipIdx_iff_getElem?]
        simp [hp]
      · simp only
        rw [idx4, Nat.add_comm]
  unfold evaluate
  rw [ho]
  refine ⟨_, rfl, ?_, ?_⟩
  · intro p hp d i hd hi
    refine store_get _ _ _ _ ((hmem _).2 ⟨d, hd, i, hi, p, hp, rfl⟩) ?_
    intro v' hv
    obtain ⟨d', hd', i', hi', p', hp', e⟩ := (hmem _).1 hv
    simp only [Prod.mk.injEq] at e
    obtain ⟨rfl, e2⟩ := idx_inj e.1 (hin d i hd hi) (hin d' i' hd' hi')
    obtain ⟨rfl, rfl⟩ := idx_inj e2 hi hi'
    exact e.2
  · intro k hk
    refine store_other _ _ _ ?_
    intro v' hv
    obtain ⟨d', hd', i', hi', p', hp', e⟩ := (hmem _).1 hv
    simp only [Prod.mk.injEq] at e
    have h1 := hin d' i' hd' hi'
    have h2 : (p' + 1) * (nEval * dim) ≤ os.length * (nEval * dim) := Nat.mul_le_mul_right _ hp'
    rw [Nat.succ_mul] at h2
    omega

/-- The property holds for orders given in increasing order. -/
theorem C84_orders_partial (n dim nEval : Nat) (x xEval coeffs : Nat → F) (cells : Nat → Nat) (orders : List Nat)
    (hs : orders.Pairwise (· < ·)) (y0 y : Nat → F) (h : evaluate n dim nEval x xEval coeffs cells orders y0 = some y)
    (p : Nat) (hp : p < orders.length) (d i : Nat) (hd : d < dim) (hi : i < nEval) :
      y (p * (nEval * dim) + (d * nEval + i)) = splineEval orders[p]
        (coeffs (4 * (d * (n - 1) + cells i) + 3)) (coeffs (4 * (d * (n - 1) + cells i) + 2))
        (coeffs (4 * (d * (n - 1) + cells i) + 1)) (coeffs (4 * (d * (n - 1) + cells i) + 0)) (xEval i - x (cells i)) := by
  have ho : ordersOf orders = some orders := by
    unfold ordersOf
    split
    · rename_i hall
      simp only [List.all_eq_true, decide_eq_true_eq] at hall
      congr 1
      have p1 : ((List.range 4).filter fun o => decide (o ∈ orders)).Pairwise (· < ·) :=
        List.Pairwise.filter _ List.pairwise_lt_range
      refine List.Perm.eq_of_pairwise (le := (· < ·)) (fun a b _ _ h1 h2 => by omega) p1 hs ?_
      rw [List.perm_ext_iff_of_nodup (p1.imp fun h => by omega) (hs.imp fun h => by omega)]
      intro a
      simp only [List.mem_filter, List.mem_range, decide_eq_true_eq]
      constructor
      · exact fun h => h.2
      · exact fun h => ⟨by have := hall a h; omega, h⟩
    · rename_i hall
      unfold evaluate ordersOf at h
      rw [if_neg hall] at h
      cases h
  obtain ⟨y', e1, e2, -⟩ := C84_evaluate n dim nEval x xEval coeffs cells orders orders ho y0
  rw [h] at e1
  rw [Option.some.inj e1]
  exact e2 p hp d i hd hi

/-! ### Examples -/

/-- A solver for the examples: elimination without exchanges. -/
def thomas : Solver ℚ := fun neq nrhs dl d du b ldb =>
  let piv := fun i : Nat => (List.range i).foldl (fun p k => d (k + 1) - dl k / p * du k) (d 0)
  some fun k =>
    if k / ldb < nrhs ∧ k % ldb < neq then
      let c := k / ldb * ldb
      let f := fun i : Nat => (List.range i).foldl (fun v j => b (c + j + 1) - dl j / piv j * v) (b c)
      (List.range (neq - k % ldb)).foldl (fun v j =>
        let i := neq - 1 - j
        (f i - (if j = 0 then 0 else du i * v)) / piv i) 0
    else b k

/-- A clamped spline through (0,0), (1,1), (3,0). -/
example : (interpolate thomas false false 3 1 (fun i => if i = 0 then 1 else 2) (fun i => if i = 1 then 1 else 0)
    .clamped ⟨fun _ => 7, fun _ => 7, fun _ => 7, fun _ => 7⟩).map (fun c => (List.range 8).map c) =
    some [0, 0, 9 / 4, -5 / 4, 1, 3 / 4, -3 / 2, 7 / 16] := by decide +kernel

end Verif.Interp
