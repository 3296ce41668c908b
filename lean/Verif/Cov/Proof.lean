import Mathlib.Algebra.Order.BigOperators.Ring.Finset
import Mathlib.Tactic.FieldSimp
import Mathlib.Tactic.Positivity
import Verif.Cov.Model
import Verif.Cov.SyrkLoop
import Verif.Moments.StdProof

/-
Covariance and correlation: the copy, the triangle and the whole function.
-/
namespace Verif.Cov

set_option linter.unusedSectionVars false

open Moments (M Fault rd wr forUp Order Axis Env divM standardize ok_bind rd_ok wr_ok forUp_zero
  forUp_succ at' Holds LdOk avg)
open Finset

variable {K : Type} [Field K] [LinearOrder K] [IsStrictOrderedRing K]

theorem pos_inj {ld a b a' b' : Nat} (ha : a < ld) (ha' : a' < ld) (h : b * ld + a = b' * ld + a') :
    b = b' ∧ a = a' := by
  have hp : 0 < ld := by omega
  have h1 : (a + b * ld) % ld = (a' + b' * ld) % ld := by
    rw [Nat.add_comm a, Nat.add_comm a', h]
  have h2 : (a + b * ld) / ld = (a' + b' * ld) / ld := by
    rw [Nat.add_comm a, Nat.add_comm a', h]
  rw [Nat.add_mul_mod_self_right, Nat.add_mul_mod_self_right, Nat.mod_eq_of_lt ha,
    Nat.mod_eq_of_lt ha'] at h1
  rw [Nat.add_mul_div_right _ _ hp, Nat.add_mul_div_right _ _ hp, Nat.div_eq_of_lt ha,
    Nat.div_eq_of_lt ha'] at h2
  omega

theorem copyData_ok (outer inner ldx : Nat) (x y : List K) (g : Nat → Nat → K)
    (hx : ∀ j < outer, ∀ i < inner, x[j * ldx + i]? = some (g j i))
    (hy : y.length = outer * inner) :
    ∃ y', copyData outer inner ldx x y = .ok y' ∧
      ∀ j < outer, ∀ i < inner, y'[j * inner + i]? = some (g j i) := by
  obtain ⟨y', h1, _, h3, _⟩ := own ((List.range outer).flatMap fun j =>
      (List.range inner).map fun i => (j, i))
    (fun q => q.1 * inner + q.2) (fun q => g q.1 q.2)
    (fun y q => do
      let a ← rd x (q.1 * ldx + q.2)
      wr y (q.1 * inner + q.2) a) y
    (List.Nodup.product List.nodup_range List.nodup_range)
    (by
      rintro ⟨j, i⟩ hp ⟨j', i'⟩ hp' he
      simp only [List.mem_flatMap, List.mem_range, List.mem_map, Prod.mk.injEq] at hp hp'
      obtain ⟨_, _, _, h1, rfl, rfl⟩ := hp
      obtain ⟨_, _, _, h2, rfl, rfl⟩ := hp'
      have := pos_inj h1 h2 he
      exact Prod.ext this.1 this.2)
    (by
      rintro ⟨j, i⟩ hp
      simp only [List.mem_flatMap, List.mem_range, List.mem_map, Prod.mk.injEq] at hp
      obtain ⟨j, h0, i, h1, rfl, rfl⟩ := hp
      rw [hy]
      have : (j + 1) * inner ≤ outer * inner := Nat.mul_le_mul_right _ h0
      rw [Nat.add_mul] at this
      simp only
      omega)
    (by
      rintro ⟨j, i⟩ hp s hs _ _
      simp only [List.mem_flatMap, List.mem_range, List.mem_map, Prod.mk.injEq] at hp
      obtain ⟨j, h0, i, h1, rfl, rfl⟩ := hp
      have : (j + 1) * inner ≤ outer * inner := Nat.mul_le_mul_right _ h0
      rw [Nat.add_mul] at this
      simp only
      rw [rd_ok (hx j h0 i h1), ok_bind, wr_ok _ (by rw [hs, hy]; omega)])
  refine ⟨y', ?_, ?_⟩
  · rw [← h1]
    unfold copyData forUp
    exact foldlM_flat (List.range outer) (fun _ => List.range inner) (fun y j i => do
      let a ← rd x (j * ldx + i)
      wr y (j * inner + i) a) y
  · intro j hj i hi
    exact h3 (j, i) (by simp [hj, hi])

/-- The triangle `inner index ≤ line` is copied into the other. -/
theorem mirrorCopy_ok (p ldmat : Nat) (rows : List Nat) (mat : List K) (G : Nat → Nat → K)
    (hld : p ≤ ldmat) (hrows : rows.Perm (List.range (p - 1)))
    (hin : ∀ a < p, ∀ b < p, a + ldmat * b < mat.length)
    (hG : ∀ a < p, ∀ b < p, a ≤ b → mat[a + ldmat * b]? = some (G a b)) :
    ∃ m', mirrorCopy p ldmat rows mat = .ok m' ∧ m'.length = mat.length ∧
      (∀ a < p, ∀ b < p, m'[a + ldmat * b]? = some (if a ≤ b then G a b else G b a)) ∧
      ∀ q, (∀ a < p, ∀ b < p, q ≠ a + ldmat * b) → m'[q]? = mat[q]? := by
  have hmem : ∀ i j, (i, j) ∈ (rows.flatMap fun i =>
      (List.range' (i + 1) (p - (i + 1))).map fun j => (i, j)) ↔ i < j ∧ j < p := by
    intro i j
    simp only [List.mem_flatMap, List.mem_map, List.mem_range'_1, Prod.mk.injEq]
    constructor
    · rintro ⟨_, _, _, h2, rfl, rfl⟩; omega
    · intro h
      exact ⟨i, hrows.mem_iff.2 (List.mem_range.2 (by omega)), j, by omega, rfl, rfl⟩
  have hcell : ∀ a b a' b' : Nat, a < p → b < p → a' < p → b' < p →
      a + ldmat * b = a' + ldmat * b' → a = a' ∧ b = b' := fun a b a' b' h1 h2 h3 h4 he =>
    cell_inj (order := .col) hld h1 h2 h3 h4 he
  obtain ⟨m', h1, h2, h3, h4⟩ := own (rows.flatMap fun i =>
      (List.range' (i + 1) (p - (i + 1))).map fun j => (i, j))
    (fun c => c.2 + ldmat * c.1) (fun c => G c.1 c.2)
    (fun mat c => do
      let a ← rd mat (c.1 + c.2 * ldmat)
      wr mat (c.2 + c.1 * ldmat) a) mat
    (by
      rw [List.nodup_flatMap]
      constructor
      · intro i _
        exact List.Nodup.map (fun a b h => (Prod.mk.inj h).2) List.nodup_range'
      · apply List.Pairwise.imp _ (hrows.nodup_iff.2 List.nodup_range)
        intro a b hab
        rw [Function.onFun, List.disjoint_left]
        intro x hx hy
        simp only [List.mem_map] at hx hy
        obtain ⟨_, _, rfl⟩ := hx
        obtain ⟨_, _, h⟩ := hy
        exact hab (Prod.mk.inj h).1.symm)
    (by
      rintro ⟨i, j⟩ hp ⟨i', j'⟩ hp' he
      have a1 := (hmem _ _).1 hp
      have a2 := (hmem _ _).1 hp'
      have := hcell j i j' i' (by omega) (by omega) (by omega) (by omega) he
      exact Prod.ext this.2 this.1)
    (by
      rintro ⟨i, j⟩ hp
      have a1 := (hmem _ _).1 hp
      exact hin j (by omega) i (by omega))
    (by
      rintro ⟨i, j⟩ hp s hs hrest _
      have a1 := (hmem _ _).1 hp
      have e1 : s[i + j * ldmat]? = some (G i j) := by
        rw [Nat.mul_comm j, hrest, hG i (by omega) j (by omega) (by omega)]
        rintro ⟨i', j'⟩ hp' he
        have a2 := (hmem _ _).1 hp'
        have := hcell i j j' i' (by omega) (by omega) (by omega) (by omega) he
        omega
      simp only
      rw [rd_ok e1, ok_bind, Nat.mul_comm i,
        wr_ok _ (by rw [hs]; exact hin j (by omega) i (by omega))])
  refine ⟨m', ?_, h2, ?_, ?_⟩
  · rw [← h1]
    unfold mirrorCopy
    exact foldlM_flat rows (fun i => List.range' (i + 1) (p - (i + 1))) (fun mat i j => do
      let a ← rd mat (i + j * ldmat)
      wr mat (j + i * ldmat) a) mat
  · intro a ha b hb
    by_cases h : a ≤ b
    · rw [if_pos h, h4, hG a ha b hb h]
      rintro ⟨i, j⟩ hp he
      have a2 := (hmem _ _).1 hp
      have := hcell a b j i (by omega) (by omega) (by omega) (by omega) he
      omega
    · rw [if_neg h]
      exact h3 (b, a) ((hmem _ _).2 ⟨by omega, ha⟩)
  · intro q hq
    apply h4
    rintro ⟨i, j⟩ hp
    have a1 := (hmem _ _).1 hp
    exact hq j (by omega) i (by omega)

/-- The diagonal of ones. -/
theorem diag_ok (p ldmat : Nat) (mat : List K) (hld : p ≤ ldmat)
    (hin : ∀ a < p, ∀ b < p, a + ldmat * b < mat.length) :
    ∃ m', forUp p (fun i mat => wr mat (i * ldmat + i) 1) mat = .ok m' ∧
      m'.length = mat.length ∧ (∀ a < p, m'[a + ldmat * a]? = some 1) ∧
      ∀ q, (∀ a < p, q ≠ a + ldmat * a) → m'[q]? = mat[q]? := by
  obtain ⟨m', h1, h2, h3, h4⟩ := own (List.range p) (fun a => a + ldmat * a) (fun _ => (1 : K))
    (fun mat i => wr mat (i * ldmat + i) 1) mat List.nodup_range
    (by
      intro a ha b hb he
      have ha := List.mem_range.1 ha
      have hb := List.mem_range.1 hb
      exact (cell_inj (order := .col) hld ha ha hb hb he).1)
    (by intro a ha; exact hin a (List.mem_range.1 ha) a (List.mem_range.1 ha))
    (by
      intro a ha s hs _ _
      have ha := List.mem_range.1 ha
      have := hin a ha a ha
      rw [Nat.add_comm (a * ldmat), Nat.mul_comm a, wr_ok _ (by rw [hs]; exact this)])
  exact ⟨m', h1, h2, fun a ha => h3 a (List.mem_range.2 ha),
    fun q hq => h4 q (fun a ha => hq a (List.mem_range.1 ha))⟩

end Verif.Cov
