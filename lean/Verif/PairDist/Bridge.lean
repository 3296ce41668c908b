import Verif.PairDist.Gemm
import Verif.PairDist.Spec

/-
From the loops to the words of the specification.
-/
namespace Verif.PairDist

open Verif.Logistic (loop upd)
open Finset (range)
open Spec (Call Filled pos sqDist l1Dist inner Fits)

set_option linter.unusedSectionVars false

variable {K : Type*} [Field K] [LinearOrder K]

/-- The function `da_pairwise_distances` on a call. -/
def run (o : Ops K) (z : Sizes) (e : Env K) (c : Call K) (D : Nat → K) (p : K) (metric : Metric) :
    Except Status (Nat → K) :=
  pairwise o z e c.row c.m c.n c.k (some c.X) c.ldx c.Y c.ldy (some D) c.ldd p metric

theorem cell_pos (row : Bool) (ld i j : Nat) : cell row ld i j = pos row ld i j := by
  cases row <;> simp [cell, pos, Nat.add_comm]

theorem cols_eq (c : Call K) : rowsY c.Y c.m c.n = c.cols := by
  unfold rowsY Call.cols
  cases c.Y <;> simp

theorem row_eq (c : Call K) (j : Nat) : rowY c.row c.X c.ldx c.Y c.ldy j = c.y j := by
  funext l
  unfold rowY Call.y
  cases c.Y <;> simp [cell_pos]

theorem x_eq (c : Call K) (i : Nat) : (fun l => c.X (cell c.row c.ldx i l)) = c.x i := by
  funext l
  rw [cell_pos]
  rfl

theorem Wr.filled {f : (Nat → K) → Nat → K} {row : Bool} {m n ld : Nat} {G : Nat → Nat → K → K}
    (h : Wr f (cell row ld) (fun i j => i < m ∧ j < n) G) (D : Nat → K) {d : Nat → Nat → K}
    (hd : ∀ i j v, i < m → j < n → G i j v = d i j) : Filled row m n ld D (f D) d where
  entry i j hi hj := by
    rw [← cell_pos, (h D).1 i j ⟨hi, hj⟩, hd i j _ hi hj]
  rest c hc := (h D).2 c fun i j d => by rw [cell_pos]; exact hc i j d.1 d.2

theorem run_ok {o : Ops K} {z : Sizes} {e : Env K} {c : Call K} {D D' : Nat → K} {p : K}
    {metric : Metric} (h : run o z e c D p metric = .ok D') :
    D' = kernel o z e c.row c.m c.n c.k c.X c.ldx c.Y c.ldy D c.ldd p metric ∧
    (if c.row then c.cols ≤ c.ldd else c.m ≤ c.ldd) ∧ 0 < c.m ∧ 0 < c.k ∧ 0 < c.cols ∧
    (metric = .minkowski → ¬ p ≤ 0) := by
  unfold run pairwise at h
  by_cases h1 : (c.m : Int) < 1 ∨ (c.k : Int) < 1
  · rw [if_pos h1] at h; cases h
  rw [if_neg h1] at h
  by_cases h2 : (!c.row) = true ∧ (c.ldx : Int) < c.m
  · rw [if_pos h2] at h; cases h
  rw [if_neg h2] at h
  by_cases h3 : c.row = true ∧ (c.ldx : Int) < c.k
  · rw [if_pos h3] at h; cases h
  rw [if_neg h3] at h
  simp only at h
  by_cases h4 : c.Y.isSome = true ∧ (c.n : Int) < 1
  · rw [if_pos h4] at h; cases h
  rw [if_neg h4] at h
  by_cases h5 : c.Y.isSome = true ∧ (!c.row) = true ∧ ((c.ldy : Int) < c.n ∨ (c.ldd : Int) < c.m)
  · rw [if_pos h5] at h; cases h
  rw [if_neg h5] at h
  by_cases h6 : c.Y.isSome = true ∧ c.row = true ∧ ((c.ldy : Int) < c.k ∨ (c.ldd : Int) < c.n)
  · rw [if_pos h6] at h; cases h
  rw [if_neg h6] at h
  by_cases h7 : c.Y.isNone = true ∧ (c.ldd : Int) < c.m
  · rw [if_pos h7] at h; cases h
  rw [if_neg h7] at h
  by_cases h8 : metric = .minkowski ∧ p ≤ 0
  · rw [if_pos h8] at h; cases h
  rw [if_neg h8] at h
  refine ⟨?_, ?_, by omega, by omega, ?_, fun a b => h8 ⟨a, b⟩⟩
  · injection h with h
    exact h.symm
  · unfold Call.cols
    cases hY : c.Y <;> cases hr : c.row <;> simp [hY, hr] at h5 h6 h7 ⊢ <;> omega
  · unfold Call.cols
    cases hY : c.Y <;> simp [hY] at h4 ⊢ <;> omega

/-- The packed loops, for every metric that uses them. -/
theorem packed_filled (kd : Kern) (pw : K → K) {z : Sizes} (hz : z.Ok) {c : Call K} {e : Env K}
    (he : e.Ok z c.m) {post : Post K} {g : K → K}
    (hp : ∀ N, PostIs post c.m N fun _ _ v => g v)
    (hl : if c.row then c.cols ≤ c.ldd else c.m ≤ c.ldd) (D : Nat → K) :
    Filled c.row c.m c.cols c.ldd D
      (dispatch kd pw z e post c.row c.m c.n c.k c.X c.ldx c.Y c.ldy D c.ldd)
      fun i j => g (total (term kd pw) c.k (c.x i) (c.y j)) := by
  have := dispatch_wr kd pw hz he (n := c.n) (ldd := c.ldd) (Y := c.Y) (hp _) (row := c.row)
    (by rw [cols_eq]; exact hl) c.k c.X c.ldx c.ldy
  rw [cols_eq] at this
  refine this.filled D fun i j v _ _ => ?_
  rw [row_eq, x_eq]

theorem sq_expand (k : Nat) (x y : Nat → K) :
    -2 * total (fun a b => a * b) k x y + (sqOf k x + sqOf k y) = sqDist k x y := by
  unfold total sqOf sqDist
  rw [Finset.mul_sum, ← Finset.sum_add_distrib, ← Finset.sum_add_distrib]
  exact Finset.sum_congr rfl fun l _ => by ring

theorem gemm_filled (s : K → K) (square : Bool) {c : Call K} (hs : s 0 = 0)
    (hl : if c.row then c.cols ≤ c.ldd else c.m ≤ c.ldd) (D : Nat → K) :
    Filled c.row c.m c.cols c.ldd D
      (euclideanGemm s square c.row c.m c.n c.k c.X c.ldx c.Y c.ldy D c.ldd)
      fun i j => if square then sqDist c.k (c.x i) (c.y j) else s (sqDist c.k (c.x i) (c.y j)) := by
  cases hY : c.Y with
  | none =>
    have e1 : c.cols = c.m := by unfold Call.cols; rw [hY]
    have e2 : ∀ j, c.y j = c.x j := fun j => by
      funext l; unfold Call.y; rw [hY]; rfl
    rw [e1] at hl ⊢
    have hl' : c.m ≤ c.ldd := by cases hr : c.row <;> simpa [hr] using hl
    refine (euclideanGemm_one s square c.row hl' c.n c.k c.X c.ldx c.ldy).filled D
      fun i j v _ _ => ?_
    rw [x_eq, x_eq, sq_expand, e2]
    by_cases h : i = j
    · subst h
      have : sqDist c.k (c.x i) (c.x i) = 0 := by simp [sqDist]
      rw [if_pos rfl, this, hs]
      simp
    · rw [if_neg h]
      cases square <;> simp
  | some Y =>
    have e1 : c.cols = c.n := by unfold Call.cols; rw [hY]
    have e2 : ∀ j, c.y j = fun l => Y (cell c.row c.ldy j l) := fun j => by
      funext l; unfold Call.y; rw [hY, cell_pos]
    rw [e1] at hl ⊢
    have := gemmDistance_wr s c.row hl c.k c.X c.ldx Y c.ldy (fun _ => 0) 2 (fun _ => 0) 2 square
    refine this.filled D fun i j v _ _ => ?_
    have a1 : normsUsed 2 (fun _ => (0 : K)) c.k (fun i l => c.X (cell c.row c.ldx i l)) i =
        sqOf c.k (c.x i) := by simp [normsUsed, x_eq]
    have a2 : normsUsed 2 (fun _ => (0 : K)) c.k (fun j l => Y (cell c.row c.ldy j l)) j =
        sqOf c.k (c.y j) := by simp [normsUsed, e2]
    rw [a1, a2, x_eq, ← e2, sq_expand]
    cases square <;> simp

theorem inner_filled {c : Call K} (hl : if c.row then c.cols ≤ c.ldd else c.m ≤ c.ldd)
    (D : Nat → K) :
    Filled c.row c.m c.cols c.ldd D
      (innerProduct c.row c.m c.n c.k c.X c.ldx c.Y c.ldy D c.ldd)
      fun i j => inner c.k (c.x i) (c.y j) := by
  have key : ∀ j, (fun l => (c.Y.getD c.X) (cell c.row (if c.Y.isNone then c.ldx else c.ldy) j l)) =
      c.y j := by
    intro j
    funext l
    unfold Call.y
    cases c.Y <;> simp [cell_pos]
  have := gemm_wr c.row hl c.k 1 c.X c.ldx (c.Y.getD c.X) (if c.Y.isNone then c.ldx else c.ldy)
  have E : ∀ D, innerProduct c.row c.m c.n c.k c.X c.ldx c.Y c.ldy D c.ldd =
      gemm c.row c.m c.cols c.k 1 c.X c.ldx (c.Y.getD c.X) (if c.Y.isNone then c.ldx else c.ldy) D
        c.ldd := by
    intro D
    rw [← cols_eq]
    rfl
  rw [E]
  refine this.filled D fun i j v _ _ => ?_
  rw [x_eq, key, one_mul]
  rfl

end Verif.PairDist
