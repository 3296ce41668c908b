import Verif.Logistic.Model
import Mathlib.Algebra.BigOperators.Intervals
import Mathlib.Tactic.Ring
import Mathlib.Tactic.Linarith

/-
Loops: what they sum and what they write.
-/
namespace Verif.Logistic

set_option linter.unusedSectionVars false

open Finset (range)

section
variable {S : Type*}

theorem loop_inv (P : Nat → S → Prop) (n : Nat) (s : S) (f : Nat → S → S) (h0 : P 0 s)
    (h : ∀ i s, i < n → P i s → P (i + 1) (f i s)) : P n (loop n s f) := by
  induction n with
  | zero => exact h0
  | succ n ih => exact h n _ (Nat.lt_succ_self n) (ih fun i s hi => h i s (Nat.lt_succ_of_lt hi))

theorem loop_congr (n : Nat) (s : S) (f g : Nat → S → S) (h : ∀ i s, i < n → f i s = g i s) :
    loop n s f = loop n s g := by
  induction n with
  | zero => rfl
  | succ n ih =>
    show f n (loop n s f) = g n (loop n s g)
    rw [ih fun i s hi => h i s (Nat.lt_succ_of_lt hi), h n _ (Nat.lt_succ_self n)]

end

section
variable {K : Type*}

theorem upd_same (a : Nat → K) (i : Nat) (v : K) : upd a i v i = v := if_pos rfl

theorem upd_ne (a : Nat → K) {i c : Nat} (v : K) (h : c ≠ i) : upd a i v c = a c := if_neg h

theorem fill_in (a : Nat → K) {lo hi c : Nat} (v : K) (h : lo ≤ c) (h' : c < hi) :
    fill a lo hi v c = v := if_pos ⟨h, h'⟩

/-- A loop that rewrites the cells of an interval one by one. -/
theorem loop_upd (m : Nat) (v : Nat → K) (vo : Nat) (g : Nat → K → K) (c : Nat) :
    loop m v (fun i v => upd v (vo + i) (g i (v (vo + i)))) c =
      if vo ≤ c ∧ c < vo + m then g (c - vo) (v c) else v c := by
  induction m with
  | zero => rw [if_neg (by omega)]; rfl
  | succ m ih =>
    show upd _ _ _ c = _
    by_cases hc : c = vo + m
    · subst hc
      rw [upd_same, if_pos (by omega), ih, if_neg (by omega), show vo + m - vo = m by omega]
    · rw [upd_ne _ _ hc, ih]
      by_cases h : vo ≤ c ∧ c < vo + m
      · rw [if_pos h, if_pos (by omega)]
      · rw [if_neg h, if_neg (by omega)]

/-- The same when the interval begins at the pointer. -/
theorem loop_upd0 (m : Nat) (v : Nat → K) (g : Nat → K → K) (c : Nat) :
    loop m v (fun i v => upd v i (g i (v i))) c = if c < m then g c (v c) else v c := by
  have := loop_upd m v 0 g c
  simpa using this

/-- A value stored in cell `c` by iteration `i` survives iterations that leave the cell alone. -/
theorem loop_keep (n : Nat) (v : Nat → K) (f : Nat → (Nat → K) → Nat → K) (c : Nat)
    (h : ∀ i v, i < n → f i v c = v c) : loop n v f c = v c :=
  loop_inv (fun _ w => w c = v c) n v f rfl fun i s hi e => (h i s hi).trans e

end

section
variable {K : Type*} [Field K] [LinearOrder K]

theorem loop_sum (n : Nat) (a : K) (f : Nat → K) :
    loop n a (fun i s => s + f i) = a + ∑ i ∈ range n, f i := by
  induction n with
  | zero => simp [loop]
  | succ n ih =>
    show loop n a _ + f n = _
    rw [ih, Finset.sum_range_succ, add_assoc]

/-- Iterations each of which adds something to cell `p`. -/
theorem loop_add (n : Nat) (v : Nat → K) (f : Nat → (Nat → K) → Nat → K) (p : Nat) (d : Nat → K)
    (h : ∀ i v, i < n → f i v p = v p + d i) : loop n v f p = v p + ∑ i ∈ range n, d i := by
  have := loop_inv (fun k w => w p = v p + ∑ i ∈ range k, d i) n v f (by simp) fun i s hi e => by
    rw [h i s hi, e, Finset.sum_range_succ, add_assoc]
  exact this

/-- The same with the running sum in front. -/
theorem loop_add_num (n : Nat) (a : K) (f : Nat → K → K) (d : Nat → K)
    (h : ∀ i s, i < n → f i s = s + d i) : loop n a f = a + ∑ i ∈ range n, d i := by
  rw [loop_congr n a f (fun i s => s + d i) h, loop_sum]

theorem evalFeatureMatrix_at (row : Bool) (n : Nat) (x : Nat → K) (xo m : Nat) (X : Nat → K)
    (ld : Nat) (v : Nat → K) (vo : Nat) (ic : Bool) (c : Nat) :
    evalFeatureMatrix row n x xo m X ld v vo ic c =
      if vo ≤ c ∧ c < vo + m then
        ∑ j ∈ range (n - if ic then 1 else 0), entry row X ld (c - vo) j * x (xo + j) +
          (if ic then x (xo + (n - 1)) else 0)
      else v c := by
  unfold evalFeatureMatrix
  have h1 : ∀ c, loop m v (fun i v =>
      upd v (vo + i) (loop (n - if ic then 1 else 0) 0 fun j s =>
        s + entry row X ld i j * x (xo + j))) c =
      if vo ≤ c ∧ c < vo + m then
        ∑ j ∈ range (n - if ic then 1 else 0), entry row X ld (c - vo) j * x (xo + j)
      else v c := by
    intro c
    rw [loop_upd m v vo (fun i _ => loop (n - if ic then 1 else 0) 0 fun j s =>
        s + entry row X ld i j * x (xo + j)) c]
    simp only [loop_sum, zero_add]
  cases ic with
  | false =>
    simp only [if_false, Bool.false_eq_true, add_zero] at h1 ⊢
    exact h1 c
  | true =>
    simp only [if_true] at h1 ⊢
    rw [loop_upd m _ vo (fun _ t => t + x (xo + (n - 1))) c, h1]
    by_cases h : vo ≤ c ∧ c < vo + m
    · rw [if_pos h, if_pos h, if_pos h]
    · rw [if_neg h, if_neg h, if_neg h]

theorem regfun_eq [IsStrictOrderedRing K] (n : Nat) (x : Nat → K) {l1 l2 : K} (h1 : 0 ≤ l1)
    (h2 : 0 ≤ l2) :
    regfun n x l1 l2 = l1 * ∑ j ∈ range n, |x j| + l2 * ∑ j ∈ range n, x j ^ 2 := by
  unfold regfun
  simp only [loop_sum, zero_add]
  have e : ∑ j ∈ range n, x j * x j = ∑ j ∈ range n, x j ^ 2 :=
    Finset.sum_congr rfl fun j _ => (sq (x j)).symm
  rw [e]
  congr 1
  · rcases h1.lt_or_eq with h | h
    · rw [if_pos h, mul_comm]
    · rw [if_neg (by rw [← h]; exact lt_irrefl _), ← h, zero_mul]
  · rcases h2.lt_or_eq with h | h
    · rw [if_pos h, mul_comm]
    · rw [if_neg (by rw [← h]; exact lt_irrefl _), ← h, zero_mul]

/-- The derivative of `|t|` where there is one, and what the code takes at `0`. -/
def sgn (t : K) : K := if t = 0 then 0 else if t < 0 then -1 else 1

theorem reggrd_at [IsStrictOrderedRing K] (n : Nat) (x : Nat → K) {l1 l2 : K} (h1 : 0 ≤ l1)
    (h2 : 0 ≤ l2) (g : Nat → K) (p : Nat) :
    reggrd n x l1 l2 g p = g p + if p < n then l1 * sgn (x p) + 2 * l2 * x p else 0 := by
  unfold reggrd
  have a1 : (if 0 < l1 then
      loop n g fun i g =>
        if x i ≠ 0 then upd g i (g i + (if x i < 0 then -l1 else l1)) else g
      else g) p = g p + if p < n then l1 * sgn (x p) else 0 := by
    rcases h1.lt_or_eq with h | h
    · rw [if_pos h, loop_congr n g _ (fun i g => upd g i
        (g i + l1 * sgn (x i))) ?_,
        loop_upd0 n g (fun i t => t + l1 * sgn (x i)) p]
      · by_cases hp : p < n
        · rw [if_pos hp, if_pos hp]
        · rw [if_neg hp, if_neg hp, add_zero]
      · intro i v _
        by_cases hx : x i = 0
        · rw [if_neg (by simpa using hx)]
          funext c
          by_cases hc : c = i
          · subst hc; simp [upd, sgn, hx]
          · rw [upd_ne _ _ hc]
        · rw [if_pos hx]
          by_cases hs : x i < 0
          · simp [sgn, hx, hs]
          · simp [sgn, hx, hs]
    · rw [if_neg (by rw [← h]; exact lt_irrefl _), ← h]; simp
  have a2 : ∀ v : Nat → K, (if 0 < l2 then loop n v fun i g => upd g i (g i + 2 * l2 * x i)
      else v) p = v p + if p < n then 2 * l2 * x p else 0 := by
    intro v
    rcases h2.lt_or_eq with h | h
    · rw [if_pos h, loop_upd0 n v (fun i t => t + 2 * l2 * x i) p]
      by_cases hp : p < n
      · rw [if_pos hp, if_pos hp]
      · rw [if_neg hp, if_neg hp, add_zero]
    · rw [if_neg (by rw [← h]; exact lt_irrefl _), ← h]; simp
  simp only [a2, a1]
  by_cases hp : p < n
  · simp only [if_pos hp]; ring
  · simp only [if_neg hp]; ring

end

end Verif.Logistic
