import Mathlib.Tactic.Linarith
import Mathlib.Tactic.Ring

/-
How many slots a tree with leaves of up to eight points and at most 32 levels needs.
-/
namespace Verif.BarnesHut

/-- Nine times a bound for the slots below a node with `k` points and `l` levels below it, in two
dimensions. -/
def need2 (l k : Nat) : Nat :=
  if k ≤ 8 ∨ l = 0 then 0 else if 6 ≤ l then (l + 3) * k else 9 * (k - (6 - l))

/-- The same in three dimensions. -/
def need3 (l k : Nat) : Nat :=
  if k ≤ 8 ∨ l = 0 then 0 else (l + 7) * k

theorem sum_le_each (f : Nat → Nat) (a c : Nat) (ws : List Nat) (h : ∀ w ∈ ws, a + f w ≤ c * w) :
    a * ws.length + (ws.map f).sum ≤ c * ws.sum := by
  induction ws with
  | nil => simp
  | cons w ws ih =>
    have h1 := ih fun x hx => h x (by simp [hx])
    have h2 := h w (by simp)
    simp only [List.length_cons, List.map_cons, List.sum_cons]
    rw [Nat.mul_add, Nat.mul_add, Nat.mul_one]
    omega

theorem sum_le_one (f : Nat → Nat) (a c m : Nat) (ws : List Nat) (h : ∀ w ∈ ws, a + f w ≤ c * w)
    (h1 : ∃ w ∈ ws, a + f w + m ≤ c * w) : a * ws.length + (ws.map f).sum + m ≤ c * ws.sum := by
  induction ws with
  | nil => obtain ⟨w, hw, _⟩ := h1; cases hw
  | cons w ws ih =>
    simp only [List.length_cons, List.map_cons, List.sum_cons]
    rw [Nat.mul_add, Nat.mul_add, Nat.mul_one]
    obtain ⟨v, hv, hv'⟩ := h1
    rw [List.mem_cons] at hv
    rcases hv with rfl | hv
    · have := sum_le_each f a c ws fun x hx => h x (by simp [hx])
      omega
    · have := ih (fun x hx => h x (by simp [hx])) ⟨v, hv, hv'⟩
      have := h w (by simp)
      omega

theorem need2_step (l : Nat) (ws : List Nat) (hlen : ws.length ≤ 2 ^ 2) (hpos : ∀ x ∈ ws, 0 < x)
    (hsum : 8 < ws.sum) : 9 * ws.length + (ws.map (need2 l)).sum ≤ need2 (l + 1) ws.sum := by
  by_cases h6 : 6 ≤ l
  · have e : need2 (l + 1) ws.sum = (l + 4) * ws.sum := by
      unfold need2
      rw [if_neg (by omega), if_pos (by omega)]
    rw [e]
    apply sum_le_each
    intro w hw
    have := hpos w hw
    unfold need2
    by_cases h8 : w ≤ 8 ∨ l = 0
    · rw [if_pos h8]; nlinarith
    · rw [if_neg h8, if_pos h6]
      rw [not_or] at h8
      nlinarith
  · have e : need2 (l + 1) ws.sum = 9 * (ws.sum - (5 - l)) := by
      unfold need2
      rw [if_neg (by omega)]
      by_cases h5 : 6 ≤ l + 1
      · rw [if_pos h5]
        obtain rfl : l = 5 := by omega
        simp
      · rw [if_neg h5]
        congr 2
        omega
    rw [e]
    by_cases hheavy : ∃ w ∈ ws, 8 < w ∧ l ≠ 0
    · have := sum_le_one (need2 l) 9 9 (9 * (5 - l)) ws (by
        intro w hw
        have := hpos w hw
        unfold need2
        by_cases h8 : w ≤ 8 ∨ l = 0
        · rw [if_pos h8]; omega
        · rw [if_neg h8, if_neg h6]; omega) (by
        obtain ⟨w, hw, h8, h0⟩ := hheavy
        refine ⟨w, hw, ?_⟩
        unfold need2
        rw [if_neg (by omega), if_neg h6]
        omega)
      omega
    · have : (ws.map (need2 l)).sum = 0 := by
        have := sum_le_each (need2 l) 0 0 ws (by
          intro w hw
          unfold need2
          rw [if_pos (by
            by_contra hc
            rw [not_or] at hc
            exact hheavy ⟨w, hw, by omega, hc.2⟩)]
          omega)
        omega
      rw [this]
      have : ws.length ≤ 4 := hlen
      by_cases hl0 : l = 0
      · omega
      · have : ∀ w ∈ ws, w ≤ 8 := by
          intro w hw
          by_contra hc
          exact hheavy ⟨w, hw, by omega, hl0⟩
        omega

theorem need3_step (l : Nat) (ws : List Nat) (hlen : ws.length ≤ 2 ^ 3) (hpos : ∀ x ∈ ws, 0 < x)
    (hsum : 8 < ws.sum) : 9 * ws.length + (ws.map (need3 l)).sum ≤ need3 (l + 1) ws.sum := by
  have e : need3 (l + 1) ws.sum = (l + 8) * ws.sum := by
    unfold need3
    rw [if_neg (by omega)]
  rw [e]
  by_cases hl : l = 0
  · subst hl
    have : (ws.map (need3 0)).sum = 0 := by
      have := sum_le_each (need3 0) 0 0 ws (by
        intro w hw
        unfold need3
        rw [if_pos (Or.inr rfl)]
        omega)
      omega
    rw [this]
    have : ws.length ≤ 8 := hlen
    omega
  · apply sum_le_each
    intro w hw
    have := hpos w hw
    unfold need3
    by_cases h8 : w ≤ 8 ∨ l = 0
    · rw [if_pos h8]; nlinarith [Nat.pos_of_ne_zero hl]
    · rw [if_neg h8]
      rw [not_or] at h8
      nlinarith

end Verif.BarnesHut
