/- Lemmas on the frequency approximation. -/
import Verif.Stratified.Model
import Mathlib.Algebra.BigOperators.Intervals
import Mathlib.Algebra.Order.BigOperators.Group.Finset
import Mathlib.Tactic.Linarith
import Mathlib.Tactic.FieldSimp
import Mathlib.Algebra.Order.Field.Rat
import Mathlib.Algebra.BigOperators.Ring.Finset
import Mathlib.Data.Rat.Cast.Order
import Mathlib.Algebra.BigOperators.Field
namespace Verif.Stratified
open Finset

theorem maxElement_spec (r : Nat → ℚ) (k : Nat) (hk : 0 < k) :
    ∃ b, maxElement r k = some b ∧ (∃ i < k, r i = b) ∧ ∀ i < k, r i ≤ b := by
  obtain ⟨k, rfl⟩ : ∃ j, k = j + 1 := ⟨k - 1, by omega⟩
  refine ⟨_, rfl, ?_⟩
  have key : ∀ n, let b := (List.range n).foldl (fun b i => if b < r (i + 1) then r (i + 1) else b) (r 0)
      (∃ i < n + 1, r i = b) ∧ ∀ i < n + 1, r i ≤ b := by
    intro n
    induction n with
    | zero =>
      refine ⟨⟨0, by omega, rfl⟩, ?_⟩
      intro i hi
      have : i = 0 := by omega
      subst this; exact le_refl _
    | succ n ih =>
      simp only [List.range_succ, List.foldl_append, List.foldl_cons, List.foldl_nil] at ih ⊢
      generalize (List.range n).foldl (fun b i => if b < r (i + 1) then r (i + 1) else b) (r 0) = b at ih ⊢
      obtain ⟨⟨i, hi, hib⟩, hmax⟩ := ih
      split
      · rename_i hlt
        refine ⟨⟨n + 1, by omega, rfl⟩, ?_⟩
        intro j hj
        by_cases h : j = n + 1
        · subst h; exact le_refl _
        · exact le_trans (hmax j (by omega)) (le_of_lt hlt)
      · rename_i hlt
        refine ⟨⟨i, by omega, hib⟩, ?_⟩
        intro j hj
        by_cases h : j = n + 1
        · subst h; exact not_lt.mp hlt
        · exact hmax j (by omega)
  exact key k

theorem giveOne_spec (rnd : Nat → Nat) (t k : Nat) (freq : Nat → Nat) (r : Nat → ℚ) (hk : 0 < k) :
    ∃ idx, idx < k ∧ (∀ i < k, r i ≤ r idx) ∧ giveOne rnd t k freq r =
      some (fun i => if i = idx then freq i + 1 else freq i, fun i => if i = idx then 0 else r i) := by
  obtain ⟨b, hb, ⟨i, hi, hib⟩, hmax⟩ := maxElement_spec r k hk
  have hmem : i ∈ tied r k b := by simp [tied, hi, hib]
  have hpos : 0 < (tied r k b).length := List.length_pos_of_mem hmem
  have : ∃ idx, (if (tied r k b).length = 1 then (tied r k b)[0]? else
      (tied r k b)[rnd t % (tied r k b).length]?) = some idx ∧ idx ∈ tied r k b := by
    split
    · exact ⟨(tied r k b)[0], List.getElem?_eq_getElem hpos, List.getElem_mem _⟩
    · have := Nat.mod_lt (rnd t) hpos
      exact ⟨(tied r k b)[rnd t % (tied r k b).length], List.getElem?_eq_getElem this, List.getElem_mem _⟩
  obtain ⟨idx, h1, h2⟩ := this
  simp only [tied, List.mem_filter, List.mem_range, decide_eq_true_eq] at h2
  refine ⟨idx, h2.1, ?_, ?_⟩
  · intro j hj; rw [h2.2]; exact hmax j hj
  · simp only [giveOne, hb, Option.bind_eq_bind, Option.bind_some]
    split at h1
    · rename_i h; rw [if_pos h, h1]; rfl
    · rename_i h; rw [if_neg h, h1]; rfl

/-- State of the loop relative to the floors `a` and first remainders `r0`. -/
def Inv (k : Nat) (a : Nat → Nat) (r0 : Nat → ℚ) (freq : Nat → Nat) (r : Nat → ℚ) : Prop :=
  ∀ i < k, (freq i = a i ∧ r i = r0 i) ∨ (freq i = a i + 1 ∧ r i = 0 ∧ 0 < r0 i)

theorem giveLoop_spec (rnd : Nat → Nat) (k : Nat) (hk : 0 < k) (a : Nat → Nat) (r0 : Nat → ℚ)
    (_h0 : ∀ i < k, 0 ≤ r0 i) (h1 : ∀ i < k, r0 i < 1) : ∀ (left t : Nat) (freq : Nat → Nat) (r : Nat → ℚ),
    Inv k a r0 freq r → (left : ℚ) ≤ ∑ i ∈ range k, r i →
    ∃ f r', giveLoop rnd k left t freq r = some f ∧ Inv k a r0 f r' ∧
      ∑ i ∈ range k, f i = ∑ i ∈ range k, freq i + left := by
  intro left
  induction left with
  | zero => intro t freq r hinv _; exact ⟨freq, r, rfl, hinv, rfl⟩
  | succ left ih =>
    intro t freq r hinv hsum
    obtain ⟨idx, hidx, hmax, heq⟩ := giveOne_spec rnd t k freq r hk
    have hpos : 0 < r idx := by
      by_contra hneg
      have : ∑ i ∈ range k, r i ≤ ∑ i ∈ range k, (0 : ℚ) :=
        sum_le_sum fun i hi => le_trans (hmax i (mem_range.mp hi)) (not_lt.mp hneg)
      simp only [sum_const_zero] at this
      push_cast at hsum
      have : (0 : ℚ) ≤ left := Nat.cast_nonneg _
      linarith
    have hcase : freq idx = a idx ∧ r idx = r0 idx := by
      rcases hinv idx hidx with h | h
      · exact h
      · rw [h.2.1] at hpos; exact absurd hpos (lt_irrefl _)
    have hmem : idx ∈ range k := mem_range.mpr hidx
    have hinv' : Inv k a r0 (fun i => if i = idx then freq i + 1 else freq i) (fun i => if i = idx then 0 else r i) := by
      intro i hi
      by_cases h : i = idx
      · subst h
        right
        simp only [if_true]
        exact ⟨by rw [hcase.1], trivial, by rw [← hcase.2]; exact hpos⟩
      · simpa [h] using hinv i hi
    have hr' : ∑ i ∈ range k, (if i = idx then 0 else r i) = ∑ i ∈ range k, r i - r idx := by
      rw [← add_sum_erase _ _ hmem, ← add_sum_erase (range k) r hmem]
      simp only [if_true, zero_add]
      rw [add_sub_cancel_left]
      apply sum_congr rfl
      intro i hi
      rw [if_neg (ne_of_mem_erase hi)]
    have hf' : ∑ i ∈ range k, (if i = idx then freq i + 1 else freq i) = ∑ i ∈ range k, freq i + 1 := by
      rw [← add_sum_erase _ _ hmem, ← add_sum_erase (range k) freq hmem]
      simp only [if_true]
      have : ∑ i ∈ (range k).erase idx, (if i = idx then freq i + 1 else freq i) = ∑ i ∈ (range k).erase idx, freq i := by
        apply sum_congr rfl
        intro i hi
        rw [if_neg (ne_of_mem_erase hi)]
      rw [this]; omega
    obtain ⟨f, r', e1, e2, e3⟩ := ih (t + 1) _ _ hinv' (by
      rw [hr']
      push_cast at hsum
      have := h1 idx hidx
      rw [hcase.2]
      linarith)
    refine ⟨f, r', ?_, e2, ?_⟩
    · simp [giveLoop, heq, e1]
    · rw [e3, hf']; omega

theorem sum_map_range (f : Nat → Nat) (k : Nat) : ((List.range k).map f).sum = ∑ i ∈ range k, f i := by
  induction k with
  | zero => simp
  | succ k ih => rw [List.range_succ, List.map_append, List.sum_append, ih, sum_range_succ]; simp

/-- The approximation distributes exactly `nDraws` draws, each class within one of its share. -/
theorem classFrequency_spec (rnd : Nat → Nat) (nDraws m k : Nat) (counts : Nat → Nat) (hk : 0 < k) (hm : 0 < m)
    (hsum : ∑ i ∈ range k, counts i = m) :
    ∃ f, classFrequency rnd nDraws m k counts = some f ∧ ∑ i ∈ range k, f i = nDraws ∧
      ∀ i < k, |(f i : ℚ) - (counts i : ℚ) * nDraws / m| < 1 := by
  have hmq : (0 : ℚ) < m := by exact_mod_cast hm
  set expected : Nat → ℚ := fun i => ((counts i : ℚ) / m) * nDraws with hexp
  set appx : Nat → Nat := fun i => ⌊expected i⌋.toNat with happx
  have hnn : ∀ i, 0 ≤ expected i := by
    intro i; simp only [hexp]; positivity
  have hfl : ∀ i, ((appx i : Nat) : ℚ) = (⌊expected i⌋ : ℚ) := by
    intro i
    have : (0 : Int) ≤ ⌊expected i⌋ := Int.floor_nonneg.mpr (hnn i)
    have h2 : ((appx i : Nat) : Int) = ⌊expected i⌋ := Int.toNat_of_nonneg this
    exact_mod_cast h2
  have h0 : ∀ i < k, 0 ≤ expected i - appx i := by
    intro i _; rw [hfl]; linarith [Int.floor_le (expected i)]
  have h1 : ∀ i < k, expected i - appx i < 1 := by
    intro i _; rw [hfl]; linarith [Int.lt_floor_add_one (expected i)]
  have hes : ∑ i ∈ range k, expected i = nDraws := by
    simp only [hexp]
    rw [← sum_mul, ← sum_div]
    have : (∑ i ∈ range k, (counts i : ℚ)) = m := by exact_mod_cast hsum
    rw [this]; field_simp
  have hfs : ((List.range k).map appx).sum ≤ nDraws := by
    rw [sum_map_range]
    have : (∑ i ∈ range k, (appx i : ℚ)) ≤ ∑ i ∈ range k, expected i :=
      sum_le_sum fun i hi => by have := h0 i (mem_range.mp hi); linarith
    rw [hes] at this
    exact_mod_cast this
  obtain ⟨f, r', e1, e2, e3⟩ := giveLoop_spec rnd k hk appx (fun i => expected i - appx i) h0 h1
    (nDraws - ((List.range k).map appx).sum) 0 appx (fun i => expected i - appx i)
    (fun i _ => Or.inl ⟨rfl, rfl⟩) (by
      rw [Nat.cast_sub hfs, sum_sub_distrib, hes, sum_map_range]
      push_cast
      exact le_refl _)
  refine ⟨f, e1, ?_, ?_⟩
  · rw [e3, ← sum_map_range]; omega
  · intro i hi
    have hx : (counts i : ℚ) * nDraws / m = expected i := by simp only [hexp]; ring
    rw [hx]
    have a0 := h0 i hi; have a1 := h1 i hi
    rcases e2 i hi with ⟨h, _⟩ | ⟨h, _, hp⟩
    · rw [h, abs_lt]; constructor <;> linarith
    · rw [h, abs_lt]; push_cast; constructor <;> linarith

end Verif.Stratified
