import Verif.Half.Values
import Mathlib.Tactic.IntervalCases

/-!
C63: the conversion from binary16 to binary32 is exact.  C64: the conversion from binary32 to binary16 rounds to nearest, ties
to even.
-/
namespace Verif.Half
open Format

/-! ### C64 -/

/-- The binary16 number `h` is `f` rounded as IEEE 754 says: NaN and infinity are kept, numbers of 65520 and more become infinite, other
numbers are rounded to nearest, ties to even; the sign is kept. -/
def Rounded (f h : Nat) : Prop :=
  binary16.Pattern h ∧ binary16.negative h = binary32.negative f ∧
  (binary32.NaN f → binary16.NaN h) ∧ (binary32.Infinite f → binary16.Infinite h) ∧
  (binary32.Finite f → 65520 ≤ |binary32.value f| → binary16.Infinite h) ∧
  (binary32.Finite f → |binary32.value f| < 65520 → binary16.Nearest (binary32.value f) h)

/-- The property C64. -/
def C64_statement : Prop := ∀ f, binary32.Pattern f → Rounded f (toHalf f)

/-- The numbers between half of the smallest number of binary16 and that number, both excluded. -/
def Flushed (f : Nat) : Prop := binary32.Finite f ∧ 1 / 2 ^ 25 < |binary32.value f| ∧ |binary32.value f| < 1 / 2 ^ 24

theorem abs_value {s e m : Nat} (hs : s < 2) (he : e < 256) (hm : m < 2 ^ 23) :
    |binary32.value (s * 2 ^ 31 + e * 2 ^ 23 + m)| = (mag32 e m : ℚ) / 2 ^ 149 := by
  rw [value32 hs he hm, sgn_abs]
  exact abs_of_nonneg (by positivity)

theorem div_lt_scale {x k : Nat} : (x : ℚ) / 2 ^ 149 < (k : ℚ) ↔ x < k * 2 ^ 149 := by
  rw [div_lt_iff₀ (by positivity)]
  exact_mod_cast Iff.rfl

theorem flushed_iff {s e m : Nat} (hs : s < 2) (he : e < 256) (hm : m < 2 ^ 23) :
    Flushed (s * 2 ^ 31 + e * 2 ^ 23 + m) ↔ e = 102 ∧ m ≠ 0 := by
  unfold Flushed
  rw [abs_value hs he hm]
  have h1 : (1 : ℚ) / 2 ^ 25 < (mag32 e m : ℚ) / 2 ^ 149 ↔ 2 ^ 124 < mag32 e m := by
    rw [div_lt_div_iff₀ (by positivity) (by positivity)]
    constructor
    · intro h
      have h' : ((2 ^ 124 * 2 ^ 25 : ℕ) : ℚ) < ((mag32 e m * 2 ^ 25 : ℕ) : ℚ) := by push_cast; linarith
      have := Nat.cast_lt.mp h'
      exact Nat.lt_of_mul_lt_mul_right this
    · intro h
      have h' : ((2 ^ 124 : ℕ) : ℚ) < (mag32 e m : ℚ) := Nat.cast_lt.mpr h
      push_cast at h'
      linarith
  have h2 : (mag32 e m : ℚ) / 2 ^ 149 < 1 / 2 ^ 24 ↔ mag32 e m < 2 ^ 125 := by
    rw [div_lt_div_iff₀ (by positivity) (by positivity)]
    constructor
    · intro h
      have h' : ((mag32 e m * 2 ^ 24 : ℕ) : ℚ) < ((2 ^ 125 * 2 ^ 24 : ℕ) : ℚ) := by push_cast; linarith
      have := Nat.cast_lt.mp h'
      exact Nat.lt_of_mul_lt_mul_right this
    · intro h
      have h' : (mag32 e m : ℚ) < ((2 ^ 125 : ℕ) : ℚ) := Nat.cast_lt.mpr h
      push_cast at h'
      linarith
  rw [h1, h2]
  unfold mag32
  constructor
  · rintro ⟨-, a, b⟩
    have he0 : e ≠ 0 := by
      intro h
      rw [if_pos h] at a
      have : (2 : Nat) ^ 23 ≤ 2 ^ 124 := Nat.pow_le_pow_right (by decide) (by decide)
      omega
    rw [if_neg he0] at a b
    have hlo : e ≤ 102 := by
      by_contra h
      have h' : 2 ^ 102 ≤ 2 ^ (e - 1) := Nat.pow_le_pow_right (by decide) (by omega)
      have : 2 ^ 23 * 2 ^ 102 ≤ (2 ^ 23 + m) * 2 ^ (e - 1) := Nat.mul_le_mul (by omega) h'
      have h3 : (2 : Nat) ^ 23 * 2 ^ 102 = 2 ^ 125 := by decide
      omega
    have hhi : 102 ≤ e := by
      by_contra h
      have h' : 2 ^ (e - 1) ≤ 2 ^ 100 := Nat.pow_le_pow_right (by decide) (by omega)
      have : (2 ^ 23 + m) * 2 ^ (e - 1) ≤ 2 ^ 24 * 2 ^ 100 := Nat.mul_le_mul (by omega) h'
      have h3 : (2 : Nat) ^ 24 * 2 ^ 100 = 2 ^ 124 := by decide
      omega
    have : e = 102 := by omega
    subst this
    refine ⟨rfl, fun h0 => ?_⟩
    rw [h0] at a
    exact absurd a (by decide)
  · rintro ⟨rfl, h0⟩
    refine ⟨?_, ?_, ?_⟩
    · unfold Format.Finite
      rw [exponent32 hs (by decide) hm]
      decide
    · rw [if_neg (by decide)]
      have : (2 ^ 23 + 1) * 2 ^ (102 - 1) ≤ (2 ^ 23 + m) * 2 ^ (102 - 1) := Nat.mul_le_mul_right _ (by omega)
      have h3 : 2 ^ 124 < (2 ^ 23 + 1) * 2 ^ (102 - 1) := by decide
      exact Nat.lt_of_lt_of_le h3 this
    · rw [if_neg (by decide)]
      have : (2 ^ 23 + m) * 2 ^ (102 - 1) < 2 ^ 24 * 2 ^ (102 - 1) := Nat.mul_lt_mul_of_pos_right (by omega) (by positivity)
      have h3 : (2 : Nat) ^ 24 * 2 ^ (102 - 1) = 2 ^ 125 := by decide
      rw [h3] at this
      exact this

theorem infinite16 {s : Nat} (hs : s < 2) : binary16.Infinite (s * 2 ^ 15 + 0x7C00) := by
  interval_cases s <;> exact ⟨rfl, rfl⟩

/-- Missing from C64: the numbers between 2^-25 and 2^-24, which become zero.  All other patterns are rounded correctly. -/
theorem C64_rounding_partial {f : Nat} (hf : binary32.Pattern f) (hx : ¬ Flushed f) : Rounded f (toHalf f) := by
  obtain ⟨s, e, m, hs, he, hm, rfl⟩ := fields32 hf
  rw [flushed_iff hs he hm] at hx
  have hlt := half_lt (e := e) hm
  unfold Rounded
  rw [toHalf_eq hs he hm, abs_value hs he hm]
  have hneg : binary16.negative (s * 2 ^ 15 + half e m) = binary32.negative (s * 2 ^ 31 + e * 2 ^ 23 + m) := by
    rw [negative32 hs he hm]
    have := negative16 (s := s) (E := half e m / 2 ^ 10) (M := half e m % 2 ^ 10) hs (by omega) (by omega)
    rw [Nat.add_assoc, show half e m / 2 ^ 10 * 2 ^ 10 + half e m % 2 ^ 10 = half e m by omega] at this
    exact this
  have hbound : ((mag32 e m : ℚ) / 2 ^ 149 < 65520) ↔ mag32 e m < bound := div_lt_scale (k := 65520)
  refine ⟨?_, hneg, ?_, ?_, ?_, ?_⟩
  · show s * 2 ^ 15 + half e m < 2 ^ 16
    omega
  · rintro ⟨h1, h2⟩
    rw [exponent32 hs he hm] at h1
    rw [fraction32 hs he hm] at h2
    have h1' : e = 255 := h1
    have e1 : half e m = 0x7C00 + 512 := by
      unfold half
      rw [if_pos h1', if_pos h2]
    rw [e1]
    interval_cases s
    · exact ⟨rfl, by decide⟩
    · exact ⟨rfl, by decide⟩
  · rintro ⟨h1, h2⟩
    rw [exponent32 hs he hm] at h1
    rw [fraction32 hs he hm] at h2
    have h1' : e = 255 := h1
    have e1 : half e m = 0x7C00 := by
      unfold half
      rw [if_pos h1', if_neg (by omega)]
    rw [e1]
    exact infinite16 hs
  · intro h1 h2
    have h1' : e ≠ 255 := by
      have := h1
      unfold Format.Finite at this
      rwa [exponent32 hs he hm] at this
    have h2' : bound ≤ mag32 e m := by
      by_contra hh
      exact absurd (hbound.mpr (by omega)) (not_lt.mpr h2)
    have e1 : half e m = 0x7C00 := by
      by_cases h : e ≤ 142
      · have h3 := half_range h hm
        have h4 := (half_finite h hm (fun h => by by_contra h'; exact hx ⟨h, h'⟩)).not
        omega
      · unfold half
        rw [if_neg h1', if_pos (by omega)]
    rw [e1]
    exact infinite16 hs
  · intro h1 h2
    have h2' := hbound.mp h2
    have h : e ≤ 142 := by
      by_contra hh
      have := mag32_large (e := e) (m := m) (by omega)
      omega
    have hc : e = 102 → m = 0 := fun h => by by_contra h'; exact hx ⟨h, h'⟩
    rw [value32 hs he hm]
    exact nearest_of_near hs ((half_finite h hm hc).mpr h2') (near_half h hm hc)

/-- The extent of the violation: every such number is rounded wrongly. -/
theorem C64_rounding_iff {f : Nat} (hf : binary32.Pattern f) : Rounded f (toHalf f) ↔ ¬ Flushed f := by
  refine ⟨fun hr hx => ?_, C64_rounding_partial hf⟩
  obtain ⟨hfin, h1, h2⟩ := hx
  have hx' : Flushed f := ⟨hfin, h1, h2⟩
  obtain ⟨s, e, m, hs, he, hm, rfl⟩ := fields32 hf
  rw [flushed_iff hs he hm] at hx'
  obtain ⟨-, -, hn⟩ := hr.2.2.2.2.2 hfin (by
    refine lt_trans h2 ?_
    norm_num)
  rw [toHalf_eq hs he hm] at hn
  have e0 : half e m = 0 := by
    rw [hx'.1]
    unfold half
    simp
  rw [e0] at hn
  obtain ⟨h3, -⟩ := hn (s * 2 ^ 15 + 1) (by show s * 2 ^ 15 + 1 < 2 ^ 16; omega) (by
    unfold Format.Finite
    rw [exponent16' (by omega)]
    decide)
  rw [value16' hs (by omega), value16' hs (by omega), value32 hs he hm, ← mul_sub, ← mul_sub, sgn_abs, sgn_abs] at h3
  rw [abs_value hs he hm] at h1 h2
  have m0 : mag 0 = 0 := rfl
  have m1 : mag 1 = 1 := rfl
  rw [m0, m1] at h3
  generalize (mag32 e m : ℚ) / 2 ^ 149 = v at h1 h2 h3
  rw [Nat.cast_zero, zero_div, sub_zero, Nat.cast_one, abs_of_nonneg (by linarith [show (0 : ℚ) < 1 / 2 ^ 25 by positivity]), abs_of_nonpos (by linarith)] at h3
  have : (1 : ℚ) / 2 ^ 24 = 1 / 2 ^ 25 + 1 / 2 ^ 25 := by norm_num
  linarith

/-- C64 is violated: 1.5 * 2^-25 becomes 0 instead of 2^-24. -/
theorem C64_violated : ¬ C64_statement := by
  intro h
  have hp : binary32.Pattern 0x33400000 := by show 0x33400000 < 2 ^ 32; decide
  exact (C64_rounding_iff hp).mp (h _ hp) (by
    have := (flushed_iff (s := 0) (e := 102) (m := 0x400000) (by decide) (by decide) (by decide)).mpr ⟨rfl, by decide⟩
    exact this)

example : toHalf 0x33400000 = 0 ∧ toHalf 0x33800000 = 1 ∧ toHalf 0x477FEFFF = 0x7BFF ∧ toHalf 0x477FF000 = 0x7C00 ∧ toHalf 0x3F801000 = 0x3C00 ∧
    toHalf 0x3F803000 = 0x3C02 ∧ toHalf 0xFFC00000 = 0xFE00 := by decide +kernel

/-! ### C63 -/

theorem normalise_eq : ∀ M, M < 1024 → M ≠ 0 → ∃ k : Nat, k ≤ 10 ∧ k ≠ 0 ∧ 1024 ≤ M * 2 ^ k ∧ M * 2 ^ k < 2048 ∧ normalise 11 M 1 = some (M * 2 ^ k, 1 - (k : Int)) := by
  have h : ∀ M, M < 1024 → M = 0 ∨ ∃ k : Nat, k < 11 ∧ k ≠ 0 ∧ 1024 ≤ M * 2 ^ k ∧ M * 2 ^ k < 2048 ∧ normalise 11 M 1 = some (M * 2 ^ k, 1 - (k : Int)) := by
    decide +kernel
  intro M h1 h2
  obtain ⟨k, a, b⟩ := (h M h1).resolve_left h2
  exact ⟨k, by omega, b⟩

/-- What `toFloat` gives, in fields. -/
theorem toFloat_eq {s E M : Nat} (hs : s < 2) (hE : E < 32) (hM : M < 1024) : ∃ e m, e < 256 ∧ m < 2 ^ 23 ∧
    toFloat (s * 2 ^ 15 + E * 2 ^ 10 + M) = some (s * 2 ^ 31 + e * 2 ^ 23 + m) ∧
    ((E = 31 ∧ e = 255 ∧ m = M * 8192) ∨ (E ≠ 31 ∧ e < 143 ∧ mag32 e m = mag (E * 2 ^ 10 + M) * D ∧ half e m = E * 2 ^ 10 + M)) := by
  have e1 : ((s * 2 ^ 15 + E * 2 ^ 10 + M) &&& 0x8000) <<< 16 = s * 2 ^ 31 := by
    rw [show (0x8000 : Nat) = 2 ^ 15 from rfl, and_bit, Nat.shiftLeft_eq]
    omega
  have e2 : ((s * 2 ^ 15 + E * 2 ^ 10 + M) >>> 10) &&& 0x1F = E := by
    rw [show (0x1F : Nat) = 2 ^ 5 - 1 from rfl, and_mask, Nat.shiftRight_eq_div_pow]
    omega
  have e3 : (s * 2 ^ 15 + E * 2 ^ 10 + M) &&& 0x3FF = M := by
    rw [show (0x3FF : Nat) = 2 ^ 10 - 1 from rfl, and_mask]
    omega
  have hor : ∀ e m, e < 256 → m < 2 ^ 23 → s * 2 ^ 31 ||| e * 2 ^ 23 ||| m = s * 2 ^ 31 + e * 2 ^ 23 + m := by
    intro e m h1 h2
    rw [Nat.or_assoc, or_low h2, or_low (by omega), Nat.add_assoc]
  have hmag : mag (E * 2 ^ 10 + M) = if E = 0 then M else (1024 + M) * 2 ^ (E - 1) := by
    unfold mag
    rw [show (E * 2 ^ 10 + M) / 1024 = E by omega, show (E * 2 ^ 10 + M) % 1024 = M by omega]
  unfold toFloat
  rw [e1, e2, e3]
  clear e1 e2 e3
  dsimp only
  rw [hmag]
  by_cases h0 : E = 0
  · subst h0
    rw [if_pos rfl]
    by_cases hM0 : M = 0
    · subst hM0
      rw [if_pos rfl]
      exact ⟨0, 0, by decide, by decide, by rw [Nat.zero_mul, Nat.add_zero], Or.inr ⟨by decide, by decide, (Nat.zero_mul D).symm, by simp [half]⟩⟩
    · rw [if_neg hM0]
      obtain ⟨k, hk, hk0, h1, h2, h3⟩ := normalise_eq M hM hM0
      rw [h3]
      dsimp only
      rw [show (0x3FF : Nat) = 2 ^ 10 - 1 from rfl, and_mask, Nat.shiftLeft_eq, Nat.shiftLeft_eq, show (1 - (k : Int) + 127 - 15).toNat = 113 - k by omega,
        show M * 2 ^ k % 2 ^ 10 = M * 2 ^ k - 1024 by omega, hor _ _ (by omega) (by omega)]
      have hsum : 2 ^ 23 + (M * 2 ^ k - 1024) * 2 ^ 13 = M * 2 ^ (13 + k) := by
        rw [Nat.pow_add]
        have : M * (2 ^ 13 * 2 ^ k) = M * 2 ^ k * 2 ^ 13 := by ring
        rw [this]
        omega
      refine ⟨113 - k, (M * 2 ^ k - 1024) * 2 ^ 13, by omega, by omega, rfl, Or.inr ⟨by decide, by omega, ?_, ?_⟩⟩
      · unfold mag32
        rw [if_neg (by omega), if_pos rfl, hsum, Nat.mul_assoc, ← Nat.pow_add]
        unfold D
        rw [show 13 + k + (113 - k - 1) = 125 by omega]
      · unfold half
        rw [if_neg (by omega), if_neg (by omega), if_neg (by omega), if_pos (by omega), hsum, show 126 - (113 - k) = 13 + k by omega,
          Nat.mul_div_cancel _ (by positivity), Nat.mul_mod_left]
        unfold bump
        have : 0 < 2 ^ (125 - (113 - k)) := by positivity
        rw [if_neg (by omega)]
        omega
  · rw [if_neg h0]
    by_cases h31 : E = 31
    · rw [if_pos h31, Nat.shiftLeft_eq, show (0x7F800000 : Nat) = 255 * 2 ^ 23 from rfl, hor _ _ (by decide) (by omega)]
      exact ⟨255, M * 2 ^ 13, by decide, by omega, rfl, Or.inl ⟨h31, rfl, rfl⟩⟩
    · rw [if_neg h31, Nat.shiftLeft_eq, Nat.shiftLeft_eq, show ((E : Int) + 127 - 15).toNat = E + 112 by omega, hor _ _ (by omega) (by omega)]
      refine ⟨E + 112, M * 2 ^ 13, by omega, by omega, rfl, Or.inr ⟨h31, by omega, ?_, ?_⟩⟩
      · unfold mag32 D
        rw [if_neg (by omega), if_neg h0]
        obtain ⟨k, rfl⟩ : ∃ k, E = k + 1 := ⟨E - 1, by omega⟩
        rw [show k + 1 + 112 - 1 = k + 112 by omega, show k + 1 - 1 = k by omega, Nat.pow_add 2 k 112]
        ring
      · unfold half bump
        rw [if_neg (by omega), if_neg (by omega), if_pos (by omega)]
        rw [show M * 2 ^ 13 % 8192 = 0 by omega, show M * 2 ^ 13 / 8192 = M by omega, if_neg (by omega)]
        omega

/-- The property C63: for every pattern of binary16 the conversion ends with a binary32 number with the same sign and value; infinity
and NaN are kept; and converting back gives the pattern again, or a NaN for a NaN. -/
theorem C63_exact {h : Nat} (hp : binary16.Pattern h) : ∃ f, toFloat h = some f ∧ binary32.Pattern f ∧
    binary32.negative f = binary16.negative h ∧
    (binary16.Finite h → binary32.Finite f ∧ binary32.value f = binary16.value h) ∧
    (binary16.Infinite h → binary32.Infinite f) ∧ (binary16.NaN h → binary32.NaN f) ∧
    (¬ binary16.NaN h → toHalf f = h) ∧ (binary16.NaN h → binary16.NaN (toHalf f)) := by
  obtain ⟨s, E, M, hs, hE, hM, rfl⟩ := fields16 hp
  obtain ⟨e, m, he, hm, h1, h2⟩ := toFloat_eq hs hE hM
  have hpat : binary32.Pattern (s * 2 ^ 31 + e * 2 ^ 23 + m) := by
    show s * 2 ^ 31 + e * 2 ^ 23 + m < 2 ^ 32
    omega
  refine ⟨_, h1, hpat, ?_⟩
  rw [negative32 hs he hm, negative16 hs hE hM]
  unfold Format.Finite Format.Infinite Format.NaN
  rw [exponent32 hs he hm, exponent16 hs hE hM, fraction32 hs he hm, fraction16 hs hE hM, value32 hs he hm, value16 hs hE hM]
  have c1 : 2 ^ binary32.expBits - 1 = 255 := rfl
  have c2 : 2 ^ binary16.expBits - 1 = 31 := rfl
  rw [c1, c2]
  refine ⟨rfl, ?_, ?_, ?_, ?_, ?_⟩
  · intro h
    rcases h2 with ⟨a, -, -⟩ | ⟨-, a, b, -⟩
    · exact absurd a h
    · refine ⟨by omega, ?_⟩
      rw [b]
      congr 1
      have hD : (D : ℚ) = 2 ^ 125 := by unfold D; norm_num
      push_cast
      rw [hD]
      field_simp
  · rintro ⟨a, b⟩
    rcases h2 with ⟨-, c, d⟩ | ⟨c, -⟩
    · exact ⟨c, by omega⟩
    · exact absurd a c
  · rintro ⟨a, b⟩
    rcases h2 with ⟨-, c, d⟩ | ⟨c, -⟩
    · exact ⟨c, by omega⟩
    · exact absurd a c
  · intro hn
    rw [toHalf_eq hs he hm, Nat.add_assoc]
    congr 1
    rcases h2 with ⟨a, c, d⟩ | ⟨-, -, -, c⟩
    · have hM0 : M = 0 := by
        by_contra h
        exact hn ⟨a, h⟩
      subst hM0
      rw [a, c, d]
      rfl
    · exact c
  · rintro ⟨a, b⟩
    rcases h2 with ⟨-, c, d⟩ | ⟨c, -⟩
    · have hr := C64_rounding_partial hpat (by
        rw [flushed_iff hs he hm]
        omega)
      apply hr.2.2.1
      refine ⟨?_, ?_⟩
      · rw [exponent32 hs he hm]; exact c
      · rw [fraction32 hs he hm]; omega
    · exact absurd a c

example : toFloat 0x0001 = some 0x33800000 ∧ toFloat 0x83FF = some 0xB87FC000 ∧ toFloat 0xC500 = some 0xC0A00000 ∧ toFloat 0x7C01 = some 0x7F802000 := by
  decide +kernel

end Verif.Half
