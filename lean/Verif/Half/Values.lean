import Verif.Half.Proof
import Mathlib.Tactic.NormNum
import Mathlib.Algebra.Order.Field.Power

/-! Values of the patterns, and the conversions in terms of values. -/
namespace Verif.Half
open Format

/-- A pattern of 32 bits is its three fields. -/
theorem fields32 {f : Nat} (h : binary32.Pattern f) : ∃ s e m, s < 2 ∧ e < 256 ∧ m < 2 ^ 23 ∧ f = s * 2 ^ 31 + e * 2 ^ 23 + m := by
  have h' : f < 2 ^ 32 := h
  exact ⟨f / 2 ^ 31, f / 2 ^ 23 % 256, f % 2 ^ 23, by omega, by omega, by omega, by omega⟩

theorem fields16 {h : Nat} (hp : binary16.Pattern h) : ∃ s E M, s < 2 ∧ E < 32 ∧ M < 2 ^ 10 ∧ h = s * 2 ^ 15 + E * 2 ^ 10 + M := by
  have h' : h < 2 ^ 16 := hp
  exact ⟨h / 2 ^ 15, h / 2 ^ 10 % 32, h % 2 ^ 10, by omega, by omega, by omega, by omega⟩

theorem exponent32 {s e m : Nat} (_ : s < 2) (he : e < 256) (hm : m < 2 ^ 23) : binary32.exponent (s * 2 ^ 31 + e * 2 ^ 23 + m) = e := by
  show (s * 2 ^ 31 + e * 2 ^ 23 + m) / 2 ^ 23 % 2 ^ 8 = e
  omega
theorem fraction32 {s e m : Nat} (_ : s < 2) (_ : e < 256) (hm : m < 2 ^ 23) : binary32.fraction (s * 2 ^ 31 + e * 2 ^ 23 + m) = m := by
  show (s * 2 ^ 31 + e * 2 ^ 23 + m) % 2 ^ 23 = m
  omega
theorem negative32 {s e m : Nat} (hs : s < 2) (he : e < 256) (hm : m < 2 ^ 23) : binary32.negative (s * 2 ^ 31 + e * 2 ^ 23 + m) = (s == 1) := by
  have : (s * 2 ^ 31 + e * 2 ^ 23 + m) / 2 ^ 31 % 2 = s := by omega
  show ((s * 2 ^ 31 + e * 2 ^ 23 + m) / 2 ^ 31 % 2 == 1) = (s == 1)
  rw [this]

theorem exponent16 {s E M : Nat} (_ : s < 2) (he : E < 32) (hm : M < 2 ^ 10) : binary16.exponent (s * 2 ^ 15 + E * 2 ^ 10 + M) = E := by
  show (s * 2 ^ 15 + E * 2 ^ 10 + M) / 2 ^ 10 % 2 ^ 5 = E
  omega
theorem fraction16 {s E M : Nat} (_ : s < 2) (_ : E < 32) (hm : M < 2 ^ 10) : binary16.fraction (s * 2 ^ 15 + E * 2 ^ 10 + M) = M := by
  show (s * 2 ^ 15 + E * 2 ^ 10 + M) % 2 ^ 10 = M
  omega
theorem negative16 {s E M : Nat} (hs : s < 2) (he : E < 32) (hm : M < 2 ^ 10) : binary16.negative (s * 2 ^ 15 + E * 2 ^ 10 + M) = (s == 1) := by
  have : (s * 2 ^ 15 + E * 2 ^ 10 + M) / 2 ^ 15 % 2 = s := by omega
  show ((s * 2 ^ 15 + E * 2 ^ 10 + M) / 2 ^ 15 % 2 == 1) = (s == 1)
  rw [this]

/-- Magnitude of a float in units of 2^-149. -/
def mag32 (e m : Nat) : Nat := if e = 0 then m else (2 ^ 23 + m) * 2 ^ (e - 1)

def sgn (s : Nat) : ℚ := if s = 1 then -1 else 1

theorem sgn_cases (s : Nat) : sgn s = 1 ∨ sgn s = -1 := by
  unfold sgn
  split
  · exact Or.inr rfl
  · exact Or.inl rfl

theorem sgn_abs (s : Nat) (x : ℚ) : |sgn s * x| = |x| := by
  rcases sgn_cases s with h | h <;> rw [h]
  · rw [one_mul]
  · rw [neg_one_mul, abs_neg]

theorem value32 {s e m : Nat} (hs : s < 2) (he : e < 256) (hm : m < 2 ^ 23) :
    binary32.value (s * 2 ^ 31 + e * 2 ^ 23 + m) = sgn s * ((mag32 e m : ℚ) / 2 ^ 149) := by
  unfold value
  rw [exponent32 hs he hm, fraction32 hs he hm, negative32 hs he hm]
  congr 1
  · unfold sgn; simp
  · unfold mag32
    have hb : binary32.bias = 127 := rfl
    have hf : ((binary32.fracBits : ℕ) : Int) = 23 := rfl
    rw [hb, hf]
    by_cases h0 : e = 0
    · rw [if_pos h0, if_pos h0, show (1 - 127 - 23 : Int) = -149 from rfl, zpow_neg, div_eq_mul_inv]
      norm_cast
    · rw [if_neg h0, if_neg h0, show ((e : Int) - 127 - 23) = ((e - 1 : Nat) : Int) - 149 by omega, zpow_sub₀ (by norm_num), zpow_natCast]
      show ((2 ^ 23 + m : ℕ) : ℚ) * (2 ^ (e - 1) / 2 ^ (149 : ℤ)) = _
      push_cast
      rw [mul_div_assoc]
      norm_cast

theorem value16 {s E M : Nat} (hs : s < 2) (he : E < 32) (hm : M < 2 ^ 10) :
    binary16.value (s * 2 ^ 15 + E * 2 ^ 10 + M) = sgn s * ((mag (E * 2 ^ 10 + M) : ℚ) / 2 ^ 24) := by
  unfold value
  rw [exponent16 hs he hm, fraction16 hs he hm, negative16 hs he hm]
  congr 1
  · unfold sgn; simp
  · unfold mag
    have h1 : (E * 2 ^ 10 + M) / 1024 = E := by omega
    have h2 : (E * 2 ^ 10 + M) % 1024 = M := by omega
    rw [h1, h2]
    have hb : binary16.bias = 15 := rfl
    have hf : ((binary16.fracBits : ℕ) : Int) = 10 := rfl
    rw [hb, hf]
    by_cases h0 : E = 0
    · rw [if_pos h0, if_pos h0, show (1 - 15 - 10 : Int) = -24 from rfl, zpow_neg, div_eq_mul_inv]
      norm_cast
    · rw [if_neg h0, if_neg h0, show ((E : Int) - 15 - 10) = ((E - 1 : Nat) : Int) - 24 by omega, zpow_sub₀ (by norm_num), zpow_natCast]
      show ((2 ^ 10 + M : ℕ) : ℚ) * (2 ^ (E - 1) / 2 ^ (24 : ℤ)) = _
      push_cast
      rw [mul_div_assoc]
      norm_cast

theorem value16' {s r : Nat} (hs : s < 2) (hr : r < 2 ^ 15) : binary16.value (s * 2 ^ 15 + r) = sgn s * ((mag r : ℚ) / 2 ^ 24) := by
  have h := value16 (s := s) (E := r / 2 ^ 10) (M := r % 2 ^ 10) hs (by omega) (by omega)
  rw [Nat.add_assoc, show r / 2 ^ 10 * 2 ^ 10 + r % 2 ^ 10 = r by omega] at h
  exact h

theorem exponent16' {s r : Nat} (hr : r < 2 ^ 15) : binary16.exponent (s * 2 ^ 15 + r) = r / 1024 := by
  show (s * 2 ^ 15 + r) / 2 ^ 10 % 2 ^ 5 = r / 1024
  omega

/-! ### Rounding -/

def D : Nat := 2 ^ 125

theorem near_half {e m : Nat} (he : e ≤ 142) (hm : m < 2 ^ 23) (hx : e = 102 → m = 0) : Near (mag32 e m) D (half e m) := by
  unfold half
  rw [if_neg (by omega), if_neg (by omega)]
  by_cases h3 : 112 < e
  · rw [if_pos h3]
    have hb : (e - 112) * 1024 + bump (m / 8192) (m % 8192) 4096 = bump ((e - 112) * 1024 + m / 8192) (m % 8192) (2 ^ 12) := by
      unfold bump
      have : ((e - 112) * 1024 + m / 8192) % 2 = m / 8192 % 2 := by omega
      rw [this]
      show _ = if m % 8192 > 4096 ∨ m % 8192 = 4096 ∧ m / 8192 % 2 = 1 then _ else _
      split <;> omega
    rw [hb]
    have hq : ((e - 112) * 1024 + m / 8192) / 1024 = e - 112 := by omega
    have hq' : ((e - 112) * 1024 + m / 8192) % 1024 = m / 8192 := by omega
    obtain ⟨k, rfl⟩ : ∃ k, e = k + 113 := ⟨e - 113, by omega⟩
    apply near_bump (u := 2 ^ (k + 112))
    · unfold mag32 mag
      rw [hq, hq', if_neg (by omega), if_neg (by omega)]
      simp only [show k + 113 - 1 = k + 112 by omega, show k + 113 - 112 - 1 = k by omega]
      have hd : m = m / 8192 * 8192 + m % 8192 := by omega
      generalize m / 8192 = a at *
      generalize m % 8192 = b at *
      rw [hd, Nat.pow_add 2 k 112]
      show _ = (1024 + a) * 2 ^ k * 2 ^ 125 + _
      ring
    · rw [hq, show k + 113 - 112 - 1 = k by omega, Nat.pow_add 2 k 112]
      unfold D
      ring
    · omega
    · positivity
  rw [if_neg h3]
  by_cases h4 : 103 ≤ e
  · rw [if_pos h4]
    obtain ⟨k, hk⟩ : ∃ k, 126 - e = k + 1 := ⟨125 - e, by omega⟩
    have hk' : 125 - e = k := by omega
    have hlt := sub_lt hm h4 (by omega)
    rw [hk] at hlt
    rw [hk, hk']
    apply near_bump (u := 2 ^ (e - 1))
    · unfold mag32 mag
      rw [if_neg (by omega), if_pos (Nat.div_eq_of_lt hlt), Nat.mod_eq_of_lt hlt]
      have hp : (2 : Nat) ^ 125 = 2 ^ (k + 1) * 2 ^ (e - 1) := by rw [← Nat.pow_add]; congr 1; omega
      show _ = _ * 2 ^ 125 + _
      rw [hp]
      have hd := Nat.div_add_mod (2 ^ 23 + m) (2 ^ (k + 1))
      generalize (2 ^ 23 + m) / 2 ^ (k + 1) = a at *
      generalize (2 ^ 23 + m) % 2 ^ (k + 1) = b at *
      rw [← hd]
      ring
    · rw [Nat.div_eq_of_lt hlt]
      show 1 * 2 ^ 125 = _
      rw [Nat.one_mul, ← Nat.pow_add]
      congr 1
      omega
    · exact Nat.mod_lt _ (by positivity)
    · positivity
  · rw [if_neg h4]
    have hle : 2 * mag32 e m ≤ 2 ^ 125 := by
      unfold mag32
      split
      · have : 2 * m ≤ 2 ^ 24 := by omega
        have h2 : 2 ^ 24 ≤ 2 ^ 125 := Nat.pow_le_pow_right (by decide) (by decide)
        omega
      · by_cases h102 : e = 102
        · rw [hx h102, h102]
          decide
        · have h1 : 2 ^ (e - 1) ≤ 2 ^ 100 := Nat.pow_le_pow_right (by decide) (by omega)
          calc 2 * ((2 ^ 23 + m) * 2 ^ (e - 1)) ≤ 2 * (2 ^ 24 * 2 ^ 100) := by
                apply Nat.mul_le_mul_left
                exact Nat.mul_le_mul (by omega) h1
            _ ≤ 2 ^ 125 := by decide
    intro c
    have h0 : mag 0 = 0 := rfl
    rw [h0]
    refine ⟨?_, fun _ _ => rfl⟩
    rcases Nat.eq_zero_or_pos c with hc | hc
    · subst hc; rfl
    · have h1 : 1 ≤ mag c := by
        have := mag_strict hc
        omega
      have h2 : 2 ^ 125 ≤ mag c * D := Nat.le_mul_of_pos_left _ h1
      have h3 := Nat.le_trans hle h2
      clear hle h2
      rw [← Nat.cast_mul, ← Nat.cast_mul, Nat.zero_mul]
      generalize mag c * D = V at *
      generalize mag32 e m = x at *
      rw [abs_of_nonneg (by omega), abs_of_nonpos (by omega)]
      omega

theorem half_range {e m : Nat} (he : e ≤ 142) (hm : m < 2 ^ 23) : half e m ≤ 0x7C00 := by
  unfold half
  rw [if_neg (by omega), if_neg (by omega)]
  split
  · have := bump_le (m / 8192) (m % 8192) 4096
    omega
  split
  · have := bump_le ((2 ^ 23 + m) / 2 ^ (126 - e)) ((2 ^ 23 + m) % 2 ^ (126 - e)) (2 ^ (125 - e))
    have := sub_lt hm (e := e) (by omega) (by omega)
    omega
  · omega

/-- The bound of the finite range: 65520 in units of 2^-149. -/
def bound : Nat := 65520 * 2 ^ 149

theorem bound_eq : 2 * bound = mag 0x7BFF * D + mag 0x7C00 * D := by decide +kernel
theorem top_lt : mag 0x7BFF * D < bound ∧ bound < mag 0x7C00 * D := by decide +kernel

theorem half_finite {e m : Nat} (he : e ≤ 142) (hm : m < 2 ^ 23) (hx : e = 102 → m = 0) : half e m < 0x7C00 ↔ mag32 e m < bound := by
  have hn := near_half he hm hx
  have hr := half_range he hm
  have e1 := bound_eq
  obtain ⟨e2, e3⟩ := top_lt
  generalize bound = B at *
  generalize mag32 e m = x at *
  generalize half e m = r at *
  constructor
  · intro hlt
    by_contra hge
    obtain ⟨h1, h2⟩ := hn 0x7C00
    have hmono : mag r * D ≤ mag 0x7BFF * D := Nat.mul_le_mul_right _ (mag_strict.monotone (show r ≤ 0x7BFF by omega))
    rw [← Nat.cast_mul, ← Nat.cast_mul] at h1 h2
    by_cases hr2 : r = 0x7BFF
    · subst hr2
      generalize mag 0x7BFF * D = P at *
      generalize mag 0x7C00 * D = Q at *
      have := h2 (by
        rw [abs_of_nonneg (by omega)] at h1 ⊢
        rcases Nat.lt_or_ge x Q with h | h
        · rw [abs_of_nonpos (by omega)] at h1 ⊢; omega
        · rw [abs_of_nonneg (by omega)] at h1 ⊢; omega) (by decide)
      omega
    · have hs : mag r * D < mag 0x7BFF * D := Nat.mul_lt_mul_of_pos_right (mag_strict (show r < 0x7BFF by omega)) (by decide)
      generalize mag r * D = R at *
      generalize mag 0x7BFF * D = P at *
      generalize mag 0x7C00 * D = Q at *
      rw [abs_of_nonneg (by omega)] at h1
      rcases Nat.lt_or_ge x Q with h | h
      · rw [abs_of_nonpos (by omega)] at h1; omega
      · rw [abs_of_nonneg (by omega)] at h1; omega
  · intro hlt
    by_contra hge
    have : r = 0x7C00 := by omega
    subst this
    obtain ⟨h1, -⟩ := hn 0x7BFF
    rw [← Nat.cast_mul, ← Nat.cast_mul] at h1
    generalize mag 0x7BFF * D = P at *
    generalize mag 0x7C00 * D = Q at *
    rw [abs_of_nonpos (by omega)] at h1
    rcases Nat.lt_or_ge x P with h | h
    · rw [abs_of_nonpos (by omega)] at h1; omega
    · rw [abs_of_nonneg (by omega)] at h1; omega

theorem mag32_large {e m : Nat} (he : 142 < e) : bound ≤ mag32 e m := by
  unfold mag32
  rw [if_neg (by omega)]
  have h1 : 2 ^ 142 ≤ 2 ^ (e - 1) := Nat.pow_le_pow_right (by decide) (by omega)
  calc bound ≤ 2 ^ 23 * 2 ^ 142 := by decide +kernel
    _ ≤ (2 ^ 23 + m) * 2 ^ (e - 1) := Nat.mul_le_mul (by omega) h1

theorem scale (x r : Nat) : (x : ℚ) / 2 ^ 149 - (r : ℚ) / 2 ^ 24 = (((x : Int) - r * D : Int) : ℚ) / 2 ^ 149 := by
  have hD : (D : ℚ) = 2 ^ 125 := by unfold D; norm_num
  push_cast
  rw [hD]
  field_simp

/-- Rounding on integers gives rounding on values. -/
theorem nearest_of_near {s x r : Nat} (hs : s < 2) (hr : r < 0x7C00) (hn : Near x D r) :
    binary16.Nearest (sgn s * ((x : ℚ) / 2 ^ 149)) (s * 2 ^ 15 + r) := by
  refine ⟨?_, ?_, ?_⟩
  · show s * 2 ^ 15 + r < 2 ^ 16
    omega
  · unfold Format.Finite
    rw [exponent16' (by omega)]
    show r / 1024 ≠ 31
    omega
  · intro c hc hf
    obtain ⟨t, k, ht, hk, rfl⟩ : ∃ t k, t < 2 ∧ k < 2 ^ 15 ∧ c = t * 2 ^ 15 + k := by
      have : c < 2 ^ 16 := hc
      exact ⟨c / 2 ^ 15, c % 2 ^ 15, by omega, by omega, by omega⟩
    rw [value16' hs (by omega), value16' ht hk, ← mul_sub, sgn_abs, scale]
    have hpos : (0 : ℚ) < 2 ^ 149 := by positivity
    by_cases hst : sgn s = sgn t
    · rw [hst, ← mul_sub, sgn_abs, scale, abs_div, abs_div, abs_of_pos hpos]
      obtain ⟨h1, h2⟩ := hn k
      refine ⟨?_, ?_⟩
      · apply div_le_div_of_nonneg_right _ hpos.le
        exact_mod_cast h1
      · intro h3 h4
        have h5 : |(x : Int) - mag r * D| = |(x : Int) - mag k * D| := by
          have := (div_left_inj' hpos.ne').mp h3
          exact_mod_cast this
        have := h2 h5 (fun e => h4 (by rw [e]))
        omega
    · -- opposite signs
      have hopp : sgn t = - sgn s := by
        rcases sgn_cases s with h | h <;> rcases sgn_cases t with h' | h' <;> rw [h, h'] at hst ⊢ <;> first | exact absurd rfl hst | norm_num
      rw [hopp, neg_mul, sub_neg_eq_add, ← mul_add, sgn_abs]
      have e1 : (x : ℚ) / 2 ^ 149 + (mag k : ℚ) / 2 ^ 24 = (((x : Int) + mag k * D : Int) : ℚ) / 2 ^ 149 := by
        have hD : (D : ℚ) = 2 ^ 125 := by unfold D; norm_num
        push_cast
        rw [hD]
        field_simp
      rw [e1, abs_div, abs_div, abs_of_pos hpos]
      obtain ⟨h1, h2⟩ := hn 0
      have h0 : mag 0 = 0 := rfl
      rw [h0, Nat.cast_zero, Int.zero_mul, Int.sub_zero] at h1 h2
      have hxa : |(x : Int)| = x := abs_of_nonneg (by omega)
      rw [hxa] at h1 h2
      have hsum : |(x : Int) + mag k * D| = x + mag k * D := by
        rw [← Nat.cast_mul]
        exact abs_of_nonneg (by omega)
      have hnn : (0 : Int) ≤ mag k * D := by rw [← Nat.cast_mul]; omega
      refine ⟨?_, ?_⟩
      · apply div_le_div_of_nonneg_right _ hpos.le
        have : |(x : Int) - mag r * D| ≤ |(x : Int) + mag k * D| := by rw [hsum]; omega
        exact_mod_cast this
      · intro h3 h4
        have h5 : |(x : Int) - mag r * D| = |(x : Int) + mag k * D| := by
          have := (div_left_inj' hpos.ne').mp h3
          exact_mod_cast this
        rw [hsum] at h5
        have h6 : (mag k : Int) * D = 0 := by omega
        have h7 : mag k = 0 := by
          have hD : (D : Int) ≠ 0 := by unfold D; norm_num
          have := (mul_eq_zero.mp h6).resolve_right hD
          exact_mod_cast this
        have h8 : r ≠ 0 := by
          rintro rfl
          apply h4
          rw [h7]
          simp [mag]
        have := h2 (by omega) h8
        omega

end Verif.Half
