import Verif.Half.Model
import Verif.Half.Spec
import Mathlib.Tactic.Linarith
import Mathlib.Tactic.Ring
import Mathlib.Tactic.FieldSimp
import Mathlib.Tactic.Positivity
import Mathlib.Order.Monotone.Basic

/-! Arithmetic forms of the conversions, and rounding on integers. -/
namespace Verif.Half

/-! ### Bits -/

theorem and_mask (a k : Nat) : a &&& (2 ^ k - 1) = a % 2 ^ k := Nat.and_two_pow_sub_one_eq_mod a k

theorem or_low {k a b : Nat} (h : b < 2 ^ k) : a * 2 ^ k ||| b = a * 2 ^ k + b := by
  rw [Nat.mul_comm, ← Nat.two_pow_add_eq_or_of_lt h]

theorem and_one (a : Nat) : a &&& 1 = a % 2 := and_mask a 1

theorem and_bit (a k : Nat) : a &&& 2 ^ k = a / 2 ^ k % 2 * 2 ^ k := by
  rw [Nat.and_two_pow, Nat.testBit_eq_decide_div_mod_eq]
  have := Nat.mod_lt (a / 2 ^ k) (show 2 > 0 by decide)
  by_cases h : a / 2 ^ k % 2 = 1
  · rw [h]; rfl
  · have h0 : a / 2 ^ k % 2 = 0 := by omega
    rw [h0]; rfl

/-! ### Rounding of the quotient -/

def bump (q rem h : Nat) : Nat := if rem > h ∨ (rem = h ∧ q % 2 = 1) then q + 1 else q

/-- `toHalf` on the fields of the number. -/
def half (e m : Nat) : Nat :=
  if e = 255 then 0x7C00 + (if m ≠ 0 then 512 else 0)
  else if 142 < e then 0x7C00
  else if 112 < e then (e - 112) * 1024 + bump (m / 8192) (m % 8192) 4096
  else if 103 ≤ e then bump ((2 ^ 23 + m) / 2 ^ (126 - e)) ((2 ^ 23 + m) % 2 ^ (126 - e)) (2 ^ (125 - e))
  else 0

theorem bump_le (q rem h : Nat) : bump q rem h ≤ q + 1 := by unfold bump; split <;> omega

theorem sub_lt {e m : Nat} (hm : m < 2 ^ 23) (h : 103 ≤ e) (h' : e ≤ 112) : (2 ^ 23 + m) / 2 ^ (126 - e) < 1024 := by
  rw [Nat.div_lt_iff_lt_mul (by positivity)]
  have : 2 ^ 14 ≤ 2 ^ (126 - e) := Nat.pow_le_pow_right (by decide) (by omega)
  omega

theorem half_lt {e m : Nat} (hm : m < 2 ^ 23) : half e m < 2 ^ 15 := by
  unfold half
  split
  · split <;> omega
  split
  · omega
  split
  · have := bump_le (m / 8192) (m % 8192) 4096
    have h1 : m / 8192 < 1024 := by omega
    omega
  split
  · have := bump_le ((2 ^ 23 + m) / 2 ^ (126 - e)) ((2 ^ 23 + m) % 2 ^ (126 - e)) (2 ^ (125 - e))
    have := sub_lt hm (e := e) (by omega) (by omega)
    omega
  · omega

theorem toHalf_eq {s e m : Nat} (hs : s < 2) (he : e < 256) (hm : m < 2 ^ 23) :
    toHalf (s * 2 ^ 31 + e * 2 ^ 23 + m) = s * 2 ^ 15 + half e m := by
  have e1 : ((s * 2 ^ 31 + e * 2 ^ 23 + m) >>> 16) &&& 0x8000 = s * 2 ^ 15 := by
    rw [show (0x8000 : Nat) = 2 ^ 15 from rfl, and_bit, Nat.shiftRight_eq_div_pow]
    congr 1
    omega
  have e2 : ((s * 2 ^ 31 + e * 2 ^ 23 + m) >>> 23) &&& 0xFF = e := by
    rw [show (0xFF : Nat) = 2 ^ 8 - 1 from rfl, and_mask, Nat.shiftRight_eq_div_pow]
    omega
  have e3 : (s * 2 ^ 31 + e * 2 ^ 23 + m) &&& 0x7FFFFF = m := by
    rw [show (0x7FFFFF : Nat) = 2 ^ 23 - 1 from rfl, and_mask]
    omega
  have hor : ∀ b, b < 2 ^ 15 → s * 2 ^ 15 ||| b = s * 2 ^ 15 + b := fun b h => or_low h
  have hlt := half_lt (e := e) hm
  unfold toHalf
  rw [e1, e2, e3]
  clear e1 e2 e3
  dsimp only
  unfold half at hlt ⊢
  by_cases h1 : e = 255
  · rw [if_pos (by omega), if_pos h1, Nat.or_assoc, hor]
    · split <;> rfl
    · split <;> decide
  rw [if_neg (by omega), if_neg h1]
  rw [if_neg h1] at hlt
  by_cases h2 : 142 < e
  · rw [if_pos (by omega), if_pos h2, hor _ (by decide)]
  rw [if_neg (by omega), if_neg h2]
  rw [if_neg h2] at hlt
  by_cases h3 : 112 < e
  · rw [if_pos (by omega), if_pos h3]
    rw [if_pos h3] at hlt
    rw [show (0x1FFF : Nat) = 2 ^ 13 - 1 from rfl, and_mask, Nat.shiftRight_eq_div_pow, and_one]
    have hq : m / 2 ^ 13 < 1024 := by omega
    have hcond : (m % 2 ^ 13 > 0x1000 ∨ (m % 2 ^ 13 = 0x1000 ∧ m / 2 ^ 13 % 2 ≠ 0)) ↔ (m % 8192 > 4096 ∨ (m % 8192 = 4096 ∧ m / 8192 % 2 = 1)) := by
      constructor <;> intro h <;> rcases h with h | ⟨h, h'⟩ <;> first | (left; omega) | (right; constructor <;> omega)
    unfold bump at hlt ⊢
    by_cases hc : (m % 8192 > 4096 ∨ (m % 8192 = 4096 ∧ m / 8192 % 2 = 1))
    · rw [if_pos (hcond.mpr hc), if_pos hc]
      rw [if_pos hc] at hlt
      by_cases h4 : m / 2 ^ 13 + 1 = 0x400
      · rw [if_pos h4]
        dsimp only
        by_cases h5 : (e : Int) - 127 + 1 > 15
        · rw [if_pos h5, hor _ (by decide)]
          omega
        · rw [if_neg h5, show ((e : Int) - 127 + 1 + 15).toNat = e - 111 by omega, Nat.shiftLeft_eq, Nat.or_zero]
          have hk : (e - 111) * 2 ^ 10 < 2 ^ 15 := by
            clear hor hlt hcond hc
            omega
          rw [hor _ hk]
          omega
      · rw [if_neg h4]
        dsimp only
        rw [if_neg (by omega), show ((e : Int) - 127 + 15).toNat = e - 112 by omega, Nat.shiftLeft_eq, Nat.or_assoc,
          or_low (k := 10) (a := e - 112) (b := m / 2 ^ 13 + 1) (by omega), hor _ (by omega)]
        omega
    · rw [if_neg (fun h => hc (hcond.mp h)), if_neg hc]
      rw [if_neg hc] at hlt
      rw [show ((e : Int) - 127 + 15).toNat = e - 112 by omega, Nat.shiftLeft_eq, Nat.or_assoc,
        or_low (k := 10) (a := e - 112) (b := m / 2 ^ 13) (by omega), hor _ (by omega)]
      omega
  rw [if_neg (by omega), if_neg h3]
  rw [if_neg h3] at hlt
  by_cases h4 : 103 ≤ e
  · rw [if_pos (by omega), if_pos h4]
    rw [if_pos h4] at hlt
    have hmm : m ||| 0x800000 = 2 ^ 23 + m := by
      rw [Nat.or_comm, show (0x800000 : Nat) = 1 * 2 ^ 23 from rfl, or_low hm]
      omega
    rw [hmm, show (13 - ((e : Int) - 127 + 14)).toNat = 126 - e by omega, Nat.one_shiftLeft, and_mask, Nat.shiftRight_eq_div_pow, Nat.one_shiftLeft, and_one,
      show 126 - e - 1 = 125 - e by omega]
    unfold bump at hlt ⊢
    generalize (2 ^ 23 + m) / 2 ^ (126 - e) = Q at *
    generalize (2 ^ 23 + m) % 2 ^ (126 - e) = R at *
    generalize 2 ^ (125 - e) = H at *
    by_cases hc : R > H ∨ (R = H ∧ Q % 2 = 1)
    · rw [if_pos hc] at hlt ⊢
      rw [if_pos (by omega)]
      exact hor _ hlt
    · rw [if_neg hc] at hlt ⊢
      rw [if_neg (by omega)]
      exact hor _ hlt
  · rw [if_neg (by omega), if_neg h4, Nat.add_zero]

/-! ### Magnitudes -/

/-- Magnitude of a half in units of 2^-24, continued to all numbers. -/
def mag (r : Nat) : Nat := if r / 1024 = 0 then r % 1024 else (1024 + r % 1024) * 2 ^ (r / 1024 - 1)

theorem mag_succ (r : Nat) : mag (r + 1) = mag r + 2 ^ (r / 1024 - 1) := by
  unfold mag
  by_cases h : r % 1024 = 1023
  · have h1 : (r + 1) / 1024 = r / 1024 + 1 := by omega
    have h2 : (r + 1) % 1024 = 0 := by omega
    rw [h1, h2, h, if_neg (by omega)]
    by_cases h0 : r / 1024 = 0
    · rw [if_pos h0, h0]; rfl
    · rw [if_neg h0]
      obtain ⟨k, hk⟩ := Nat.exists_eq_succ_of_ne_zero h0
      rw [hk]
      simp only [Nat.succ_eq_add_one, Nat.add_sub_cancel]
      rw [Nat.pow_succ]
      ring
  · have h1 : (r + 1) / 1024 = r / 1024 := by omega
    have h2 : (r + 1) % 1024 = r % 1024 + 1 := by omega
    rw [h1, h2]
    by_cases h0 : r / 1024 = 0
    · rw [if_pos h0, if_pos h0, h0]; rfl
    · rw [if_neg h0, if_neg h0]
      ring

theorem mag_strict : StrictMono mag := by
  apply strictMono_nat_of_lt_succ
  intro n
  rw [mag_succ]
  have : 0 < 2 ^ (n / 1024 - 1) := by positivity
  omega

/-- `r` is nearest to `x`, in units of `D`, and even if there are two. -/
def Near (x D r : Nat) : Prop := ∀ c, |(x : Int) - mag r * D| ≤ |(x : Int) - mag c * D| ∧ (|(x : Int) - mag r * D| = |(x : Int) - mag c * D| → r ≠ c → r % 2 = 0)

theorem near_bump {x D q rem u k : Nat} (hx : x = mag q * D + rem * u) (hg : 2 ^ (q / 1024 - 1) * D = 2 ^ (k + 1) * u) (hr : rem < 2 ^ (k + 1)) (hu : 0 < u) :
    Near x D (bump q rem (2 ^ k)) := by
  have hD : 0 < D := by
    rcases Nat.eq_zero_or_pos D with h | h
    · rw [h, Nat.mul_zero] at hg
      have : 0 < 2 ^ (k + 1) * u := by positivity
      omega
    · exact h
  have hG : mag (q + 1) * D = mag q * D + 2 ^ (k + 1) * u := by rw [mag_succ, Nat.add_mul, hg]
  have hp : (2 : Nat) ^ (k + 1) = 2 ^ k + 2 ^ k := by rw [Nat.pow_succ]; omega
  have hlow : mag q * D ≤ x := by rw [hx]; omega
  have hru : rem * u < 2 ^ (k + 1) * u := Nat.mul_lt_mul_of_pos_right hr hu
  -- values at other places
  have below : ∀ c, c < q → mag c * D < mag q * D := fun c h => Nat.mul_lt_mul_of_pos_right (mag_strict h) hD
  have above : ∀ c, q + 1 < c → mag (q + 1) * D < mag c * D := fun c h => Nat.mul_lt_mul_of_pos_right (mag_strict h) hD
  have hpar : ∀ n : Nat, n % 2 = 0 ∨ n % 2 = 1 := Nat.mod_two_eq_zero_or_one
  intro c
  unfold bump
  have cmpu : ∀ a b : Nat, a < b → a * u + u ≤ b * u := by
    intro a b h
    calc a * u + u = (a + 1) * u := by ring
      _ ≤ b * u := Nat.mul_le_mul_right u h
  rw [hp, Nat.add_mul] at hG hru
  generalize hQ : mag q * D = Q at *
  by_cases hc : rem > 2 ^ k ∨ (rem = 2 ^ k ∧ q % 2 = 1)
  · rw [if_pos hc]
    have hge : 2 ^ k * u ≤ rem * u := by
      rcases hc with h | ⟨h, -⟩
      · exact Nat.mul_le_mul_right u (by omega)
      · rw [h]
    have hgt : rem > 2 ^ k → 2 ^ k * u + u ≤ rem * u := fun h => cmpu _ _ h
    generalize 2 ^ k * u = h at *
    generalize rem * u = R at *
    rw [← Nat.cast_mul, ← Nat.cast_mul]
    rcases Nat.lt_trichotomy c q with h1 | h1 | h1
    · have := below c h1
      generalize mag c * D = V at *
      generalize mag (q + 1) * D = W at *
      rw [abs_of_nonpos (by omega), abs_of_nonneg (by omega)]
      omega
    · subst h1
      rw [hQ]
      generalize mag (c + 1) * D = W at *
      rw [abs_of_nonpos (by omega), abs_of_nonneg (by omega)]
      refine ⟨by omega, fun he _ => ?_⟩
      rcases hc with hc | hc
      · have := hgt hc
        omega
      · omega
    · rcases Nat.lt_or_ge (q + 1) c with h2 | h2
      · have := above c h2
        generalize mag c * D = V at *
        generalize mag (q + 1) * D = W at *
        rw [abs_of_nonpos (by omega), abs_of_nonpos (by omega)]
        omega
      · have : c = q + 1 := by omega
        subst this
        exact ⟨le_refl _, fun _ h => absurd rfl h⟩
  · rw [if_neg hc]
    have hle : rem * u ≤ 2 ^ k * u := Nat.mul_le_mul_right u (by omega)
    have hlt : rem < 2 ^ k → rem * u + u ≤ 2 ^ k * u := fun h => cmpu _ _ h
    generalize 2 ^ k * u = h at *
    generalize rem * u = R at *
    rw [← Nat.cast_mul, ← Nat.cast_mul]
    rcases Nat.lt_trichotomy c q with h1 | h1 | h1
    · have := below c h1
      rw [hQ]
      generalize mag c * D = V at *
      generalize mag (q + 1) * D = W at *
      rw [abs_of_nonneg (by omega), abs_of_nonneg (by omega)]
      omega
    · subst h1
      exact ⟨le_refl _, fun _ h => absurd rfl h⟩
    · rw [hQ]
      rcases Nat.lt_or_ge (q + 1) c with h2 | h2
      · have := above c h2
        generalize mag c * D = V at *
        generalize mag (q + 1) * D = W at *
        rw [abs_of_nonneg (by omega), abs_of_nonpos (by omega)]
        omega
      · have : c = q + 1 := by omega
        subst this
        generalize mag (q + 1) * D = W at *
        rw [abs_of_nonneg (by omega), abs_of_nonpos (by omega)]
        refine ⟨by omega, fun he _ => ?_⟩
        by_cases hk : rem < 2 ^ k
        · have := hlt hk
          omega
        · omega

end Verif.Half
