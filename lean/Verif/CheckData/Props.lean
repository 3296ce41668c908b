import Verif.CheckData.Spec
import Mathlib.Algebra.Order.Floor.Ring
import Mathlib.Data.Rat.Floor
import Mathlib.Tactic.Linarith
import Mathlib.Tactic.Positivity
import Mathlib.Tactic.Ring
import Mathlib.Tactic.NormNum

/-
C173, C174: the checks of a data matrix.
-/
namespace Verif.CheckData

/-- The entries that are not accepted. -/
theorem checkData_iff (rnd : ℚ → ℚ) (row : Bool) {n m ld : Int} (hn : 1 ≤ n) (hm : 1 ≤ m) (X : Nat → Num) (hl : (if row then m else n) ≤ ld) :
    checkData rnd row n m (some X) ld = .invalidInput ↔
      ∃ i j : Nat, i < n.toNat ∧ j < m.toNat ∧ suspicious rnd (entry row X ld i j) = true := by
  have ite_iff : ∀ b : Bool, (if b = true then Status.invalidInput else .success) = .invalidInput ↔ b = true := by decide
  unfold checkData
  rw [if_neg (by omega)]
  cases row with
  | true =>
    have hl' : ¬ ld < m := by simpa using hl
    have : ((List.range n.toNat).any fun i => (List.range m.toNat).any fun j => suspicious rnd (X (i * ld.toNat + j))) = true ↔
        ∃ i j : Nat, i < n.toNat ∧ j < m.toNat ∧ suspicious rnd (entry true X ld i j) = true := by
      simp only [List.any_eq_true, List.mem_range, entry, if_true]
      exact ⟨fun ⟨i, hi, j, hj, h⟩ => ⟨i, j, hi, hj, h⟩, fun ⟨i, j, hi, hj, h⟩ => ⟨i, hi, j, hj, h⟩⟩
    simp only [if_true, if_neg hl']
    rw [ite_iff, this]
  | false =>
    have hl' : ¬ ld < n := by simpa using hl
    have : ((List.range m.toNat).any fun j => (List.range n.toNat).any fun i => suspicious rnd (X (i + j * ld.toNat))) = true ↔
        ∃ i j : Nat, i < n.toNat ∧ j < m.toNat ∧ suspicious rnd (entry false X ld i j) = true := by
      simp only [List.any_eq_true, List.mem_range, entry, Bool.false_eq_true, if_false]
      exact ⟨fun ⟨j, hj, i, hi, h⟩ => ⟨i, j, hi, hj, h⟩, fun ⟨i, j, hi, hj, h⟩ => ⟨j, hj, i, hi, h⟩⟩
    simp only [Bool.false_eq_true, if_false, if_neg hl']
    rw [ite_iff, this]

/-- Big numbers of the format are multiples of 4. -/
theorem rep_four {prec : Nat} {emin : Int} {x : ℚ} (h : Rep prec emin x) (hx : 2 ^ (prec + 1) ≤ |x|) : ∃ k : Int, x = 4 * k := by
  obtain ⟨m, e, hm, -, rfl⟩ := h
  have hm' : |(m : ℚ)| < 2 ^ prec := by exact_mod_cast hm
  have he : 2 ≤ e := by
    by_contra hc
    have h2 : (2 : ℚ) ^ e ≤ 2 ^ (1 : Int) := zpow_le_zpow_right₀ (by norm_num) (by omega)
    rw [abs_mul, abs_of_pos (zpow_pos (by norm_num : (0 : ℚ) < 2) e), pow_succ] at hx
    have h3 : |(m : ℚ)| * 2 ^ e ≤ |(m : ℚ)| * 2 := by
      refine mul_le_mul_of_nonneg_left ?_ (abs_nonneg _)
      simpa using h2
    linarith
  obtain ⟨t, rfl⟩ : ∃ t : Nat, e = 2 + t := ⟨(e - 2).toNat, by omega⟩
  refine ⟨m * 2 ^ t, ?_⟩
  rw [zpow_add₀ (by norm_num), zpow_natCast]
  push_cast
  norm_num
  ring

/-- Adding 1 to a big number of the format gives the number back. -/
theorem big_unique {prec : Nat} (hp : 0 < prec) {emin : Int} {x y : ℚ} (hx : Rep prec emin x) (hy : Rep prec emin y) (hb : 2 ^ (prec + 2) ≤ |x|)
    (hne : y ≠ x) : 1 < |y - (x + 1)| := by
  have h2 : (2 : ℚ) ^ (prec + 2) = 2 * 2 ^ (prec + 1) := by ring
  have h4 : (4 : ℚ) ≤ 2 ^ (prec + 1) := by
    obtain ⟨q, rfl⟩ : ∃ q, prec = q + 1 := ⟨prec - 1, by omega⟩
    have : (1 : ℚ) ≤ 2 ^ q := one_le_pow₀ (by norm_num)
    have e : (2 : ℚ) ^ (q + 1 + 1) = 4 * 2 ^ q := by ring
    linarith
  have key : 4 ≤ |y - x| := by
    by_cases hyb : 2 ^ (prec + 1) ≤ |y|
    · obtain ⟨k, rfl⟩ := rep_four hx (by linarith)
      obtain ⟨k', rfl⟩ := rep_four hy hyb
      have : k' - k ≠ 0 := fun h => hne (by rw [show k' = k by omega])
      have h1 : 1 ≤ |k' - k| := Int.one_le_abs this
      have h1' : (1 : ℚ) ≤ |((k' - k : Int) : ℚ)| := by exact_mod_cast h1
      rw [← mul_sub, abs_mul]
      push_cast at h1'
      norm_num
      linarith
    · have := abs_sub_abs_le_abs_sub x y
      rw [abs_sub_comm y x]
      linarith
  have : |y - x| ≤ |y - (x + 1)| + 1 := by
    have := abs_add_le (y - (x + 1)) 1
    rw [abs_one] at this
    calc |y - x| = |y - (x + 1) + 1| := by ring_nf
      _ ≤ _ := this
  linarith

/-! ### C173: check_data -/

/-- **C173, the full statement.** As documented, for a matrix whose dimensions are in order check_data reports invalid input exactly when there is
a NaN, whatever the format. -/
def C173_statement : Prop :=
  ∀ (prec : Nat) (emin : Int) (rnd : ℚ → ℚ) (row : Bool) (n m ld : Int) (X : Nat → Num), 1 < prec → emin ≤ 0 → 1 ≤ n → 1 ≤ m →
    (if row then m else n) ≤ ld → Serves prec emin rnd row n m X ld →
    (checkData rnd row n m (some X) ld = .invalidInput ↔ ∃ i j : Nat, i < n.toNat ∧ j < m.toNat ∧ entry row X ld i j = .nan)

/-- **C173, how far it holds.** A NaN is always reported, but so are infinities and numbers from 2 ^ (prec + 2) on. -/
theorem C173_reported {prec : Nat} (hp : 1 < prec) {emin : Int} {rnd : ℚ → ℚ} {row : Bool} {n m ld : Int} {X : Nat → Num} (hn : 1 ≤ n) (hm : 1 ≤ m)
    (hl : (if row then m else n) ≤ ld) (hs : Serves prec emin rnd row n m X ld) {i j : Nat} (hi : i < n.toNat) (hj : j < m.toNat)
    (hv : entry row X ld i j = .nan ∨ (∃ b, entry row X ld i j = .inf b) ∨ ∃ x, entry row X ld i j = .fin x ∧ 2 ^ (prec + 2) ≤ |x|) :
    checkData rnd row n m (some X) ld = .invalidInput := by
  refine (checkData_iff rnd row hn hm X hl).2 ⟨i, j, hi, hj, ?_⟩
  rcases hv with h | ⟨b, h⟩ | ⟨x, h, hx⟩
  · rw [h]; rfl
  · rw [h]; rfl
  · rw [h]
    obtain ⟨hr, hr', hnear⟩ := hs i j hi hj x h
    refine decide_eq_true ?_
    by_contra hne
    have h1 := big_unique (by omega) hr hr' hx (fun e => hne e.symm)
    have h2 := hnear x hr
    have : |x - (x + 1)| = 1 := by rw [show x - (x + 1) = -1 by ring]; norm_num
    linarith

/-- **C173, partial.** It holds when the entries are NaN or finite numbers up to 2 ^ prec - 2.  Missing: infinities and bigger numbers, where
it does not. -/
theorem C173_moderate_partial {prec : Nat} {emin : Int} (he : emin ≤ 0) {rnd : ℚ → ℚ} {row : Bool} {n m ld : Int} {X : Nat → Num}
    (hn : 1 ≤ n) (hm : 1 ≤ m) (hl : (if row then m else n) ≤ ld) (hs : Serves prec emin rnd row n m X ld)
    (hv : ∀ i j : Nat, i < n.toNat → j < m.toNat → entry row X ld i j = .nan ∨ ∃ x, entry row X ld i j = .fin x ∧ |x| ≤ 2 ^ prec - 2) :
    checkData rnd row n m (some X) ld = .invalidInput ↔ ∃ i j : Nat, i < n.toNat ∧ j < m.toNat ∧ entry row X ld i j = .nan := by
  rw [checkData_iff rnd row hn hm X hl]
  have key : ∀ i j : Nat, i < n.toNat → j < m.toNat → (suspicious rnd (entry row X ld i j) = true ↔ entry row X ld i j = .nan) := by
    intro i j hi hj
    rcases hv i j hi hj with h | ⟨x, h, hx⟩
    · rw [h]; exact ⟨fun _ => rfl, fun _ => rfl⟩
    · rw [h]
      refine ⟨fun hc => ?_, fun hc => by cases hc⟩
      obtain ⟨-, -, hnear⟩ := hs i j hi hj x h
      have e : x = rnd (x + 1) := of_decide_eq_true hc
      have hf1 := Int.floor_le x
      have hf2 := Int.lt_floor_add_one x
      obtain ⟨ha, hb⟩ := abs_le.1 hx
      have hb' : ⌊x⌋ ≤ 2 ^ prec - 2 := by
        have : (⌊x⌋ : ℚ) ≤ 2 ^ prec - 2 := hf1.trans hb
        exact_mod_cast this
      have ha' : -(2 ^ prec - 2) ≤ ⌊x⌋ := by
        refine Int.le_floor.2 ?_
        push_cast
        exact ha
      have hr : Rep prec emin (((⌊x⌋ + 1 : Int)) : ℚ) :=
        ⟨⌊x⌋ + 1, 0, by rw [abs_lt]; constructor <;> linarith, he, by simp⟩
      have h2 := hnear _ hr
      rw [← e, show x - (x + 1) = -1 by ring, abs_neg, abs_one] at h2
      push_cast at h2
      have h3 : |(⌊x⌋ : ℚ) + 1 - (x + 1)| < 1 := by rw [abs_lt]; constructor <;> linarith
      linarith
  exact ⟨fun ⟨i, j, hi, hj, h⟩ => ⟨i, j, hi, hj, (key i j hi hj).1 h⟩, fun ⟨i, j, hi, hj, h⟩ => ⟨i, j, hi, hj, (key i j hi hj).2 h⟩⟩

/-- **C173.** The other statuses are the documented ones. -/
theorem C173_arguments (rnd : ℚ → ℚ) (row : Bool) (n m ld : Int) (X : Option (Nat → Num)) :
    (checkData rnd row n m X ld = .invalidArrayDimension ↔ n < 1 ∨ m < 1) ∧
    (checkData rnd row n m X ld = .invalidPointer ↔ (1 ≤ n ∧ 1 ≤ m) ∧ X = none) ∧
    (checkData rnd row n m X ld = .invalidLeadingDimension ↔ (1 ≤ n ∧ 1 ≤ m) ∧ X ≠ none ∧ ld < if row then m else n) := by
  have ite_ne : ∀ b : Bool, (if b = true then Status.invalidInput else .success) ≠ .invalidArrayDimension ∧
      (if b = true then Status.invalidInput else .success) ≠ .invalidPointer ∧
      (if b = true then Status.invalidInput else .success) ≠ .invalidLeadingDimension := by decide
  unfold checkData
  by_cases h : n < 1 ∨ m < 1
  · have h' : ¬ (1 ≤ n ∧ 1 ≤ m) := by omega
    simp [h, h']
  · have h' : 1 ≤ n ∧ 1 ≤ m := by omega
    cases X with
    | none => simp [h, h']
    | some Y =>
      cases row with
      | true =>
        by_cases hl : ld < m
        · simp [h, h', hl]
        · simp only [h, h', hl, if_true, if_false]
          refine ⟨?_, ?_, ?_⟩
          · simpa using (ite_ne _).1
          · simpa using (ite_ne _).2.1
          · simpa using (ite_ne _).2.2
      | false =>
        by_cases hl : ld < n
        · simp [h, h', hl]
        · simp only [h, h', hl, Bool.false_eq_true, if_false]
          refine ⟨?_, ?_, ?_⟩
          · simpa using (ite_ne _).1
          · simpa using (ite_ne _).2.1
          · simpa using (ite_ne _).2.2

/-- **C173 is violated:** in double precision the number 2 ^ 55 is reported as a NaN. -/
theorem C173_violated : ¬ C173_statement := by
  intro h
  have hr : Rep 53 (-1074) (2 ^ 55) := ⟨1, 55, by norm_num, by norm_num, by norm_num⟩
  have hs : Serves 53 (-1074) (fun _ => 2 ^ 55) false 1 1 (fun _ => .fin (2 ^ 55)) 1 := by
    intro i j _ _ x hx
    have : x = 2 ^ 55 := by
      simp only [entry, Bool.false_eq_true, if_false, Num.fin.injEq] at hx
      exact hx.symm
    subst this
    refine ⟨hr, hr, fun y hy => ?_⟩
    by_cases hne : y = 2 ^ 55
    · rw [hne]
    · have h1 := big_unique (by norm_num) hr hy (by norm_num) hne
      rw [show (2 : ℚ) ^ 55 - (2 ^ 55 + 1) = -1 by ring, abs_neg, abs_one]
      exact h1.le
  have := (h 53 (-1074) (fun _ => 2 ^ 55) false 1 1 1 (fun _ => .fin (2 ^ 55)) (by norm_num) (by norm_num) (by norm_num) (by norm_num)
    (by simp) hs).1 (C173_reported (by norm_num) (by norm_num) (by norm_num) (by simp) hs (i := 0) (j := 0) (by decide) (by decide)
      (.inr (.inr ⟨2 ^ 55, rfl, by norm_num⟩)))
  obtain ⟨i, j, -, -, h'⟩ := this
  simp [entry] at h'

/-- A 2 by 2 matrix with a NaN in the padding, and one with a NaN inside, exact sums. -/
example : checkData id true 2 2 (some fun c => [.fin 1, .fin 2, .nan, .fin 3, .fin (-4)].getD c .nan) 3 = .success ∧
    checkData id true 2 2 (some fun c => [.fin 1, .fin 2, .fin 0, .nan, .fin (-4)].getD c .nan) 3 = .invalidInput ∧
    checkData id false 1 1 (some fun _ => .inf true) 1 = .invalidInput := by decide +kernel

/-! ### C174: the checks of an argument -/

/-- **C174.** The check of a matrix succeeds exactly when the sizes, the pointer and the leading dimension are in order and, if asked for, check_data
finds nothing; an empty matrix that is permitted is not looked at. -/
theorem C174_check2D (rnd : ℚ → ℚ) (check row : Bool) (n m : Int) (X : Option (Nat → Num)) (ld nMin mMin : Int) :
    check2D rnd check row n m X ld nMin mMin = .success ↔
      nMin ≤ n ∧ mMin ≤ m ∧ (if row then m else n) ≤ ld ∧ ∃ Y, X = some Y ∧
        (check = true → ∀ i j : Nat, i < n.toNat → j < m.toNat → suspicious rnd (entry row Y ld i j) = false) := by
  cases X with
  | none =>
    refine ⟨fun h => ?_, fun ⟨_, _, _, Y, h, _⟩ => (by cases h)⟩
    unfold check2D at h
    split at h
    · cases h
    · split at h <;> cases h
  | some Y =>
    have hc : (if row then m else n) ≤ ld → (checkData rnd row n m (some Y) ld = .invalidInput ↔
        ∃ i j : Nat, i < n.toNat ∧ j < m.toNat ∧ suspicious rnd (entry row Y ld i j) = true) := by
      intro hl
      by_cases hnm : 1 ≤ n ∧ 1 ≤ m
      · exact checkData_iff rnd row hnm.1 hnm.2 Y hl
      · have : n < 1 ∨ m < 1 := by omega
        unfold checkData
        rw [if_pos this]
        refine ⟨fun h => (by cases h), fun ⟨i, j, hi, hj, _⟩ => ?_⟩
        omega
    unfold check2D
    simp only [Option.isNone_some, Bool.false_eq_true, if_false, Option.some.injEq, exists_eq_left']
    by_cases h1 : n < nMin
    · rw [if_pos h1]
      exact ⟨fun h => (by cases h), fun h => by omega⟩
    by_cases h2 : m < mMin
    · rw [if_neg h1, if_pos h2]
      exact ⟨fun h => (by cases h), fun h => by omega⟩
    rw [if_neg h1, if_neg h2]
    by_cases hl : (if row then m else n) ≤ ld
    · have hd : (if row = true then (if ld < m then Status.invalidLeadingDimension else .success)
          else if ld < n then .invalidLeadingDimension else .success) = .success := by
        cases row with
        | true => simpa using hl
        | false => simpa using hl
      rw [hd]
      by_cases h3 : check = true ∧ checkData rnd row n m (some Y) ld = .invalidInput
      · rw [if_pos h3]
        obtain ⟨i, j, hi, hj, hij⟩ := (hc hl).1 h3.2
        refine ⟨fun h => (by cases h), fun ⟨_, _, _, h⟩ => ?_⟩
        rw [h h3.1 i j hi hj] at hij
        cases hij
      · rw [if_neg h3]
        refine ⟨fun _ => ⟨by omega, by omega, hl, fun hcheck i j hi hj => ?_⟩, fun _ => rfl⟩
        by_contra hb
        exact h3 ⟨hcheck, (hc hl).2 ⟨i, j, hi, hj, by simpa using hb⟩⟩
    · have hd : (if row = true then (if ld < m then Status.invalidLeadingDimension else .success)
          else if ld < n then .invalidLeadingDimension else .success) = .invalidLeadingDimension := by
        cases row with
        | true => simpa using hl
        | false => simpa using hl
      rw [hd]
      refine ⟨fun h => ?_, fun h => absurd h.2.2.1 hl⟩
      split at h <;> cases h

/-- **C174.** Likewise for a vector. -/
theorem C174_check1D (rnd : ℚ → ℚ) (check : Bool) (n : Int) (X : Option (Nat → Num)) (nMin : Int) :
    check1D rnd check n X nMin = .success ↔
      nMin ≤ n ∧ ∃ Y, X = some Y ∧ (check = true → ∀ i : Nat, i < n.toNat → suspicious rnd (Y i) = false) := by
  cases X with
  | none => unfold check1D; simp
  | some Y =>
    unfold check1D
    simp only [Option.isNone_some, Bool.false_eq_true, if_false, Option.some.injEq, exists_eq_left']
    by_cases h1 : n < nMin
    · rw [if_pos h1]
      exact ⟨fun h => (by cases h), fun h => by omega⟩
    rw [if_neg h1]
    have hc : checkData rnd false n 1 (some Y) n = .invalidInput ↔ ∃ i : Nat, i < n.toNat ∧ suspicious rnd (Y i) = true := by
      by_cases hn : 1 ≤ n
      · refine (checkData_iff rnd false hn le_rfl Y (by simp)).trans ?_
        show _ ↔ _
        have e : (∃ i j : Nat, i < n.toNat ∧ j < (1 : Int).toNat ∧ suspicious rnd (entry false Y n i j) = true) ↔
            ∃ i : Nat, i < n.toNat ∧ suspicious rnd (Y i) = true := by
          constructor
          · rintro ⟨i, j, hi, hj, h⟩
            have : j = 0 := by simpa using hj
            subst this
            exact ⟨i, hi, by simpa [entry] using h⟩
          · rintro ⟨i, hi, h⟩
            exact ⟨i, 0, hi, by decide, by simpa [entry] using h⟩
        exact e
      · unfold checkData
        rw [if_pos (by omega)]
        refine ⟨fun h => (by cases h), fun ⟨i, hi, _⟩ => ?_⟩
        omega
    by_cases h3 : check = true ∧ checkData rnd false n 1 (some Y) n = .invalidInput
    · rw [if_pos h3]
      obtain ⟨i, hi, hij⟩ := hc.1 h3.2
      refine ⟨fun h => (by cases h), fun ⟨_, h⟩ => ?_⟩
      rw [h h3.1 i hi] at hij
      cases hij
    · rw [if_neg h3]
      refine ⟨fun _ => ⟨by omega, fun hcheck i hi => ?_⟩, fun _ => rfl⟩
      by_contra hb
      exact h3 ⟨hcheck, hc.2 ⟨i, hi, by simpa using hb⟩⟩

/-- **C174.** store_2D_array in mode 0 or 3 gives the status of the check. -/
theorem C174_store_status (rnd : ℚ → ℚ) {mode : Nat} (hm : mode = 0 ∨ mode = 3) (check row : Bool) (n m : Int) (X : Option (Nat → Num))
    (ld nMin mMin : Int) (garbage : Nat → Num) :
    (store2D rnd mode check row n m X ld nMin mMin garbage).status = check2D rnd check row n m X ld nMin mMin := by
  have h2 : mode ≠ 2 := by omega
  unfold store2D check2D
  rw [if_neg h2]
  by_cases h1 : n < nMin
  · simp only [if_pos h1]
  by_cases h3 : m < mMin
  · simp only [if_neg h1, if_pos h3]
  simp only [if_neg h1, if_neg h3]
  cases X with
  | none => rfl
  | some Y =>
    simp only [hm, true_and, Option.isNone_some, Bool.false_eq_true, if_false]
    by_cases h4 : check = true ∧ checkData rnd row n m (some Y) ld = .invalidInput
    · rw [if_pos h4, if_pos h4]
    · rw [if_neg h4, if_neg h4]
      cases row <;> simp <;> split <;> first | rfl | (split <;> rfl)

/-- **C174.** In mode 0 the array kept has, by columns, the entries of the matrix. -/
theorem C174_store_entries (rnd : ℚ → ℚ) (check row : Bool) (n m : Int) (X : Nat → Num) (ld nMin mMin : Int) (garbage : Nat → Num)
    (h : check2D rnd check row n m (some X) ld nMin mMin = .success) :
    ∃ Y ldY, (store2D rnd 0 check row n m (some X) ld nMin mMin garbage).array = some (Y, ldY) ∧ n ≤ ldY ∧
      ∀ i j : Nat, i < n.toNat → j < m.toNat → entry false Y ldY i j = entry row X ld i j := by
  obtain ⟨h1, h2, h3, Z, hZ, h4⟩ := (C174_check2D _ _ _ _ _ _ _ _ _).1 h
  have hchk : ¬ (check = true ∧ checkData rnd row n m (some X) ld = .invalidInput) := by
    intro hc
    unfold check2D at h
    rw [if_neg (by omega), if_neg (by omega)] at h
    simp only [Option.isNone_some, Bool.false_eq_true, if_false, if_pos hc] at h
    cases h
  unfold store2D
  rw [if_neg (by decide), if_neg (by omega), if_neg (by omega)]
  simp only [true_or, true_and, if_neg hchk, if_neg (not_lt.2 h3)]
  cases row with
  | false => exact ⟨X, ld, by simp, by simpa using h3, fun i j _ _ => rfl⟩
  | true =>
    refine ⟨transposed n X ld, n, by simp, le_rfl, fun i j hi hj => ?_⟩
    simp only [entry, Bool.false_eq_true, if_false, if_true, transposed]
    rw [Nat.add_mul_mod_self_right, Nat.mod_eq_of_lt hi, Nat.add_mul_div_right _ _ (by omega), Nat.div_eq_of_lt hi, Nat.zero_add]

example : check2D id true false 2 1 (some fun _ => .fin 5) 2 1 1 = .success ∧ check2D id true false 2 1 (some fun _ => .fin 5) 1 1 1 = .invalidLeadingDimension ∧
    check2D id false true 2 1 (some fun _ => .nan) 1 1 1 = .success ∧ check2D id true true 2 1 (some fun _ => .nan) 1 1 1 = .invalidInput ∧
    check1D id true 3 none 1 = .invalidPointer ∧
    (store2D id 0 true true 2 2 (some fun c => [.fin 1, .fin 2, .nan, .fin 3, .fin 4].getD c .nan) 3 1 1 fun _ => .nan).array.map
      (fun a => ((List.range 4).map a.1, a.2)) = some ([.fin 1, .fin 3, .fin 2, .fin 4], 2) := by decide +kernel

end Verif.CheckData
