/- Property C41: the categorical-data check is exact. -/
import Verif.Categorical.Model
import Mathlib.Tactic.Linarith
import Mathlib.Tactic.NormNum
import Mathlib.Algebra.Order.Field.Rat
import Mathlib.Algebra.Order.Round
namespace Verif.Categorical

/-- Specification: `x` is the category `v` up to the tolerance. -/
def IsCategory (tol x : ℚ) (v : Int) : Prop := |(v : ℚ) - x| ≤ tol

/-- The data is categorical: every entry is a category in `[0, max)`. -/
def AllCategories (tol : ℚ) (max : Int) (data : List ℚ) : Prop :=
  ∀ x ∈ data, ∃ v, 0 ≤ v ∧ v < max ∧ IsCategory tol x v

/-- `n - 1` is the largest category present. -/
def LargestIs (tol : ℚ) (data : List ℚ) (n : Int) : Prop :=
  (∃ x ∈ data, IsCategory tol x (n - 1)) ∧ ∀ x ∈ data, ∀ v, IsCategory tol x v → v ≤ n - 1

theorem round_near (x : ℚ) : |(roundAway x : ℚ) - x| ≤ 1 / 2 := by
  unfold roundAway
  split
  · have h1 := Int.floor_le (x + 1 / 2)
    have h2 := Int.lt_floor_add_one (x + 1 / 2)
    rw [abs_le]; constructor <;> linarith
  · have h1 := Int.le_ceil (x - 1 / 2)
    have h2 := Int.ceil_lt_add_one (x - 1 / 2)
    rw [abs_le]; constructor <;> linarith

theorem category_eq_round {tol x : ℚ} {v : Int} (ht : tol < 1 / 2) (h : IsCategory tol x v) :
    v = roundAway x := by
  have h1 := round_near x
  unfold IsCategory at h
  have h2 : |(v : ℚ) - (roundAway x : ℚ)| < 1 := by
    have : |(v : ℚ) - (roundAway x : ℚ)| ≤ |(v : ℚ) - x| + |(roundAway x : ℚ) - x| := by
      have := abs_sub_le (v : ℚ) x (roundAway x : ℚ)
      rw [abs_sub_comm x] at this
      exact this
    linarith
  have h3 : |v - roundAway x| < 1 := by exact_mod_cast h2
  have := Int.abs_lt_one_iff.mp h3
  omega

/-- The entries fit the integer type (with one to spare). -/
def InRange (data : List ℚ) : Prop := ∀ x ∈ data, -(2 ^ 63) ≤ x ∧ x < 2 ^ 63 - 2

theorem toDaInt_inRange {x : ℚ} (h : -(2 ^ 63) ≤ x ∧ x < 2 ^ 63 - 2) :
    toDaInt (some x) = some (roundAway x) ∧ roundAway x < 2 ^ 63 - 1 := by
  have h1 := round_near x
  rw [abs_le] at h1
  have ha : (-(2 ^ 63) - 1 : ℚ) < (roundAway x : ℚ) := by linarith
  have hb : (roundAway x : ℚ) < 2 ^ 63 - 1 := by linarith
  have ha' : (-(2 ^ 63) - 1 : Int) < roundAway x := by exact_mod_cast ha
  have hb' : roundAway x < (2 ^ 63 - 1 : Int) := by exact_mod_cast hb
  refine ⟨?_, hb'⟩
  simp only [toDaInt, Option.bind_eq_bind, Option.bind_some]
  rw [if_pos (by omega)]

theorem loop_spec (max : Int) (tol : ℚ) (ht : tol < 1 / 2) : ∀ (data seen : List ℚ) (n : Int), InRange data →
    AllCategories tol max seen → (seen = [] ∧ n = -1 ∨ 1 ≤ n ∧ LargestIs tol seen n) →
    ∃ r, loop max tol (data.map some) n = some r ∧
      ((AllCategories tol max (seen ++ data) ∧ (seen ++ data = [] ∧ r = -1 ∨ 1 ≤ r ∧ LargestIs tol (seen ++ data) r)) ∨
       (¬ AllCategories tol max (seen ++ data) ∧ r = -1)) := by
  intro data
  induction data with
  | nil =>
    intro seen n _ hall hn
    exact ⟨n, rfl, Or.inl (by simpa using ⟨hall, hn⟩)⟩
  | cons x xs ih =>
    intro seen n hr hall hn
    obtain ⟨e1, e2⟩ := toDaInt_inRange (hr x (by simp))
    have hr' : InRange xs := fun y hy => hr y (by simp [hy])
    simp only [List.map_cons, loop, e1, Option.bind_eq_bind, Option.bind_some]
    have happ : seen ++ x :: xs = (seen ++ [x]) ++ xs := by simp
    by_cases hbad : |(roundAway x : ℚ) - x| > tol ∨ roundAway x < 0
    · rw [if_pos hbad]
      refine ⟨-1, rfl, Or.inr ⟨?_, rfl⟩⟩
      intro hc
      obtain ⟨v, h0, h1, h2⟩ := hc x (by simp)
      have := category_eq_round ht h2
      subst this
      rcases hbad with h | h
      · exact absurd h2 (not_le.mpr h)
      · omega
    · rw [if_neg hbad, if_neg (by omega)]
      push Not at hbad
      by_cases hmax : roundAway x + 1 > max
      · rw [if_pos hmax]
        refine ⟨-1, rfl, Or.inr ⟨?_, rfl⟩⟩
        intro hc
        obtain ⟨v, h0, h1, h2⟩ := hc x (by simp)
        have := category_eq_round ht h2
        omega
      · rw [if_neg hmax]
        have hcat : IsCategory tol x (roundAway x) := hbad.1
        have hall' : AllCategories tol max (seen ++ [x]) := by
          intro y hy
          rcases List.mem_append.mp hy with hy | hy
          · exact hall y hy
          · rw [List.mem_singleton] at hy; subst hy
            exact ⟨_, hbad.2, by omega, hcat⟩
        rw [happ]
        by_cases hgt : roundAway x + 1 > n
        · rw [if_pos hgt]
          refine ih (seen ++ [x]) _ hr' hall' (Or.inr ⟨by omega, ⟨x, by simp, by simpa using hcat⟩, ?_⟩)
          intro y hy v hv
          rcases List.mem_append.mp hy with hy | hy
          · rcases hn with ⟨rfl, _⟩ | ⟨_, _, h3⟩
            · cases hy
            · have := h3 y hy v hv; omega
          · rw [List.mem_singleton] at hy; subst hy
            have := category_eq_round ht hv; omega
        · rw [if_neg hgt]
          refine ih (seen ++ [x]) _ hr' hall' (Or.inr ?_)
          rcases hn with ⟨_, rfl⟩ | ⟨h1, ⟨z, hz, hz'⟩, h3⟩
          · omega
          · refine ⟨h1, ⟨z, by simp [hz], hz'⟩, ?_⟩
            intro y hy v hv
            rcases List.mem_append.mp hy with hy | hy
            · exact h3 y hy v hv
            · rw [List.mem_singleton] at hy; subst hy
              have := category_eq_round ht hv; omega

/-- C41.  For finite data and a tolerance below one half the check succeeds and answers
`n ≥ 1` exactly when every entry is a category in `[0, max)`, `n - 1` being the largest
category present; otherwise it answers `-1`. -/
theorem C41_categorical_exact (data : List ℚ) (max : Int) (tol : ℚ) (ht : tol < 1 / 2) (hne : data ≠ [])
    (hr : InRange data) :
    ∃ n, checkCategorical (some (data.map some)) max tol = some (.success, some n) ∧
      (AllCategories tol max data → 1 ≤ n ∧ n ≤ max ∧ LargestIs tol data n) ∧
      (¬ AllCategories tol max data → n = -1) := by
  obtain ⟨r, h1, h2⟩ := loop_spec max tol ht data [] (-1) hr (by intro x hx; cases hx) (Or.inl ⟨rfl, rfl⟩)
  have hl : ¬ (data.map some).length < 1 := by
    have := List.length_pos_iff.mpr hne
    simp; omega
  refine ⟨r, by simp only [checkCategorical]; rw [if_neg hl, h1]; rfl, ?_, ?_⟩
  · intro ha
    rcases h2 with ⟨_, h | ⟨h3, h4⟩⟩ | ⟨h, _⟩
    · simp at h; exact absurd h.1 hne
    · simp only [List.nil_append] at h4
      refine ⟨h3, ?_, h4⟩
      obtain ⟨⟨x, hx, hx'⟩, _⟩ := h4
      obtain ⟨v, _, hv, hv'⟩ := ha x hx
      have e1 := category_eq_round ht hx'
      have e2 := category_eq_round ht hv'
      omega
    · exact absurd ha (by simpa using h)
  · intro ha
    rcases h2 with ⟨h, _⟩ | ⟨_, h⟩
    · exact absurd (by simpa using h) ha
    · exact h

/-- C41.  The answer does not depend on the order of the entries. -/
theorem C41_order_independent (d1 d2 : List ℚ) (hp : d1.Perm d2) (max : Int) (tol : ℚ) (ht : tol < 1 / 2)
    (hr : InRange d1) :
    checkCategorical (some (d1.map some)) max tol = checkCategorical (some (d2.map some)) max tol := by
  by_cases hne : d1 = []
  · subst hne; rw [List.nil_perm.mp hp]
  · have hne2 : d2 ≠ [] := by intro h; subst h; exact hne (List.perm_nil.mp hp)
    have hr2 : InRange d2 := fun x hx => hr x (hp.mem_iff.mpr hx)
    obtain ⟨n1, a1, a2, a3⟩ := C41_categorical_exact d1 max tol ht hne hr
    obtain ⟨n2, b1, b2, b3⟩ := C41_categorical_exact d2 max tol ht hne2 hr2
    rw [a1, b1]
    have hiff : AllCategories tol max d1 ↔ AllCategories tol max d2 :=
      ⟨fun h x hx => h x (hp.mem_iff.mpr hx), fun h x hx => h x (hp.mem_iff.mp hx)⟩
    by_cases hc : AllCategories tol max d1
    · obtain ⟨_, _, ⟨x, hx, hx'⟩, m1⟩ := a2 hc
      obtain ⟨_, _, ⟨y, hy, hy'⟩, m2⟩ := b2 (hiff.mp hc)
      have := m2 x (hp.mem_iff.mp hx) _ hx'
      have := m1 y (hp.mem_iff.mpr hy) _ hy'
      congr 3; omega
    · rw [a3 hc, b3 (fun h => hc (hiff.mpr h))]

/-- C41.  Empty or missing data is refused and the answer is not assigned. -/
theorem C41_empty_refused (max : Int) (tol : ℚ) :
    checkCategorical (some []) max tol = some (.invalidArrayDimension, none) ∧
    checkCategorical none max tol = some (.invalidArrayDimension, none) := ⟨rfl, rfl⟩

/-- C41 finding.  A NaN that is reached makes the check undefined (NaN is converted to an
integer before any test). -/
theorem C41_nan_undefined (max : Int) (tol : ℚ) (rest : List (Option ℚ)) :
    checkCategorical (some (none :: rest)) max tol = none := by
  simp [checkCategorical, loop]

example : checkCategorical (some [some 0, some 2, some (1 / 100), some 1]) 5 (1 / 10) = some (.success, some 3) := by
  decide +kernel
example : checkCategorical (some [some 0, some (1 / 3), some 1]) 5 (1 / 10) = some (.success, some (-1)) := by
  decide +kernel
example : InRange [0, 2, 1 / 100, 1] := by
  intro x hx
  simp only [List.mem_cons, List.not_mem_nil, or_false] at hx
  rcases hx with rfl | rfl | rfl | rfl <;> norm_num

end Verif.Categorical
