import Verif.Parse.Proof

namespace Verif.Parse

/-- C19, for every string, every thousands separator (0 = none) and every integer
type (64 and 32 bit are instances): the reader succeeds with value `v` exactly on the
strings that denote `v`, when `v` fits; it then has consumed the whole string; in
every other case it reports a parsing error; no intermediate value overflows. -/
theorem C19_integer_cells (r : Range) (hlo : r.lo ≤ 0) (hhi : 0 ≤ r.hi) (tsep : Nat)
    (s : List Nat) (hs : 0 ∉ s) :
    (∀ v, parseInt r tsep s = .ok v [] ↔ IntCell tsep s v ∧ r.lo ≤ v ∧ v ≤ r.hi) ∧
    (parseInt r tsep s = .err ↔ ¬ ∃ v, IntCell tsep s v ∧ r.lo ≤ v ∧ v ≤ r.hi) ∧
    parseInt r tsep s ≠ .ub ∧ (∀ v rest, parseInt r tsep s = .ok v rest → rest = []) := by
  obtain ⟨neg, p, hp⟩ : ∃ neg p, readSign (s.dropWhile isSpace) = (neg, p) := ⟨_, _, rfl⟩
  have heq := parseInt_eq r hlo hhi tsep s neg p hp
  have hsub : p ⊆ s := by
    have h1 : p ⊆ s.dropWhile isSpace := by
      generalize s.dropWhile isSpace = q at hp ⊢
      cases q with
      | nil => simp only [readSign, Prod.mk.injEq] at hp; simp [← hp.2]
      | cons c q =>
        simp only [readSign] at hp
        by_cases h1 : c = 45
        · rw [if_pos h1] at hp; obtain ⟨-, rfl⟩ := Prod.mk.inj hp; simp
        · rw [if_neg h1] at hp
          by_cases h2 : c = 43
          · rw [if_pos h2] at hp; obtain ⟨-, rfl⟩ := Prod.mk.inj hp; simp
          · rw [if_neg h2] at hp; obtain ⟨-, rfl⟩ := Prod.mk.inj hp; simp
    exact fun x hx => (List.dropWhile_sublist _).subset (h1 hx)
  have h0 : 0 ∉ (p.dropWhile (cls tsep)).dropWhile isSpace := fun h =>
    hs (hsub ((List.dropWhile_sublist _).subset ((List.dropWhile_sublist _).subset h)))
  simp only [cur_eq_zero h0] at heq
  have key : ∀ v, IntCell tsep s v ∧ r.lo ≤ v ∧ v ≤ r.hi ↔
      (isDigit (cur p) = true ∧ r.fits ((if neg then -1 else 1) * mag tsep p) = true ∧
        (p.dropWhile (cls tsep)).dropWhile isSpace = []) ∧
      v = (if neg then -1 else 1) * mag tsep p := by
    intro v
    constructor
    · rintro ⟨hc, h1, h2⟩
      obtain ⟨neg', p', hp', hd, hv, hr⟩ := cell_closed hc
      rw [hp] at hp'
      obtain ⟨rfl, rfl⟩ := Prod.mk.inj hp'
      refine ⟨⟨hd, ?_, hr⟩, hv⟩
      rw [← hv]
      simp [Range.fits, h1, h2]
    · rintro ⟨⟨hd, hf, hr⟩, rfl⟩
      simp only [Range.fits, decide_eq_true_eq] at hf
      exact ⟨closed_cell hp hd hr, hf⟩
  by_cases hA : isDigit (cur p) = true ∧
      r.fits ((if neg then -1 else 1) * mag tsep p) = true ∧
        (p.dropWhile (cls tsep)).dropWhile isSpace = []
  · rw [if_pos hA, hA.2.2] at heq
    rw [heq]
    refine ⟨fun v => ?_, ?_, by simp, ?_⟩
    · rw [key v, Res.ok.injEq]
      constructor
      · rintro ⟨h1, -⟩; exact ⟨hA, h1.symm⟩
      · rintro ⟨-, h1⟩; exact ⟨h1.symm, rfl⟩
    · simp only [reduceCtorEq, false_iff, not_not]
      exact ⟨_, (key _).mpr ⟨hA, rfl⟩⟩
    · intro v rest h
      rw [Res.ok.injEq] at h
      exact h.2.symm
  · rw [if_neg hA] at heq
    rw [heq]
    refine ⟨fun v => ?_, ?_, by simp, by simp⟩
    · rw [key v]
      simp only [reduceCtorEq, false_iff]
      exact fun h => hA h.1
    · simp only [true_iff, not_exists]
      exact fun v h => hA ((key v).mp h).1

/-- The text of a string literal as bytes. -/
def bytes (s : String) : List Nat := s.toList.map Char.toNat

/-- The extreme values are read exactly, one more is an error, and so are rubbish
characters, a lone sign and a separator in front. -/
example : parseInt int64 0 (bytes "-9223372036854775808") = .ok (-9223372036854775808) [] ∧
    parseInt int64 0 (bytes "9223372036854775808") = .err ∧
    parseInt int32 44 (bytes " +2,147,483,647\t") = .ok 2147483647 [] ∧
    parseInt int32 44 (bytes "2,147,483,648") = .err ∧
    parseInt int64 0 (bytes "12a") = .err ∧ parseInt int64 0 (bytes "-") = .err ∧
    parseInt int64 44 (bytes ",5") = .err ∧ parseInt int64 44 (bytes "5,,1,") = .ok 51 [] := by
  decide +kernel

example : IntCell 44 (bytes " -1,2 ") (-12) :=
  ⟨[32], [45], bytes "1,2", [32], by decide, by decide, by decide, by decide,
    ⟨49, [44, 50], by decide, by decide⟩, by decide, by decide⟩

end Verif.Parse
