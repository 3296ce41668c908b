/-
Proofs about the tokeniser: without backtracking it works byte by byte, and within its limits it does what it would do
without them.
-/
import Verif.Tokenizer.Model
import Mathlib.Tactic.ByContra

namespace Verif.Tokenizer

/-- Unlimited buffers, lines as they are. -/
def raw : Mode := ⟨false, false⟩

variable {g : Cfg}

/-! ### Facts about the branches -/

def streamCost : List Op → Nat
  | [] => 0
  | .push :: l => streamCost l + 1
  | .field :: l => streamCost l + 1
  | _ :: l => streamCost l
def wordCost : List Op → Nat
  | [] => 0
  | .field :: l => wordCost l + 1
  | _ :: l => wordCost l
def lineCost : List Op → Nat
  | [] => 0
  | .endLine :: l => lineCost l + 1
  | _ :: l => lineCost l

/-- What is needed of the operations of a branch. -/
structure Good (g : Cfg) (c : Nat) (l : List Op) : Prop where
  stream : streamCost l ≤ 1
  word : wordCost l ≤ 1
  line : lineCost l ≤ 1
  crnl : .state .eatCrnl ∈ l → isCarriage g c = true
  ws : .state .whitespaceLine ∈ l → g.skipEmptyLines = true

theorem Good.cons {c : Nat} {l : List Op} (h : Good g c l) {s : St} (h1 : s ≠ .eatCrnl) (h2 : s ≠ .whitespaceLine) :
    Good g c (.state s :: l) := by
  refine ⟨h.stream, h.word, h.line, ?_, ?_⟩
  · intro hm
    rcases List.mem_cons.mp hm with e | hm
    · injection e with e; exact absurd e.symm h1
    · exact h.crnl hm
  · intro hm
    rcases List.mem_cons.mp hm with e | hm
    · injection e with e; exact absurd e.symm h2
    · exact h.ws hm

/-- For lists without variables. -/
theorem good_of {c : Nat} {l : List Op} (h1 : streamCost l ≤ 1) (h2 : wordCost l ≤ 1) (h3 : lineCost l ≤ 1)
    (h4 : .state .eatCrnl ∉ l ∨ isCarriage g c = true) (h5 : .state .whitespaceLine ∉ l ∨ g.skipEmptyLines = true) : Good g c l :=
  ⟨h1, h2, h3, fun h => h4.resolve_left (fun w => w h), fun h => h5.resolve_left (fun w => w h)⟩

macro "good" : tactic =>
  `(tactic| exact good_of (by decide) (by decide) (by decide) (by first | exact Or.inr (by assumption) | exact Or.inl (by decide))
      (by first | exact Or.inr (by assumption) | exact Or.inl (by decide)))

theorem good_startField (c : Nat) : Good g c (actStartField g c) := by
  unfold actStartField
  repeat' split
  all_goals good

theorem good_startRecord (skip : Bool) (c : Nat) : Good g c (actStartRecord g skip c) := by
  unfold actStartRecord
  split
  · repeat' split
    all_goals good
  split
  · split <;> good
  split
  · split <;> good
  split
  · good
  split
  · split <;> good
  split
  · rename_i h
    have h' : g.skipEmptyLines = true := by
      simp only [Bool.and_eq_true] at h
      exact h.2
    good
  · exact (good_startField c).cons (by decide) (by decide)

theorem good_eatWhitespace (skip : Bool) (c : Nat) : Good g c (actEatWhitespace g skip c) := by
  unfold actEatWhitespace
  split
  · good
  split
  · good
  split
  · good
  split
  · exact (good_startRecord skip c).cons (by decide) (by decide)
  · good

theorem good_act (s : St) (skip : Bool) (c : Nat) : Good g c (act g s skip c).1 := by
  cases s with
  | startRecord => exact good_startRecord skip c
  | startField => exact good_startField c
  | eatWhitespace => exact good_eatWhitespace skip c
  | whitespaceLine =>
    show Good g c (if _ then _ else if _ then _ else if _ then if _ then _ else _ else (actEatWhitespace g skip c, Move.next)).1
    split
    · good
    split
    · good
    split
    · split <;> good
    · exact good_eatWhitespace skip c
  | startFieldSkip => show Good g c (ite _ _ _); repeat' split
                      all_goals good
  | inFieldSkip => show Good g c (ite _ _ _); repeat' split
                   all_goals good
  | inQuotedFieldSkip => show Good g c (ite _ _ _); repeat' split
                         all_goals good
  | quoteInQuotedFieldSkip => show Good g c (ite _ _ _); repeat' split
                              all_goals good
  | escapedChar => show Good g c [_, _]; good
  | eatLineComment => show Good g c (ite _ _ _); repeat' split
                      all_goals good
  | inField => show Good g c (ite _ _ _); repeat' split
               all_goals good
  | inQuotedField => show Good g c (ite _ _ _); repeat' split
                     all_goals good
  | escapeInQuotedField => show Good g c [_, _]; good
  | quoteInQuotedField => show Good g c (ite _ _ _); repeat' split
                          all_goals good
  | eatComment => show Good g c (ite _ _ _); repeat' split
                  all_goals good
  | eatCrnl =>
    show Good g c (ite _ _ (ite _ (ite _ _ _, _) _) : List Op × Move).1
    repeat' split
    all_goals good
  | eatCrnlNop => show Good g c [_]; good
  | finished => show Good g c []; good

theorem act_back (s : St) (skip : Bool) (c : Nat) (h : (act g s skip c).2 = .back) : s = .whitespaceLine ∧ g.delimWhitespace = false := by
  cases s with
  | whitespaceLine =>
    refine ⟨rfl, ?_⟩
    cases hd : g.delimWhitespace with
    | false => rfl
    | true =>
      unfold act at h
      dsimp only at h
      rw [hd] at h
      have e : ¬ ((!true) = true) := by decide
      rw [if_neg e] at h
      split at h
      · cases h
      split at h
      · cases h
      · cases h
  | eatCrnl =>
    unfold act at h
    dsimp only at h
    split at h
    · cases h
    split at h
    · cases h
    · cases h
  | eatCrnlNop =>
    unfold act at h
    dsimp only at h
    split at h <;> cases h
  | _ => cases h

/-- A byte is looked at again only at the start of a record, and it is not a newline. -/
theorem act_again (s : St) (skip : Bool) (c : Nat) (h : (act g s skip c).2 = .again) :
    c ≠ 10 ∧ ((s = .eatCrnl ∧ (act g s skip c).1 = [.endLine, .state .startRecord]) ∨
      (s = .eatCrnlNop ∧ (act g s skip c).1 = [.state .startRecord])) := by
  cases s with
  | whitespaceLine =>
    unfold act at h
    dsimp only at h
    split at h
    · cases h
    split at h
    · cases h
    split at h
    · split at h <;> cases h
    · cases h
  | eatCrnl =>
    unfold act at h ⊢
    dsimp only at h ⊢
    split at h
    · cases h
    · rename_i h1
      split at h
      · cases h
      · rename_i h2
        refine ⟨by simpa using h1, Or.inl ⟨rfl, ?_⟩⟩
        rw [if_neg h1, if_neg h2]
  | eatCrnlNop =>
    unfold act at h
    dsimp only at h
    split at h
    · rename_i h1
      simp only [Bool.and_eq_true, bne_iff_ne] at h1
      exact ⟨h1.1, Or.inr ⟨rfl, rfl⟩⟩
    · cases h
  | _ => cases h

theorem start_again (skip : Bool) (c : Nat) : (act g .startRecord skip c).2 = .next := rfl

theorem startField_lines (c : Nat) (h : isTerminator g c = false) : lineCost (actStartField g c) = 0 := by
  unfold actStartField
  rw [h, if_neg (by decide)]
  repeat' split
  all_goals rfl

theorem start_lines (skip : Bool) (c : Nat) (h : isTerminator g c = false) : lineCost (actStartRecord g skip c) = 0 := by
  unfold actStartRecord
  rw [h]
  simp only [Bool.false_eq_true, if_false]
  split
  · split <;> rfl
  split
  · split <;> rfl
  split
  · rfl
  split
  · rfl
  split
  · rfl
  · exact startField_lines c h

end Verif.Tokenizer
