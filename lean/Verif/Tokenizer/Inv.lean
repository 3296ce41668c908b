/-
Relations between the fields of the parser that hold in all runs.
-/
import Verif.Tokenizer.Chunks
import Mathlib.Algebra.BigOperators.Group.List.Basic

namespace Verif.Tokenizer
variable {g : Cfg}

/-- The part of the parser that decides about the relations; `ok` says that no line was skipped after a word of it. -/
structure Abs where
  st : St
  cf : Nat
  fl : Nat
  ok : Bool

def Abs.op (a : Abs) : Op → Abs
  | .state s => { a with st := s }
  | .line => { a with fl := a.fl + 1 }
  | .push => a
  | .field => { a with cf := a.cf + 1 }
  | .endLine => { a with fl := a.fl + 1, cf := 0, ok := a.ok && (!a.st.skipping || a.cf == 0) }

/-- What is known in a state. -/
def StOk (g : Cfg) (a : Abs) : Prop :=
  a.ok = true ∧
  match a.st with
  | .startRecord | .whitespaceLine | .eatCrnlNop | .eatLineComment
  | .startFieldSkip | .inFieldSkip | .inQuotedFieldSkip | .quoteInQuotedFieldSkip => a.cf = 0
  | .eatWhitespace => g.skip a.fl = true → a.cf = 0
  | .startField | .inField | .inQuotedField | .escapeInQuotedField | .quoteInQuotedField | .escapedChar => g.delimWhitespace = true → g.skip a.fl = false
  | _ => True

theorem start_field_ok {a : Abs} (h : a.ok = true) (hs : g.delimWhitespace = true → g.skip a.fl = false) (hst : a.st = .startField) (c : Nat) :
    StOk g ((actStartField g c).foldl Abs.op a) := by
  obtain ⟨st, cf, fl, ok⟩ := a
  dsimp only at h hs hst
  subst h hst
  unfold actStartField
  split_ifs <;> simp_all [Abs.op, StOk, St.skipping]

theorem start_record_ok {a : Abs} (h : a.ok = true) (c : Nat)
    (h0 : (a.st = .startRecord ∧ a.cf = 0) ∨ ((g.skip a.fl = true → a.cf = 0) ∧ isTerminator g c = false ∧ isCarriage g c = false ∧ isComment g c = false ∧ isBlank c = false)) :
    StOk g ((actStartRecord g (g.skip a.fl) c).foldl Abs.op a) := by
  unfold actStartRecord
  cases hs : g.skip a.fl with
  | true =>
    rw [if_pos rfl]
    have hz : a.cf = 0 := by
      rcases h0 with ⟨-, h0⟩ | ⟨h0, -⟩
      · exact h0
      · exact h0 hs
    clear h0
    obtain ⟨st, cf, fl, ok⟩ := a
    dsimp only at h hz
    subst h
    subst hz
    split_ifs <;> simp [Abs.op, StOk, St.skipping]
  | false =>
    rw [if_neg (by simp)]
    have key : StOk g ((.state .startField :: actStartField g c).foldl Abs.op a) := by
      rw [List.foldl_cons]
      exact start_field_ok (a := a.op (.state .startField)) h (fun _ => hs) rfl c
    rcases h0 with ⟨hst, h0⟩ | ⟨-, h1, h2, h3, h4⟩
    · split_ifs
      all_goals first
        | exact key
        | (clear key
           obtain ⟨st, cf, fl, ok⟩ := a
           dsimp only at h h0 hst
           subst h
           subst h0
           subst hst
           simp_all [Abs.op, StOk, St.skipping])
    · rw [h1, h2, h3, h4]
      simpa using key

theorem eat_whitespace_ok {a : Abs} (h : a.ok = true) (hst : a.st = .eatWhitespace ∨ (a.st = .whitespaceLine ∧ a.cf = 0))
    (h0 : g.skip a.fl = true → a.cf = 0) (c : Nat) :
    StOk g ((actEatWhitespace g (g.skip a.fl) c).foldl Abs.op a) := by
  unfold actEatWhitespace
  split_ifs with h1 h2 h3 h4
  · obtain ⟨st, cf, fl, ok⟩ := a
    dsimp only at h hst
    subst h
    rcases hst with rfl | ⟨rfl, -⟩ <;> simp [Abs.op, StOk, St.skipping]
  · obtain ⟨st, cf, fl, ok⟩ := a
    dsimp only at h
    subst h
    simp [Abs.op, StOk]
  · obtain ⟨st, cf, fl, ok⟩ := a
    dsimp only at h
    subst h
    simp [Abs.op, StOk]
  · rw [List.foldl_cons]
    exact start_record_ok (a := a.op (.state .startField)) h c
      (Or.inr ⟨h0, by simpa using h1, by simpa using h2, by simpa using h3, by simpa using h4⟩)
  · obtain ⟨st, cf, fl, ok⟩ := a
    dsimp only at h hst h0
    subst h
    rcases hst with rfl | ⟨rfl, rfl⟩
    · exact ⟨rfl, h0⟩
    · exact ⟨rfl, rfl⟩

theorem act_ok {a : Abs} (h : StOk g a) (c : Nat) : StOk g ((act g a.st (g.skip a.fl) c).1.foldl Abs.op a) := by
  obtain ⟨h, hst⟩ := h
  unfold act
  cases e : a.st with
  | eatWhitespace =>
    rw [e] at hst
    exact eat_whitespace_ok h (Or.inl e) hst c
  | startRecord =>
    rw [e] at hst
    exact start_record_ok h c (Or.inl ⟨e, hst⟩)
  | startField =>
    rw [e] at hst
    exact start_field_ok h hst e c
  | whitespaceLine =>
    rw [e] at hst
    dsimp only
    split_ifs
    all_goals first
      | exact eat_whitespace_ok h (Or.inr ⟨e, hst⟩) (fun _ => hst) c
      | (obtain ⟨st, cf, fl, ok⟩ := a
         dsimp only at h e hst
         subst h e
         simp_all [Abs.op, StOk])
  | _ =>
    obtain ⟨st, cf, fl, ok⟩ := a
    dsimp only at h e hst
    subst h e
    dsimp only at hst ⊢
    first
      | (split_ifs <;> simp_all [Abs.op, StOk, St.skipping]; done)
      | (simp_all [Abs.op, StOk]; done)

/-- The relations. -/
structure Core (p : P) : Prop where
  wordsLen : p.words.length = p.curStart + p.curFields
  sum : p.curStart = p.lineFields.sum
  starts : p.lineStart = (List.range p.lineFields.length).map (fun i => (p.lineFields.take i).sum)
  terminated : ∀ w ∈ p.words, 0 ∈ p.stream.drop w
  wordStart : p.wordStart ≤ p.stream.length

def absOf (p : P) : Abs := ⟨p.state, p.curFields, p.fileLines, true⟩

theorem mem_drop_append {l m : List Nat} {w : Nat} (h : 0 ∈ l.drop w) : 0 ∈ (l ++ m).drop w := by
  rw [List.drop_append]
  simp [h]

theorem core_op {p : P} (h : Core p) (c : Nat) (o : Op) (hok : ((absOf p).op o).ok = true) : Core (rawOp c p o) ∧ absOf (rawOp c p o) = (absOf p).op o := by
  cases o with
  | state s => exact ⟨⟨h.wordsLen, h.sum, h.starts, h.terminated, h.wordStart⟩, rfl⟩
  | line => exact ⟨⟨h.wordsLen, h.sum, h.starts, h.terminated, h.wordStart⟩, rfl⟩
  | push =>
    refine ⟨⟨h.wordsLen, h.sum, h.starts, fun w hw => mem_drop_append (h.terminated w hw), ?_⟩, rfl⟩
    have := h.wordStart
    show p.wordStart ≤ (p.stream ++ [c]).length
    simp; omega
  | field =>
    refine ⟨⟨?_, h.sum, h.starts, ?_, Nat.le_refl _⟩, rfl⟩
    · show (p.words ++ [p.wordStart]).length = p.curStart + (p.curFields + 1)
      have := h.wordsLen
      simp; omega
    · intro w hw
      show 0 ∈ (p.stream ++ [0]).drop w
      rcases List.mem_append.1 (show w ∈ p.words ++ [p.wordStart] from hw) with hw | hw
      · exact mem_drop_append (h.terminated w hw)
      · rw [List.mem_singleton.1 hw, List.drop_append_of_le_length h.wordStart]
        simp
  | endLine =>
    unfold rawOp
    dsimp only
    have hok : (!p.state.skipping || p.curFields == 0) = true := by simpa [Abs.op, absOf] using hok
    by_cases hs : p.state.skipping = true
    · have h0 : p.curFields = 0 := by simpa [hs] using hok
      rw [if_pos hs]
      have e1 := h.wordsLen
      have e2 := h.sum
      refine ⟨⟨by dsimp only; omega, by dsimp only; omega, h.starts, h.terminated, h.wordStart⟩, ?_⟩
      unfold absOf Abs.op
      dsimp only
      rw [hok]
      rfl
    · rw [if_neg hs]
      have e1 := h.wordsLen
      have e2 := h.sum
      refine ⟨⟨by dsimp only; omega, ?_, ?_, h.terminated, h.wordStart⟩, ?_⟩
      · dsimp only
        rw [List.sum_append, e2]
        simp
      · dsimp only
        rw [List.length_append, List.length_singleton, List.range_succ, List.map_append, h.starts]
        congr 1
        · apply List.map_congr_left
          intro i hi
          rw [List.mem_range] at hi
          rw [List.take_append_of_le_length (by omega)]
        · simp [e2]
      · unfold absOf Abs.op
        dsimp only
        rw [hok]
        rfl

theorem ok_mono : ∀ (l : List Op) (a : Abs), (l.foldl Abs.op a).ok = true → a.ok = true
  | [], _, h => h
  | o :: l, a, h => by
    have := ok_mono l _ (by rw [List.foldl_cons] at h; exact h)
    cases o <;> simp [Abs.op] at this <;> first | exact this | exact this.1

theorem core_ops (c : Nat) : ∀ (l : List Op) (p : P), Core p → (l.foldl Abs.op (absOf p)).ok = true →
    Core (l.foldl (rawOp c) p) ∧ absOf (l.foldl (rawOp c) p) = l.foldl Abs.op (absOf p)
  | [], p, h, _ => ⟨h, rfl⟩
  | o :: l, p, h, hok => by
    rw [List.foldl_cons] at hok
    obtain ⟨a1, a2⟩ := core_op h c o (ok_mono l _ hok)
    rw [List.foldl_cons, List.foldl_cons, ← a2]
    exact core_ops c l _ a1 (by rw [a2]; exact hok)

/-- The relations and what is known in the state. -/
def Inv (g : Cfg) (p : P) : Prop := Core p ∧ StOk g (absOf p)

theorem inv_act {p : P} (h : Inv g p) (c : Nat) : Inv g ((act g p.state (g.skip p.fileLines) c).1.foldl (rawOp c) p) := by
  have hk := act_ok h.2 c
  obtain ⟨a1, a2⟩ := core_ops c (act g p.state (g.skip p.fileLines) c).1 p h.1 hk.1
  exact ⟨a1, by rw [a2]; exact hk⟩

theorem inv_feed {p : P} (h : Inv g p) (c : Nat) : Inv g (feed g p c) := by
  unfold feed
  dsimp only
  split
  · exact inv_act (inv_act h c) c
  · exact inv_act h c

theorem inv_run : ∀ (xs : List Nat) (p : P), Inv g p → Inv g (xs.foldl (feed g) p)
  | [], _, h => h
  | x :: xs, _, h => inv_run xs _ (inv_feed h x)

theorem inv_init : Inv g {} := ⟨⟨rfl, rfl, rfl, by simp, Nat.le_refl _⟩, rfl, rfl⟩

theorem core_finish {e : Ending} {p : P} (h : Inv g p) : Core (finish e p).2 ∧ ((finish e p).1 = true → (finish e p).2.curFields = 0) := by
  have hs : ∀ q : P, Core q → ∀ st, Core { q with state := st } := fun q h st => ⟨h.wordsLen, h.sum, h.starts, h.terminated, h.wordStart⟩
  have hL : ∀ q : P, Core q → (q.state.skipping = true → q.curFields = 0) → Core (rawOp 0 q .endLine) ∧ (rawOp 0 q .endLine).curFields = 0 := by
    intro q hq h0
    have := core_op hq 0 .endLine (by
      cases hk : q.state.skipping with
      | false => simp [Abs.op, absOf, hk]
      | true => simp [Abs.op, absOf, hk, h0 hk])
    exact ⟨this.1, by have := congrArg Abs.cf this.2; exact this⟩
  obtain ⟨hc, hk, hst⟩ := h
  cases e with
  | failed => exact ⟨hc, by simp [finish]⟩
  | eof =>
    unfold finish close
    dsimp only
    have hF : Core (rawOp 0 p .field) := (core_op hc 0 .field rfl).1
    change (match p.state with
      | .startRecord | .whitespaceLine | .eatCrnlNop | .eatLineComment
      | .startFieldSkip | .inFieldSkip | .inQuotedFieldSkip | .quoteInQuotedFieldSkip => p.curFields = 0
      | .eatWhitespace => g.skip p.fileLines = true → p.curFields = 0
      | .startField | .inField | .inQuotedField | .escapeInQuotedField | .quoteInQuotedField | .escapedChar => g.delimWhitespace = true → g.skip p.fileLines = false
      | _ => True) at hst
    cases e : p.state <;> rw [e] at hst <;> dsimp only at hst ⊢
    all_goals first
      | exact ⟨hs _ hc _, fun _ => hst⟩
      | exact ⟨hs _ hc _, fun h => by cases h⟩
      | (have := hL (rawOp 0 p .field) hF (by rw [show (rawOp 0 p .field).state = p.state from rfl, e]; simp [St.skipping])
         exact ⟨hs _ this.1 _, fun _ => this.2⟩)
      | (have := hL p hc (fun _ => hst)
         exact ⟨hs _ this.1 _, fun _ => this.2⟩)
      | (have := hL p hc (by rw [e]; simp [St.skipping])
         exact ⟨hs _ this.1 _, fun _ => this.2⟩)

/-- The relations at the end of every run. -/
theorem core_runOf (e : Ending) (file : List Nat) : Core (runOf g e file).2 ∧ ((runOf g e file).1 = true → (runOf g e file).2.curFields = 0) :=
  core_finish (inv_run _ _ inv_init)

end Verif.Tokenizer
