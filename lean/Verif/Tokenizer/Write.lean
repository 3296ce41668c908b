/-
What the tokeniser makes of a table written with quotes.
-/
import Verif.Tokenizer.Chunks
import Verif.Tokenizer.Spec
import Mathlib.Tactic.ByContra
import Mathlib.Tactic.Tauto

namespace Verif.Tokenizer
variable {g : Cfg}

/-- The options fit the writer. -/
structure Suits (g : Cfg) (s : Style) : Prop where
  quote : g.quote = s.quote
  escape : g.escape = s.escape
  /-- between cells: the delimiter, or a blank -/
  delim : if g.delimWhitespace then s.delimiter = 32 ∨ s.delimiter = 9 else s.delimiter = g.delimiter
  newline : s.newline = if g.terminator = 0 then 10 else g.terminator
  /-- how quotes are marked in cells -/
  marks : if s.doubled then g.doubleQuote = true else s.escape ≠ 0
  /-- the characters are different -/
  quoteNe : s.quote ∉ [s.escape, s.delimiter, s.newline, g.comment, 9, 10, 13, 32, 0xEF]
  delimNe : s.delimiter ∉ [s.escape, s.newline, 10, 13]
  newlineNe : g.delimWhitespace = true → s.newline ∉ [9, 32]

variable {s : Style}

theorem feed_next {p : P} {c : Nat} {st : St} {l : List Op} (h : p.state = st) (ha : act g st (g.skip p.fileLines) c = (l, .next)) :
    feed g p c = l.foldl (rawOp c) p := by
  unfold feed
  rw [h, ha]

namespace Suits
variable (h : Suits g s)
include h

theorem ne_escape : s.quote ≠ s.escape := by have := h.quoteNe; simp only [List.mem_cons, not_or] at this; exact this.1
theorem ne_delimiter : s.quote ≠ s.delimiter := by have := h.quoteNe; simp only [List.mem_cons, not_or] at this; exact this.2.1
theorem ne_newline : s.quote ≠ s.newline := by have := h.quoteNe; simp only [List.mem_cons, not_or] at this; exact this.2.2.1
theorem ne_comment : s.quote ≠ g.comment := by have := h.quoteNe; simp only [List.mem_cons, not_or] at this; exact this.2.2.2.1
theorem ne_tab : s.quote ≠ 9 := by have := h.quoteNe; simp only [List.mem_cons, not_or] at this; exact this.2.2.2.2.1
theorem ne_ten : s.quote ≠ 10 := by have := h.quoteNe; simp only [List.mem_cons, not_or] at this; exact this.2.2.2.2.2.1
theorem ne_cr : s.quote ≠ 13 := by have := h.quoteNe; simp only [List.mem_cons, not_or] at this; exact this.2.2.2.2.2.2.1
theorem ne_space : s.quote ≠ 32 := by have := h.quoteNe; simp only [List.mem_cons, not_or] at this; exact this.2.2.2.2.2.2.2.1
theorem ne_bom : s.quote ≠ 0xEF := by have := h.quoteNe; simp only [List.mem_cons, not_or] at this; exact this.2.2.2.2.2.2.2.2.1
theorem d_escape : s.delimiter ≠ s.escape := by have := h.delimNe; simp only [List.mem_cons, not_or] at this; exact this.1
theorem d_newline : s.delimiter ≠ s.newline := by have := h.delimNe; simp only [List.mem_cons, not_or] at this; exact this.2.1
theorem d_ten : s.delimiter ≠ 10 := by have := h.delimNe; simp only [List.mem_cons, not_or] at this; exact this.2.2.1
theorem d_cr : s.delimiter ≠ 13 := by have := h.delimNe; simp only [List.mem_cons, not_or] at this; exact this.2.2.2.1

theorem isTerminator_eq (c : Nat) : isTerminator g c = (c == s.newline) := by unfold isTerminator; rw [h.newline]
theorem q_terminator : isTerminator g s.quote = false := by rw [h.isTerminator_eq]; simpa using h.ne_newline
theorem q_carriage : isCarriage g s.quote = false := by unfold isCarriage; simp [h.ne_cr]
theorem q_comment : isComment g s.quote = false := by unfold isComment; simp [h.ne_comment]
theorem q_blank : isBlank s.quote = false := by unfold isBlank; simp [h.ne_tab, h.ne_space]
theorem q_quote : isQuote g s.quote = true := by unfold isQuote; simp [h.quote]
theorem q_escape : isEscape g s.quote = false := by unfold isEscape; rw [h.escape]; simp [h.ne_escape]
theorem q_delimiter : isDelimiter g s.quote = false := by
  unfold isDelimiter
  rw [h.q_blank]
  have := h.delim
  cases hw : g.delimWhitespace with
  | true => simp
  | false =>
    rw [hw] at this
    simp only [Bool.false_eq_true, if_false] at this
    rw [← this]
    simp [h.ne_delimiter]
theorem d_delimiter : isDelimiter g s.delimiter = true := by
  unfold isDelimiter isBlank
  have := h.delim
  cases hw : g.delimWhitespace with
  | true =>
    rw [hw] at this
    rcases this with e | e <;> simp [e]
  | false =>
    rw [hw] at this
    simp only [Bool.false_eq_true, if_false] at this
    rw [← this]
    simp
theorem d_terminator : isTerminator g s.delimiter = false := by rw [h.isTerminator_eq]; simpa using h.d_newline
theorem d_carriage : isCarriage g s.delimiter = false := by unfold isCarriage; simp [h.d_cr]
theorem d_isEscape : isEscape g s.delimiter = false := by unfold isEscape; rw [h.escape]; simp [h.d_escape]
theorem d_quote : isQuote g s.delimiter = false := by unfold isQuote; rw [h.quote]; simpa using fun e => h.ne_delimiter e.symm
theorem n_terminator : isTerminator g s.newline = true := by rw [h.isTerminator_eq]; simp
theorem n_delimiter : isDelimiter g s.newline = false := by
  unfold isDelimiter isBlank
  have hd := h.delim
  have hn := h.d_newline
  cases hw : g.delimWhitespace with
  | false =>
    rw [hw] at hd
    simp only [Bool.false_eq_true, if_false] at hd
    rw [hd] at hn
    simpa using fun e => hn e.symm
  | true =>
    have := h.newlineNe hw
    simp only [List.mem_cons, not_or, List.not_mem_nil, not_false_iff, and_true] at this
    simp [this]
theorem cr_delimiter : isDelimiter g 13 = false := by
  unfold isDelimiter isBlank
  have hd := h.delim
  have hn := h.d_cr
  cases hw : g.delimWhitespace with
  | false =>
    rw [hw] at hd
    simp only [Bool.false_eq_true, if_false] at hd
    rw [hd] at hn
    simpa using fun e => hn e.symm
  | true => simp
omit h in
theorem cr_terminator (ht : g.terminator = 0) : isTerminator g 13 = false := by unfold isTerminator; simp [ht]
theorem cr_quote : isQuote g 13 = false := by unfold isQuote; rw [h.quote]; simpa using fun e => h.ne_cr e.symm
theorem n_quote : isQuote g s.newline = false := by unfold isQuote; rw [h.quote]; simpa using fun e => h.ne_newline e.symm
end Suits

/-! ### Cells -/

/-- States at the begin of a cell in a line that is not skipped. -/
def Begins (g : Cfg) (p : P) : Prop := (p.state = .startRecord ∨ p.state = .startField ∨ p.state = .eatWhitespace) ∧ g.skip p.fileLines = false

theorem feed_open (h : Suits g s) {p : P} (hb : Begins g p) : feed g p s.quote = { p with state := .inQuotedField } := by
  obtain ⟨hb, hk⟩ := hb
  have e1 := h.q_terminator
  have e2 := h.q_carriage
  have e3 := h.q_comment
  have e4 := h.q_blank
  have e5 := h.q_quote
  rcases hb with hb | hb | hb
  · rw [feed_next (l := [.state .startField, .state .inQuotedField]) hb]
    · rfl
    · simp [act, actStartRecord, actStartField, hk, e1, e2, e3, e4, e5]
  · rw [feed_next (l := [.state .inQuotedField]) hb]
    · rfl
    · simp [act, actStartField, e1, e2, e5]
  · rw [feed_next (l := [.state .startField, .state .startField, .state .inQuotedField]) hb]
    · rfl
    · simp [act, actEatWhitespace, actStartRecord, actStartField, hk, e1, e2, e3, e4, e5]

theorem feed_char (h : Suits g s) {p : P} (hp : p.state = .inQuotedField) {c : Nat} (hc : c ≠ 0) :
    (writeChar s c).foldl (feed g) p = { p with stream := p.stream ++ [c] } := by
  have e1 := h.q_quote
  have e2 := h.q_escape
  have hm := h.marks
  have hst : ∀ l, ({ p with stream := l, state := .inQuotedField } : P) = { p with stream := l } := by intro l; rw [← hp]
  unfold writeChar
  by_cases c1 : c = s.quote
  · rw [if_pos c1, c1]
    cases hd : s.doubled with
    | true =>
      rw [hd] at hm
      have hm : g.doubleQuote = true := by simpa using hm
      rw [if_pos rfl, List.foldl_cons, List.foldl_cons, List.foldl_nil]
      rw [feed_next (p := p) (l := [.state .quoteInQuotedField]) hp (by simp [act, e1, e2, hm])]
      rw [feed_next (st := .quoteInQuotedField) (l := [.push, .state .inQuotedField]) rfl (by simp [act, e1])]
      exact hst _
    | false =>
      rw [hd] at hm
      have hm : s.escape ≠ 0 := by simpa using hm
      have e3 : isEscape g s.escape = true := by unfold isEscape; rw [h.escape]; simp [hm]
      rw [if_neg (by simp), List.foldl_cons, List.foldl_cons, List.foldl_nil]
      rw [feed_next (p := p) (l := [.state .escapeInQuotedField]) hp (by simp [act, e3])]
      rw [feed_next (st := .escapeInQuotedField) (l := [.push, .state .inQuotedField]) rfl (by simp [act])]
      exact hst _
  · rw [if_neg c1]
    by_cases c2 : c = s.escape
    · rw [if_pos c2, c2]
      have e3 : isEscape g s.escape = true := by unfold isEscape; rw [h.escape]; simp [← c2, hc]
      rw [List.foldl_cons, List.foldl_cons, List.foldl_nil]
      rw [feed_next (p := p) (l := [.state .escapeInQuotedField]) hp (by simp [act, e3])]
      rw [feed_next (st := .escapeInQuotedField) (l := [.push, .state .inQuotedField]) rfl (by simp [act])]
      exact hst _
    · rw [if_neg c2, List.foldl_cons, List.foldl_nil]
      have e3 : isEscape g c = false := by unfold isEscape; rw [h.escape]; simp [c2]
      have e4 : isQuote g c = false := by unfold isQuote; rw [h.quote]; simp [c1]
      rw [feed_next (p := p) (l := [.push]) hp (by simp [act, e3, e4])]
      rfl

theorem feed_chars (h : Suits g s) : ∀ (cell : Cell) (p : P), p.state = .inQuotedField → 0 ∉ cell →
    (cell.flatMap (writeChar s)).foldl (feed g) p = { p with stream := p.stream ++ cell }
  | [], p, _, _ => by simp
  | c :: cs, p, hp, h0 => by
    rw [List.flatMap_cons, List.foldl_append, feed_char h hp (fun e => h0 (by simp [e])),
      feed_chars h cs _ (by exact hp) (fun e => h0 (by simp [e]))]
    simp

/-- State after a closing quote. -/
def closed (g : Cfg) : St := if g.doubleQuote then .quoteInQuotedField else .inField

theorem feed_cell (h : Suits g s) {p : P} (hb : Begins g p) {cell : Cell} (h0 : 0 ∉ cell) :
    (writeCell s cell).foldl (feed g) p = { p with stream := p.stream ++ cell, state := closed g } := by
  unfold writeCell
  rw [List.foldl_cons, feed_open h hb, List.foldl_append, feed_chars h cell _ rfl h0, List.foldl_cons, List.foldl_nil]
  rw [feed_next (st := .inQuotedField) (l := [.state (closed g)]) rfl (by simp [act, h.q_quote, h.q_escape, closed])]
  rfl

/-- The parser after a word. -/
def addWord (p : P) (cell : Cell) : P :=
  { p with stream := p.stream ++ cell ++ [0], words := p.words ++ [p.wordStart], curFields := p.curFields + 1,
           wordStart := (p.stream ++ cell ++ [0]).length }

theorem feed_delim (h : Suits g s) {p : P} (hp : p.state = closed g) :
    feed g p s.delimiter = { rawOp 0 p .field with state := if g.delimWhitespace then .eatWhitespace else .startField } := by
  have e1 := h.d_delimiter
  have e2 := h.d_terminator
  have e3 := h.d_carriage
  have e4 := h.d_isEscape
  have e5 := h.d_quote
  rw [feed_next (l := [.field, .state (if g.delimWhitespace then .eatWhitespace else .startField)]) hp]
  · rfl
  · unfold closed
    cases g.doubleQuote <;> simp [act, e1, e2, e3, e4, e5]

/-- The parser after a line. -/
def addLine (p : P) : P :=
  { p with fileLines := p.fileLines + 1, lineStart := p.lineStart ++ [p.curStart], lineFields := p.lineFields ++ [p.curFields],
           curStart := p.curStart + p.curFields, curFields := 0, state := .startRecord }

/-- The parser when it is not decided whether a carriage return is the end of the line: what it becomes with the next
byte. -/
def settle (p : P) : P :=
  if p.state = .eatCrnl then addLine p else if p.state = .eatCrnlNop then { p with state := .startRecord } else p

/-- States between lines. -/
def Between (p : P) : Prop := p.state = .startRecord ∨ p.state = .eatCrnl ∨ p.state = .eatCrnlNop

theorem settle_start {p : P} (hp : Between p) : (settle p).state = .startRecord := by
  unfold settle
  rcases hp with hp | hp | hp
  · rw [if_neg (by rw [hp]; simp), if_neg (by rw [hp]; simp)]; exact hp
  · rw [if_pos hp]; rfl
  · rw [if_neg (by rw [hp]; simp), if_pos hp]

theorem settle_id {p : P} (hp : p.state = .startRecord) : settle p = p := by
  unfold settle
  rw [if_neg (by rw [hp]; simp), if_neg (by rw [hp]; simp)]

theorem feed_eol (h : Suits g s) {p : P} (hp : p.state = closed g) (e : Eol) (he : e = .nl ∨ g.terminator = 0) :
    settle ((e.bytes s).foldl (feed g) p) = addLine (rawOp 0 p .field) ∧
      Between ((e.bytes s).foldl (feed g) p) := by
  have hcl : p.state.skipping = false := by rw [hp]; unfold closed; split <;> rfl
  have hcr : g.terminator = 0 → feed g p 13 = { rawOp 0 p .field with state := .eatCrnl } := by
    intro ht
    have e1 := h.cr_delimiter
    have e2 := Suits.cr_terminator ht
    have e3 : isCarriage g 13 = true := by simp [isCarriage, ht]
    have e4 := h.cr_quote
    rw [feed_next (l := [.field, .state .eatCrnl]) hp]
    · rfl
    · unfold closed
      cases g.doubleQuote <;> simp [act, e1, e2, e3, e4]
  cases e with
  | nl =>
    have e1 := h.n_terminator
    have e2 := h.n_delimiter
    have e3 := h.n_quote
    have : feed g p s.newline = addLine (rawOp 0 p .field) := by
      rw [feed_next (l := [.field, .endLine, .state .startRecord]) hp]
      · rw [List.foldl_cons, List.foldl_cons, List.foldl_cons, List.foldl_nil]
        have hs : (rawOp s.newline p .field).state.skipping = false := hcl
        generalize hq : rawOp s.newline p .field = q at hs
        rw [show rawOp 0 p .field = q from hq]
        unfold rawOp
        dsimp only
        rw [if_neg (by rw [hs]; simp)]
        rfl
      · unfold closed
        cases g.doubleQuote <;> simp [act, e1, e2, e3]
    show settle (feed g p s.newline) = _ ∧ Between (feed g p s.newline)
    rw [this]
    exact ⟨settle_id rfl, Or.inl rfl⟩
  | cr =>
    have ht : g.terminator = 0 := by simpa using he
    show settle (feed g p 13) = _ ∧ Between (feed g p 13)
    rw [hcr ht]
    exact ⟨rfl, Or.inr (Or.inl rfl)⟩
  | crnl =>
    have ht : g.terminator = 0 := by simpa using he
    show settle (feed g (feed g p 13) 10) = _ ∧ Between (feed g (feed g p 13) 10)
    rw [hcr ht]
    rw [feed_next (st := .eatCrnl) (l := [.endLine, .state .startRecord]) rfl (by simp [act])]
    exact ⟨rfl, Or.inl rfl⟩

/-- The parser after the words of a row. -/
def addRow (p : P) (row : List Cell) : P := row.foldl addWord p

theorem addRow_caps (p : P) (st : St) (row : List Cell) : addRow { p with state := st } row = { addRow p row with state := st } := by
  unfold addRow
  induction row generalizing p with
  | nil => rfl
  | cons c row ih => exact ih (addWord p c)

theorem feed_row (h : Suits g s) (e : Eol) (he : e = .nl ∨ g.terminator = 0) : ∀ (row : List Cell) (p : P), row ≠ [] → Begins g p → (∀ c ∈ row, 0 ∉ c) →
    settle ((writeRow s e row).foldl (feed g) p) = addLine (addRow p row) ∧
      Between ((writeRow s e row).foldl (feed g) p)
  | [], _, hr, _, _ => absurd rfl hr
  | [c], p, _, hb, h0 => by
    unfold writeRow
    rw [List.foldl_append, feed_cell h hb (h0 c (by simp))]
    exact feed_eol h rfl e he
  | c :: d :: cs, p, _, hb, h0 => by
    rw [show writeRow s e (c :: d :: cs) = writeCell s c ++ s.delimiter :: writeRow s e (d :: cs) from rfl]
    rw [List.foldl_append, feed_cell h hb (h0 c (by simp)), List.foldl_cons, feed_delim h rfl]
    have hb2 : Begins g { addWord p c with state := if g.delimWhitespace then .eatWhitespace else .startField } :=
      ⟨by cases g.delimWhitespace <;> simp, hb.2⟩
    obtain ⟨a1, a2⟩ := feed_row h e he (d :: cs) _ (by simp) hb2 (fun x hx => h0 x (by simp at hx ⊢; tauto))
    rw [addRow_caps] at a1
    exact ⟨a1, a2⟩

theorem feed_settle (h : Suits g s) {p : P} (hp : Between p) : feed g p s.quote = feed g (settle p) s.quote := by
  have e1 := h.ne_ten
  have e2 := h.q_delimiter
  rcases hp with hp | hp | hp
  · rw [settle_id hp]
  · have ha : act g .eatCrnl (g.skip p.fileLines) s.quote = ([.endLine, .state .startRecord], .again) := by simp [act, e1, e2]
    have hq : [Op.endLine, .state .startRecord].foldl (rawOp s.quote) p = addLine p := by
      rw [List.foldl_cons, List.foldl_cons, List.foldl_nil]
      unfold rawOp
      dsimp only
      rw [if_neg (by rw [hp]; simp [St.skipping])]
      rfl
    have hst : settle p = addLine p := if_pos hp
    rw [hst]
    unfold feed
    rw [hp, ha]
    dsimp only
    rw [hq]
    have : (act g (addLine p).state (g.skip (addLine p).fileLines) s.quote).2 = .next := rfl
    rw [this]
  · have ha : act g .eatCrnlNop (g.skip p.fileLines) s.quote = ([.state .startRecord], .again) := by simp [act, e1, e2]
    have hst : settle p = { p with state := .startRecord } := by
      unfold settle; rw [if_neg (by rw [hp]; simp), if_pos hp]
    rw [hst]
    unfold feed
    rw [hp, ha]
    rfl

theorem writeRow_cons (s : Style) (e : Eol) {row : List Cell} (h : row ≠ []) : ∃ l, writeRow s e row = s.quote :: l := by
  match row, h with
  | [c], _ => exact ⟨_, rfl⟩
  | c :: d :: cs, _ => exact ⟨_, rfl⟩

theorem addRow_lines (p : P) (row : List Cell) : (addRow p row).fileLines = p.fileLines := by
  unfold addRow
  induction row generalizing p with
  | nil => rfl
  | cons c row ih => exact ih (addWord p c)

/-! ### Skipped rows -/

/-- The cell can be skipped. -/
def Skippable (s : Style) (c : Cell) : Prop := s.doubled = true ∨ s.quote ∉ c

theorem skip_chars (h : Suits g s) : ∀ (cell : Cell) (p : P), p.state = .inQuotedFieldSkip → Skippable s cell →
    (cell.flatMap (writeChar s)).foldl (feed g) p = p
  | [], p, _, _ => rfl
  | c :: cs, p, hp, hk => by
    have hst : ({ p with state := .inQuotedFieldSkip } : P) = p := by rw [← hp]
    have stay : ∀ x, x ≠ s.quote → feed g p x = p := by
      intro x hx
      have e4 : isQuote g x = false := by unfold isQuote; rw [h.quote]; simp [hx]
      rw [feed_next (p := p) (l := []) hp (by simp [act, e4])]
      rfl
    have e1 := h.q_quote
    have hc : (writeChar s c).foldl (feed g) p = p := by
      unfold writeChar
      by_cases c1 : c = s.quote
      · have hd : s.doubled = true := by
          rcases hk with hk | hk
          · exact hk
          · exact absurd (by simp [c1]) hk
        have hm : g.doubleQuote = true := by have := h.marks; rw [if_pos hd] at this; exact this
        rw [if_pos c1, if_pos hd, List.foldl_cons, List.foldl_cons, List.foldl_nil]
        rw [feed_next (p := p) (l := [.state .quoteInQuotedFieldSkip]) hp (by simp [act, e1, hm])]
        rw [feed_next (st := .quoteInQuotedFieldSkip) (l := [.state .inQuotedFieldSkip]) rfl (by simp [act, e1])]
        exact hst
      · rw [if_neg c1]
        by_cases c2 : c = s.escape
        · have : s.escape ≠ s.quote := fun e => h.ne_escape e.symm
          rw [if_pos c2, List.foldl_cons, List.foldl_cons, List.foldl_nil, stay _ this, stay _ this]
        · rw [if_neg c2, List.foldl_cons, List.foldl_nil, stay _ c1]
    rw [List.flatMap_cons, List.foldl_append, hc]
    exact skip_chars h cs p hp (hk.imp id (fun hk e => hk (by simp [e])))

/-- State after the closing quote of a skipped cell. -/
def closedSkip (g : Cfg) : St := if g.doubleQuote then .quoteInQuotedFieldSkip else .inFieldSkip

theorem skip_cell (h : Suits g s) {p : P} (hp : feed g p s.quote = { p with state := .inQuotedFieldSkip }) {cell : Cell} (hk : Skippable s cell) :
    (writeCell s cell).foldl (feed g) p = { p with state := closedSkip g } := by
  unfold writeCell
  rw [List.foldl_cons, hp, List.foldl_append, skip_chars h cell _ rfl hk, List.foldl_cons, List.foldl_nil]
  rw [feed_next (st := .inQuotedFieldSkip) (l := [.state (closedSkip g)]) rfl (by simp [act, h.q_quote, closedSkip])]
  rfl

theorem skip_delim (h : Suits g s) {p : P} (hp : p.state = closedSkip g) : feed g p s.delimiter = { p with state := .startFieldSkip } := by
  have e1 := h.d_delimiter
  have e2 := h.d_terminator
  have e3 := h.d_carriage
  have e5 := h.d_quote
  rw [feed_next (l := [.state .startFieldSkip]) hp]
  · rfl
  · unfold closedSkip
    cases g.doubleQuote <;> simp [act, e1, e2, e3, e5]

/-- The parser after a skipped line. -/
def skipLine (p : P) : P := { p with fileLines := p.fileLines + 1, state := .startRecord }

theorem skip_eol (h : Suits g s) {p : P} (hp : p.state = closedSkip g) (h0 : p.curFields = 0) (e : Eol) (he : e = .nl ∨ g.terminator = 0) :
    settle ((e.bytes s).foldl (feed g) p) = skipLine p ∧ Between ((e.bytes s).foldl (feed g) p) := by
  have hcl : p.state.skipping = true := by rw [hp]; unfold closedSkip; split <;> rfl
  have hcr : g.terminator = 0 → feed g p 13 = { p with fileLines := p.fileLines + 1, state := .eatCrnlNop } := by
    intro ht
    have e1 := h.cr_delimiter
    have e2 := Suits.cr_terminator ht
    have e3 : isCarriage g 13 = true := by simp [isCarriage, ht]
    have e4 := h.cr_quote
    rw [feed_next (l := [.line, .state .eatCrnlNop]) hp]
    · rfl
    · unfold closedSkip
      cases g.doubleQuote <;> simp [act, e2, e3, e4]
  cases e with
  | nl =>
    have e1 := h.n_terminator
    have e3 := h.n_quote
    have : feed g p s.newline = skipLine p := by
      rw [feed_next (l := [.endLine, .state .startRecord]) hp]
      · rw [List.foldl_cons, List.foldl_cons, List.foldl_nil]
        unfold rawOp
        dsimp only
        rw [if_pos hcl]
        unfold skipLine
        rw [h0]
        rw [Nat.add_zero, ← h0]
      · unfold closedSkip
        cases g.doubleQuote <;> simp [act, e1, e3]
    show settle (feed g p s.newline) = _ ∧ Between (feed g p s.newline)
    rw [this]
    exact ⟨settle_id rfl, Or.inl rfl⟩
  | cr =>
    have ht : g.terminator = 0 := by simpa using he
    show settle (feed g p 13) = _ ∧ Between (feed g p 13)
    rw [hcr ht]
    exact ⟨rfl, Or.inr (Or.inr rfl)⟩
  | crnl =>
    have ht : g.terminator = 0 := by simpa using he
    show settle (feed g (feed g p 13) 10) = _ ∧ Between (feed g (feed g p 13) 10)
    rw [hcr ht]
    rw [feed_next (st := .eatCrnlNop) (l := [.state .startRecord]) rfl (by simp [act])]
    exact ⟨rfl, Or.inl rfl⟩

theorem skip_row (h : Suits g s) (e : Eol) (he : e = .nl ∨ g.terminator = 0) : ∀ (row : List Cell) (p : P), row ≠ [] → p.curFields = 0 →
    feed g p s.quote = { p with state := .inQuotedFieldSkip } → (∀ c ∈ row, Skippable s c) →
    settle ((writeRow s e row).foldl (feed g) p) = skipLine p ∧ Between ((writeRow s e row).foldl (feed g) p)
  | [], _, hr, _, _, _ => absurd rfl hr
  | [c], p, _, h0, hb, hk => by
    unfold writeRow
    rw [List.foldl_append, skip_cell h hb (hk c (by simp))]
    exact skip_eol h (p := { p with state := closedSkip g }) rfl h0 e he
  | c :: d :: cs, p, _, h0, hb, hk => by
    rw [show writeRow s e (c :: d :: cs) = writeCell s c ++ s.delimiter :: writeRow s e (d :: cs) from rfl]
    rw [List.foldl_append, skip_cell h hb (hk c (by simp)), List.foldl_cons, skip_delim h rfl]
    have e1 := h.q_terminator
    have e2 := h.q_carriage
    have e5 := h.q_quote
    obtain ⟨a1, a2⟩ := skip_row h e he (d :: cs) { p with state := .startFieldSkip } (by simp) h0
      (by rw [feed_next (st := .startFieldSkip) (l := [.state .inQuotedFieldSkip]) rfl (by simp [act, e1, e2, e5])]; rfl)
      (fun x hx => hk x (by simp at hx ⊢; tauto))
    exact ⟨a1, a2⟩

/-- A table. -/
def eatRow (g : Cfg) (p : P) (r : List Cell × Eol) : P := if g.skip p.fileLines then skipLine p else addLine (addRow p r.1)

theorem eatRow_lines (p : P) (r : List Cell × Eol) : (eatRow g p r).fileLines = p.fileLines + 1 := by
  unfold eatRow
  split
  · rfl
  · show (addRow p r.1).fileLines + 1 = _
    rw [addRow_lines]

theorem feed_table (h : Suits g s) : ∀ (rows : List (List Cell × Eol)) (p : P), (∀ r ∈ rows, r.1 ≠ [] ∧ (r.2 = .nl ∨ g.terminator = 0) ∧ ∀ c ∈ r.1, 0 ∉ c) →
    Between p → (settle p).curFields = 0 →
    (∀ i r, rows[i]? = some r → g.skip ((settle p).fileLines + i) = true → ∀ c ∈ r.1, Skippable s c) →
    settle ((writeTable s rows).foldl (feed g) p) = rows.foldl (eatRow g) (settle p) ∧ Between ((writeTable s rows).foldl (feed g) p)
  | [], p, _, hp, _, _ => ⟨rfl, hp⟩
  | r :: rows, p, hr, hp, h0, hk => by
    obtain ⟨h1, h2, h3⟩ := hr r (by simp)
    rw [show writeTable s (r :: rows) = writeRow s r.2 r.1 ++ writeTable s rows from rfl, List.foldl_append]
    have hrow : (writeRow s r.2 r.1).foldl (feed g) p = (writeRow s r.2 r.1).foldl (feed g) (settle p) := by
      obtain ⟨l, e⟩ := writeRow_cons s r.2 h1
      rw [e, List.foldl_cons, List.foldl_cons, feed_settle h hp]
    rw [hrow]
    have key : settle ((writeRow s r.2 r.1).foldl (feed g) (settle p)) = eatRow g (settle p) r ∧ Between ((writeRow s r.2 r.1).foldl (feed g) (settle p)) ∧
        (eatRow g (settle p) r).curFields = 0 := by
      unfold eatRow
      cases hs : g.skip (settle p).fileLines with
      | false =>
        rw [if_neg (by simp)]
        obtain ⟨a1, a2⟩ := feed_row h r.2 h2 r.1 (settle p) h1 ⟨Or.inl (settle_start hp), hs⟩ h3
        exact ⟨a1, a2, rfl⟩
      | true =>
        rw [if_pos rfl]
        have e5 := h.q_quote
        obtain ⟨a1, a2⟩ := skip_row h r.2 h2 r.1 (settle p) h1 h0
          (by rw [feed_next (l := [.state .inQuotedFieldSkip]) (settle_start hp) (by simp [act, actStartRecord, hs, e5])]; rfl)
          (hk 0 r rfl (by simpa using hs))
        exact ⟨a1, a2, h0⟩
    obtain ⟨a1, a2, a3⟩ := key
    obtain ⟨b1, b2⟩ := feed_table h rows _ (fun x hx => hr x (by simp [hx])) a2 (by rw [a1]; exact a3) (by
      rw [a1, eatRow_lines]
      intro i x hx hs
      exact hk (i + 1) x hx (by rw [← hs]; congr 1; omega))
    rw [a1] at b1
    exact ⟨b1, b2⟩

theorem close_settle {p : P} (hp : Between p) : close p = (true, { settle p with state := .finished }) := by
  rcases hp with hp | hp | hp
  · rw [settle_id hp]; unfold close; rw [hp]
  · unfold settle close
    rw [if_pos hp, hp]
    dsimp only
    unfold rawOp
    dsimp only
    rw [if_neg (by rw [hp]; simp [St.skipping])]
    rfl
  · unfold settle close
    rw [if_neg (by rw [hp]; simp), if_pos hp, hp]

/-! ### The words -/

/-- The parser holds the rows. -/
structure Holds (p : P) (rows : List (List Cell)) (cur : List Cell) : Prop where
  stream : p.stream = (rows.flatten ++ cur).flatMap (· ++ [0])
  wordStart : p.wordStart = p.stream.length
  words : p.words.map (cstring p.stream) = (rows.flatten ++ cur).map some
  bound : ∀ w ∈ p.words, w < p.stream.length
  starts : p.lineStart = (CsvTable.tokOf rows).lineStart
  fields : p.lineFields = rows.map List.length
  curStart : p.curStart = rows.flatten.length
  curFields : p.curFields = cur.length

theorem cstring_append {stream l : List Nat} {w : Nat} {c : Cell} (h : cstring stream w = some c) : cstring (stream ++ l) w = some c := by
  unfold cstring at h ⊢
  dsimp only at h ⊢
  by_cases h0 : 0 ∈ stream.drop w
  · rw [if_pos h0] at h
    have hw : w ≤ stream.length := by
      by_contra hc
      rw [List.drop_eq_nil_of_le (by omega)] at h0
      cases h0
    rw [List.drop_append_of_le_length hw, if_pos (by simp [h0])]
    rw [← h]
    congr 1
    generalize stream.drop w = t at h0
    induction t with
    | nil => cases h0
    | cons a t ih =>
      rw [List.cons_append, List.takeWhile_cons, List.takeWhile_cons]
      by_cases ha : a = 0
      · simp [ha]
      · rw [if_pos (by simpa using ha), if_pos (by simpa using ha), ih (by
          rcases List.mem_cons.1 h0 with e | e
          · exact absurd e.symm ha
          · exact e)]
  · rw [if_neg h0] at h; cases h

theorem cstring_last {stream : List Nat} {c : Cell} (h0 : 0 ∉ c) : cstring (stream ++ c ++ [0]) stream.length = some c := by
  unfold cstring
  dsimp only
  rw [List.append_assoc, List.drop_append_of_le_length (Nat.le_refl _), List.drop_length, List.nil_append, if_pos (by simp)]
  congr 1
  induction c with
  | nil => simp
  | cons a c ih =>
    simp only [List.mem_cons, not_or] at h0
    rw [List.cons_append, List.takeWhile_cons, if_pos (by simpa using fun e => h0.1 e.symm), ih h0.2]

theorem Holds.addWord {p : P} {rows : List (List Cell)} {cur : List Cell} (h : Holds p rows cur) {c : Cell} (h0 : 0 ∉ c) :
    Holds (addWord p c) rows (cur ++ [c]) where
  stream := by
    show p.stream ++ c ++ [0] = _
    rw [h.stream, ← List.append_assoc, List.flatMap_append]
    simp
  wordStart := rfl
  words := by
    show (p.words ++ [p.wordStart]).map (cstring (p.stream ++ c ++ [0])) = _
    rw [List.map_append, List.map_cons, List.map_nil, h.wordStart, cstring_last h0, ← List.append_assoc, List.map_append, ← h.words]
    congr 1
    apply List.map_congr_left
    intro w hw
    have : cstring p.stream w ∈ (rows.flatten ++ cur).map some := by rw [← h.words]; exact List.mem_map_of_mem hw
    obtain ⟨x, -, hx⟩ := List.mem_map.1 this
    rw [← hx, List.append_assoc, cstring_append hx.symm]
  bound := by
    intro w hw
    show w < (p.stream ++ c ++ [0]).length
    rcases List.mem_append.1 (show w ∈ p.words ++ [p.wordStart] from hw) with hw | hw
    · have := h.bound w hw; simp; omega
    · rw [List.mem_singleton.1 hw, h.wordStart]; simp
  starts := h.starts
  fields := h.fields
  curStart := h.curStart
  curFields := by show p.curFields + 1 = _; rw [h.curFields]; simp

theorem Holds.addRow {p : P} {rows : List (List Cell)} {cur : List Cell} (h : Holds p rows cur) {row : List Cell} (h0 : ∀ c ∈ row, 0 ∉ c) :
    Holds (addRow p row) rows (cur ++ row) := by
  unfold Tokenizer.addRow
  induction row generalizing p cur with
  | nil => simpa using h
  | cons c row ih =>
    rw [List.foldl_cons, show cur ++ c :: row = (cur ++ [c]) ++ row by simp]
    exact ih (h.addWord (h0 c (by simp))) (fun x hx => h0 x (by simp [hx]))

theorem Holds.addLine {p : P} {rows : List (List Cell)} {cur : List Cell} (h : Holds p rows cur) : Holds (addLine p) (rows ++ [cur]) [] where
  stream := by show p.stream = _; rw [h.stream]; simp
  wordStart := h.wordStart
  words := by show p.words.map (cstring p.stream) = _; rw [h.words]; simp
  bound := h.bound
  starts := by
    show p.lineStart ++ [p.curStart] = _
    rw [h.starts, h.curStart]
    unfold CsvTable.tokOf
    dsimp only
    rw [List.length_append, List.length_singleton, List.range_succ, List.map_append]
    congr 1
    · apply List.map_congr_left
      intro i hi
      rw [List.mem_range] at hi
      rw [List.take_append_of_le_length (by omega)]
    · simp
  fields := by show p.lineFields ++ [p.curFields] = _; rw [h.fields, h.curFields]; simp
  curStart := by show p.curStart + p.curFields = _; rw [h.curStart, h.curFields]; simp
  curFields := rfl

theorem Holds.table {p : P} {rows : List (List Cell)} (h : Holds p rows []) : table p = CsvTable.tokOf (rows.map (List.map some)) := by
  have e1 := h.words
  have e2 := h.starts
  have e3 := h.fields
  unfold Tokenizer.table
  rw [e1, e2, e3]
  unfold CsvTable.tokOf
  congr 1
  · simp [List.map_flatten]
  · dsimp only
    rw [List.length_map]
    apply List.map_congr_left
    intro i _
    rw [← List.map_take, ← List.map_flatten, List.length_map]
  · rw [List.map_map]
    apply List.map_congr_left
    intro l _
    simp

theorem Holds.skipLine {p : P} {rows : List (List Cell)} (h : Holds p rows []) : Holds (skipLine p) rows [] :=
  ⟨h.stream, h.wordStart, h.words, h.bound, h.starts, h.fields, h.curStart, h.curFields⟩

theorem holds_rows : ∀ (rows : List (List Cell × Eol)) (done : List (List Cell)) (p : P), (∀ r ∈ rows, ∀ c ∈ r.1, 0 ∉ c) → Holds p done [] →
    Holds (rows.foldl (eatRow g) p) (done ++ kept g.skip p.fileLines (rows.map Prod.fst)) []
  | [], done, p, _, h => by simpa [kept] using h
  | r :: rows, done, p, h0, h => by
    rw [List.foldl_cons, List.map_cons]
    unfold kept
    have hl := eatRow_lines (g := g) p r
    have hh : ∀ x hx, _ := fun x (hx : x ∈ rows) => h0 x (by simp [hx])
    cases hs : g.skip p.fileLines with
    | true =>
      rw [if_pos rfl]
      have e : eatRow g p r = Tokenizer.skipLine p := if_pos hs
      have := holds_rows rows done (eatRow g p r) hh (by rw [e]; exact h.skipLine)
      rw [hl] at this
      exact this
    | false =>
      rw [if_neg (by simp)]
      have e : eatRow g p r = Tokenizer.addLine (Tokenizer.addRow p r.1) := if_neg (by rw [hs]; simp)
      have := holds_rows rows (done ++ [r.1]) (eatRow g p r) hh (by rw [e]; simpa using (h.addRow (h0 r (by simp))).addLine)
      rw [hl] at this
      rw [show done ++ r.1 :: kept g.skip (p.fileLines + 1) (rows.map Prod.fst) = (done ++ [r.1]) ++ kept g.skip (p.fileLines + 1) (rows.map Prod.fst) by simp]
      exact this

theorem holds_empty : Holds {} [] [] := ⟨rfl, rfl, rfl, by simp, rfl, rfl, rfl, rfl⟩

theorem dropBom_write (h : Suits g s) (rows : List (List Cell × Eol)) (hr : ∀ r ∈ rows, r.1 ≠ []) : dropBom (writeTable s rows) = writeTable s rows := by
  cases rows with
  | nil => rfl
  | cons r rows =>
    obtain ⟨l, e⟩ := writeRow_cons s r.2 (hr r (by simp))
    rw [show writeTable s (r :: rows) = writeRow s r.2 r.1 ++ writeTable s rows from rfl, e, List.cons_append]
    have := h.ne_bom
    unfold dropBom
    split
    · rename_i hh; simp only [List.cons.injEq] at hh; exact absurd hh.1 this
    · rfl

/-- The run of a table that has been written. -/
theorem run_write (h : Suits g s) (rows : List (List Cell × Eol))
    (hr : ∀ r ∈ rows, r.1 ≠ [] ∧ (r.2 = .nl ∨ g.terminator = 0) ∧ ∀ c ∈ r.1, 0 ∉ c)
    (hk : ∀ i r, rows[i]? = some r → g.skip i = true → ∀ c ∈ r.1, Skippable s c) :
    (runOf g .eof (writeTable s rows)).1 = true ∧ Holds (runOf g .eof (writeTable s rows)).2 (kept g.skip 0 (rows.map Prod.fst)) [] := by
  unfold runOf finish
  dsimp only
  rw [dropBom_write h rows (fun r hr' => (hr r hr').1)]
  obtain ⟨a1, a2⟩ := feed_table h rows {} hr (Or.inl rfl) rfl (by
    intro i r hi hs
    exact hk i r hi (by simpa [settle] using hs))
  rw [close_settle a2, a1]
  refine ⟨rfl, ?_⟩
  have := holds_rows (g := g) rows [] {} (fun r hr' => (hr r hr').2.2) holds_empty
  rw [List.nil_append] at this
  exact ⟨this.stream, this.wordStart, this.words, this.bound, this.starts, this.fields, this.curStart, this.curFields⟩

end Verif.Tokenizer
