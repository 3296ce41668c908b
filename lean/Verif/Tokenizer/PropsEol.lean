import Verif.Tokenizer.Props

/-!
C61: the kind of line end does not matter.
-/
namespace Verif.Tokenizer
variable {g : Cfg}

/-- The file with \r\n for \n. -/
def crnlFile (file : List Nat) : List Nat := file.flatMap (fun c => if c = 10 then [13, 10] else [c])
/-- The file with \r for \n. -/
def crFile (file : List Nat) : List Nat := file.map (fun c => if c = 10 then 13 else c)

/-- The property C61, for the default options: in a file without quotes, escapes and carriage returns all line ends can be
replaced. -/
def C61_statement : Prop :=
  ∀ file : List Nat, (∀ c ∈ file, c ≠ 34 ∧ c ≠ 92 ∧ c ≠ 13) →
    view (read {} [crnlFile file]) = view (read {} [file]) ∧ view (read {} [crFile file]) = view (read {} [file])

/-- C61 is violated: behind the \r of a comment line a delimiter is lost.  "#c\n,2\n" is read as "", "2"; "#c\r,2\r" is read as "2". -/
theorem C61_violated : ¬ C61_statement := by
  intro h
  have := (h [35, 99, 10, 44, 50, 10] (by decide)).2
  have h2 := congrArg (Option.map (fun v => v.2.words)) this
  exact absurd h2 (by decide +kernel)

example : seenWords (read {} [[35, 99, 10, 44, 50, 10]]) = some [some [], some [50]] ∧ seenWords (read {} [crFile [35, 99, 10, 44, 50, 10]]) = some [some [50]] := by
  decide +kernel

/-! ### \r\n -/

/-- States outside of quotes and escapes. -/
def Open : St → Bool
  | .startRecord | .startField | .inField | .eatWhitespace | .eatComment | .eatLineComment | .startFieldSkip | .inFieldSkip => true
  | _ => false

/-- Options for the theorems on line ends. -/
structure Lines (g : Cfg) : Prop where
  terminator : g.terminator = 0
  keepEmpty : g.skipEmptyLines = false
  quote : g.quote ≠ 13 ∧ g.quote ≠ 10
  delimiter : g.delimiter ≠ 13 ∧ g.delimiter ≠ 10

/-- A byte that is no quote, no escape and no carriage return. -/
structure Normal (g : Cfg) (c : Nat) : Prop where
  quote : c ≠ g.quote
  escape : g.escape = 0 ∨ c ≠ g.escape
  cr : c ≠ 13

theorem Lines.carriage (_ : Lines g) {c : Nat} (hc : Normal g c) : isCarriage g c = false := by
  unfold isCarriage; simp [hc.cr]
theorem Normal.isQuote {c : Nat} (hc : Normal g c) : isQuote g c = false := by unfold Tokenizer.isQuote; simp [hc.quote]
theorem Normal.isEscape {c : Nat} (hc : Normal g c) : isEscape g c = false := by
  unfold Tokenizer.isEscape
  rcases hc.escape with h | h <;> simp [h]

theorem state_fold (c : Nat) : ∀ (l : List Op) (p : P), (l.foldl (rawOp c) p).state = l.foldl (fun s o => match o with | .state t => t | _ => s) p.state
  | [], _ => rfl
  | o :: l, p => by
    rw [List.foldl_cons, List.foldl_cons, state_fold c l]
    congr 1
    cases o with
    | endLine => unfold rawOp; dsimp only; split <;> rfl
    | _ => rfl

/-- Outside of quotes a byte leads to such a state. -/
theorem open_step (h : Lines g) {c : Nat} (hc : Normal g c) {p : P} (hp : Open p.state = true) : Open (feed g p c).state = true := by
  have e1 := h.carriage hc
  have e2 := hc.isQuote
  have e3 := hc.isEscape
  have e4 := h.keepEmpty
  have hfield : ∀ s, Open s = true → Open ((actStartField g c).foldl (fun s o => match o with | .state t => t | _ => s) s) = true := by
    intro s hs
    unfold actStartField
    rw [e1, e2, e3]
    simp only [Bool.false_eq_true, if_false]
    split_ifs <;> simp [Open] <;> simpa [Open] using hs
  have hrec : ∀ s k, Open s = true → Open ((actStartRecord g k c).foldl (fun s o => match o with | .state t => t | _ => s) s) = true := by
    intro s k hs
    unfold actStartRecord
    rw [e1, e2, e4]
    simp only [Bool.false_eq_true, if_false, Bool.and_false]
    split_ifs
    all_goals first
      | (rw [List.foldl_cons]; exact hfield _ rfl)
      | rfl
  have hact : (act g p.state (g.skip p.fileLines) c).2 = .next ∧
      Open ((act g p.state (g.skip p.fileLines) c).1.foldl (fun s o => match o with | .state t => t | _ => s) p.state) = true := by
    cases hs : p.state <;> rw [hs] at hp <;> first | (cases hp; done) | skip
    · exact ⟨rfl, hrec _ _ rfl⟩
    · exact ⟨rfl, hfield _ rfl⟩
    · refine ⟨rfl, ?_⟩
      unfold act
      dsimp only
      rw [e1, e3]
      simp only [Bool.false_eq_true, if_false]
      split_ifs <;> simp [Open]
    · refine ⟨rfl, ?_⟩
      unfold act
      dsimp only
      unfold actEatWhitespace
      rw [e1]
      simp only [Bool.false_eq_true, if_false]
      split_ifs
      all_goals first
        | (rw [List.foldl_cons]; exact hrec _ _ rfl)
        | rfl
    all_goals
      refine ⟨rfl, ?_⟩
      unfold act
      dsimp only
      rw [e1]
      try rw [e2]
      simp only [Bool.false_eq_true, if_false]
      split_ifs <;> simp [Open]
  rw [feed_next rfl (l := (act g p.state (g.skip p.fileLines) c).1) (Prod.ext rfl hact.1), state_fold]
  exact hact.2

/-- Outside of quotes \r\n is \n. -/
theorem crnl_step (h : Lines g) {p : P} (hi : Inv g p) (hp : Open p.state = true) : feed g (feed g p 13) 10 = feed g p 10 := by
  have t10 : isTerminator g 10 = true := by simp [isTerminator, h.terminator]
  have t13 : isTerminator g 13 = false := by simp [isTerminator, h.terminator]
  have c13 : isCarriage g 13 = true := by simp [isCarriage, h.terminator]
  have q13 : isQuote g 13 = false := by unfold isQuote; simpa using fun e => h.quote.1 e.symm
  have e4 := h.keepEmpty
  -- behind a carriage return
  have crnl : ∀ q : P, q.state = .eatCrnl → feed g q 10 = { rawOp 0 q .endLine with state := .startRecord } := by
    intro q hq
    rw [feed_next (l := [.endLine, .state .startRecord]) hq (by simp [act])]
    rfl
  have nop : ∀ q : P, q.state = .eatCrnlNop → feed g q 10 = { q with state := .startRecord } := by
    intro q hq
    rw [feed_next (l := [.state .startRecord]) hq (by simp [act])]
    rfl
  have endl : ∀ (q : P) (st : St), q.state.skipping = false → st.skipping = false →
      rawOp 0 ({ q with state := st } : P) .endLine = { rawOp 0 q .endLine with state := st } := by
    intro q st h1 h2
    unfold rawOp
    dsimp only
    rw [if_neg (by rw [h2]; simp), if_neg (by rw [h1]; simp)]
  cases hs : p.state <;> rw [hs] at hp <;> first | (cases hp; done) | skip
  · cases hk : g.skip p.fileLines with
    | false =>
      rw [feed_next (p := p) (l := [.state .eatCrnl]) hs (by simp [act, actStartRecord, hk, t13, c13, e4])]
      rw [feed_next (p := p) (l := [.endLine, .state .startRecord]) hs (by simp [act, actStartRecord, hk, t10, e4])]
      rw [crnl _ rfl]
      show ({ rawOp 0 ({ p with state := .eatCrnl } : P) .endLine with state := .startRecord } : P) = { rawOp 10 p .endLine with state := .startRecord }
      rw [endl p _ (by rw [hs]; rfl) rfl]
      rfl
    | true =>
      have q10 : isQuote g 10 = false := by unfold isQuote; simpa using fun e => h.quote.2 e.symm
      rw [feed_next (p := p) (l := [.state .inFieldSkip]) hs (by simp [act, actStartRecord, hk, t13, q13])]
      rw [feed_next (p := p) (l := [.state .inFieldSkip, .endLine, .state .startRecord]) hs (by simp [act, actStartRecord, hk, q10, t10])]
      rw [List.foldl_cons, List.foldl_nil, feed_next (p := rawOp 13 p (.state .inFieldSkip)) (st := .inFieldSkip) (l := [.endLine, .state .startRecord]) rfl (by simp [act, t10])]
      rfl
  · rw [feed_next (p := p) (l := [.field, .state .eatCrnl]) hs (by simp [act, actStartField, t13, c13])]
    rw [feed_next (p := p) (l := [.field, .endLine, .state .startRecord]) hs (by simp [act, actStartField, t10])]
    rw [crnl _ rfl]
    show ({ rawOp 0 ({ rawOp 0 p .field with state := .eatCrnl } : P) .endLine with state := .startRecord } : P) =
      { rawOp 10 (rawOp 10 p .field) .endLine with state := .startRecord }
    rw [endl (rawOp 0 p .field) _ (by rw [show (rawOp 0 p .field).state = p.state from rfl, hs]; rfl) rfl]
    rfl
  · rw [feed_next (p := p) (l := [.field, .state .eatCrnl]) hs (by simp [act, t13, c13])]
    rw [feed_next (p := p) (l := [.field, .endLine, .state .startRecord]) hs (by simp [act, t10])]
    rw [crnl _ rfl]
    show ({ rawOp 0 ({ rawOp 0 p .field with state := .eatCrnl } : P) .endLine with state := .startRecord } : P) =
      { rawOp 10 (rawOp 10 p .field) .endLine with state := .startRecord }
    rw [endl (rawOp 0 p .field) _ (by rw [show (rawOp 0 p .field).state = p.state from rfl, hs]; rfl) rfl]
    rfl
  · rw [feed_next (p := p) (l := [.state .eatCrnl]) hs (by simp [act, actEatWhitespace, t13, c13])]
    rw [feed_next (p := p) (l := [.endLine, .state .startRecord]) hs (by simp [act, actEatWhitespace, t10])]
    rw [crnl _ rfl]
    show ({ rawOp 0 ({ p with state := .eatCrnl } : P) .endLine with state := .startRecord } : P) = { rawOp 10 p .endLine with state := .startRecord }
    rw [endl p _ (by rw [hs]; rfl) rfl]
    rfl
  · rw [feed_next (p := p) (l := [.state .eatCrnl]) hs (by simp [act, t13, c13])]
    rw [feed_next (p := p) (l := [.endLine, .state .startRecord]) hs (by simp [act, t10])]
    rw [crnl _ rfl]
    show ({ rawOp 0 ({ p with state := .eatCrnl } : P) .endLine with state := .startRecord } : P) = { rawOp 10 p .endLine with state := .startRecord }
    rw [endl p _ (by rw [hs]; rfl) rfl]
    rfl
  · rw [feed_next (p := p) (l := [.line, .state .eatCrnlNop]) hs (by simp [act, t13, c13])]
    rw [feed_next (p := p) (l := [.line, .state .startRecord]) hs (by simp [act, t10])]
    rw [nop _ rfl]
    rfl
  all_goals
    have h0 : p.curFields = 0 := by
      have := hi.2.2
      unfold absOf at this
      dsimp only at this
      rw [hs] at this
      exact this
    rw [feed_next (p := p) (l := [.line, .state .eatCrnlNop]) hs (by simp [act, t13, c13])]
    rw [feed_next (p := p) (l := [.endLine, .state .startRecord]) hs (by simp [act, t10])]
    rw [nop _ rfl]
    show ({ p with fileLines := p.fileLines + 1, state := .startRecord } : P) = { rawOp 10 p .endLine with state := .startRecord }
    unfold rawOp
    dsimp only
    rw [if_pos (by rw [hs]; rfl)]
    simp only [h0, Nat.add_zero]

theorem crnl_run (h : Lines g) : ∀ (file : List Nat) (p : P), (∀ c ∈ file, Normal g c) → Inv g p → Open p.state = true →
    (crnlFile file).foldl (feed g) p = file.foldl (feed g) p ∧ Open (file.foldl (feed g) p).state = true
  | [], _, _, _, hp => ⟨rfl, hp⟩
  | c :: file, p, hn, hi, hp => by
    have hc := hn c (by simp)
    obtain ⟨a1, a2⟩ := crnl_run h file (feed g p c) (fun x hx => hn x (by simp [hx])) (inv_feed hi c) (open_step h hc hp)
    refine ⟨?_, a2⟩
    unfold crnlFile at a1 ⊢
    rw [List.flatMap_cons, List.foldl_append, List.foldl_cons, ← a1]
    congr 1
    by_cases h10 : c = 10
    · rw [if_pos h10, h10]
      exact crnl_step h hi hp
    · rw [if_neg h10]
      rfl

theorem dropBom_crnl (file : List Nat) : dropBom (crnlFile file) = crnlFile (dropBom file) := by
  match file with
  | [] => rfl
  | [a] =>
    by_cases h : a = 10
    · subst h; rfl
    · simp [crnlFile, h, dropBom]
  | [a, b] =>
    by_cases h : a = 10 <;> by_cases h' : b = 10 <;> simp [crnlFile, h, h', dropBom]
  | a :: b :: c :: l =>
    by_cases hb : a = 0xEF ∧ b = 0xBB ∧ c = 0xBF
    · obtain ⟨rfl, rfl, rfl⟩ := hb
      rfl
    · have e1 : dropBom (a :: b :: c :: l) = a :: b :: c :: l := by
        unfold dropBom
        split
        · rename_i hh
          simp only [List.cons.injEq] at hh
          exact absurd ⟨hh.1, hh.2.1, hh.2.2.1⟩ hb
        · rfl
      rw [e1]
      unfold crnlFile
      rw [List.flatMap_cons, List.flatMap_cons, List.flatMap_cons]
      unfold dropBom
      split
      · rename_i hh
        by_cases h1 : a = 10
        · simp [h1] at hh
        · by_cases h2 : b = 10
          · simp [h1, h2] at hh
          · by_cases h3 : c = 10
            · simp [h1, h2, h3] at hh
            · simp [h1, h2, h3] at hh
              exact absurd ⟨hh.1, hh.2.1, hh.2.2.1⟩ hb
      · rfl

/-- C61 for \r\n: with the options at `Lines`, in a file outside of quotes, every \n can be replaced by \r\n.  The runs are equal, also
when the file ends within a line; lines are skipped and comments are left out as before. -/
theorem C61_crnl_run_partial (h : Lines g) {file : List Nat} (hn : ∀ c ∈ file, Normal g c) (e : Ending) : runOf g e (crnlFile file) = runOf g e file := by
  unfold runOf
  have hn' : ∀ c ∈ dropBom file, Normal g c := by
    intro c hc
    apply hn
    unfold dropBom at hc
    split at hc
    · simp [hc]
    · exact hc
  rw [dropBom_crnl, (crnl_run h _ {} hn' inv_init rfl).1]

/-! ### \r -/

/-- States outside of quotes in files without comments. -/
def Plain : St → Bool
  | .startRecord | .startField | .inField | .eatWhitespace => true
  | _ => false

/-- Options for lone carriage returns: no line is skipped, and a blank is not both delimiter and skipped. -/
structure CrLines (g : Cfg) : Prop extends Lines g where
  all : ∀ n, g.skip n = false
  space : g.skipInitialSpace = true → g.delimiter ≠ 32

/-- A byte that is also no comment character. -/
structure Simple (g : Cfg) (c : Nat) : Prop extends Normal g c where
  comment : g.comment = 0 ∨ c ≠ g.comment

theorem Simple.isComment {c : Nat} (hc : Simple g c) : isComment g c = false := by
  unfold Tokenizer.isComment
  rcases hc.comment with h | h <;> simp [h]

theorem plain_step (h : CrLines g) {c : Nat} (hc : Simple g c) {p : P} (hp : Plain p.state = true) : Plain (feed g p c).state = true := by
  have e1 := h.toLines.carriage hc.toNormal
  have e2 := hc.toNormal.isQuote
  have e3 := hc.toNormal.isEscape
  have e4 := h.keepEmpty
  have e5 := hc.isComment
  have e6 := h.all
  have hfield : ∀ s, Plain s = true → Plain ((actStartField g c).foldl (fun s o => match o with | .state t => t | _ => s) s) = true := by
    intro s hs
    unfold actStartField
    rw [e1, e2, e3, e5]
    simp only [Bool.false_eq_true, if_false]
    split_ifs <;> simp [Plain] <;> simpa [Plain] using hs
  have hrec : ∀ s, Plain s = true → Plain ((actStartRecord g false c).foldl (fun s o => match o with | .state t => t | _ => s) s) = true := by
    intro s hs
    unfold actStartRecord
    rw [e1, e4, e5]
    simp only [Bool.false_eq_true, if_false, Bool.and_false]
    split_ifs
    all_goals first
      | (rw [List.foldl_cons]; exact hfield _ rfl)
      | rfl
  have hact : (act g p.state (g.skip p.fileLines) c).2 = .next ∧
      Plain ((act g p.state (g.skip p.fileLines) c).1.foldl (fun s o => match o with | .state t => t | _ => s) p.state) = true := by
    rw [e6]
    cases hs : p.state <;> rw [hs] at hp <;> first | (cases hp; done) | skip
    · exact ⟨rfl, hrec _ rfl⟩
    · exact ⟨rfl, hfield _ rfl⟩
    · refine ⟨rfl, ?_⟩
      unfold act
      dsimp only
      rw [e1, e3, e5]
      simp only [Bool.false_eq_true, if_false]
      split_ifs <;> simp [Plain]
    · refine ⟨rfl, ?_⟩
      unfold act
      dsimp only
      unfold actEatWhitespace
      rw [e1, e5]
      simp only [Bool.false_eq_true, if_false]
      split_ifs
      all_goals first
        | (rw [List.foldl_cons]; exact hrec _ rfl)
        | rfl
  rw [feed_next rfl (l := (act g p.state (g.skip p.fileLines) c).1) (Prod.ext rfl hact.1), state_fold]
  exact hact.2

/-- A carriage return in place of a newline. -/
theorem cr_newline (h : CrLines g) {p : P} (hp : Plain p.state = true) :
    settle (feed g p 13) = feed g p 10 ∧ (feed g p 13).state = .eatCrnl := by
  have t10 : isTerminator g 10 = true := by simp [isTerminator, h.terminator]
  have t13 : isTerminator g 13 = false := by simp [isTerminator, h.terminator]
  have c13 : isCarriage g 13 = true := by simp [isCarriage, h.terminator]
  have e4 := h.keepEmpty
  have hk := h.all
  have endl : ∀ q : P, q.state.skipping = false → ({ rawOp 10 q .endLine with state := .startRecord } : P) = addLine q := by
    intro q h1
    unfold rawOp
    dsimp only
    rw [if_neg (by rw [h1]; simp)]
    rfl
  cases hs : p.state <;> rw [hs] at hp <;> first | (cases hp; done) | skip
  · rw [feed_next (p := p) (l := [.state .eatCrnl]) hs (by simp [act, actStartRecord, hk, t13, c13, e4])]
    rw [feed_next (p := p) (l := [.endLine, .state .startRecord]) hs (by simp [act, actStartRecord, hk, t10, e4])]
    exact ⟨(endl p (by rw [hs]; rfl)).symm, rfl⟩
  · rw [feed_next (p := p) (l := [.field, .state .eatCrnl]) hs (by simp [act, actStartField, t13, c13])]
    rw [feed_next (p := p) (l := [.field, .endLine, .state .startRecord]) hs (by simp [act, actStartField, t10])]
    exact ⟨(endl (rawOp 10 p .field) (by rw [show (rawOp 10 p .field).state = p.state from rfl, hs]; rfl)).symm, rfl⟩
  · rw [feed_next (p := p) (l := [.field, .state .eatCrnl]) hs (by simp [act, t13, c13])]
    rw [feed_next (p := p) (l := [.field, .endLine, .state .startRecord]) hs (by simp [act, t10])]
    exact ⟨(endl (rawOp 10 p .field) (by rw [show (rawOp 10 p .field).state = p.state from rfl, hs]; rfl)).symm, rfl⟩
  · rw [feed_next (p := p) (l := [.state .eatCrnl]) hs (by simp [act, actEatWhitespace, t13, c13])]
    rw [feed_next (p := p) (l := [.endLine, .state .startRecord]) hs (by simp [act, actEatWhitespace, t10])]
    exact ⟨(endl p (by rw [hs]; rfl)).symm, rfl⟩

/-- The byte behind a carriage return. -/
theorem cr_next (h : CrLines g) {p : P} (hp : p.state = .eatCrnl) {c : Nat} (hc : c ≠ 10) (hs : c = 13 ∨ Simple g c) : feed g p c = feed g (settle p) c := by
  have hst : settle p = addLine p := if_pos hp
  have hq : [Op.endLine, .state .startRecord].foldl (rawOp c) p = addLine p := by
    rw [List.foldl_cons, List.foldl_cons, List.foldl_nil]
    unfold rawOp
    dsimp only
    rw [if_neg (by rw [hp]; simp [St.skipping])]
    rfl
  rw [hst]
  cases hd : isDelimiter g c with
  | false =>
    have ha : act g .eatCrnl (g.skip p.fileLines) c = ([.endLine, .state .startRecord], .again) := by simp [act, hc, hd]
    unfold feed
    rw [hp, ha]
    dsimp only
    rw [hq]
    have : (act g (addLine p).state (g.skip (addLine p).fileLines) c).2 = .next := rfl
    rw [this]
  | true =>
    have hc13 : c ≠ 13 := by
      rintro rfl
      unfold isDelimiter isBlank at hd
      have := h.delimiter.1
      cases hw : g.delimWhitespace with
      | true => simp [hw] at hd
      | false => simp [hw] at hd; exact this hd.symm
    have hs : Simple g c := hs.resolve_left hc13
    have e0 : isTerminator g c = false := by simp [isTerminator, h.terminator, hc]
    have e1 := h.toLines.carriage hs.toNormal
    have e2 := hs.toNormal.isQuote
    have e3 := hs.toNormal.isEscape
    have e4 := h.keepEmpty
    have e5 := hs.isComment
    have hk := h.all
    have endl : ∀ st, ({ rawOp c p .endLine with state := st } : P) = { addLine p with state := st } := by
      intro st
      unfold rawOp
      dsimp only
      rw [if_neg (by rw [hp]; simp [St.skipping])]
      rfl
    cases hw : g.delimWhitespace with
    | true =>
      have hb : isBlank c = true := by simpa [isDelimiter, hw] using hd
      rw [feed_next (p := p) (l := [.endLine, .state .eatWhitespace]) hp (by simp [act, hc, hd, hw])]
      rw [feed_next (p := addLine p) (st := .startRecord) (l := [.state .eatWhitespace]) rfl (by simp [act, actStartRecord, hk, e0, e1, e4, e5, hb, hw])]
      exact endl _
    | false =>
      have hdc : c = g.delimiter := by simpa [isDelimiter, hw] using hd
      have e6 : isSkippable g c = false := by
        unfold isSkippable
        cases hi : g.skipInitialSpace with
        | false => simp
        | true =>
          have := h.space hi
          rw [← hdc] at this
          simp [this]
      rw [feed_next (p := p) (l := [.endLine, .field, .state .startField]) hp (by simp [act, hc, hd, hw])]
      rw [feed_next (p := addLine p) (st := .startRecord) (l := [.state .startField, .field]) rfl
        (by simp [act, actStartRecord, actStartField, hk, e0, e1, e2, e3, e4, e5, e6, hd, hw])]
      show ({ rawOp c (rawOp c p .endLine) .field with state := .startField } : P) = rawOp c { addLine p with state := .startField } .field
      rw [← endl .startField]
      rfl

theorem cr_run (h : CrLines g) : ∀ (file : List Nat) (p : P), (∀ c ∈ file, Simple g c) → (Plain p.state = true ∨ p.state = .eatCrnl) →
    settle ((crFile file).foldl (feed g) p) = file.foldl (feed g) (settle p) ∧
      (Plain ((crFile file).foldl (feed g) p).state = true ∨ ((crFile file).foldl (feed g) p).state = .eatCrnl)
  | [], _, _, hp => ⟨rfl, hp⟩
  | c :: file, p, hn, hp => by
    have hc := hn c (by simp)
    have hpl : Plain (settle p).state = true := by
      rcases hp with hp | hp
      · have : settle p = p := by
          unfold settle
          rw [if_neg (by intro e; rw [e] at hp; cases hp), if_neg (by intro e; rw [e] at hp; cases hp)]
        rw [this]; exact hp
      · rw [show settle p = addLine p from if_pos hp]; rfl
    have hid : ∀ q : P, Plain q.state = true → settle q = q := by
      intro q hq
      unfold settle
      rw [if_neg (by intro e; rw [e] at hq; cases hq), if_neg (by intro e; rw [e] at hq; cases hq)]
    have hfeed : ∀ x, x ≠ 10 → (x = 13 ∨ Simple g x) → feed g p x = feed g (settle p) x := by
      intro x hx hs
      rcases hp with hp | hp
      · rw [hid p hp]
      · exact cr_next h hp hx hs
    rw [show crFile (c :: file) = (if c = 10 then 13 else c) :: crFile file from rfl, List.foldl_cons, List.foldl_cons]
    by_cases h10 : c = 10
    · rw [if_pos h10, h10]
      obtain ⟨b1, b2⟩ := cr_newline h hpl
      rw [hfeed 13 (by decide) (Or.inl rfl)]
      obtain ⟨a1, a2⟩ := cr_run h file (feed g (settle p) 13) (fun x hx => hn x (by simp [hx])) (Or.inr b2)
      rw [b1] at a1
      exact ⟨a1, a2⟩
    · rw [if_neg h10, hfeed c h10 (Or.inr hc)]
      have hpl2 := plain_step h hc hpl
      obtain ⟨a1, a2⟩ := cr_run h file (feed g (settle p) c) (fun x hx => hn x (by simp [hx])) (Or.inl hpl2)
      rw [hid _ hpl2] at a1
      exact ⟨a1, a2⟩

theorem close_eq {p q : P} (hp : Plain p.state = true ∨ p.state = .eatCrnl) (h : settle p = q) (hc : p.state ≠ .eatCrnl → p.state = q.state) :
    close p = (true, (close q).2) ∧ (close q).1 = true := by
  rcases hp with hp | hp
  · have : settle p = p := by
      unfold settle
      rw [if_neg (by intro e; rw [e] at hp; cases hp), if_neg (by intro e; rw [e] at hp; cases hp)]
    rw [this] at h
    subst h
    unfold close
    cases hs : p.state <;> rw [hs] at hp <;> first | (cases hp; done) | exact ⟨rfl, rfl⟩
  · rw [close_settle (Or.inr (Or.inl hp)), h]
    have : q.state = .startRecord := by rw [← h]; rw [show settle p = addLine p from if_pos hp]; rfl
    unfold close
    rw [this]
    exact ⟨rfl, rfl⟩

theorem dropBom_cr (file : List Nat) : dropBom (crFile file) = crFile (dropBom file) := by
  match file with
  | [] => rfl
  | [a] =>
    by_cases h : a = 10
    · subst h; rfl
    · simp [crFile, h, dropBom]
  | [a, b] => simp [crFile, dropBom]
  | a :: b :: c :: l =>
    by_cases hb : a = 0xEF ∧ b = 0xBB ∧ c = 0xBF
    · obtain ⟨rfl, rfl, rfl⟩ := hb
      rfl
    · have e1 : dropBom (a :: b :: c :: l) = a :: b :: c :: l := by
        unfold dropBom
        split
        · rename_i hh
          simp only [List.cons.injEq] at hh
          exact absurd ⟨hh.1, hh.2.1, hh.2.2.1⟩ hb
        · rfl
      rw [e1]
      unfold crFile
      rw [List.map_cons, List.map_cons, List.map_cons]
      unfold dropBom
      split
      · rename_i hh
        simp only [List.cons.injEq] at hh
        exfalso
        apply hb
        refine ⟨?_, ?_, ?_⟩
        · have := hh.1; split at this <;> omega
        · have := hh.2.1; split at this <;> omega
        · have := hh.2.2.1; split at this <;> omega
      · rfl

/-- C61 for \r: without comments and skipped lines every \n can be replaced by \r. -/
theorem C61_cr_run_partial (h : CrLines g) {file : List Nat} (hn : ∀ c ∈ file, Simple g c) : runOf g .eof (crFile file) = runOf g .eof file := by
  have hn' : ∀ c ∈ dropBom file, Simple g c := by
    intro c hc
    apply hn
    unfold dropBom at hc
    split at hc
    · simp [hc]
    · exact hc
  unfold runOf finish
  dsimp only
  rw [dropBom_cr]
  obtain ⟨a1, a2⟩ := cr_run h (dropBom file) {} hn' (Or.inl rfl)
  obtain ⟨b1, b2⟩ := close_eq a2 a1 (by
    intro hne
    rcases a2 with a2 | a2
    · rw [← a1]
      unfold settle
      rw [if_neg hne, if_neg (by intro e; rw [e] at a2; cases a2)]
    · exact absurd a2 hne)
  rw [b1]
  show (true, (close ((dropBom file).foldl (feed g) {})).2) = _
  exact Prod.ext b2.symm rfl

/-- C61 for the default options, files of any cut, without shorter lines. -/
theorem C61_line_ends_partial {file : List Nat} (hn : ∀ c ∈ file, c ≠ 34 ∧ c ≠ 92 ∧ c ≠ 13) (hs : NotShorter {} file)
    {cs cs' : List (List Nat)} (hf : cs.flatten = file) (hc : CleanFile {} cs) (hc' : CleanFile {} cs')
    (hf' : cs'.flatten = crnlFile file ∨ (cs'.flatten = crFile file ∧ 35 ∉ file)) : view (read {} cs') = view (read {} cs) := by
  have hg : Steady {} := by simp [Steady]
  obtain ⟨ok, q, hp, hq⟩ := hs
  obtain ⟨-, a, b, k, rfl⟩ := plain_eq hg hp
  have hN : ∀ c ∈ file, Normal {} c := fun c h => ⟨(hn c h).1, Or.inr (hn c h).2.1, (hn c h).2.2⟩
  have e : runOf {} .eof cs'.flatten = runOf {} .eof cs.flatten := by
    rcases hf' with hf' | ⟨hf', h35⟩
    · rw [hf', hf]
      exact C61_crnl_run_partial ⟨rfl, rfl, by decide, by decide⟩ hN .eof
    · rw [hf', hf]
      exact C61_cr_run_partial ⟨⟨rfl, rfl, by decide, by decide⟩, fun _ => rfl, by simp⟩ (fun c h => ⟨hN c h, Or.inr (fun e => h35 (by have e' : c = 35 := e; rw [← e']; exact h))⟩)
  have hq' : (runOf {} .eof cs.flatten).2.lineFields.Pairwise (· ≤ ·) := by rw [hf]; exact hq
  rw [read_eq hg hc hq', read_eq hg hc' (by rw [e]; exact hq'), e]

/-- "a,\n\n1,2 #x\n" is not covered (a shorter line); "a,\n1,2#x\n" is -/
example : seenWords (read {} [crnlFile [97, 44, 10, 49, 44, 50, 35, 120, 10]]) = some [some [97], some [], some [49], some [50]] ∧
    seenWords (read {} [crFile [97, 44, 10, 49, 44, 50, 10]]) = some [some [97], some [], some [49], some [50]] := by decide +kernel

end Verif.Tokenizer
