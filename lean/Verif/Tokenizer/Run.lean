/-
Runs of the tokeniser without backtracking.
-/
import Verif.Tokenizer.Proof

namespace Verif.Tokenizer
variable {g : Cfg}

/-- An operation without limits. -/
def rawOp (c : Nat) (p : P) : Op → P
  | .state s => { p with state := s }
  | .line => { p with fileLines := p.fileLines + 1 }
  | .push => { p with stream := p.stream ++ [c] }
  | .field => { p with stream := p.stream ++ [0], words := p.words ++ [p.wordStart], curFields := p.curFields + 1, wordStart := (p.stream ++ [0]).length }
  | .endLine =>
    if p.state.skipping then { p with fileLines := p.fileLines + 1, curStart := p.curStart + p.curFields, curFields := 0 }
    else { p with fileLines := p.fileLines + 1, lineStart := p.lineStart ++ [p.curStart], lineFields := p.lineFields ++ [p.curFields],
                  curStart := p.curStart + p.curFields, curFields := 0 }

theorem exec_raw (c : Nat) (p : P) (o : Op) : o.exec raw c p = .ok (rawOp c p o) := by
  cases o with
  | endLine =>
    unfold Op.exec endLine rawOp
    dsimp only
    by_cases hs : p.state.skipping = true
    · rw [if_pos hs, if_pos hs]
    · rw [if_neg hs, if_neg hs]
      rfl
  | _ => rfl

theorem last_le {l : List Nat} {x : Nat} (h : (l ++ [x]).Pairwise (· ≤ ·)) : l.getLast?.getD 0 ≤ x := by
  cases hl : l.getLast? with
  | none => exact Nat.zero_le _
  | some y =>
    rw [List.pairwise_append] at h
    exact h.2.2 y (List.mem_of_getLast? hl) x (by simp)

theorem exec_code {c : Nat} {p : P} {o : Op} (h1 : p.stream.length + streamCost [o] ≤ p.streamCap) (h2 : p.words.length + wordCost [o] ≤ p.wordsCap)
    (h3 : p.lineFields.length + lineCost [o] < p.linesCap) (h4 : (rawOp c p o).lineFields.Pairwise (· ≤ ·)) :
    o.exec code c p = .ok (rawOp c p o) := by
  cases o with
  | state s => rfl
  | line => rfl
  | push =>
    have h1 : p.stream.length + 1 ≤ p.streamCap := h1
    unfold Op.exec push
    rw [if_neg (by simp [code]; omega)]
    rfl
  | field =>
    have h1 : p.stream.length + 1 ≤ p.streamCap := h1
    have h2 : p.words.length + 1 ≤ p.wordsCap := h2
    unfold Op.exec endField
    rw [if_neg (by simp [code]; omega), if_neg (by simp [code]; omega)]
    rfl
  | endLine =>
    have h3 : p.lineFields.length + 1 < p.linesCap := h3
    unfold rawOp at h4 ⊢
    unfold Op.exec endLine
    dsimp only at h4 ⊢
    by_cases hs : p.state.skipping = true
    · rw [if_pos hs, if_pos hs]
    · rw [if_neg hs] at h4 ⊢
      rw [if_neg hs]
      have hle := last_le h4
      have e : (if code.pad then p.lineFields.getLast?.getD 0 - p.curFields else 0) = 0 := by
        rw [if_pos (show code.pad = true from rfl)]; omega
      rw [e, if_pos rfl]
      rw [if_neg (by simp [code]; omega)]
      rfl

/-- The effect of operations on the sizes. -/
theorem rawOp_sizes (c : Nat) (p : P) (o : Op) : (rawOp c p o).stream.length = p.stream.length + streamCost [o] ∧
    (rawOp c p o).words.length = p.words.length + wordCost [o] ∧ (rawOp c p o).lineFields.length ≤ p.lineFields.length + lineCost [o] ∧
    (rawOp c p o).streamCap = p.streamCap ∧ (rawOp c p o).wordsCap = p.wordsCap ∧ (rawOp c p o).linesCap = p.linesCap ∧
    p.lineFields <+: (rawOp c p o).lineFields := by
  cases o with
  | endLine =>
    unfold rawOp
    dsimp only
    split
    · exact ⟨rfl, rfl, Nat.le_add_right _ _, rfl, rfl, rfl, List.prefix_refl _⟩
    · exact ⟨rfl, rfl, by simp [lineCost], rfl, rfl, rfl, List.prefix_append _ _⟩
  | _ => simp [rawOp, streamCost, wordCost, lineCost]

theorem streamCost_cons (o : Op) (l : List Op) : streamCost (o :: l) = streamCost [o] + streamCost l := by cases o <;> simp [streamCost] <;> omega
theorem wordCost_cons (o : Op) (l : List Op) : wordCost (o :: l) = wordCost [o] + wordCost l := by cases o <;> simp [wordCost] <;> omega
theorem lineCost_cons (o : Op) (l : List Op) : lineCost (o :: l) = lineCost [o] + lineCost l := by cases o <;> simp [lineCost] <;> omega

theorem ops_sizes (c : Nat) : ∀ (l : List Op) (p : P), (l.foldl (rawOp c) p).stream.length = p.stream.length + streamCost l ∧
    (l.foldl (rawOp c) p).words.length = p.words.length + wordCost l ∧ (l.foldl (rawOp c) p).lineFields.length ≤ p.lineFields.length + lineCost l ∧
    (l.foldl (rawOp c) p).streamCap = p.streamCap ∧ (l.foldl (rawOp c) p).wordsCap = p.wordsCap ∧ (l.foldl (rawOp c) p).linesCap = p.linesCap ∧
    p.lineFields <+: (l.foldl (rawOp c) p).lineFields
  | [], p => ⟨rfl, rfl, Nat.le_refl _, rfl, rfl, rfl, List.prefix_refl _⟩
  | o :: l, p => by
    obtain ⟨a1, a2, a3, a4, a5, a6, a7⟩ := ops_sizes c l (rawOp c p o)
    obtain ⟨b1, b2, b3, b4, b5, b6, b7⟩ := rawOp_sizes c p o
    have c1 := streamCost_cons o l
    have c2 := wordCost_cons o l
    have c3 := lineCost_cons o l
    rw [List.foldl_cons]
    exact ⟨by omega, by omega, by omega, a4.trans b4, a5.trans b5, a6.trans b6, b7.trans a7⟩

theorem ops_raw (c : Nat) : ∀ (l : List Op) (p : P), l.foldlM (Op.exec raw c) p = .ok (l.foldl (rawOp c) p)
  | [], p => rfl
  | o :: l, p => by
    rw [List.foldlM_cons, exec_raw]
    exact ops_raw c l (rawOp c p o)

theorem mono_prefix {a b : List Nat} (h : a <+: b) (hb : b.Pairwise (· ≤ ·)) : a.Pairwise (· ≤ ·) := hb.sublist h.sublist

theorem ops_code (c : Nat) : ∀ (l : List Op) (p : P), p.stream.length + streamCost l ≤ p.streamCap → p.words.length + wordCost l ≤ p.wordsCap →
    p.lineFields.length + lineCost l < p.linesCap → (l.foldl (rawOp c) p).lineFields.Pairwise (· ≤ ·) →
    l.foldlM (Op.exec code c) p = .ok (l.foldl (rawOp c) p)
  | [], p, _, _, _, _ => rfl
  | o :: l, p, h1, h2, h3, h4 => by
    have c1 := streamCost_cons o l
    have c2 := wordCost_cons o l
    have c3 := lineCost_cons o l
    obtain ⟨b1, b2, b3, b4, b5, b6, b7⟩ := rawOp_sizes c p o
    obtain ⟨-, -, -, -, -, -, a7⟩ := ops_sizes c l (rawOp c p o)
    rw [List.foldlM_cons, exec_code (by omega) (by omega) (by omega) (mono_prefix a7 h4)]
    exact ops_code c l (rawOp c p o) (by omega) (by omega) (by omega) h4

/-! ### Bytes -/

/-- States that are reached without backtracking. -/
structure Fine (g : Cfg) (p : P) : Prop where
  crnl : p.state = .eatCrnl → g.terminator = 0
  ws : p.state = .whitespaceLine → g.delimWhitespace = true

theorem ops_state (c : Nat) : ∀ (l : List Op) (p : P), (l.foldl (rawOp c) p).state = p.state ∨ .state (l.foldl (rawOp c) p).state ∈ l
  | [], p => Or.inl rfl
  | o :: l, p => by
    rw [List.foldl_cons]
    rcases ops_state c l (rawOp c p o) with h | h
    · rw [h]
      cases o with
      | state s => exact Or.inr List.mem_cons_self
      | endLine => left; unfold rawOp; dsimp only; split <;> rfl
      | _ => exact Or.inl rfl
    · exact Or.inr (List.mem_cons_of_mem _ h)

theorem Fine.ops {p : P} (h : Fine g p) (hcfg : g.skipEmptyLines = true → g.delimWhitespace = true) {c : Nat} {l : List Op} (hl : Good g c l) :
    Fine g (l.foldl (rawOp c) p) := by
  rcases ops_state c l p with e | e
  · exact ⟨by rw [e]; exact h.crnl, by rw [e]; exact h.ws⟩
  · constructor
    · intro hs
      rw [hs] at e
      have := hl.crnl e
      unfold isCarriage at this
      simp only [Bool.and_eq_true, beq_iff_eq] at this
      exact this.1
    · intro hs
      rw [hs] at e
      exact hcfg (hl.ws e)

/-- One byte without limits. -/
def feed (g : Cfg) (p : P) (c : Nat) : P :=
  let a := act g p.state (g.skip p.fileLines) c
  let q := a.1.foldl (rawOp c) p
  match a.2 with
  | .again => (act g q.state (g.skip q.fileLines) c).1.foldl (rawOp c) q
  | _ => q

/-- Space for `n` more bytes and the end of the file. -/
structure Room (p : P) (n : Nat) : Prop where
  stream : p.stream.length + n < p.streamCap
  words : p.words.length + n < p.wordsCap
  lines : p.lineFields.length + n + 1 < p.linesCap

/-- The conditions under which a mode does what happens without limits; `last` are the numbers of fields at the end. -/
def Able (m : Mode) (p : P) (n : Nat) (last : List Nat) : Prop := m = raw ∨ (m = code ∧ Room p n ∧ last.Pairwise (· ≤ ·))

theorem ops_mode {m : Mode} {c : Nat} {l : List Op} {p : P} (h : m = raw ∨ (m = code ∧ p.stream.length + streamCost l ≤ p.streamCap ∧
    p.words.length + wordCost l ≤ p.wordsCap ∧ p.lineFields.length + lineCost l < p.linesCap ∧ (l.foldl (rawOp c) p).lineFields.Pairwise (· ≤ ·))) :
    l.foldlM (Op.exec m c) p = .ok (l.foldl (rawOp c) p) := by
  rcases h with rfl | ⟨rfl, h1, h2, h3, h4⟩
  · exact ops_raw c l p
  · exact ops_code c l p h1 h2 h3 h4

theorem loop_cons (m : Mode) (fuel : Nat) (pre : List Nat) (c : Nat) (rest : List Nat) (p : P) : loop g m (fuel + 1) pre (c :: rest) p =
    (match step g m p c with
    | .error q => some (.error q)
    | .ok (q, .next) => loop g m fuel (c :: pre) rest q
    | .ok (q, .again) => loop g m fuel pre (c :: rest) q
    | .ok (q, .back) => let r := rewind g pre (c :: rest); loop g m fuel r.1 r.2 q) := rfl

/-- One byte in the loop. -/
theorem loop_byte (hcfg : g.skipEmptyLines = true → g.delimWhitespace = true) {m : Mode} {p : P} (hf : Fine g p) {c : Nat} {rest pre : List Nat} {n fuel : Nat}
    (hr : m = raw ∨ (m = code ∧ Room p (n + 1) ∧ (feed g p c).lineFields.Pairwise (· ≤ ·))) :
    ∃ k, k ≤ 2 ∧ loop g m (fuel + 2) pre (c :: rest) p = loop g m (fuel + k) (c :: pre) rest (feed g p c) ∧ Fine g (feed g p c) ∧
      (Room p (n + 1) → Room (feed g p c) n) ∧ p.lineFields <+: (feed g p c).lineFields := by
  have hg := good_act (g := g) p.state (g.skip p.fileLines) c
  have hs := hg.stream
  have hw := hg.word
  have hl := hg.line
  obtain ⟨a1, a2, a3, a4, a5, a6, a7⟩ := ops_sizes c (act g p.state (g.skip p.fileLines) c).1 p
  have hfq := hf.ops hcfg hg
  have hfeed : feed g p c = (match (act g p.state (g.skip p.fileLines) c).2 with
    | .again => (act g ((act g p.state (g.skip p.fileLines) c).1.foldl (rawOp c) p).state
        (g.skip ((act g p.state (g.skip p.fileLines) c).1.foldl (rawOp c) p).fileLines) c).1.foldl (rawOp c)
          ((act g p.state (g.skip p.fileLines) c).1.foldl (rawOp c) p)
    | _ => (act g p.state (g.skip p.fileLines) c).1.foldl (rawOp c) p) := rfl
  have hstep : ∀ last : List Nat, ((act g p.state (g.skip p.fileLines) c).1.foldl (rawOp c) p).lineFields <+: last →
      (m = raw ∨ (m = code ∧ Room p (n + 1) ∧ last.Pairwise (· ≤ ·))) →
      step g m p c = .ok ((act g p.state (g.skip p.fileLines) c).1.foldl (rawOp c) p, (act g p.state (g.skip p.fileLines) c).2) := by
    intro last hpre h
    unfold step
    dsimp only
    rw [ops_mode]
    rcases h with h | ⟨h, r, hm⟩
    · exact Or.inl h
    · have r1 := r.stream
      have r2 := r.words
      have r3 := r.lines
      exact Or.inr ⟨h, by omega, by omega, by omega, mono_prefix hpre hm⟩
  cases hmv : (act g p.state (g.skip p.fileLines) c).2 with
  | next =>
    rw [hmv] at hfeed
    dsimp only at hfeed
    refine ⟨1, by decide, ?_, by rw [hfeed]; exact hfq, ?_, by rw [hfeed]; exact a7⟩
    · rw [show fuel + 2 = fuel + 1 + 1 from rfl, loop_cons]
      rw [hstep (feed g p c).lineFields (by rw [hfeed]; exact List.prefix_refl _) hr, hmv, hfeed]
    · intro r
      rw [hfeed]
      have r1 := r.stream
      have r2 := r.words
      have r3 := r.lines
      exact ⟨by omega, by omega, by omega⟩
  | back =>
    obtain ⟨h1, h2⟩ := act_back _ _ _ hmv
    have := hf.ws h1
    rw [h2] at this
    cases this
  | again =>
    rw [hmv] at hfeed
    dsimp only at hfeed
    obtain ⟨hc, hag⟩ := act_again _ _ _ hmv
    generalize hq : (act g p.state (g.skip p.fileLines) c).1.foldl (rawOp c) p = q at *
    have hqs : q.state = .startRecord := by
      rcases hag with ⟨-, e⟩ | ⟨-, e⟩
      · rw [e] at hq; rw [← hq]; rfl
      · rw [e] at hq; rw [← hq]; rfl
    rw [hqs] at hfeed
    have hg2 := good_act (g := g) .startRecord (g.skip q.fileLines) c
    obtain ⟨b1, b2, b3, b4, b5, b6, b7⟩ := ops_sizes c (act g .startRecord (g.skip q.fileLines) c).1 q
    have hs2 := hg2.stream
    have hw2 := hg2.word
    have hl2 := hg2.line
    have hsum : streamCost (act g p.state (g.skip p.fileLines) c).1 = 0 ∧ wordCost (act g p.state (g.skip p.fileLines) c).1 = 0 ∧
        lineCost (act g p.state (g.skip p.fileLines) c).1 + lineCost (act g .startRecord (g.skip q.fileLines) c).1 ≤ 1 := by
      rcases hag with ⟨es, e⟩ | ⟨es, e⟩
      · rw [e]
        refine ⟨rfl, rfl, ?_⟩
        have ht : isTerminator g c = false := by
          unfold isTerminator
          rw [if_pos (hf.crnl es)]
          simpa using hc
        rw [show (act g .startRecord (g.skip q.fileLines) c).1 = actStartRecord g (g.skip q.fileLines) c from rfl, start_lines _ _ ht]
        decide
      · rw [e]
        exact ⟨rfl, rfl, by simpa [lineCost] using hl2⟩
    refine ⟨0, by decide, ?_, by rw [hfeed]; exact hfq.ops hcfg hg2, ?_, by rw [hfeed]; exact a7.trans b7⟩
    · rw [show fuel + 2 = fuel + 1 + 1 from rfl, loop_cons]
      rw [hstep (feed g p c).lineFields (by rw [hfeed]; exact b7) hr, hmv]
      dsimp only
      have hstep2 : step g m q c = .ok (feed g p c, .next) := by
        unfold step
        dsimp only
        rw [hqs, ops_mode, hfeed, start_again]
        rcases hr with h | ⟨h, r, hm⟩
        · exact Or.inl h
        · have r1 := r.stream
          have r2 := r.words
          have r3 := r.lines
          refine Or.inr ⟨h, by omega, by omega, by omega, ?_⟩
          rw [← hfeed]
          exact hm
      rw [loop_cons, hstep2]
      rfl
    · intro r
      rw [hfeed]
      have r1 := r.stream
      have r2 := r.words
      have r3 := r.lines
      exact ⟨by omega, by omega, by omega⟩

end Verif.Tokenizer
