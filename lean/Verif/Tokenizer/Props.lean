import Verif.Tokenizer.Write
import Verif.Tokenizer.Inv

namespace Verif.Tokenizer
open Verif.CsvTable (tokOf)

/-- What a caller can see of a run: the status, and the words and lines.  `none`: the run has no specified result. -/
def view : Outcome → Option (Bool × CsvTable.Tok (Option (List Nat)))
  | .done ok p => some (ok, table p)
  | _ => none

/-- Reading a file that arrives in the given chunks. -/
def read (g : Cfg) (cs : List (List Nat)) : Outcome := tokenize g code (2 * cs.flatten.length) cs .eof {}

/-- Reading without any limit of the buffers, in one piece and without padding of short lines. -/
def plain (g : Cfg) (file : List Nat) : Outcome := tokenize g raw (2 * file.length) [file] .eof {}

/-- No line is shorter than a line before it. -/
def NotShorter (g : Cfg) (file : List Nat) : Prop :=
  ∃ ok q, plain g file = .done ok q ∧ q.lineFields.Pairwise (· ≤ ·)

theorem plain_eq {g : Cfg} (hcfg : g.skipEmptyLines = true → g.delimWhitespace = true) {file : List Nat} {ok : Bool} {q : P}
    (h : plain g file = .done ok q) : ok = (runOf g .eof file).1 ∧ ∃ a b k, q = setCaps a b k (runOf g .eof file).2 := by
  unfold plain at h
  by_cases h0 : file = []
  · subst h0
    obtain ⟨a, b, k, e⟩ := file_run hcfg (m := raw) (fuel := 0) .eof [] trivial (by simp) (Or.inl rfl)
    have e2 : tokenize g raw 0 [] .eof {} = .done ok q := h
    rw [e] at e2
    cases e2
    exact ⟨rfl, a, b, k, rfl⟩
  · have h1 : file ≠ [0xEF] := by
      rintro rfl
      simp [tokenize, skipBom] at h
    have h2 : file ≠ [0xEF, 0xBB] := by
      rintro rfl
      simp [tokenize, skipBom] at h
    obtain ⟨a, b, k, e⟩ := file_run hcfg (m := raw) (fuel := 2 * file.length) .eof [file] ⟨h0, h1, h2, trivial⟩ (by simp) (Or.inl rfl)
    rw [e] at h
    rw [show [file].flatten = file by simp] at h
    cases h
    exact ⟨rfl, a, b, k, rfl⟩

theorem le_flatten {cs : List (List Nat)} {c : List Nat} (h : c ∈ cs) : c.length ≤ cs.flatten.length := by
  induction cs with
  | nil => cases h
  | cons d cs ih =>
    rw [List.flatten_cons, List.length_append]
    rcases List.mem_cons.1 h with rfl | h
    · omega
    · have := ih h; omega

theorem read_eq {g : Cfg} (hcfg : g.skipEmptyLines = true → g.delimWhitespace = true) {cs : List (List Nat)} (hc : CleanFile g cs)
    (hm : (runOf g .eof cs.flatten).2.lineFields.Pairwise (· ≤ ·)) :
    view (read g cs) = some ((runOf g .eof cs.flatten).1, table (runOf g .eof cs.flatten).2) := by
  obtain ⟨a, b, k, e⟩ := file_run hcfg (m := code) (fuel := 2 * cs.flatten.length) .eof cs hc
    (fun c h => by have := le_flatten h; omega) (Or.inr ⟨rfl, hm⟩)
  unfold read
  rw [e]
  rfl

/-! ### C21 -/

/-- The property C21, for the default options. -/
def C21_statement : Prop :=
  ∀ cs₁ cs₂ : List (List Nat), (∀ c ∈ cs₁, c ≠ []) → (∀ c ∈ cs₂, c ≠ []) → cs₁.flatten = cs₂.flatten → view (read {} cs₁) = view (read {} cs₂)

/-- Numbers of fields that are seen. -/
def seenFields (o : Outcome) : Option (Bool × List Nat) := (view o).map (fun v => (v.1, v.2.lineFields))
/-- Words that are seen. -/
def seenWords (o : Outcome) : Option (List (Option (List Nat))) := (view o).map (fun v => v.2.words)

/-- C21 is violated: the check for a byte order mark is repeated at every chunk as long as the first line has not ended.
The cell "a\xEF\xBB\xBF" is read as "a" when the file is cut behind the "a". -/
theorem C21_violated : ¬ C21_statement := by
  intro h
  have := h [[97], [0xEF, 0xBB, 0xBF, 10]] [[97, 0xEF, 0xBB, 0xBF, 10]] (by decide) (by decide) rfl
  have h2 := congrArg (Option.map (fun v => v.2.words)) this
  exact absurd h2 (by decide +kernel)

example : seenWords (read {} [[97], [0xEF, 0xBB, 0xBF, 10]]) = some [some [97]] ∧
    seenWords (read {} [[97, 0xEF, 0xBB, 0xBF, 10]]) = some [some [97, 0xEF, 0xBB, 0xBF]] := by decide +kernel

/-- A chunk that is a proper part of the mark: the result depends on memory that nobody has written. -/
theorem C21_mark_cut_violated : view (read {} [[0xEF], [0xBB, 0xBF, 49, 10]]) = none ∧ view (read {} [[0xEF, 0xBB], [0xBF, 49, 10]]) = none ∧
    seenWords (read {} [[0xEF, 0xBB, 0xBF, 49, 10]]) = some [some [49]] := by decide +kernel

/-- Lines that are shorter than the line before are filled with empty fields, and the space for these is taken from the
space of the chunk.  The file below is one line of five fields, eighteen empty lines and one line of five fields.  In one
chunk it fails at line twenty, byte by byte it is read. -/
def capacityFile : List Nat := [44, 44, 44, 44, 10] ++ List.replicate 18 10 ++ [44, 44, 44, 44, 10]

theorem C21_capacity_violated : seenFields (read {} [capacityFile]) = some (false, List.replicate 19 5) ∧
    seenFields (read {} (capacityFile.map (fun b => [b]))) = some (true, List.replicate 20 5) := by decide +kernel

/-- Options: "skip empty lines" needs "whitespace delimiter", see `C21_skip_empty_violated`. -/
def Steady (g : Cfg) : Prop := g.skipEmptyLines = true → g.delimWhitespace = true

/-- C21 with the missing conditions: no line is shorter than a line before it, and no chunk but the first begins with a
byte order mark (or is a part of one) before the end of the first line (`CleanFile`).  Then every cut gives the status
and the table of the unlimited run.  Missing: files with shorter lines, cuts at such marks. -/
theorem C21_chunks_partial {g : Cfg} (hg : Steady g) {file : List Nat} {ok : Bool} {q : P} (hp : plain g file = .done ok q)
    (hq : q.lineFields.Pairwise (· ≤ ·)) (cs : List (List Nat)) (hf : cs.flatten = file) (hc : CleanFile g cs) :
    view (read g cs) = some (ok, table q) := by
  subst hf
  obtain ⟨rfl, a, b, k, rfl⟩ := plain_eq hg hp
  rw [read_eq hg hc hq]
  rfl

theorem clean_of_ne (g : Cfg) : ∀ (cs : List (List Nat)) (p : P), (∀ c ∈ cs, c ≠ [] ∧ c.head? ≠ some 0xEF) → Clean g cs p
  | [], _, _ => trivial
  | c :: cs, p, h => by
    obtain ⟨h1, h2⟩ := h c (by simp)
    refine ⟨h1, ?_, clean_of_ne g cs _ (fun x hx => h x (by simp [hx]))⟩
    unfold skipBom
    split
    · rfl
    · split <;> simp_all

/-- C21 for files without the byte 0xEF (for instance ASCII files), for all cuts. -/
theorem C21_ascii_partial {g : Cfg} (hg : Steady g) {cs₁ cs₂ : List (List Nat)} (h1 : ∀ c ∈ cs₁, c ≠ []) (h2 : ∀ c ∈ cs₂, c ≠ [])
    (hf : cs₁.flatten = cs₂.flatten) (hb : 0xEF ∉ cs₁.flatten) (hs : NotShorter g cs₁.flatten) : view (read g cs₁) = view (read g cs₂) := by
  obtain ⟨ok, q, hp, hq⟩ := hs
  have key : ∀ cs : List (List Nat), (∀ c ∈ cs, c ≠ []) → cs.flatten = cs₁.flatten → view (read g cs) = some (ok, table q) := by
    intro cs hne he
    apply C21_chunks_partial hg hp hq cs he
    have hh : ∀ c ∈ cs, c ≠ [] ∧ c.head? ≠ some 0xEF := by
      intro c hc
      refine ⟨hne c hc, fun e => hb ?_⟩
      rw [← he]
      exact List.mem_flatten.2 ⟨c, hc, List.mem_of_head? e⟩
    match cs, hh with
    | [], _ => exact trivial
    | c :: cs, hh =>
      obtain ⟨a1, a2⟩ := hh c (by simp)
      refine ⟨a1, ?_, ?_, clean_of_ne g cs _ (fun x hx => hh x (by simp [hx]))⟩
      · rintro rfl; simp at a2
      · rintro rfl; simp at a2
  rw [key cs₁ h1 rfl, key cs₂ h2 hf.symm]

/-- "a,\"b\r\n\",\\,\r\n1,2,3" cut at every byte, so also within quotes, behind escapes and between \r and \n -/
example : NotShorter {} [97, 44, 34, 98, 13, 10, 34, 44, 92, 44, 13, 10, 49, 44, 50, 44, 51] ∧
    seenWords (read {} ([97, 44, 34, 98, 13, 10, 34, 44, 92, 44, 13, 10, 49, 44, 50, 44, 51].map (fun b => [b]))) =
      some [some [97], some [98, 13, 10], some [44], some [49], some [50], some [51]] := by
  refine ⟨⟨true, (match plain {} [97, 44, 34, 98, 13, 10, 34, 44, 92, 44, 13, 10, 49, 44, 50, 44, 51] with | .done _ q => q | _ => {}), by decide +kernel, by decide +kernel⟩, by decide +kernel⟩

/-- With "skip empty lines" the tokeniser goes back to the begin of the line or of the chunk, in the same file at
different places: "1\r 2\r" -/
theorem C21_skip_empty_violated : seenFields (tokenize { skipEmptyLines := true } code 100 [[49, 13, 32, 50, 13]] .eof {}) ≠
    seenFields (tokenize { skipEmptyLines := true } code 100 [[49, 13], [32, 50, 13]] .eof {}) := by decide +kernel

/-! ### C20 -/

/-- The default options and the writer for them. -/
def style : Style := ⟨34, 92, 44, 10, false⟩

/-- The property C20, for the default options. -/
def C20_statement : Prop :=
  ∀ (n : Nat) (rows : List (List Cell)), 0 < n → (∀ r ∈ rows, r.length = n) → (∀ r ∈ rows, ∀ c ∈ r, ∀ b ∈ c, b < 256) →
    view (read {} [writeTable style (rows.map (fun r => (r, .nl)))]) = some (true, tokOf (rows.map (List.map some)))

/-- C20 is violated by a cell with a NUL: the text behind it is lost. -/
theorem C20_violated : ¬ C20_statement := by
  intro h
  have := h 1 [[[97, 0, 98]]] (by decide) (by decide) (by decide)
  have h2 := congrArg (Option.map (fun v => v.2.words)) this
  exact absurd h2 (by decide +kernel)

theorem kept_all {α : Type} {skip : Nat → Bool} (h : ∀ n, skip n = false) : ∀ (n : Nat) (l : List α), kept skip n l = l
  | _, [] => rfl
  | n, x :: l => by unfold kept; rw [h n, kept_all h (n + 1) l]; rfl

theorem kept_mem {α : Type} {skip : Nat → Bool} {x : α} : ∀ (l : List α) (n : Nat), x ∈ kept skip n l → x ∈ l
  | [], _, h => by cases h
  | y :: l, n, h => by
    unfold kept at h
    split at h
    · exact List.mem_cons_of_mem _ (kept_mem l _ h)
    · rcases List.mem_cons.1 h with rfl | h
      · simp
      · exact List.mem_cons_of_mem _ (kept_mem l _ h)

theorem pairwise_const {l : List Nat} {n : Nat} (h : ∀ x ∈ l, x = n) : l.Pairwise (· ≤ ·) := by
  induction l with
  | nil => exact List.Pairwise.nil
  | cons a l ih =>
    refine List.pairwise_cons.2 ⟨fun b hb => ?_, ih (fun x hx => h x (by simp [hx]))⟩
    have e1 := h a (by simp)
    have e2 := h b (by simp [hb])
    omega

theorem read_write {g : Cfg} {s : Style} (hg : Steady g) (hs : Suits g s) {n : Nat} (hn : 0 < n) (rows : List (List Cell × Eol))
    (hr : ∀ r ∈ rows, r.1.length = n) (he : ∀ r ∈ rows, r.2 = .nl ∨ g.terminator = 0) (h0 : ∀ r ∈ rows, ∀ c ∈ r.1, 0 ∉ c)
    (hk : ∀ i r, rows[i]? = some r → g.skip i = true → ∀ c ∈ r.1, Skippable s c)
    (cs : List (List Nat)) (hf : cs.flatten = writeTable s rows) (hc : CleanFile g cs) :
    view (read g cs) = some (true, tokOf ((kept g.skip 0 (rows.map Prod.fst)).map (List.map some))) := by
  obtain ⟨a1, a2⟩ := run_write hs rows (fun r h => ⟨fun e => by have := hr r h; rw [e] at this; simp at this; omega, he r h, h0 r h⟩) hk
  rw [read_eq hg hc, hf, a1, a2.table]
  rw [hf, a2.fields]
  apply pairwise_const (n := n)
  intro x hx
  obtain ⟨r, hr', rfl⟩ := List.mem_map.1 hx
  obtain ⟨y, hy, rfl⟩ := List.mem_map.1 (kept_mem _ _ hr')
  exact hr y hy

/-- C20 for cells without NUL: for all options that fit the writer (any quote, escape, delimiter and line end that can be
told apart, quotes escaped or doubled, blanks as delimiters), all rectangular tables with at least one column, line
ends \n, \r\n and \r in any mixture, and all cuts of the file.  Missing: cells with NUL. -/
theorem C20_round_trip_partial {g : Cfg} {s : Style} (hg : Steady g) (hs : Suits g s) (hk : ∀ n, g.skip n = false) {n : Nat} (hn : 0 < n)
    (rows : List (List Cell × Eol)) (hr : ∀ r ∈ rows, r.1.length = n) (he : ∀ r ∈ rows, r.2 = .nl ∨ g.terminator = 0)
    (h0 : ∀ r ∈ rows, ∀ c ∈ r.1, 0 ∉ c) (cs : List (List Nat)) (hf : cs.flatten = writeTable s rows) (hc : CleanFile g cs) :
    view (read g cs) = some (true, tokOf ((rows.map Prod.fst).map (List.map some))) := by
  rw [read_write hg hs hn rows hr he h0 (fun i r _ hi => by rw [hk] at hi; cases hi) cs hf hc, kept_all hk]

theorem suits_default : Suits {} style := by
  refine ⟨rfl, rfl, rfl, rfl, ?_, by decide, by decide, by simp⟩
  decide

/-- C20 with the default options and the file in one chunk. -/
theorem C20_default_partial {n : Nat} (hn : 0 < n) (rows : List (List Cell)) (hr : ∀ r ∈ rows, r.length = n) (h0 : ∀ r ∈ rows, ∀ c ∈ r, 0 ∉ c) :
    view (read {} [writeTable style (rows.map (fun r => (r, .nl)))]) = some (true, tokOf (rows.map (List.map some))) := by
  have hm : ∀ r ∈ rows.map (fun r => (r, Eol.nl)), r.1 ∈ rows ∧ r.2 = .nl := by
    intro r h
    obtain ⟨x, hx, rfl⟩ := List.mem_map.1 h
    exact ⟨hx, rfl⟩
  by_cases hz : rows = []
  · subst hz; rfl
  · have := C20_round_trip_partial (g := {}) (s := style) (by simp [Steady]) suits_default (fun _ => rfl) hn (rows.map (fun r => (r, .nl)))
      (fun r h => hr _ (hm r h).1) (fun r h => Or.inl (hm r h).2) (fun r h => h0 _ (hm r h).1) [writeTable style (rows.map (fun r => (r, .nl)))] (by simp) ?_
    · rw [this, List.map_map, List.map_map]
      rfl
    · obtain ⟨x, l, rfl⟩ := List.exists_cons_of_ne_nil hz
      obtain ⟨t, e⟩ := writeRow_cons style .nl (row := x) (fun e => by have := hr x (by simp); rw [e] at this; simp at this; omega)
      have e2 : writeTable style ((x :: l).map (fun r => (r, .nl))) = 34 :: (t ++ writeTable style (l.map (fun r => (r, .nl)))) := by
        rw [List.map_cons]
        show writeRow style .nl x ++ _ = _
        rw [e]
        rfl
      rw [e2]
      exact ⟨by simp, by simp, by simp, trivial⟩

/-- two rows: ",", "\"" and "\n", "a\\b" -/
example : writeTable style [([[44], [34]], .nl), ([[10], [97, 92, 98]], .crnl)] =
      [34, 44, 34, 44, 34, 92, 34, 34, 10, 34, 10, 34, 44, 34, 97, 92, 92, 98, 34, 13, 10] ∧
    seenWords (read {} [writeTable style [([[44], [34]], .nl), ([[10], [97, 92, 98]], .crnl)]]) = some [some [44], some [34], some [10], some [97, 92, 98]] := by
  decide +kernel

/-! ### C58 -/

/-- The property C58: every word is a terminated string in the buffer. -/
def C58_statement : Prop :=
  ∀ (file : List Nat) (ok : Bool) (t : CsvTable.Tok (Option (List Nat))), view (read {} [file]) = some (ok, t) → none ∉ t.words

/-- Three fields, nineteen empty lines, and "aa,,": the buffer is full when the last field ends. -/
def fullFile : List Nat := [44, 44, 10] ++ List.replicate 19 10 ++ [97, 97, 44, 44]

/-- C58 is violated: `end_field` ignores that there is no room for the NUL, and the last word begins at the end of the
buffer. -/
theorem C58_violated : ¬ C58_statement := by
  intro h
  have hw : (view (read {} [fullFile])).any (fun v => v.2.words.any (· == none)) = true := by decide +kernel
  cases hv : view (read {} [fullFile]) with
  | none => rw [hv] at hw; cases hw
  | some v =>
    rw [hv, Option.any_some, List.any_eq_true] at hw
    obtain ⟨w, h1, h2⟩ := hw
    exact h fullFile v.1 v.2 hv (by rw [← (beq_iff_eq.1 h2)]; exact h1)

theorem table_terminated {p : P} (h : Core p) : none ∉ (table p).words := by
  intro hn
  obtain ⟨w, hw, e⟩ := List.mem_map.1 (show none ∈ p.words.map (cstring p.stream) from hn)
  have := h.terminated w hw
  unfold cstring at e
  dsimp only at e
  rw [if_pos this] at e
  cases e

/-- C58 when no line is shorter than a line before it, for all options and cuts, also when reading fails or the file ends
in a quoted cell.  Missing: files with shorter lines. -/
theorem C58_terminated_partial {g : Cfg} (hg : Steady g) (e : Ending) (cs : List (List Nat)) (hc : CleanFile g cs)
    (hs : ∃ ok q, tokenize g raw (2 * cs.flatten.length) cs e {} = .done ok q ∧ q.lineFields.Pairwise (· ≤ ·)) {ok : Bool} {p : P}
    (h : tokenize g code (2 * cs.flatten.length) cs e {} = .done ok p) : none ∉ (table p).words := by
  have hfuel : ∀ c ∈ cs, 2 * c.length ≤ 2 * cs.flatten.length := fun c h => by have := le_flatten h; omega
  obtain ⟨ok', q, hr, hq⟩ := hs
  obtain ⟨a, b, k, er⟩ := file_run hg (m := raw) e cs hc hfuel (Or.inl rfl)
  rw [er] at hr
  cases hr
  obtain ⟨a', b', k', ec⟩ := file_run hg (m := code) e cs hc hfuel (Or.inr ⟨rfl, hq⟩)
  rw [ec] at h
  cases h
  exact table_terminated (p := (runOf g e cs.flatten).2) (core_runOf (g := g) e cs.flatten).1

/-- an unterminated quote: "1,2\n3,\"4" -/
example : seenWords (read {} [[49, 44, 50, 10, 51, 44, 34, 52]]) = some [some [49], some [50], some [51]] := by decide +kernel

/-! ### C60 -/

/-- The property C60: "row start" and "skip rows" give the table without these rows. -/
def C60_statement : Prop :=
  ∀ (skip : Nat → Bool) (n : Nat) (rows : List (List Cell)), 0 < n → (∀ r ∈ rows, r.length = n) → (∀ r ∈ rows, ∀ c ∈ r, 0 ∉ c) →
    view (read { skip := skip } [writeTable style (rows.map (fun r => (r, .nl)))]) = some (true, tokOf ((kept skip 0 rows).map (List.map some)))

/-- C60 is violated: escapes are not seen in rows that are skipped.  The first row is the cell "\"\n", it is taken for two
lines. -/
theorem C60_violated : ¬ C60_statement := by
  intro h
  have := h (fun n => n == 0) 1 [[[34, 10]], [[49]]] (by decide) (by decide) (by decide)
  have h2 := congrArg (Option.map (fun v => v.2.words)) this
  exact absurd h2 (by decide +kernel)

/-- C60 when quotes are doubled or do not occur in cells of skipped rows; options, line ends and cuts as in C20. -/
theorem C60_skipped_partial {g : Cfg} {s : Style} (hg : Steady g) (hs : Suits g s) {n : Nat} (hn : 0 < n)
    (rows : List (List Cell × Eol)) (hr : ∀ r ∈ rows, r.1.length = n) (he : ∀ r ∈ rows, r.2 = .nl ∨ g.terminator = 0)
    (h0 : ∀ r ∈ rows, ∀ c ∈ r.1, 0 ∉ c)
    (hk : s.doubled = true ∨ ∀ i r, rows[i]? = some r → g.skip i = true → ∀ c ∈ r.1, s.quote ∉ c)
    (cs : List (List Nat)) (hf : cs.flatten = writeTable s rows) (hc : CleanFile g cs) :
    view (read g cs) = some (true, tokOf ((kept g.skip 0 (rows.map Prod.fst)).map (List.map some))) :=
  read_write hg hs hn rows hr he h0 (fun i r hi hsk c hcr => by
    rcases hk with hk | hk
    · exact Or.inl hk
    · exact Or.inr (hk i r hi hsk c hcr)) cs hf hc

/-- rows 0 and 2 of "a,\n", "b", ",\"" are skipped, quotes doubled -/
example : seenWords (read { doubleQuote := true, skip := fun n => n == 0 || n == 2 }
    [writeTable ⟨34, 92, 44, 10, true⟩ [([[97, 44, 10]], .nl), ([[98]], .nl), ([[44, 34]], .nl)]]) = some [some [98]] := by decide +kernel

end Verif.Tokenizer
