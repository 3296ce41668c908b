import Verif.Tokenizer.Props
import Verif.CsvTable.Props

/-!
C22: the tokeniser together with the rest of `da_read_csv_*`.
-/
namespace Verif.Tokenizer
open Verif.CsvTable (tokOf Tok Out Status Ptr Order usedLines populate parseAndProcess lineStep cellStep)

variable {W α H : Type}

/-- `parse_and_process`, read_csv.hpp:293-334: `parse_file` (80-130) calls the tokeniser and returns success whatever the
result is; then the table is looked at.  `none`: no specified result. -/
def readCsv (g : Cfg) (c : CsvTable.Cfg (Option (List Nat)) α H) (cs : List (List Nat)) (e : Ending) (callerNull : Bool) (nrows0 ncols0 : Int) : Option (Out α H) :=
  match tokenize g code (2 * cs.flatten.length) cs e {} with
  | .done _ p => some (parseAndProcess c (table p) callerNull nrows0 ncols0)
  | _ => none

/-- The call has delivered a table (possibly with a warning for missing data). -/
def Delivers (o : Option (Out α H)) : Prop := ∃ s a nr nc hd, o = some (.done s a nr nc hd) ∧ (s = .success ∨ s = .missingData)

/-- The file ends within quotes or behind an escape character. -/
def Unterminated (g : Cfg) (file : List Nat) : Prop := ∃ q, plain g file = .done false q

/-- Some line that is used is longer than a line before it. -/
def Longer (g : Cfg) (skipFooter : Bool) (file : List Nat) : Prop :=
  ∃ (ok : Bool) (q : P) (i j m n : Nat), plain g file = .done ok q ∧ i < j ∧ (if skipFooter then q.lineFields.dropLast else q.lineFields)[i]? = some m ∧
    (if skipFooter then q.lineFields.dropLast else q.lineFields)[j]? = some n ∧ m < n

/-- The property C22, for the default options and files of one chunk. -/
def C22_statement : Prop :=
  ∀ (α H : Type) (c : CsvTable.Cfg (Option (List Nat)) α H) (file : List Nat) (callerNull : Bool) (nrows0 ncols0 : Int),
    Unterminated {} file ∨ Longer {} c.skipFooter file → ¬ Delivers (readCsv {} c [file] .eof callerNull nrows0 ncols0)

/-- A reader of strings. -/
def strings : CsvTable.Cfg (Option (List Nat)) (Option (List Nat)) Unit :=
  ⟨.rowMajor, false, false, false, fun w => some w, none, none, fun _ => (), false⟩

/-- What a call with `strings` returns. -/
def cells (o : Option (Out (Option (List Nat)) Unit)) : Option (List (Option (List Nat)) × Int × Int) :=
  match o with
  | some (.done .success (.buf a) nr nc _) => some (a, nr, nc)
  | _ => none

theorem delivers_of_cells {o : Option (Out (Option (List Nat)) Unit)} {x} (h : cells o = some x) : Delivers o := by
  unfold cells at h
  split at h
  · exact ⟨_, _, _, _, _, rfl, Or.inl rfl⟩
  · cases h

/-- "1,2\n\"3,4\n": the quote is not closed. -/
def openQuote : List Nat := [49, 44, 50, 10, 34, 51, 44, 52, 10]

/-- C22 is violated: success for a file with an unterminated quote, the rest of the file is dropped. -/
theorem C22_violated : ¬ C22_statement := by
  intro h
  refine h _ _ strings openQuote true 0 0 (Or.inl ?_) (delivers_of_cells (x := ([some [49], some [50]], 1, 2)) (by decide +kernel))
  have hw : (match plain {} openQuote with | .done false _ => true | _ => false) = true := by decide +kernel
  split at hw
  · exact ⟨_, by assumption⟩
  · cases hw

example : cells (readCsv {} strings [openQuote] .eof true 0 0) = some ([some [49], some [50]], 1, 2) := by decide +kernel

/-- A well-formed file of twenty lines of which the last is dropped without a report: see `C21_capacity_violated`. -/
theorem C22_capacity_violated : cells (readCsv {} strings [capacityFile] .eof true 0 0) = some (List.replicate 95 (some []), 19, 5) := by
  decide +kernel

/-- A failure of reading in the middle of the file is not reported. -/
theorem C22_failed_read_violated : cells (readCsv {} strings [[49, 10]] .failed true 0 0) = some ([some [49]], 1, 1) := by decide +kernel

/-! ### Tables with words behind the last line -/

/-- The words are divided into lines. -/
def cut : List Nat → List W → List (List W)
  | [], _ => []
  | n :: ns, ws => ws.take n :: cut ns (ws.drop n)

theorem cut_flatten : ∀ (ns : List Nat) (ws : List W), ns.sum ≤ ws.length → (cut ns ws).flatten = ws.take ns.sum
  | [], ws, _ => by simp [cut]
  | n :: ns, ws, h => by
    rw [List.sum_cons] at h ⊢
    unfold cut
    rw [List.flatten_cons, cut_flatten ns _ (by rw [List.length_drop]; omega), ← List.take_add]

theorem cut_length : ∀ (ns : List Nat) (ws : List W), ns.sum ≤ ws.length → (cut ns ws).map List.length = ns
  | [], ws, _ => rfl
  | n :: ns, ws, h => by
    rw [List.sum_cons] at h
    unfold cut
    rw [List.map_cons, cut_length ns _ (by rw [List.length_drop]; omega), List.length_take]
    congr 1
    omega

/-- A table with more words than those of its lines. -/
def tokWith (ls : List (List W)) (extra : List W) : Tok W := { tokOf ls with words := ls.flatten ++ extra }

/-- The lines of a parser and the words of the line that is not finished. -/
def linesOf (p : P) : List (List (Option (List Nat))) := cut p.lineFields (p.words.map (cstring p.stream))
def pendingOf (p : P) : List (Option (List Nat)) := (p.words.map (cstring p.stream)).drop p.lineFields.sum

theorem table_lines {p : P} (h : Core p) : table p = tokWith (linesOf p) (pendingOf p) ∧ (pendingOf p).length = p.curFields ∧
    (linesOf p).map List.length = p.lineFields := by
  have h1 : p.lineFields.sum ≤ (p.words.map (cstring p.stream)).length := by
    have := h.wordsLen; have := h.sum; rw [List.length_map]; omega
  have e1 := cut_flatten p.lineFields _ h1
  have e2 := cut_length p.lineFields _ h1
  refine ⟨?_, ?_, e2⟩
  · unfold table tokWith tokOf linesOf pendingOf
    dsimp only
    rw [e1, List.take_append_drop, e2]
    congr 1
    rw [h.starts]
    have e3 : (cut p.lineFields (p.words.map (cstring p.stream))).length = p.lineFields.length := by
      conv_rhs => rw [← e2]
      simp
    rw [e3]
    apply List.map_congr_left
    intro i _
    rw [List.length_flatten, List.map_take, e2]
  · unfold pendingOf
    rw [List.length_drop, List.length_map]
    have := h.wordsLen; have := h.sum; omega

theorem foldlM_each {σ ε β : Type} (f : σ → β → Except ε σ) : ∀ (l : List β) (s s' : σ), l.foldlM f s = .ok s' → ∀ x ∈ l, ∃ t t', f t x = .ok t'
  | [], _, _, _, x, hx => by cases hx
  | y :: l, s, s', h, x, hx => by
    rw [List.foldlM_cons] at h
    cases e : f s y with
    | error z => rw [e] at h; cases h
    | ok t =>
      rw [e] at h
      rcases List.mem_cons.1 hx with rfl | hx
      · exact ⟨s, t, e⟩
      · exact foldlM_each f l t s' h x hx

/-- What a delivered table says about the numbers of fields. -/
theorem delivered {c : CsvTable.Cfg W α H} {t : Tok W} {callerNull : Bool} {nrows0 ncols0 : Int}
    (h : Delivers (some (parseAndProcess c t callerNull nrows0 ncols0))) :
    ∃ L first n f, L = (if c.skipFooter then t.lineFields.length - 1 else t.lineFields.length) ∧ first = (if c.getHeadings then 1 else 0) ∧
      n = (if c.skipFooter then t.words.length - t.lineFields.getD (t.lineFields.length - 1) 0 else t.words.length) ∧
      f = n / L ∧ 0 < L ∧ first ≠ L ∧ (∀ i, first ≤ i → i < L → t.lineFields[i]? = some f) ∧ (c.getHeadings = true → f ≠ 0 → t.lineFields[0]? = some f) := by
  obtain ⟨s, a, nr, nc, hd, h, hs⟩ := h
  simp only [Option.some.injEq] at h
  have hpe : s ≠ .parsingError ∧ s ≠ .memoryError := by rcases hs with rfl | rfl <;> simp
  refine ⟨_, _, _, _, rfl, rfl, rfl, rfl, ?_⟩
  unfold parseAndProcess at h
  dsimp only at h
  -- other outcomes of `populate` give an error
  have hfin : ∀ (st : Status) (pt : Ptr α) (nr' nc' : Int), (st = .parsingError ∨ st = .memoryError) →
      (if c.getHeadings = true then
        if nc' = 0 then Out.done st pt nr' nc' none
        else match t.lineFields[(0 : Nat)]? with
          | none => .ub
          | some h => if nc' = (h : Int) then .done st pt nr' nc' (some ((t.words.take h).map c.heading))
            else match pt with
              | .caller => if callerNull = true then .done .parsingError pt nr' nc' none else .ub
              | .null => .done .parsingError pt nr' nc' none
              | .buf _ => .done .parsingError .dangling nr' nc' none
              | .dangling => .ub
      else .done st pt nr' nc' none) = .done s a nr nc hd → False := by
    intro st pt nr' nc' hst hh
    repeat' split at hh
    all_goals first
      | (cases hh; done)
      | (injection hh with h1; rcases hst with h2 | h2 <;> rw [h2] at h1 <;> first | exact hpe.1 h1.symm | exact hpe.2 h1.symm)
      | (injection hh with h1; exact hpe.1 h1.symm)
  have hpop : ∃ m nr' nc' a', populate c t = .ok m nr' nc' a' ∧ (c.getHeadings = true → nc' ≠ 0 → t.lineFields[0]? = some nc') := by
    cases hp : populate c t with
    | ub => rw [hp] at h; cases h
    | noData nc' => rw [hp] at h; exact (hfin _ _ _ _ (Or.inl rfl) h).elim
    | memory => rw [hp] at h; exact (hfin _ _ _ _ (Or.inr rfl) h).elim
    | ragged => rw [hp] at h; exact (hfin _ _ _ _ (Or.inl rfl) h).elim
    | parse => rw [hp] at h; exact (hfin _ _ _ _ (Or.inl rfl) h).elim
    | ok m nr' nc' a' =>
      refine ⟨m, nr', nc', a', rfl, ?_⟩
      intro hg hn
      rw [hp] at h
      dsimp only at h
      rw [if_pos hg, if_neg (by simpa using hn)] at h
      cases hl : t.lineFields[0]? with
      | none => rw [hl] at h; cases h
      | some x =>
        rw [hl] at h
        dsimp only at h
        by_cases hx : (nc' : Int) = (x : Int)
        · have : nc' = x := by omega
          rw [this]
        · rw [if_neg hx] at h
          injection h with h1
          exact absurd h1.symm hpe.1
  obtain ⟨m, nr', nc', a', hp, hhead⟩ := hpop
  clear h hfin
  unfold populate at hp
  dsimp only at hp
  split at hp
  · cases hp
  rename_i h0
  have key : ∀ first L n, first = (if c.getHeadings = true then 1 else 0) → L = (if c.skipFooter then t.lineFields.length - 1 else t.lineFields.length) →
      n = (if c.skipFooter then t.words.length - t.lineFields.getD (t.lineFields.length - 1) 0 else t.words.length) →
      (if L = first then CsvTable.Pop.noData n
        else if n / L * (L - first) = 0 ∧ c.callocNull = true then .memory
        else match (List.range' first (L - first)).foldlM
              (fun st i => lineStep c t L first (n / L) i st)
              (List.replicate (n / L * (L - first)) c.zero, false) with
          | .error .ragged => .ragged
          | .error .parse => .parse
          | .error .ub => .ub
          | .ok (a, m) => .ok m (L - first) (n / L) a) = .ok m nr' nc' a' →
      0 < L ∧ first ≠ L ∧ (∀ i, first ≤ i → i < L → t.lineFields[i]? = some (n / L)) ∧
        (c.getHeadings = true → n / L ≠ 0 → t.lineFields[0]? = some (n / L)) := by
    intro first L n _ hL hn hp
    by_cases h1 : L = first
    · rw [if_pos h1] at hp; cases hp
    rw [if_neg h1] at hp
    split at hp
    · cases hp
    split at hp
    · cases hp
    · cases hp
    · cases hp
    rename_i a2 m2 hfold
    injection hp with e1 e2 e3 e4
    have hpos : 0 < L := by
      rw [hL]
      by_cases hs : c.skipFooter = true
      · rw [if_pos hs]
        push Not at h0
        have h2 := h0.2 hs
        omega
      · rw [if_neg hs]
        push Not at h0
        omega
    refine ⟨hpos, fun e => h1 e.symm, ?_, ?_⟩
    · intro i hi hi2
      obtain ⟨x, y, hxy⟩ := foldlM_each _ _ _ _ hfold i (by rw [List.mem_range'_1]; omega)
      unfold lineStep at hxy
      cases hf : t.lineFields[i]? with
      | none => rw [hf] at hxy; cases hxy
      | some v =>
        rw [hf] at hxy
        dsimp only at hxy
        by_cases hv : v = n / L
        · rw [hv]
        · rw [if_pos hv] at hxy; cases hxy
    · intro hg hne
      have := hhead hg (by rw [← e3]; exact hne)
      rw [this, e3]
  cases hs : c.skipFooter with
  | true =>
    rw [hs] at hp key
    exact key _ _ _ rfl rfl rfl hp
  | false =>
    rw [hs] at hp key
    exact key _ _ _ rfl rfl rfl hp

/-- The numbers of fields of the lines that are used. -/
def used (skipFooter : Bool) (fields : List Nat) : List Nat := if skipFooter then fields.dropLast else fields

theorem sum_const {l : List Nat} {n : Nat} (h : ∀ x ∈ l, x = n) : l.sum = n * l.length := by
  induction l with
  | nil => simp
  | cons a l ih =>
    rw [List.sum_cons, List.length_cons, ih (fun x hx => h x (by simp [hx])), h a (by simp), Nat.mul_succ, Nat.add_comm]

theorem used_facts (sk : Bool) (l : List Nat) : (used sk l).length = (if sk then l.length - 1 else l.length) ∧
    (∀ i, i < (used sk l).length → (used sk l)[i]? = l[i]?) ∧ ((used sk l).length ≠ 0 → (used sk l).sum + (if sk then l.getD (l.length - 1) 0 else 0) = l.sum) := by
  cases sk with
  | false => exact ⟨rfl, fun _ _ => rfl, fun _ => rfl⟩
  | true =>
    refine ⟨by simp [used], ?_, ?_⟩
    · intro i hi
      have hi : i < l.length - 1 := by simpa [used] using hi
      simp only [used, if_true]
      rw [List.getElem?_dropLast, if_pos hi]
    · intro hne
      have hl : l ≠ [] := by rintro rfl; simp [used] at hne
      simp only [used, if_true]
      have h1 := congrArg List.sum (List.dropLast_append_getLast hl)
      rw [List.sum_append, List.sum_singleton] at h1
      rw [← h1]
      congr 1
      rw [List.getD_eq_getElem?_getD, List.getLast_eq_getElem, List.getElem?_eq_getElem (by have := List.length_pos_iff.2 hl; omega)]
      rfl

/-- What follows for lines that do not get shorter. -/
theorem delivered_lines {c : CsvTable.Cfg W α H} {ls : List (List W)} {extra : List W} {callerNull : Bool} {nrows0 ncols0 : Int}
    (h : Delivers (some (parseAndProcess c (tokWith ls extra) callerNull nrows0 ncols0)))
    (hm : (ls.map List.length).Pairwise (· ≤ ·)) :
    (∃ n, ∀ x ∈ used c.skipFooter (ls.map List.length), x = n) ∧ extra.length < (used c.skipFooter (ls.map List.length)).length := by
  obtain ⟨L, first, n, f, hL, hfirst, hn, hf, hpos, hne, hdata, hhead⟩ := delivered h
  obtain ⟨u1, u2, u3⟩ := used_facts c.skipFooter (ls.map List.length)
  have hfl : (tokWith ls extra).lineFields = ls.map List.length := rfl
  have hwl : (tokWith ls extra).words.length = (ls.map List.length).sum + extra.length := by
    show (ls.flatten ++ extra).length = _
    rw [List.length_append, List.length_flatten]
  rw [hfl] at hL hdata hhead hn
  rw [hwl] at hn
  rw [← hL] at u1
  have hfirst1 : first ≤ 1 := by rw [hfirst]; split <;> omega
  have hall : ∀ x ∈ used c.skipFooter (ls.map List.length), x = f := by
    intro x hx
    obtain ⟨i, hi, ex⟩ := List.getElem_of_mem hx
    have e := u2 i hi
    rw [List.getElem?_eq_getElem hi, ex] at e
    by_cases h1 : first ≤ i
    · rw [hdata i h1 (by omega)] at e
      exact Option.some.inj e
    · have hi0 : i = 0 := by omega
      have hg : c.getHeadings = true := by
        by_contra hg
        rw [if_neg hg] at hfirst
        omega
      subst hi0
      by_cases hf0 : f = 0
      · have h2 := hdata 1 (by omega) (by omega)
        obtain ⟨l1, g1⟩ := List.getElem?_eq_some_iff.1 e.symm
        obtain ⟨l2, g2⟩ := List.getElem?_eq_some_iff.1 h2
        have := List.pairwise_iff_getElem.1 hm 0 1 l1 l2 (by omega)
        rw [g1, g2] at this
        omega
      · rw [hhead hg hf0] at e
        exact Option.some.inj e
  refine ⟨⟨f, hall⟩, ?_⟩
  have hs := sum_const hall
  have hsum := u3 (by omega)
  have hn2 : n = f * L + extra.length := by
    rw [hn]
    rw [hs, u1] at hsum
    split <;> rename_i hk
    · rw [if_pos hk] at hsum; omega
    · rw [if_neg hk] at hsum; omega
  rw [u1]
  by_contra hc
  have h2 : f + 1 ≤ f := by
    conv_rhs => rw [hf]
    rw [Nat.le_div_iff_mul_le hpos, Nat.succ_mul, hn2]
    omega
  omega

theorem read_table {g : Cfg} (hg : Steady g) {c : CsvTable.Cfg (Option (List Nat)) α H} {cs : List (List Nat)} (hc : CleanFile g cs) {ok : Bool} {q : P}
    (hp : plain g cs.flatten = .done ok q) (hq : q.lineFields.Pairwise (· ≤ ·)) (callerNull : Bool) (nrows0 ncols0 : Int) :
    readCsv g c cs .eof callerNull nrows0 ncols0 = some (parseAndProcess c (tokWith (linesOf q) (pendingOf q)) callerNull nrows0 ncols0) ∧
      (linesOf q).map List.length = q.lineFields ∧ (pendingOf q).length = q.curFields ∧ (ok = true → q.curFields = 0) := by
  obtain ⟨rfl, a, b, k, rfl⟩ := plain_eq hg hp
  obtain ⟨a', b', k', e⟩ := file_run hg (m := code) (fuel := 2 * cs.flatten.length) .eof cs hc
    (fun c h => by have := le_flatten h; omega) (Or.inr ⟨rfl, hq⟩)
  obtain ⟨c1, c2⟩ := core_runOf (g := g) .eof cs.flatten
  obtain ⟨t1, t2, t3⟩ := table_lines c1
  refine ⟨?_, t3, t2, c2⟩
  unfold readCsv
  rw [e]
  show some (parseAndProcess c (table (runOf g .eof cs.flatten).2) _ _ _) = _
  rw [t1]
  rfl

/-- C22 for files without a line that is shorter than a line before it, for all cuts: if a table is delivered, all lines
that are used have the same number of fields; and if the file ends within quotes, the unfinished line has fewer
complete fields than there are lines.  So longer rows are always reported, and unterminated quotes are reported when the
unfinished line has at least as many fields as the file has lines.  Missing: the other unterminated files (which
are not reported, `C22_dropped_partial`), files with shorter lines, failures of reading. -/
theorem C22_reported_partial {g : Cfg} (hg : Steady g) (c : CsvTable.Cfg (Option (List Nat)) α H) {cs : List (List Nat)} (hc : CleanFile g cs) {ok : Bool} {q : P}
    (hp : plain g cs.flatten = .done ok q) (hq : q.lineFields.Pairwise (· ≤ ·)) {callerNull : Bool} {nrows0 ncols0 : Int}
    (h : Delivers (readCsv g c cs .eof callerNull nrows0 ncols0)) :
    (∃ n, ∀ x ∈ used c.skipFooter q.lineFields, x = n) ∧ q.curFields < (used c.skipFooter q.lineFields).length := by
  obtain ⟨h1, h2, h3, -⟩ := read_table hg (c := c) hc hp hq callerNull nrows0 ncols0
  rw [h1] at h
  have := delivered_lines h (by rw [h2]; exact hq)
  rw [h2, h3] at this
  exact this

/-- "1,2\n3,4,5\n" is refused, "1\n2,\"3" is refused -/
example : (readCsv {} strings [[49, 44, 50, 10, 51, 44, 52, 44, 53, 10]] .eof true 0 0).map (fun o => match o with | .done s _ _ _ _ => some s | .ub => none) =
      some (some .parsingError) ∧
    (readCsv {} strings [[49, 10, 50, 44, 34, 51]] .eof true 0 0).map (fun o => match o with | .done s _ _ _ _ => some s | .ub => none) =
      some (some .parsingError) := by decide +kernel

/-! The exact extent of what is dropped. -/

theorem foldlM_congr' {σ ε β : Type} {f f' : σ → β → Except ε σ} : ∀ (l : List β) (s : σ), (∀ x ∈ l, ∀ s, f s x = f' s x) → l.foldlM f s = l.foldlM f' s
  | [], _, _ => rfl
  | y :: l, s, h => by
    rw [List.foldlM_cons, List.foldlM_cons, h y (by simp)]
    congr 1
    funext t
    exact foldlM_congr' l t (fun x hx => h x (by simp [hx]))

theorem lineStep_with (c : CsvTable.Cfg W α H) (ls : List (List W)) (extra : List W) (L first f i : Nat) (st : List α × Bool) :
    lineStep c (tokWith ls extra) L first f i st = lineStep c (tokOf ls) L first f i st := by
  unfold lineStep
  rw [show (tokWith ls extra).lineFields = (tokOf ls).lineFields from rfl]
  cases hn : (tokOf ls).lineFields[i]? with
  | none => rfl
  | some n =>
    dsimp only
    split
    · rfl
    · apply foldlM_congr'
      intro k hk st
      rw [List.mem_range] at hk
      unfold cellStep
      rw [show (tokWith ls extra).lineStart = (tokOf ls).lineStart from rfl]
      cases hs : (tokOf ls).lineStart[i]? with
      | none => rfl
      | some start =>
        dsimp only
        have : (tokWith ls extra).words[start + k]? = (tokOf ls).words[start + k]? := by
          show (ls.flatten ++ extra)[start + k]? = ls.flatten[start + k]?
          apply List.getElem?_append_left
          unfold tokOf at hn hs
          dsimp only at hn hs
          rw [List.getElem?_map] at hn hs
          obtain ⟨l, hl, e1⟩ := Option.map_eq_some_iff.1 hn
          obtain ⟨j, hj, e2⟩ := Option.map_eq_some_iff.1 hs
          obtain ⟨hi, hl⟩ := List.getElem?_eq_some_iff.1 hl
          have hj : i = j := by
            rw [List.getElem?_range hi] at hj
            exact Option.some.inj hj
          subst hj
          have h1 : ls = ls.take i ++ l :: ls.drop (i + 1) := by
            rw [← hl, List.getElem_cons_drop, List.take_append_drop]
          have h2 := congrArg (fun x => x.flatten.length) h1
          simp only [List.flatten_append, List.flatten_cons, List.length_append] at h2
          omega
        rw [this]

/-- Words of an unfinished line do not matter if there are fewer of them than lines. -/
theorem process_with (c : CsvTable.Cfg W α H) (hfoot : c.skipFooter = false) (ls : List (List W)) (extra : List W) {n : Nat} (hn : ∀ l ∈ ls, l.length = n)
    (hk : extra.length < ls.length) (callerNull : Bool) (nrows0 ncols0 : Int) :
    parseAndProcess c (tokWith ls extra) callerNull nrows0 ncols0 = parseAndProcess c (tokOf ls) callerNull nrows0 ncols0 := by
  have hlen : ls.flatten.length = n * ls.length := by
    rw [List.length_flatten, sum_const (n := n) (by
      intro x hx
      obtain ⟨l, hl, rfl⟩ := List.mem_map.1 hx
      exact hn l hl), List.length_map]
  have hdiv : (tokWith ls extra).words.length / ls.length = (tokOf ls).words.length / ls.length := by
    show (ls.flatten ++ extra).length / _ = ls.flatten.length / _
    rw [List.length_append, hlen]
    rw [Nat.mul_div_cancel _ (by omega)]
    apply Nat.div_eq_of_lt_le
    · omega
    · rw [Nat.succ_mul]; omega
  have hl : (tokWith ls extra).lineFields = (tokOf ls).lineFields := rfl
  have hll : (tokOf ls).lineFields.length = ls.length := by simp [tokOf]
  have hfirst : c.getHeadings = true → ls.length = 1 → extra = [] := by
    intro _ h1
    rw [h1] at hk
    exact List.length_eq_zero_iff.1 (by omega)
  have hpop : populate c (tokWith ls extra) = populate c (tokOf ls) := by
    unfold populate
    dsimp only
    rw [hl, hll, hfoot]
    have hz : ¬ (ls.length = 0 ∨ false = true ∧ ls.length = 1) := by
      rintro (e | ⟨e, -⟩)
      · omega
      · cases e
    rw [if_neg hz, if_neg hz]
    simp only [Bool.false_eq_true, if_false]
    rw [hdiv]
    by_cases h1 : ls.length = (if c.getHeadings then 1 else 0)
    · have hg : c.getHeadings = true := by
        by_contra hg
        rw [if_neg hg] at h1
        omega
      rw [if_pos h1, if_pos h1]
      rw [if_pos hg] at h1
      rw [hfirst hg h1]
      show CsvTable.Pop.noData (ls.flatten ++ []).length = .noData ls.flatten.length
      rw [List.append_nil]
    · rw [if_neg h1, if_neg h1]
      simp only [lineStep_with]
  unfold parseAndProcess
  dsimp only
  rw [hpop, hl]
  have htake : ∀ h : Nat, (tokOf ls).lineFields[0]? = some h → (tokWith ls extra).words.take h = (tokOf ls).words.take h := by
    intro h hh
    show (ls.flatten ++ extra).take h = ls.flatten.take h
    apply List.take_append_of_le_length
    unfold tokOf at hh
    dsimp only at hh
    rw [List.getElem?_map] at hh
    obtain ⟨l, hl, e1⟩ := Option.map_eq_some_iff.1 hh
    cases ls with
    | nil => cases hl
    | cons x ls =>
      simp only [List.getElem?_cons_zero, Option.some.injEq] at hl
      rw [List.flatten_cons, List.length_append, hl]
      omega
  cases h0 : (tokOf ls).lineFields[0]? with
  | none => rfl
  | some x =>
    dsimp only
    rw [htake x h0]

/-- The exact extent of the violation for rectangular files without footer: if the unfinished line has fewer complete fields than
there are lines, the result is that of the file without this line. -/
theorem C22_dropped_partial {g : Cfg} (hg : Steady g) (c : CsvTable.Cfg (Option (List Nat)) α H) (hfoot : c.skipFooter = false) {cs : List (List Nat)} (hc : CleanFile g cs)
    {q : P} {n : Nat} (hp : plain g cs.flatten = .done false q) (hq : ∀ x ∈ q.lineFields, x = n) (hk : q.curFields < q.lineFields.length)
    (callerNull : Bool) (nrows0 ncols0 : Int) :
    readCsv g c cs .eof callerNull nrows0 ncols0 = some (parseAndProcess c (tokOf (linesOf q)) callerNull nrows0 ncols0) := by
  obtain ⟨h1, h2, h3, -⟩ := read_table hg (c := c) hc hp (pairwise_const hq) callerNull nrows0 ncols0
  rw [h1, process_with c hfoot (n := n)]
  · intro l hl
    exact hq _ (by rw [← h2]; exact List.mem_map_of_mem hl)
  · rw [h3]
    rw [← h2, List.length_map] at hk
    exact hk

/-- Files that end regularly: the result is that of the lines of the file. -/
theorem C22_regular_partial {g : Cfg} (hg : Steady g) (c : CsvTable.Cfg (Option (List Nat)) α H) {cs : List (List Nat)} (hc : CleanFile g cs)
    {q : P} (hp : plain g cs.flatten = .done true q) (hq : q.lineFields.Pairwise (· ≤ ·)) (callerNull : Bool) (nrows0 ncols0 : Int) :
    readCsv g c cs .eof callerNull nrows0 ncols0 = some (parseAndProcess c (tokOf (linesOf q)) callerNull nrows0 ncols0) := by
  obtain ⟨h1, -, h3, h4⟩ := read_table hg (c := c) hc hp hq callerNull nrows0 ncols0
  rw [h1]
  have : pendingOf q = [] := List.length_eq_zero_iff.1 (by rw [h3, h4 rfl])
  rw [this]
  unfold tokWith
  rw [List.append_nil]
  rfl

/-- "1,2\n3,4\n": two lines -/
example : cells (readCsv {} strings [[49, 44, 50, 10, 51, 44, 52, 10]] .eof true 0 0) = some ([some [49], some [50], some [51], some [52]], 2, 2) := by
  decide +kernel

end Verif.Tokenizer
