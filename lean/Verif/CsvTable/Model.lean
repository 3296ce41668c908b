/-
Model of the step from tokenised lines to a matrix
(`source/core/csv/read_csv.hpp` 62-78, 132-334).

The parsing of one cell (`char_to_num`, modelled in `Verif.Parse`) and the trimming of
a heading are arbitrary functions here.
-/
namespace Verif.CsvTable

inductive Order | rowMajor | colMajor
deriving DecidableEq

/-- The fields of `parser_t` used here. -/
structure Tok (W : Type) where
  words : List W
  lineStart : List Nat
  lineFields : List Nat

/-- The state the tokeniser leaves for the given lines: words in one sequence, start
and number of fields per line (tokenizer.c `end_line`). -/
def tokOf {W : Type} (ls : List (List W)) : Tok W where
  words := ls.flatten
  lineStart := (List.range ls.length).map (fun i => (ls.take i).flatten.length)
  lineFields := ls.map List.length

/-- Options and the behaviour of the environment.  `callocNull` says what
`calloc(0, ...)` returns. -/
structure Cfg (W α H : Type) where
  order : Order
  skipFooter : Bool
  warnMissing : Bool
  getHeadings : Bool
  num : W → Option α
  missing : α
  zero : α
  heading : W → H
  callocNull : Bool

inductive Stop | ragged | parse | ub
deriving DecidableEq

variable {W α H : Type}

/-- Where cell `k` of data line `r` of `nr` lines with `f` fields is stored
(read_csv.hpp 203-213). -/
def cellIndex (o : Order) (nr f r k : Nat) : Nat :=
  match o with
  | .rowMajor => k + r * f
  | .colMajor => r + k * nr

/-- One cell (read_csv.hpp 198-240): `k` is `j - line_start[i]`. -/
def cellStep (c : Cfg W α H) (t : Tok W) (lines first f i k : Nat) (st : List α × Bool) :
    Except Stop (List α × Bool) :=
  match t.lineStart[i]? with
  | none => .error .ub
  | some start =>
    match t.words[start + k]? with
    | none => .error .ub
    | some w =>
      let idx := cellIndex c.order (lines - first) f (i - first) k
      if idx < st.1.length then
        match c.num w with
        | some v => .ok (st.1.set idx v, st.2)
        | none =>
          if c.warnMissing then .ok (st.1.set idx c.missing, true) else .error .parse
      else .error .ub

/-- One line (read_csv.hpp 184-241). -/
def lineStep (c : Cfg W α H) (t : Tok W) (lines first f i : Nat) (st : List α × Bool) :
    Except Stop (List α × Bool) :=
  match t.lineFields[i]? with
  | none => .error .ub
  | some n =>
    if n ≠ f then .error .ragged
    else (List.range n).foldlM (fun st k => cellStep c t lines first f i k st) st

/-- What `populate_data_array` does to its outputs. -/
inductive Pop (α : Type)
  | noData (ncols : Nat)              -- outputs 0, ncols, nullptr; parsing error
  | memory                            -- outputs untouched
  | ragged                            -- outputs untouched; parsing error
  | parse                             -- only `*a = nullptr`; parsing error
  | ub
  | ok (missing : Bool) (nrows ncols : Nat) (a : List α)

/-- `populate_data_array` (read_csv.hpp 132-247); `da_int` overflow of the counts is not
modelled. -/
def populate (c : Cfg W α H) (t : Tok W) : Pop α :=
  let first := if c.getHeadings then 1 else 0
  let lines := t.lineFields.length
  let wordsLen := t.words.length
  if lines = 0 ∨ (c.skipFooter ∧ lines = 1) then .noData 0
  else
    let (lines, wordsLen) :=
      if c.skipFooter then (lines - 1, wordsLen - t.lineFields.getD (lines - 1) 0)
      else (lines, wordsLen)
    if lines = first then .noData wordsLen
    else
      let f := wordsLen / lines
      let n := f * (lines - first)
      if n = 0 ∧ c.callocNull then .memory
      else
        match (List.range' first (lines - first)).foldlM
            (fun st i => lineStep c t lines first f i st) (List.replicate n c.zero, false) with
        | .error .ragged => .ragged
        | .error .parse => .parse
        | .error .ub => .ub
        | .ok (a, m) => .ok m (lines - first) f a

inductive Status | success | missingData | parsingError | memoryError
deriving DecidableEq

/-- The pointer `*a` at the end of the call. -/
inductive Ptr (α : Type)
  | caller          -- still what the caller had stored there
  | null
  | buf (a : List α)
  | dangling        -- freed, not reset

/-- The outcome of a call. -/
inductive Out (α H : Type)
  | ub
  | done (s : Status) (a : Ptr α) (nrows ncols : Int) (headings : Option (List H))

/-- `parse_and_process` (read_csv.hpp 293-334) after `parse_file`, with `parse_headings`
(249-291) and `free_data` (62-65).  `callerNull`, `nrows0`, `ncols0` describe what
the caller's output variables contain.  Failing allocation of the headings is not
modelled. -/
def parseAndProcess (c : Cfg W α H) (t : Tok W) (callerNull : Bool) (nrows0 ncols0 : Int) :
    Out α H :=
  let fin (s : Status) (a : Ptr α) (nr nc : Int) : Out α H :=
    if c.getHeadings then
      if nc = 0 then .done s a nr nc none
      else
        match t.lineFields[(0 : Nat)]? with
        | none => .ub
        | some (h : Nat) =>
          if nc = (h : Int) then .done s a nr nc (some ((t.words.take h).map c.heading))
          else
            -- free_data(a, ...)
            match a with
            | .caller => if callerNull then .done .parsingError a nr nc none else .ub
            | .null => .done .parsingError a nr nc none
            | .buf _ => .done .parsingError .dangling nr nc none
            | .dangling => .ub
    else .done s a nr nc none
  match populate c t with
  | .ub => .ub
  | .noData nc => fin .parsingError .null 0 nc
  | .memory => fin .memoryError .caller nrows0 ncols0
  | .ragged => fin .parsingError .caller nrows0 ncols0
  | .parse => fin .parsingError .null nrows0 ncols0
  | .ok m nr nc a => fin (if m then .missingData else .success) (.buf a) nr nc

end Verif.CsvTable
