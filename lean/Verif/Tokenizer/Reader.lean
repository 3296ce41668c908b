import Verif.Tokenizer.Model

/-!
The handle of the CSV reader between reads: `csv_reader` (csv_reader.hpp:40-160), `parser_set_skipfirstnrows`,
`parser_add_skiprow`, `parser_store_skipped_row` and `skip_this_line` (tokenizer.c:597-632 and 755-765), and what
`parser_reset` (tokenizer.c:180-226) leaves.
-/
namespace Verif.Tokenizer.Reader

/-- Options of a read, csv_options.hpp:41-165; `rows` is the text of "skip rows", `start` is "row start".  Not here: options that
do not reach the tokenizer. -/
structure Opts where
  delimiter : Nat := 44
  quote : Nat := 34
  escape : Nat := 92
  comment : Nat := 35
  terminator : Nat := 0
  whitespace : Bool := false
  initialSpace : Bool := false
  doubleQuote : Bool := false
  emptyLines : Bool := false
  rows : List Nat := []
  start : Nat := 0

/-- What the parser keeps: `skip_first_N_rows`, initially -1 (tokenizer.c:121), `skipset`, and `skipped_lines`, the line numbers
of the report (no line: a null pointer, tokenizer.c:134). -/
structure S where
  skipFirst : Int := -1
  skipSet : List Int := []
  skipped : List Nat := []

def isSpace (c : Nat) : Bool := c == 32 || (9 ≤ c && c ≤ 13)

/-- Words of a text between characters with `sep`, as from `ss >> item`. -/
def words (sep : Nat → Bool) : List Nat → List Nat → List (List Nat)
  | [], w => if w = [] then [] else [w]
  | c :: l, w => if sep c then (if w = [] then words sep l [] else w :: words sep l []) else words sep l (w ++ [c])

/-- Value of leading digits, or nothing when there is none. -/
def leading : List Nat → Option Nat → Option Nat
  | [], v => v
  | c :: l, v => if 48 ≤ c ∧ c ≤ 57 then leading l (some (10 * v.getD 0 + (c - 48))) else v

/-- `std::stoi` on a word without blanks: a sign, digits, and anything behind; no digit or a value outside of `int` throws. -/
def stoi (w : List Nat) : Option Int :=
  let v : Option Int := match w with
    | 45 :: l => (leading l none).map (fun n : Nat => -(n : Int))
    | 43 :: l => (leading l none).map (fun n : Nat => (n : Int))
    | l => (leading l none).map (fun n : Nat => (n : Int))
  match v with
  | some i => if -2147483648 ≤ i ∧ i < 2147483648 then some i else none
  | none => none

/-- "skip rows", csv_reader.hpp:97-125: words between blanks; in each word commas and spaces become spaces, and its words are
numbers.  Nothing: `da_status_option_invalid_value`. -/
def skipRows (text : List Nat) : Option (List Int) :=
  (words isSpace text []).foldlM (fun acc item =>
    (words isSpace (item.map (fun c => if c == 44 || c == 32 then 32 else c)) []).foldlM
      (fun acc w => (stoi w).map (fun i => acc ++ [i])) acc) []

/-- `parser_set_skipfirstnrows`, tokenizer.c:627-634. -/
def setSkipFirst (s : S) (n : Nat) : S := if n > 0 then { s with skipFirst := (n : Int) - 1 } else s

/-- `read_options`, csv_reader.hpp:69-159.  A fault in "skip rows" is found before "row start" is stored. -/
def readOptions (o : Opts) (s : S) : Bool × S :=
  match skipRows o.rows with
  | none => (false, { s with skipSet := [] })
  | some rows => (true, setSkipFirst { s with skipSet := rows } o.start)

/-- `skip_this_line`, tokenizer.c:755-765. -/
def skipLine (s : S) (n : Nat) : Bool := decide ((n : Int) ≤ s.skipFirst) || s.skipSet.contains (n : Int)

/-- The options of the tokenizer in a read. -/
def cfg (o : Opts) (s : S) : Cfg :=
  { delimiter := o.delimiter, quote := o.quote, escape := o.escape, comment := o.comment, terminator := o.terminator,
    delimWhitespace := o.whitespace, skipInitialSpace := o.initialSpace, doubleQuote := o.doubleQuote,
    skipEmptyLines := o.emptyLines, skip := skipLine s }

/-- Outcome of a read: the options could not be read, or the options in force and the lines named in the report. -/
inductive Outcome
  | fault
  | read (g : Cfg) (report : List Nat)

/-- A read, read_csv.hpp:294-352.  `stored g file` is the numbers that the tokenizer stores as skipped lines in the file
(tokenizer.c:927-937).  They are added to the set (`parser_store_skipped_row`), and the report has the whole set
(read_csv.hpp:106-121).  `parser_reset` clears neither the set nor `skip_first_N_rows`. -/
def step (stored : Cfg → List Nat → List Nat) (s : S) (r : Opts × List Nat) : Outcome × S :=
  match readOptions r.1 s with
  | (false, s) => (.fault, s)
  | (true, s) =>
    let g := cfg r.1 s
    let skipped := s.skipped ++ stored g r.2
    (.read g skipped, { s with skipped })

/-- The handle after a number of reads. -/
def after (stored : Cfg → List Nat → List Nat) (h : List (Opts × List Nat)) : S := h.foldl (fun s r => (step stored s r).2) {}

end Verif.Tokenizer.Reader
