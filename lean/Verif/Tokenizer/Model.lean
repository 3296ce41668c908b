/-
Tokeniser of CSV files, /repo/source/core/csv/tokenizer.c, and the function that reads the file,
/repo/source/core/csv/parser.hpp:44-78.

A byte is a natural number.  `words` holds the positions of the words in `stream` (the code holds also pointers to
them, which it keeps up to date).  Memory exhaustion, messages and the list of skipped lines for the warning are not
modelled, counts are unbounded.  `usecols` is 1, `expected_fields` is -1, `header_end + 1` is 0 and `quoting` is
QUOTE_MINIMAL in all calls of the library, `tokenize_all_rows` is the only entry and the line limit of
`tokenize_bytes` is not reached.

The case distinction of `tokenize_bytes` is written as a function that gives the list of operations of a branch.
-/
import Verif.CsvTable.Model
namespace Verif.Tokenizer

/-- `ParserState`, tokenizer.h:68-87. -/
inductive St
  | startRecord | startField | escapedChar | inField | inQuotedField | escapeInQuotedField | quoteInQuotedField
  | eatCrnl | eatCrnlNop | eatWhitespace | eatComment | eatLineComment | whitespaceLine
  | startFieldSkip | inFieldSkip | inQuotedFieldSkip | quoteInQuotedFieldSkip | finished
deriving DecidableEq, Repr

/-- Options of the parser, tokenizer.h:133-165; 0 is the character of an option that is empty.  `skip` is
`skip_this_line` (tokenizer.c:755-765) as a function of the number of the line in the file. -/
structure Cfg where
  delimiter : Nat := 44
  quote : Nat := 34
  escape : Nat := 92
  comment : Nat := 35
  terminator : Nat := 0
  delimWhitespace : Bool := false
  skipInitialSpace : Bool := false
  doubleQuote : Bool := false
  skipEmptyLines : Bool := false
  skip : Nat → Bool := fun _ => false

/-- The code has `limits = true` and `pad = true`.  Without limits buffers are as large as needed, without `pad` lines
are left as they are in the file. -/
structure Mode where
  limits : Bool
  pad : Bool

def code : Mode := ⟨true, true⟩

/-- `parser_t` after `parser_init` or `parser_reset`, tokenizer.c:181-226 and 228-293.  `lineStart` and `lineFields` have
the finished lines, `curStart` and `curFields` the entries of the line that is being read. -/
structure P where
  state : St := .startRecord
  stream : List Nat := []
  streamCap : Nat := 32
  wordStart : Nat := 0
  words : List Nat := []
  wordsCap : Nat := 3
  lineStart : List Nat := []
  lineFields : List Nat := []
  curStart : Nat := 0
  curFields : Nat := 0
  linesCap : Nat := 3
  fileLines : Nat := 0
deriving DecidableEq

/-- `grow_buffer`, tokenizer.c:66-92: `need` is `length + space`. -/
def growLoop (need : Nat) : Nat → Nat → Nat
  | 0, cap => cap
  | k + 1, cap => if need ≥ cap then growLoop need k (if cap = 0 then 2 else 2 * cap) else cap
def grow (need cap : Nat) : Nat := growLoop need (need + 2) cap

/-- `make_stream_space`, tokenizer.c:302-411.  `max_words_cap` is 3: it is only changed by `parser_trim_buffers`, which
is not called. -/
def makeSpace (p : P) (n : Nat) : P :=
  let length := if p.words.length + n < 3 then 3 - n - 1 else p.words.length
  { p with streamCap := grow (p.stream.length + 2 * n) p.streamCap
           wordsCap := grow (length + n) p.wordsCap
           linesCap := grow (p.lineFields.length + 1 + n) p.linesCap }

/-- `PUSH_CHAR`, tokenizer.c:675-689. -/
def push (m : Mode) (p : P) (c : Nat) : Except P P :=
  if m.limits && decide (p.stream.length ≥ p.streamCap) then .error p
  else .ok { p with stream := p.stream ++ [c] }

/-- `end_field`, tokenizer.c:429-462.  The result of `push_char` (413-427) is ignored: if the stream is full, the word is
not terminated. -/
def endField (m : Mode) (p : P) : Except P P :=
  if m.limits && decide (p.words.length ≥ p.wordsCap) then .error p
  else
    let stream := if m.limits && decide (p.stream.length ≥ p.streamCap) then p.stream else p.stream ++ [0]
    .ok { p with stream := stream, words := p.words ++ [p.wordStart], curFields := p.curFields + 1, wordStart := stream.length }

/-- `while (fields < ex_fields) end_field(self)`, tokenizer.c:558-561; the result of `end_field` is ignored. -/
def padLoop (m : Mode) : Nat → P → P
  | 0, p => p
  | k + 1, p => padLoop m k (match endField m p with | .ok q => q | .error q => q)

def St.skipping : St → Bool
  | .startFieldSkip | .inFieldSkip | .inQuotedFieldSkip | .quoteInQuotedFieldSkip => true
  | _ => false

/-- `end_line`, tokenizer.c:483-596.  The branch for lines with too many fields is dead because of `usecols`. -/
def endLine (m : Mode) (p : P) : Except P P :=
  if p.state.skipping then .ok { p with fileLines := p.fileLines + 1, curStart := p.curStart + p.curFields, curFields := 0 }
  else
    let fields := p.curFields
    let ex := p.lineFields.getLast?.getD 0   -- -1 in the code before the first line
    let missing := if m.pad then ex - fields else 0
    let p := if missing = 0 then p else padLoop m missing (makeSpace p missing)
    let q := { p with fileLines := p.fileLines + 1, lineStart := p.lineStart ++ [p.curStart], lineFields := p.lineFields ++ [p.curFields],
                      curStart := p.curStart + (fields + missing), curFields := 0 }
    if m.limits && decide (q.lineFields.length ≥ q.linesCap) then .error q else .ok q

/-- What a branch of `tokenize_bytes` does. -/
inductive Op
  | state (s : St)     -- self->state = s
  | line               -- self->file_lines++
  | push               -- PUSH_CHAR(c)
  | field              -- end_field, as in END_FIELD
  | endLine            -- end_line, as in END_LINE_STATE
deriving DecidableEq

def Op.exec (m : Mode) (c : Nat) (p : P) : Op → Except P P
  | .state s => .ok { p with state := s }
  | .line => .ok { p with fileLines := p.fileLines + 1 }
  | .push => Tokenizer.push m p c
  | .field => endField m p
  | .endLine => Tokenizer.endLine m p

/-- Where the loop continues: at the next byte, at the same byte (`--i; --buf;`), or at the begin of the line as
far as it is in the buffer. -/
inductive Move | next | again | back
deriving DecidableEq

section
variable (g : Cfg)

/-- The macros of tokenizer.c:729-746 and the constants at 775-782; `isblank` in the "C" locale. -/
def isTerminator (c : Nat) : Bool := c == (if g.terminator = 0 then 10 else g.terminator)
def isCarriage (c : Nat) : Bool := g.terminator == 0 && c == 13
def isQuote (c : Nat) : Bool := c == g.quote
def isComment (c : Nat) : Bool := g.comment != 0 && c == g.comment
def isEscape (c : Nat) : Bool := g.escape != 0 && c == g.escape
def isBlank (c : Nat) : Bool := c == 32 || c == 9
def isSkippable (c : Nat) : Bool := !g.delimWhitespace && c == 32 && g.skipInitialSpace
def isDelimiter (c : Nat) : Bool := (!g.delimWhitespace && c == g.delimiter) || (g.delimWhitespace && isBlank c)

/-- `case START_FIELD`, tokenizer.c:959-994. -/
def actStartField (c : Nat) : List Op :=
  if isTerminator g c then [.field, .endLine, .state .startRecord]
  else if isCarriage g c then [.field, .state .eatCrnl]
  else if isQuote g c then [.state .inQuotedField]
  else if isEscape g c then [.state .escapedChar]
  else if isSkippable g c then []
  else if isDelimiter g c then (if g.delimWhitespace then [.state .eatWhitespace] else [.field])
  else if isComment g c then [.field, .state .eatComment]
  else [.push, .state .inField]

/-- `case START_RECORD`, tokenizer.c:905-957, which falls through to START_FIELD. -/
def actStartRecord (skip : Bool) (c : Nat) : List Op :=
  if skip then
    if isQuote g c then [.state .inQuotedFieldSkip]
    else if isTerminator g c then [.state .inFieldSkip, .endLine, .state .startRecord]
    else [.state .inFieldSkip]
  else if isTerminator g c then (if g.skipEmptyLines then [.line] else [.endLine, .state .startRecord])
  else if isCarriage g c then (if g.skipEmptyLines then [.line, .state .eatCrnlNop] else [.state .eatCrnl])
  else if isComment g c then [.state .eatLineComment]
  else if isBlank c && g.delimWhitespace then [.state (if g.skipEmptyLines then .whitespaceLine else .eatWhitespace)]
  else if isBlank c && (c != g.delimiter) && g.skipEmptyLines then [.state .whitespaceLine]
  else .state .startField :: actStartField g c

/-- `case EAT_WHITESPACE`, tokenizer.c:886-903, which falls through to START_RECORD. -/
def actEatWhitespace (skip : Bool) (c : Nat) : List Op :=
  if isTerminator g c then [.endLine, .state .startRecord]
  else if isCarriage g c then [.state .eatCrnl]
  else if isComment g c then [.state .eatComment]
  else if !isBlank c then .state .startField :: actStartRecord g skip c
  else []

/-- The body of the loop of `tokenize_bytes`, tokenizer.c:803-1118. -/
def act (s : St) (skip : Bool) (c : Nat) : List Op × Move :=
  match s with
  | .startFieldSkip =>
    (if isTerminator g c then [.endLine, .state .startRecord]
    else if isCarriage g c then [.line, .state .eatCrnlNop]
    else if isQuote g c then [.state .inQuotedFieldSkip]
    else if isDelimiter g c then []
    else [.state .inFieldSkip], .next)
  | .inFieldSkip =>
    (if isTerminator g c then [.endLine, .state .startRecord]
    else if isCarriage g c then [.line, .state .eatCrnlNop]
    else if isDelimiter g c then [.state .startFieldSkip]
    else [], .next)
  | .inQuotedFieldSkip =>
    (if isQuote g c then [.state (if g.doubleQuote then .quoteInQuotedFieldSkip else .inFieldSkip)] else [], .next)
  | .quoteInQuotedFieldSkip =>
    (if isQuote g c then [.state .inQuotedFieldSkip]
    else if isTerminator g c then [.endLine, .state .startRecord]
    else if isCarriage g c then [.line, .state .eatCrnlNop]
    else if isDelimiter g c then [.state .startFieldSkip]
    else [.state .inFieldSkip], .next)
  | .whitespaceLine =>
    if isTerminator g c then ([.line, .state .startRecord], .next)
    else if isCarriage g c then ([.line, .state .eatCrnlNop], .next)
    else if !g.delimWhitespace then
      if isBlank c && c != g.delimiter then ([], .next) else ([.state .startField], .back)
    else (actEatWhitespace g skip c, .next)
  | .eatWhitespace => (actEatWhitespace g skip c, .next)
  | .startRecord => (actStartRecord g skip c, .next)
  | .startField => (actStartField g c, .next)
  | .escapedChar => ([.push, .state .inField], .next)
  | .eatLineComment =>
    (if isTerminator g c then [.line, .state .startRecord]
    else if isCarriage g c then [.line, .state .eatCrnlNop]
    else [], .next)
  | .inField =>
    (if isTerminator g c then [.field, .endLine, .state .startRecord]
    else if isCarriage g c then [.field, .state .eatCrnl]
    else if isEscape g c then [.state .escapedChar]
    else if isDelimiter g c then [.field, .state (if g.delimWhitespace then .eatWhitespace else .startField)]
    else if isComment g c then [.field, .state .eatComment]
    else [.push], .next)
  | .inQuotedField =>
    (if isEscape g c then [.state .escapeInQuotedField]
    else if isQuote g c then [.state (if g.doubleQuote then .quoteInQuotedField else .inField)]
    else [.push], .next)
  | .escapeInQuotedField => ([.push, .state .inQuotedField], .next)
  | .quoteInQuotedField =>
    (if isQuote g c then [.push, .state .inQuotedField]
    else if isDelimiter g c then [.field, .state (if g.delimWhitespace then .eatWhitespace else .startField)]
    else if isTerminator g c then [.field, .endLine, .state .startRecord]
    else if isCarriage g c then [.field, .state .eatCrnl]
    else [.push, .state .inField], .next)
  | .eatComment =>
    (if isTerminator g c then [.endLine, .state .startRecord]
    else if isCarriage g c then [.state .eatCrnl]
    else [], .next)
  | .eatCrnl =>
    if c == 10 then ([.endLine, .state .startRecord], .next)
    else if isDelimiter g c then
      (if g.delimWhitespace then [.endLine, .state .eatWhitespace] else [.endLine, .field, .state .startField], .next)
    else ([.endLine, .state .startRecord], .again)
  | .eatCrnlNop => ([.state .startRecord], if c != 10 && !isDelimiter g c then .again else .next)
  | .finished => ([], .next)

variable (m : Mode)

/-- One turn of the loop.  `.error` is the error exit, which returns a negative status. -/
def step (p : P) (c : Nat) : Except P (P × Move) :=
  let a := act g p.state (g.skip p.fileLines) c
  match a.1.foldlM (Op.exec m c) p with
  | .ok q => .ok (q, a.2)
  | .error q => .error q

/-- The backtracking of WHITESPACE_LINE, tokenizer.c:871-880: `pre` are the bytes before the current one, last first. -/
def rewind : List Nat → List Nat → List Nat × List Nat
  | [], rest => ([], rest)
  | x :: pre, rest => if isTerminator g x then (x :: pre, rest) else rewind pre (x :: rest)

/-- The loop, tokenizer.c:803-1118; `none` when it does not end within `fuel` turns. -/
def loop : Nat → List Nat → List Nat → P → Option (Except P P)
  | _, _, [], p => some (.ok p)
  | 0, _, _ :: _, _ => none
  | fuel + 1, pre, c :: rest, p =>
    match step g m p c with
    | .error q => some (.error q)
    | .ok (q, .next) => loop fuel (c :: pre) rest q
    | .ok (q, .again) => loop fuel pre (c :: rest) q
    | .ok (q, .back) => let r := rewind g pre (c :: rest); loop fuel r.1 r.2 q

/-- `CHECK_FOR_BOM`, tokenizer.c:749-753 and 799-801; `none` when bytes behind the end of the data are looked at. -/
def skipBom (fileLines : Nat) (data : List Nat) : Option (List Nat) :=
  if fileLines ≠ 0 then some data
  else
    match data with
    | 0xEF :: 0xBB :: 0xBF :: rest => some rest
    | [0xEF] => none
    | [0xEF, 0xBB] => none
    | _ => some data

/-- How a call ends. -/
inductive Outcome
  | done (ok : Bool) (p : P)
  | unspecified                -- depends on bytes that nobody has written
  | unfinished                 -- more than `fuel` turns for one chunk
deriving DecidableEq

/-- `parser_handle_eof`, tokenizer.c:1142-1183. -/
def handleEof (p : P) : Outcome :=
  let close (p : P) : Outcome :=
    match endLine m p with
    | .ok q => .done true { q with state := .finished }
    | .error q => .done false { q with state := .finished }
  match p.state with
  | .startRecord | .whitespaceLine | .eatCrnlNop | .eatLineComment => .done true { p with state := .finished }
  | .escapeInQuotedField | .inQuotedField | .escapedChar => .done false { p with state := .finished }
  | .inField | .startField | .quoteInQuotedField =>
    match endField m p with
    | .ok q => close q
    | .error q => .done false { q with state := .finished }
  | _ => close p

/-- How reading the file ends, parser.hpp:44-78. -/
inductive Ending | eof | failed
deriving DecidableEq

/-- `_tokenize_helper`, tokenizer.c:1384-1429, for `tokenize_all_rows`, with the chunks that `read_bytes` delivers
(none of them is empty; one that were empty would be taken for the end of the file). -/
def tokenize (fuel : Nat) : List (List Nat) → Ending → P → Outcome
  | [], .eof, p => handleEof m p
  | [], .failed, p => .done false p
  | ch :: rest, e, p =>
    if ch.isEmpty then handleEof m p
    else
      match skipBom p.fileLines ch with
      | none => .unspecified
      | some data =>
        match loop g m fuel [] data (if m.limits then makeSpace p ch.length else p) with
        | none => .unfinished
        | some (.error q) => .done false q
        | some (.ok q) => tokenize fuel rest e q
end

/-- The C string at a position; `none` when it is not terminated. -/
def cstring (stream : List Nat) (start : Nat) : Option (List Nat) :=
  let s := stream.drop start
  if 0 ∈ s then some (s.takeWhile (· ≠ 0)) else none

/-- What the rest of the library sees of a parser. -/
def table (p : P) : CsvTable.Tok (Option (List Nat)) :=
  ⟨p.words.map (cstring p.stream), p.lineStart, p.lineFields⟩

/-- `DEFAULT_CHUNKSIZE`, tokenizer.c:34, and the chunks of a file. -/
def chunkSize : Nat := 256 * 1024
def chunksOf (n : Nat) : Nat → List Nat → List (List Nat)
  | 0, _ => []
  | _ + 1, [] => []
  | k + 1, x :: xs => (x :: xs).take n :: chunksOf n k ((x :: xs).drop n)
def chunks (file : List Nat) : List (List Nat) := chunksOf chunkSize file.length file

end Verif.Tokenizer
