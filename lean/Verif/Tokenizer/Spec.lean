/-
A writer of CSV files, independent of the tokeniser.
-/
namespace Verif.Tokenizer

abbrev Cell := List Nat

/-- Line ends. -/
inductive Eol | nl | crnl | cr
deriving DecidableEq

/-- The characters of a writer.  `doubled`: a quote in a cell is written twice; otherwise it is preceded by the escape
character.  `newline` is the character of `Eol.nl`. -/
structure Style where
  quote : Nat
  escape : Nat
  delimiter : Nat
  newline : Nat
  doubled : Bool

def writeChar (s : Style) (c : Nat) : List Nat :=
  if c = s.quote then [if s.doubled then s.quote else s.escape, s.quote]
  else if c = s.escape then [s.escape, s.escape]
  else [c]

def writeCell (s : Style) (cell : Cell) : List Nat := s.quote :: (cell.flatMap (writeChar s) ++ [s.quote])

def Eol.bytes (s : Style) : Eol → List Nat
  | .nl => [s.newline]
  | .crnl => [13, 10]
  | .cr => [13]

/-- A row: the cells with delimiters between them, and the line end. -/
def writeRow (s : Style) (e : Eol) : List Cell → List Nat
  | [] => e.bytes s
  | [c] => writeCell s c ++ e.bytes s
  | c :: d :: cs => writeCell s c ++ s.delimiter :: writeRow s e (d :: cs)

def writeTable (s : Style) (rows : List (List Cell × Eol)) : List Nat := rows.flatMap (fun r => writeRow s r.2 r.1)

/-- The rows whose number, counted from `n`, is not to be skipped. -/
def kept {α : Type} (skip : Nat → Bool) : Nat → List α → List α
  | _, [] => []
  | n, r :: rs => if skip n then kept skip (n + 1) rs else r :: kept skip (n + 1) rs

end Verif.Tokenizer
