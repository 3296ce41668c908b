import Verif.Parse.Model

/-
Model of the automatic column typing of CSV data
(`source/core/data_management/auto_detect_csv.hpp` 40-252).
-/
namespace Verif.AutoDetect

inductive Order | rowMajor | colMajor
deriving DecidableEq

/-- The value `get_number` (auto_detect_csv.hpp 150-172) leaves in `output`, or
`text` when every reader failed. -/
inductive Elem (R : Type) where
  | int (v : Int)
  | real (v : R)
  | bool (v : Nat)
  | text
deriving DecidableEq

/-- One entry of `columns`: the variant of vectors (auto_detect_csv.hpp 40-42).  `float`
and `double` never occur together (the precision is fixed during a call) and are one
case.  A `char **` entry is represented by the index into `data` it points to. -/
inductive Col (R : Type) where
  | ints (l : List Int)
  | reals (l : List R)
  | bools (l : List Nat)
  | chars (l : List Nat)
deriving DecidableEq

/-- Index of cell (row `j`, column `i`) (auto_detect_csv.hpp 52-59, 200-207). -/
def dataIndex (o : Order) (nrows ncols j i : Nat) : Nat :=
  match o with
  | .rowMajor => i + ncols * j
  | .colMajor => j + nrows * i

/-- `convert_col_to_char` (auto_detect_csv.hpp 48-64). -/
def convertToChar {R : Type} (o : Order) (nrows ncols i j : Nat) : Col R :=
  .chars ((List.range (j + 1)).map (fun k => dataIndex o nrows ncols k i))

/-- The `update_column` overloads (auto_detect_csv.hpp 67-145).  `none` is reading
behind the end of the integer column. -/
def updateColumn {R : Type} (ofInt : Int → R) (o : Order) (nrows ncols i j : Nat) (e : Elem R)
    (col : Col R) : Option (Col R) :=
  match e with
  | .bool b =>
    match col with
    | .bools l => some (.bools (l ++ [b]))
    | _ => if j = 0 then some (.bools [b]) else some (convertToChar o nrows ncols i j)
  | .int v =>
    match col with
    | .ints l => some (.ints (l ++ [v]))
    | .reals l => some (.reals (l ++ [ofInt v]))
    | _ => some (convertToChar o nrows ncols i j)
  | .real v =>
    match col with
    | .reals l => some (.reals (l ++ [v]))
    | .ints l =>
      if j ≤ l.length then some (.reals ((l.take j).map ofInt ++ [v])) else none
    | _ => some (convertToChar o nrows ncols i j)
  | .text => some (convertToChar o nrows ncols i j)

/-- `char_col->push_back(&data[data_index])` for a column that is already a string column
(auto_detect_csv.hpp 209-213). -/
def extendChars {R : Type} (idx : Nat) : Col R → Col R
  | .chars l => .chars (l ++ [idx])
  | c => c

/-- The body of the double loop for row `j`, column `i` (auto_detect_csv.hpp 209-247):
an existing string column is extended first, and is then rebuilt in any case. -/
def cellStep {R : Type} (ofInt : Int → R) (o : Order) (nrows ncols : Nat)
    (number : Nat → Option (Elem R)) (j i : Nat) (cols : List (Col R)) : Option (List (Col R)) :=
  match cols[i]?, number (dataIndex o nrows ncols j i) with
  | some col, some e =>
    (updateColumn ofInt o nrows ncols i j e (extendChars (dataIndex o nrows ncols j i) col)).map (cols.set i)
  | _, _ => none

/-- `detect_columns` (auto_detect_csv.hpp 175-252).  `number k` is the result of
`get_number` on `data[k]`; `none` is undefined behaviour of a reader or an index outside
the data. -/
def detectColumns {R : Type} (ofInt : Int → R) (o : Order) (nrows ncols : Nat)
    (number : Nat → Option (Elem R)) : Option (List (Col R)) :=
  (List.range nrows).foldlM
    (fun cols j => (List.range ncols).foldlM
      (fun cols i => cellStep ofInt o nrows ncols number j i cols) cols)
    (List.replicate ncols (.ints []))

open Verif.Parse in
/-- `get_number` with the readers of the given options (auto_detect_csv.hpp 216-233).
`none` is undefined behaviour of the real-number reader. -/
def getNumber (r : Range) (c : FloatCfg) (integersAsFp : Bool) (s : List Nat) :
    Option (Elem Rat) :=
  let realOrBool : Option (Elem Rat) :=
    match parseFloat c s with
    | .ub => none
    | .ok v _ => some (.real v)
    | .err =>
      match parseBool s with
      | .ok b _ => some (.bool b)
      | _ => some .text
  if integersAsFp then realOrBool
  else
    match parseInt r c.tsep s with
    | .ub => none
    | .ok v _ => some (.int v)
    | .err => realOrBool

end Verif.AutoDetect
