/-
What a data store should contain: the matrix that a history of calls assembles.
-/
import Verif.DataStore.Model

namespace Verif.DataStore
open Verif.IntervalSet (Ivl)
variable {V : Type}

/-- A dense block supplied by the user. -/
structure Piece (V : Type) where
  m : Int
  n : Int
  ty : Ty
  order : Order
  data : Int → V

/-- The element in row `r` and column `c` of a block. -/
def Piece.cell (p : Piece V) (r c : Int) : V :=
  match p.order with
  | .row => p.data (r * p.n + c)
  | .col => p.data (c * p.m + r)

/-- Columns that came in one block. -/
structure Span where
  lo : Int
  hi : Int
  /-- The last rows of these columns came in a block together with those of other spans. -/
  shared : Bool

/-- The contents of a store. -/
structure Mat (V : Type) where
  n : Int := 0
  ty : Int → Ty := fun _ => .int
  /-- Number of values supplied for a column. -/
  rows : Int → Int := fun _ => 0
  /-- The value supplied for row `i` and column `j`. -/
  cell : Int → Int → Option V := fun _ _ => none
  spans : List Span := []
  /-- First column of the next block of rows; not zero if the last rows are incomplete. -/
  start : Int := 0
  /-- Number of rows that are being added. -/
  add : Int := 0

/-- The span has columns in `[a, b)`. -/
def Span.meets (x : Span) (a b : Int) : Bool := decide (x.lo < b) && decide (a ≤ x.hi)

/-- Columns to the right; `none` if that is not possible. -/
def Mat.addCols (g : Mat V) (p : Piece V) : Option (Mat V) :=
  if g.start = 0 ∧ 0 < p.m ∧ 0 < p.n ∧ (g.n = 0 ∨ p.m = g.rows 0) then
    let new (j : Int) : Bool := decide (g.n ≤ j) && decide (j < g.n + p.n)
    some { g with
      n := g.n + p.n
      ty := fun j => if new j then p.ty else g.ty j
      rows := fun j => if new j then p.m else g.rows j
      cell := fun i j => if new j then (if 0 ≤ i ∧ i < p.m then some (p.cell i (j - g.n)) else none) else g.cell i j
      spans := g.spans ++ [⟨g.n, g.n + p.n - 1, false⟩] }
  else none

/-- Rows at the bottom, for the columns from `start` on; `none` if that is not possible: the block must fit,
have the number of rows that are being added, and end where a span ends, and the types must agree. -/
def Mat.addRows (g : Mat V) (p : Piece V) : Option (Mat V) :=
  if g.n = 0 then g.addCols p
  else if 0 < p.m ∧ 0 < p.n ∧ g.start + p.n ≤ g.n ∧ (g.start ≠ 0 → p.m = g.add) ∧
      (∀ x ∈ g.spans, x.meets g.start (g.start + p.n) → x.hi < g.start + p.n ∧ g.ty x.lo = p.ty) then
    let stop := g.start + p.n
    let new (j : Int) : Bool := decide (g.start ≤ j) && decide (j < stop)
    let one := g.spans.any fun x => decide (x.lo = g.start) && decide (x.hi = stop - 1)
    some { g with
      rows := fun j => if new j then g.rows j + p.m else g.rows j
      cell := fun i j => if new j ∧ g.rows j ≤ i then
          (if i < g.rows j + p.m then some (p.cell (i - g.rows j) (j - g.start)) else none) else g.cell i j
      spans := g.spans.map fun x => if x.meets g.start stop then { x with shared := x.shared || !one } else x
      start := if stop < g.n then stop else 0
      add := p.m }
  else none

/-- The columns of another matrix to the right. -/
def Mat.append (g h : Mat V) : Option (Mat V) :=
  if g.start = 0 ∧ h.start = 0 ∧ (g.n = 0 ↔ h.n = 0) ∧ (g.n ≠ 0 → g.rows 0 = h.rows 0) then
    some { g with
      n := g.n + h.n
      ty := fun j => if g.n ≤ j then h.ty (j - g.n) else g.ty j
      rows := fun j => if g.n ≤ j then h.rows (j - g.n) else g.rows j
      cell := fun i j => if g.n ≤ j then h.cell i (j - g.n) else g.cell i j
      spans := g.spans ++ h.spans.map fun x => { x with lo := x.lo + g.n, hi := x.hi + g.n } }
  else none

/-- Another value at one position. -/
def Mat.set (g : Mat V) (ty : Ty) (i j : Int) (v : V) : Option (Mat V) :=
  if 0 ≤ j ∧ j < g.n ∧ 0 ≤ i ∧ i < g.rows j ∧ g.ty j = ty then
    some { g with cell := fun i' j' => if i' = i ∧ j' = j then some v else g.cell i' j' }
  else none

/-- How a store came about. -/
inductive Hist (V : Type)
  | empty
  | cols (h : Hist V) (p : Piece V)
  | rows (h : Hist V) (p : Piece V)
  | hconcat (h k : Hist V)
  | set (h : Hist V) (ty : Ty) (i j : Int) (v : V)

/-- The matrix assembled by the calls: a call that is not possible changes nothing. -/
def contents : Hist V → Mat V
  | .empty => {}
  | .cols h p => ((contents h).addCols p).getD (contents h)
  | .rows h p => ((contents h).addRows p).getD (contents h)
  | .hconcat h k => ((contents h).append (contents k)).getD (contents h)
  | .set h ty i j v => ((contents h).set ty i j v).getD (contents h)

/-- The store after the calls. -/
def exec : Hist V → Option (Store V)
  | .empty => some {}
  | .cols h p => (exec h).bind fun s => (concatCols s p.m p.n p.ty p.order p.data).map Prod.snd
  | .rows h p => (exec h).bind fun s => (concatRows s p.m p.n p.ty p.order p.data).map Prod.snd
  | .hconcat h k => (exec h).bind fun s => (exec k).bind fun t => (horizontalConcat s t).map Prod.snd
  | .set h ty i j v => (exec h).bind fun s => (setElement s ty i j v).map Prod.snd

/-- The number of rows, counting those that are being added. -/
def Mat.m (g : Mat V) : Int := if g.n = 0 then 0 else g.rows 0

/-- Rows are added to columns whose last rows did not come in a block together with those of other spans, and
while rows are incomplete only by blocks that continue them. -/
def rowsSupported (g : Mat V) (p : Piece V) : Prop :=
  0 < p.m → 0 < p.n → g.start + p.n ≤ g.n →
    (∀ x ∈ g.spans, x.meets g.start (g.start + p.n) → x.shared = false) ∧
    (g.start ≠ 0 → p.m = g.add ∧
      ∀ x ∈ g.spans, x.meets g.start (g.start + p.n) → x.hi < g.start + p.n ∧ g.ty x.lo = p.ty)

/-- The row `i` is outside the store, or a value has been supplied for it in column `j`. -/
def elementSupported (g : Mat V) (i j : Int) : Prop := 0 ≤ j → j < g.n → i < g.m → i < g.rows j

/-- The histories for which the store works. -/
def Supported : Hist V → Prop
  | .empty => True
  | .cols h _ => Supported h
  | .rows h p => Supported h ∧ rowsSupported (contents h) p
  | .hconcat h k => Supported h ∧ Supported k
  | .set h _ i j _ => Supported h ∧ elementSupported (contents h) i j

/-- What is wanted of a store with the contents `g`. -/
structure Agrees (s : Store V) (g : Mat V) : Prop where
  dims : s.n = g.n ∧ s.m = g.m
  complete : s.missing = true ↔ g.start ≠ 0
  read : ∀ i j, 0 ≤ j → j < g.n → 0 ≤ i → i < g.m → (g.start = 0 → i < g.rows j) ∧
    (i < g.rows j → ∃ v, g.cell i j = some v ∧ getElement s (g.ty j) i j = some (.success, some v) ∧
      ∀ ty, ty ≠ g.ty j → getElement s ty i j = some (.invalidInput, none))
  refuse : ∀ ty i j, (i < 0 ∨ g.m ≤ i ∨ j < 0 ∨ g.n ≤ j) → getElement s ty i j = some (.invalidInput, none)

/-! ### Selections -/

/-- A call of `da_data_select_columns`, `da_data_select_rows` or `da_data_select_slice`. -/
inductive SelCall
  | cols (key : String) (c : Ivl)
  | rows (key : String) (r : Ivl)
  | slice (key : String) (r c : Ivl)

/-- The selections after the calls. -/
def runSel (s : Store V) (calls : List SelCall) : Sels :=
  calls.foldl (fun sels c =>
    match c with
    | .cols key c => (selectColumns s sels key c).2
    | .rows key r => (selectRows s sels key r).2
    | .slice key r c => (selectSlice s sels key r c).2) []

/-- The call adds the rows of an interval, or the columns of an interval. -/
def SelCall.rowIvl : SelCall → Option Ivl
  | .cols _ _ => none
  | .rows _ r => some r
  | .slice _ r _ => some r
def SelCall.colIvl : SelCall → Option Ivl
  | .cols _ c => some c
  | .rows _ _ => none
  | .slice _ _ c => some c

def SelCall.key : SelCall → String
  | .cols key _ => key
  | .rows key _ => key
  | .slice key _ _ => key

/-- The intervals of the call are not empty and within the matrix. -/
def SelCall.ok (g : Mat V) (c : SelCall) : Prop :=
  (∀ i, c.rowIvl = some i → 0 ≤ i.lower ∧ i.lower ≤ i.upper ∧ i.upper < g.m) ∧
  (∀ i, c.colIvl = some i → 0 ≤ i.lower ∧ i.lower ≤ i.upper ∧ i.upper < g.n)

/-- Something has been selected under the name. -/
def Named (g : Mat V) (calls : List SelCall) (key : String) : Prop := ∃ c ∈ calls, c.ok g ∧ c.key = key

/-- The row is in one of the intervals given for the name; the column is. -/
def RowGiven (g : Mat V) (calls : List SelCall) (key : String) (r : Int) : Prop :=
  ∃ c ∈ calls, c.ok g ∧ c.key = key ∧ ∃ i, c.rowIvl = some i ∧ i.lower ≤ r ∧ r ≤ i.upper
def ColGiven (g : Mat V) (calls : List SelCall) (key : String) (j : Int) : Prop :=
  ∃ c ∈ calls, c.ok g ∧ c.key = key ∧ ∃ i, c.colIvl = some i ∧ i.lower ≤ j ∧ j ≤ i.upper

/-- The selected rows: those given, or all if none are given.  The same for the columns. -/
def RowSel (g : Mat V) (calls : List SelCall) (key : String) (r : Int) : Prop :=
  RowGiven g calls key r ∨ (0 ≤ r ∧ r < g.m ∧ ∀ r', ¬ RowGiven g calls key r')
def ColSel (g : Mat V) (calls : List SelCall) (key : String) (j : Int) : Prop :=
  ColGiven g calls key j ∨ (0 ≤ j ∧ j < g.n ∧ ∀ j', ¬ ColGiven g calls key j')

/-- The array `o'` has the sub-matrix of the rows `rs` and columns `cs`, element `(t, q)` of which is at position
`pos t q`, and is as `o` elsewhere. -/
def SubMatrix (g : Mat V) (rs cs : List Int) (pos : Int → Int → Int) (o o' : Int → V) : Prop :=
  (∀ (t q : Nat) r c, rs[t]? = some r → cs[q]? = some c → g.cell r c = some (o' (pos t q))) ∧
  (∀ k, (∀ t q : Nat, t < rs.length → q < cs.length → k ≠ pos t q) → o' k = o k)

end Verif.DataStore
