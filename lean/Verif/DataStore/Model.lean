/-
Data store: blocks, concatenation, element access and extraction,
/repo/source/core/data_management/data_store.hpp:174-280 and 358-1333.

Objects of class `block_id` are entries of a list, pointers to them are positions in it and a
null pointer is `none`.  Results are `none` when the code has undefined behaviour (a null
pointer is dereferenced) or does not terminate.  Walks along `next` are bounded by the number
of objects: a longer walk has met an object twice and never ends.

`V` is the type of all values; the C++ type of a block is a tag.  A block owns its data
(data that the user's pointer still refers to is supposed not to change and not to be shared
between blocks).  `da_int` is unbounded, memory exhaustion is not modelled, error messages
are reduced to the status.
-/
import Verif.IntervalMap.Model
import Verif.IntervalSet.Model
namespace Verif.DataStore
open Verif.IntervalMap (Entry)
open Verif.IntervalSet (Ivl)

/-- `block_type` of the data that can be loaded, data_store.hpp:56-100. -/
inductive Ty | int | single | double | bool | chars
deriving DecidableEq, Repr

inductive Order | row | col
deriving DecidableEq, Repr

inductive Status | success | invalidInput | missingBlock | internalError | fullExtraction
deriving DecidableEq, Repr

/-- `block_dense`, data_store.hpp:174-214. -/
structure Block (V : Type) where
  m : Int
  n : Int
  ty : Ty
  order : Order
  bl : Int → V

/-- `block_id`, data_store.hpp:360-377. -/
structure Node (V : Type) where
  b : Block V
  offset : Int
  next : Option Nat
  leftParent : Option Nat

/-- Members of `data_store` for the data itself, data_store.hpp:405-413. -/
structure Store (V : Type) where
  m : Int := 0
  n : Int := 0
  cmap : List (Entry Nat) := []
  heap : List (Node V) := []
  missing : Bool := false
  startMissing : Int := 0

variable {V : Type}

def setNext (heap : List (Node V)) (i : Nat) (p : Option Nat) : List (Node V) :=
  heap.modify i fun nd => { nd with next := p }

def setLeftParent (heap : List (Node V)) (i : Nat) (p : Option Nat) : List (Node V) :=
  heap.modify i fun nd => { nd with leftParent := p }

def setOffset (heap : List (Node V)) (i : Nat) (o : Int) : List (Node V) :=
  heap.modify i fun nd => { nd with offset := o }

/-- `concatenate_columns`, data_store.hpp:463-510.  The result of `cmap.insert` is not looked at. -/
def concatCols (s : Store V) (mc nc : Int) (ty : Ty) (order : Order) (data : Int → V) : Option (Status × Store V) :=
  if s.missing then some (.missingBlock, s)
  else if mc ≤ 0 then some (.invalidInput, s)
  else if nc ≤ 0 then some (.invalidInput, s)
  else if s.m > 0 ∧ s.m ≠ mc then some (.invalidInput, s)
  else
    let nd : Node V := ⟨⟨mc, nc, ty, order, data⟩, s.n, none, none⟩
    match IntervalMap.insert false s.cmap s.n (s.n + nc - 1) s.heap.length with
    | none => none
    | some (_, cmap) =>
      some (.success, { s with cmap := cmap, heap := s.heap ++ [nd], m := if s.m = 0 then mc else s.m, n := s.n + nc })

/-- `while (current_block->next != nullptr) current_block = current_block->next;`, data_store.hpp:571-572. -/
def lastNode (heap : List (Node V)) : Nat → Nat → Option Nat
  | 0, _ => none
  | fuel + 1, i =>
    match heap[i]? with
    | none => none
    | some nd =>
      match nd.next with
      | none => some i
      | some j => lastNode heap fuel j

/-- The loop that attaches the new block, data_store.hpp:560-576.  The Boolean is `cleanup`. -/
def attach (cmap : List (Entry Nat)) (ty : Ty) (idxStart nr : Int) (new : Nat) :
    Nat → Int → List (Node V) → Option (Bool × List (Node V))
  | 0, _, _ => none
  | fuel + 1, ub, heap =>
    if ub < idxStart + nr - 1 then
      match IntervalMap.find false cmap (ub + 1) with
      | none => none
      | some none => some (false, heap)
      | some (some e) =>
        match heap[e.val]? with
        | none => none
        | some nd =>
          if ty ≠ nd.b.ty ∨ e.hi > idxStart + nr - 1 then some (true, heap)
          else
            match lastNode heap (heap.length + 1) e.val with
            | none => none
            | some tail =>
              let heap := setNext heap tail (some new)
              match heap[new]? with
              | none => none
              | some b =>
                let heap := if b.leftParent.isNone then setLeftParent heap new (some tail) else heap
                attach cmap ty idxStart nr new fuel e.hi heap
    else some (false, heap)

/-- `while (current_block->next != nullptr) …` of the error path, data_store.hpp:594-599. -/
def unlink (new : Nat) : Nat → Nat → List (Node V) → Option (List (Node V))
  | 0, _, _ => none
  | fuel + 1, i, heap =>
    match heap[i]? with
    | none => none
    | some nd =>
      match nd.next with
      | none => some heap
      | some j => if j = new then some (setNext heap i none) else unlink new fuel j heap

/-- The loop over the columns in the error path, data_store.hpp:586-602. -/
def detach (cmap : List (Entry Nat)) (idxStart nr : Int) (new : Nat) :
    Nat → Int → List (Node V) → Option (List (Node V))
  | 0, _, _ => none
  | fuel + 1, ub, heap =>
    if ub < idxStart + nr - 1 then
      match IntervalMap.find false cmap (ub + 1) with
      | none => none
      | some none => some heap
      | some (some e) =>
        match unlink new (heap.length + 1) e.val heap with
        | none => none
        | some heap => detach cmap idxStart nr new fuel e.hi heap
    else some heap

/-- `concatenate_rows`, data_store.hpp:513-607. -/
def concatRows (s : Store V) (mr nr : Int) (ty : Ty) (order : Order) (data : Int → V) : Option (Status × Store V) :=
  if s.n ≤ 0 then concatCols s mr nr ty order data
  else
    let idxStart := if s.missing then s.startMissing else 0
    if mr ≤ 0 then some (.invalidInput, s)
    else if nr ≤ 0 then some (.invalidInput, s)
    else if s.n > 0 ∧ nr + idxStart > s.n then some (.invalidInput, s)
    else
      let new := s.heap.length
      let heap := s.heap ++ [(⟨⟨mr, nr, ty, order, data⟩, idxStart, none, none⟩ : Node V)]
      let m := if s.missing then s.m else s.m + mr
      match attach s.cmap ty idxStart nr new (nr.toNat + 1) (idxStart - 1) heap with
      | none => none
      | some (false, heap) =>
        if idxStart + nr < s.n then
          some (.success, { s with m := m, heap := heap, missing := true, startMissing := idxStart + nr })
        else some (.success, { s with m := m, heap := heap, missing := false, startMissing := 0 })
      | some (true, heap) =>
        match detach s.cmap idxStart nr new (nr.toNat + 1) (idxStart - 1) heap with
        | none => none
        | some heap => some (.invalidInput, { s with m := m - mr, heap := heap })

/-- The walk along a column of blocks in `horizontal_concat`, data_store.hpp:631-638. -/
def moveOffsets : Nat → Nat → List (Node V) → Option (List (Node V))
  | 0, _, _ => none
  | fuel + 1, i, heap =>
    match heap[i]? with
    | none => none
    | some cur =>
      match cur.next with
      | none => some heap
      | some j =>
        match heap[j]? with
        | none => none
        | some nx =>
          let heap := if nx.leftParent = some i then setOffset heap j cur.offset else heap
          moveOffsets fuel j heap

/-- The loop over the columns of the other store, data_store.hpp:622-643. -/
def moveCols (nOrig : Int) : List (Entry Nat) → Int → List (Entry Nat) → List (Node V) →
    Option (Int × List (Entry Nat) × List (Node V))
  | [], n, cmap, heap => some (n, cmap, heap)
  | e :: es, n, cmap, heap =>
    let nc := e.hi - e.lo + 1
    match heap[e.val]? with
    | none => none
    | some nd =>
      let heap := setOffset heap e.val (nd.offset + nOrig)
      match IntervalMap.insert false cmap n (n + nc - 1) e.val with
      | none => none
      | some (_, cmap) =>
        match moveOffsets (heap.length + 1) e.val heap with
        | none => none
        | some heap => moveCols nOrig es (n + nc) cmap heap

/-- Pointers of another store, after its objects have been put behind `k` others. -/
def shiftNode (k : Nat) (nd : Node V) : Node V :=
  { nd with next := nd.next.map (· + k), leftParent := nd.leftParent.map (· + k) }
def shiftEntry (k : Nat) (e : Entry Nat) : Entry Nat := { e with val := e.val + k }

/-- `horizontal_concat`, data_store.hpp:612-648: the first store afterwards (the second one is destroyed on success,
data_store_public.cpp:110-112).  The objects of the second store are put behind those of the first one. -/
def horizontalConcat (s store : Store V) : Option (Status × Store V) :=
  if s.m ≠ store.m then some (.invalidInput, s)
  else if s.missing || store.missing then some (.invalidInput, s)
  else
    match moveCols s.n (store.cmap.map (shiftEntry s.heap.length)) s.n s.cmap
        (s.heap ++ store.heap.map (shiftNode s.heap.length)) with
    | none => none
    | some (n, cmap, heap) => some (.success, { s with n := n, cmap := cmap, heap := heap })

/-- `get_col`, data_store.hpp:217-237: first position and stride; `none` is the error exit, which leaves `col` null. -/
def getCol (b : Block V) (idx : Int) : Option (Int × Int) :=
  if idx < 0 ∨ idx ≥ b.n then none
  else
    match b.order with
    | .row => some (idx, b.n)
    | .col => some (b.m * idx, 1)

/-- The loop that finds the block of a row, data_store.hpp:1279-1283 and 1318-1322: the block and `offset`. -/
def locate (heap : List (Node V)) : Nat → Option Nat → Int → Int → Option (Nat × Int)
  | 0, _, _, _ => none
  | _ + 1, none, _, _ => none
  | fuel + 1, some id, offset, i =>
    match heap[id]? with
    | none => none
    | some nd =>
      if i ≥ nd.b.m + offset then locate heap fuel nd.next (offset + nd.b.m) i
      else some (id, offset)

/-- `get_element`, data_store.hpp:1256-1294. -/
def getElement (s : Store V) (ty : Ty) (i j : Int) : Option (Status × Option V) :=
  if i < 0 ∨ i ≥ s.m then some (.invalidInput, none)
  else if j < 0 ∨ j ≥ s.n then some (.invalidInput, none)
  else
    match IntervalMap.find false s.cmap j with
    | none => none
    | some none => some (.internalError, none)
    | some (some e) =>
      match s.heap[e.val]? with
      | none => none
      | some nd =>
        if nd.b.ty ≠ ty then some (.invalidInput, none)
        else
          match locate s.heap (i.toNat + 1) (some e.val) 0 i with
          | none => none
          | some (id, offset) =>
            match s.heap[id]? with
            | none => none
            | some nd =>
              match getCol nd.b (j - nd.offset) with
              | none => none
              | some (col, stride) => some (.success, some (nd.b.bl (col + (i - offset) * stride)))

/-- `bl[k] = v` in block `id`. -/
def write (heap : List (Node V)) (id : Nat) (k : Int) (v : V) : List (Node V) :=
  heap.modify id fun nd => { nd with b := { nd.b with bl := fun x => if x = k then v else nd.b.bl x } }

/-- `set_element`, data_store.hpp:1295-1333. -/
def setElement (s : Store V) (ty : Ty) (i j : Int) (v : V) : Option (Status × Store V) :=
  if i < 0 ∨ i ≥ s.m then some (.invalidInput, s)
  else if j < 0 ∨ j ≥ s.n then some (.invalidInput, s)
  else
    match IntervalMap.find false s.cmap j with
    | none => none
    | some none => some (.internalError, s)
    | some (some e) =>
      match s.heap[e.val]? with
      | none => none
      | some nd =>
        if nd.b.ty ≠ ty then some (.invalidInput, s)
        else
          match locate s.heap (i.toNat + 1) (some e.val) 0 i with
          | none => none
          | some (id, offset) =>
            match s.heap[id]? with
            | none => none
            | some nd =>
              match getCol nd.b (j - nd.offset) with
              | none => none
              | some (col, stride) =>
                some (.success, { s with heap := write s.heap id (col + (i - offset) * stride) v })

/-! ### Extraction -/

/-- An array of the user: contents of every position. -/
abbrev Out (V : Type) := Int → V

def put (out : Out V) (k : Int) (v : V) : Out V := fun x => if x = k then v else out x

/-- `for i: col[idxrow + i] = c[i * stride]`, data_store.hpp:694-695, from `i` on. -/
def copyCol (bl : Int → V) (c stride idxrow : Int) : Nat → Int → Out V → Out V
  | 0, _, out => out
  | k + 1, i, out => copyCol bl c stride idxrow k (i + 1) (put out (idxrow + i) (bl (c + i * stride)))

/-- The loop over the blocks of a column, data_store.hpp:686-698. -/
def columnLoop (heap : List (Node V)) (idx : Int) : Nat → Option Nat → Int → Out V → Option (Status × Out V)
  | 0, _, _, _ => none
  | _ + 1, none, _, out => some (.success, out)
  | fuel + 1, some id, idxrow, out =>
    match heap[id]? with
    | none => none
    | some nd =>
      match getCol nd.b (idx - nd.offset) with
      | none => some (.internalError, out)
      | some (c, stride) =>
        columnLoop heap idx fuel nd.next (idxrow + nd.b.m) (copyCol nd.b.bl c stride idxrow nd.b.m.toNat 0 out)

/-- `extract_column`, data_store.hpp:654-701. -/
def extractColumn (s : Store V) (ty : Ty) (idx m : Int) (out : Out V) : Option (Status × Out V) :=
  if s.missing then some (.missingBlock, out)
  else if m ≠ s.m then some (.invalidInput, out)
  else if idx < 0 ∨ idx ≥ s.n then some (.invalidInput, out)
  else
    match IntervalMap.find false s.cmap idx with
    | none => none
    | some none => none
    | some (some e) =>
      match s.heap[e.val]? with
      | none => none
      | some nd =>
        if nd.b.ty ≠ ty then some (.invalidInput, out)
        else columnLoop s.heap idx (s.heap.length + 1) (some e.val) 0 out

/-- The inner loop of `copy_slice_dense` with its running indices, data_store.hpp:267-271 and 282-286;
`inc` is the increment of `idx`. -/
def copyRun (bl : Int → V) (inc : Int) : Nat → Int × Int × Out V → Int × Int × Out V
  | 0, s => s
  | k + 1, (idx, idxD, out) => copyRun bl inc k (idx + inc, idxD + 1, put out idxD (bl idx))

/-- `column_major` case of `copy_slice_dense`, data_store.hpp:262-275, from column `j` on. -/
def copyColMajor (b : Block V) (rows : Ivl) (nrows idxStart ld : Int) : Nat → Int × Int × Out V → Int × Int × Out V
  | 0, s => s
  | k + 1, (idx, idxD, out) =>
    let r := copyRun b.bl 1 nrows.toNat (idx + rows.lower, idxD + idxStart, out)
    copyColMajor b rows nrows idxStart ld k (r.1 + (b.m - nrows - rows.lower), r.2.1 + (ld - nrows - idxStart), r.2.2)

/-- `row_major` case, data_store.hpp:277-289. -/
def copyRowMajor (b : Block V) (cols rows : Ivl) (nrows idxStart ld : Int) : Nat → Int → Int × Out V → Int × Out V
  | 0, _, s => s
  | k + 1, j, (idxD, out) =>
    let r := copyRun b.bl b.n nrows.toNat (rows.lower * b.n + cols.lower + j, idxD + idxStart, out)
    copyRowMajor b cols rows nrows idxStart ld k (j + 1) (r.2.1 + (ld - nrows - idxStart), r.2.2)

/-- `copy_slice_dense`, data_store.hpp:239-292. -/
def copySlice (b : Block V) (cols rows : Ivl) (idxStart ld : Int) (out : Out V) : Status × Out V :=
  if !cols.isValidIdx b.n then (.invalidInput, out)
  else if !rows.isValidIdx b.m then (.invalidInput, out)
  else
    let ncols := cols.upper - cols.lower + 1
    let nrows := rows.upper - rows.lower + 1
    match b.order with
    | .col => (.success, (copyColMajor b rows nrows idxStart ld ncols.toNat (cols.lower * b.m, 0, out)).2.2)
    | .row => (.success, (copyRowMajor b cols rows nrows idxStart ld ncols.toNat 0 (0, out)).2)

/-- The loop over the blocks of one column interval in `extract_slice`, data_store.hpp:745-767. -/
def sliceRows (heap : List (Node V)) (lcol uc lrow urow ld : Int) :
    Nat → Option Nat → Int → Int → Int → Out V → Option (Status × Out V)
  | 0, _, _, _, _, _ => none
  | fuel + 1, bid, lr, first, idxr, out =>
    if urow - lr ≥ 0 then
      match bid with
      | none => none
      | some id =>
        match heap[id]? with
        | none => none
        | some nd =>
          let ur := min urow (first + nd.b.m - 1)
          if ur - first ≥ lr - first then
            match copySlice nd.b ⟨lcol - nd.offset, uc - nd.offset⟩ ⟨lr - first, ur - first⟩ idxr ld out with
            | (.success, out) => sliceRows heap lcol uc lrow urow ld fuel nd.next (max (ur + 1) lrow) (ur + 1) (idxr + (ur - lr + 1)) out
            | (_, out) => some (.internalError, out)
          else sliceRows heap lcol uc lrow urow ld fuel nd.next (max (ur + 1) lrow) (ur + 1) idxr out
    else some (.success, out)

/-- The loop over the column intervals of `extract_slice`, data_store.hpp:738-770. -/
def sliceCols (s : Store V) (ty : Ty) (rows : Ivl) (ucol ld : Int) :
    Nat → Int → Int → Out V → Option (Status × Out V)
  | 0, _, _, _ => none
  | fuel + 1, lcol, idx, out =>
    if ucol - lcol ≥ 0 then
      match IntervalMap.find false s.cmap lcol with
      | none => none
      | some none => none
      | some (some e) =>
        match s.heap[e.val]? with
        | none => none
        | some nd =>
          if nd.b.ty ≠ ty then some (.invalidInput, out)
          else
            let uc := min ucol e.hi
            match sliceRows s.heap lcol uc rows.lower rows.upper ld (rows.upper.toNat + 2) (some e.val) rows.lower 0 idx out with
            | none => none
            | some (.success, out) => sliceCols s ty rows ucol ld fuel (uc + 1) (idx + ld * (uc - lcol + 1)) out
            | some r => some r
    else some (.success, out)

/-- `extract_slice`, data_store.hpp:709-773. -/
def extractSlice (s : Store V) (ty : Ty) (rows cols : Ivl) (ld first : Int) (out : Out V) : Option (Status × Out V) :=
  if !cols.isValidIdx s.n then some (.invalidInput, out)
  else if !rows.isValidIdx s.m then some (.invalidInput, out)
  else if ld < rows.upper - rows.lower + 1 then some (.invalidInput, out)
  else sliceCols s ty rows cols.upper ld ((cols.upper - cols.lower).toNat + 2) cols.lower first out

/-! ### Selections -/

/-- `coord_slice`, data_store.hpp:384-391. -/
structure Sel where
  rows : List Ivl := []
  cols : List Ivl := []

/-- `selection_map`, data_store.hpp:392: at most one entry per key. -/
abbrev Sels := List (String × Sel)

def Sels.find (sels : Sels) (key : String) : Option Sel := (List.find? (fun e => e.1 == key) sels).map Prod.snd

/-- `selections.find(key)`, after inserting an empty selection if there is none, and a change of it. -/
def Sels.update (sels : Sels) (key : String) (f : Sel → Sel) : Sels :=
  match sels.find key with
  | none => (key, f {}) :: sels
  | some _ => sels.map fun e => if e.1 == key then (e.1, f e.2) else e

/-- `select_columns`, data_store.hpp:833-862. -/
def selectColumns (s : Store V) (sels : Sels) (key : String) (cols : Ivl) : Status × Sels :=
  if s.missing then (.missingBlock, sels)
  else if !cols.isValidIdx s.n then (.invalidInput, sels)
  else (.success, sels.update key fun x => { x with cols := (IntervalSet.insert cols x.cols).2 })

/-- `select_rows`, data_store.hpp:863-892. -/
def selectRows (s : Store V) (sels : Sels) (key : String) (rows : Ivl) : Status × Sels :=
  if s.missing then (.missingBlock, sels)
  else if !rows.isValidIdx s.m then (.invalidInput, sels)
  else (.success, sels.update key fun x => { x with rows := (IntervalSet.insert rows x.rows).2 })

/-- `select_slice`, data_store.hpp:784-831. -/
def selectSlice (s : Store V) (sels : Sels) (key : String) (rows cols : Ivl) : Status × Sels :=
  if s.missing then (.missingBlock, sels)
  else if !cols.isValidIdx s.n then (.invalidInput, sels)
  else if !rows.isValidIdx s.m then (.invalidInput, sels)
  else (.success, sels.update key fun x =>
    { x with rows := (IntervalSet.insert rows x.rows).2, cols := (IntervalSet.insert cols x.cols).2 })

/-- The selection that `extract_selection` works with, data_store.hpp:963-1004: status, and rows and columns.
The selections that it adds for itself are removed again at the end (1073-1078). -/
def effective (s : Store V) (sels : Sels) (key : String) : Except Status (Status × Sel) :=
  let all (n : Int) (x : List Ivl) : Except Status (List Ivl) :=
    if x.isEmpty then
      if (Ivl.mk 0 (n - 1)).isValidIdx n then .ok (IntervalSet.insert ⟨0, n - 1⟩ []).2 else .error .internalError
    else .ok x
  if sels.isEmpty then
    match all s.m [], all s.n [] with
    | .ok rows, .ok cols => .ok (.fullExtraction, ⟨rows, cols⟩)
    | _, _ => .error .internalError
  else
    match sels.find key with
    | none => .error .invalidInput
    | some x =>
      match all s.m x.rows, all s.n x.cols with
      | .ok rows, .ok cols => .ok (.success, ⟨rows, cols⟩)
      | _, _ => .error .internalError

def width (i : Ivl) : Int := i.upper - i.lower + 1

/-- The loop over the row intervals, data_store.hpp:1012-1021 and 1052-1061.  `size` is the length of the array if
it is known to the function: writing behind its end is undefined. -/
def selRowLoop (s : Store V) (ty : Ty) (col : Ivl) (ld : Int) (size : Option Int) :
    List Ivl → Int → Out V → Option (Status × Out V)
  | [], _, out => some (.success, out)
  | row :: rows, idx, out =>
    match extractSlice s ty row col ld idx out with
    | none => none
    | some (.success, out) =>
      if size.any (fun sz => decide (sz < idx + ld * (width col - 1) + width row)) then none
      else selRowLoop s ty col ld size rows (idx + width row) out
    | some r => some r

/-- The loop over the column intervals, data_store.hpp:1008-1022 and 1048-1062; `idx = ncols * ldIdx`. -/
def selColLoop (s : Store V) (ty : Ty) (rows : List Ivl) (ldIdx ld : Int) (size : Option Int) :
    List Ivl → Int → Out V → Option (Status × Out V)
  | [], _, out => some (.success, out)
  | col :: cols, ncols, out =>
    match selRowLoop s ty col ld size rows (ncols * ldIdx) out with
    | none => none
    | some (.success, out) => selColLoop s ty rows ldIdx ld size cols (ncols + width col) out
    | some r => some r

/-- `for j: data[j + i * ld] = tmp_data[i + j * ldd]`, data_store.hpp:1066-1068. -/
def transposeRow (tmp : Out V) (ld ldd i : Int) : Nat → Int → Out V → Out V
  | 0, _, out => out
  | k + 1, j, out => transposeRow tmp ld ldd i k (j + 1) (put out (j + i * ld) (tmp (i + j * ldd)))

/-- The conversion to row-major order, data_store.hpp:1064-1069. -/
def transpose (tmp : Out V) (ld ldd nCols : Int) : Nat → Int → Out V → Out V
  | 0, _, out => out
  | k + 1, i, out => transpose tmp ld ldd nCols k (i + 1) (transposeRow tmp ld ldd i nCols.toNat 0 out)

/-- `extract_selection`, data_store.hpp:949-1081.  `zero` is the value of the new elements of `tmp_data`. -/
def extractSelection (s : Store V) (sels : Sels) (zero : V) (ty : Ty) (key : String) (order : Order) (ld : Int) (out : Out V) :
    Option (Status × Out V) :=
  if s.missing then some (.missingBlock, out)
  else
    match effective s sels key with
    | .error st => some (st, out)
    | .ok (st, sel) =>
      match order with
      | .col =>
        match selColLoop s ty sel.rows ld ld none sel.cols 0 out with
        | none => none
        | some (.success, out) => some (st, out)
        | some r => some r
      | .row =>
        let nCols := (sel.cols.map width).sum
        let nRows := (sel.cols.map fun _ => (sel.rows.map width).sum).sum
        match selColLoop s ty sel.rows ld nRows (some (nCols * nRows)) sel.cols 0 (fun _ => zero) with
        | none => none
        | some (.success, tmp) => some (st, transpose tmp ld nRows nCols nRows.toNat 0 out)
        | some (st, _) => some (st, out)

end Verif.DataStore
