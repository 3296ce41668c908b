/-
Labels of the columns of a data store,
/repo/source/core/data_management/data_store.hpp:418-421, 495, 612-648 and 1336-1370.

`name_to_index` is an association list with at most one entry per label, `index_to_name`
holds the labels themselves instead of pointers to the keys of `name_to_index` (which never
loses a key).  `none` is undefined behaviour: an element behind the end of `index_to_name`
is read.
-/
namespace Verif.DataStore

structure Labels where
  n : Nat := 0
  toIdx : List (String × Int) := []
  toName : List (Option String) := []

inductive LabelStatus | success | invalidInput | internalError
deriving DecidableEq, Repr

/-- `index_to_name.resize(n + nc, nullptr)` and `n += nc` of a successful `concatenate_columns`,
data_store.hpp:495 and 507. -/
def Labels.addCols (s : Labels) (nc : Nat) : Labels :=
  { s with n := s.n + nc, toName := s.toName.take (s.n + nc) ++ List.replicate (s.n + nc - s.toName.length) none }

/-- A successful `horizontal_concat` with a store of `nc` columns: only `n` changes, data_store.hpp:642. -/
def Labels.hconcat (s : Labels) (nc : Nat) : Labels := { s with n := s.n + nc }

def lookup (l : String) : List (String × Int) → Option Int
  | [] => none
  | (l', j) :: xs => if l' = l then some j else lookup l xs

/-- `label_column`, data_store.hpp:1336-1348.  `insert` keeps an entry that exists. -/
def Labels.label (s : Labels) (l : String) (idx : Int) : LabelStatus × Labels :=
  if idx < 0 ∨ idx ≥ s.n then (.invalidInput, s)
  else if s.toName.length ≠ s.n then (.internalError, s)
  else
    let toIdx := match lookup l s.toIdx with
      | none => (l, idx) :: s.toIdx
      | some _ => s.toIdx
    (.success, { s with toIdx := toIdx, toName := s.toName.set idx.toNat (some l) })

/-- `get_idx_from_label`, data_store.hpp:1350-1358; `none` is the error exit. -/
def Labels.getIdx (s : Labels) (l : String) : Option Int := lookup l s.toIdx

/-- `get_col_label`, data_store.hpp:1360-1370. -/
def Labels.getLabel (s : Labels) (idx : Int) : Option (LabelStatus × String) :=
  if idx < 0 ∨ idx ≥ s.n then some (.invalidInput, "")
  else
    match s.toName[idx.toNat]? with
    | none => none
    | some (some l) => some (.success, l)
    | some none => some (.success, "")

/-- Calls that change the columns or their labels; only successful concatenations are listed. -/
inductive LabelOp
  | cols (nc : Nat)
  | hconcat (nc : Nat)
  | label (l : String) (idx : Int)

def LabelOp.step (s : Labels) : LabelOp → Labels
  | .cols nc => s.addCols nc
  | .hconcat nc => s.hconcat nc
  | .label l idx => (s.label l idx).2

def runLabels (ops : List LabelOp) : Labels := ops.foldl LabelOp.step {}

end Verif.DataStore
