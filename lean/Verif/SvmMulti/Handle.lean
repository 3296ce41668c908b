import Mathlib.Algebra.BigOperators.Group.List.Basic
import Mathlib.Algebra.Field.Defs

/-
Model of the state of an SVM handle over several calls (`source/core/svm/svm.cpp`): the
memory the handle and its classifiers point to, the sizes recorded, and the flags
`loadingdone` and `model_trained`.

Simplified: arrays are their size; the checks of `set_data` are replaced by the stage at
which a call fails; the multipliers are not part of the state.  The arrays of the caller
stay allocated.  Loading a stored model is not included.
-/
namespace Verif.SvmMulti.Handle

/-- What a data pointer points to. -/
inductive Ptr where
  | null
  /-- an array of the caller -/
  | user (k : Nat)
  /-- the copy made for data stored by rows (`X_temp`), numbered by its allocation -/
  | temp (k : Nat)
deriving DecidableEq, Repr

/-- A data pointer with the size of the array behind it. -/
structure Data where
  ptr : Ptr
  rows : Nat
  cols : Nat
deriving DecidableEq, Repr

/-- A classifier: `XUSR`, the number of rows of the data it was created with (its row
numbers `idx_class` are smaller), `p` and the number of columns of `sv_matrix` (`none`
before training). -/
structure Clf where
  X : Data
  n : Nat
  p : Nat
  sv : Option Nat
deriving DecidableEq, Repr

/-- The handle. -/
structure St where
  /-- `mod`: 0 undefined, 1 svc, 2 nusvc, 3 svr, 4 nusvr (aoclda_svm.h 42-48) -/
  mod : Nat := 0
  /-- option `storage order` -/
  rowMajor : Bool := false
  nrow : Nat := 0
  ncol : Nat := 0
  multi : Bool := false
  /-- size of `is_sv` -/
  isSv : Nat := 0
  X : Data := ⟨.null, 0, 0⟩
  /-- `X_temp`: number of the allocation -/
  temp : Option Nat := none
  /-- number of allocations so far -/
  next : Nat := 0
  clfs : List Clf := []
  loaded : Bool := false
  trained : Bool := false
deriving DecidableEq, Repr

/-- The check of `set_data` that fails. -/
inductive Stage where
  /-- `store_2D_array` (svm.cpp 300-304) -/
  | store
  /-- `check_1D_array`, labels that are no whole numbers, fewer than two classes
  (svm.cpp 306-327) -/
  | labels
  /-- a class without samples (svm.cpp 381-385) -/
  | empty
deriving DecidableEq, Repr

/-- The calls. -/
inductive Op where
  /-- `select_model` -/
  | select (m : Nat)
  /-- change of an option, which calls `refresh` -/
  | option (rowMajor : Bool)
  /-- `set_data` with `n` samples, `p` features and `classes` classes of an array of the
  caller -/
  | setData (n p k classes : Nat) (fail : Option Stage)
  /-- `compute`; `gamma`: the default value of the kernel parameter is computed from
  the data; `fail`: classifier that returns an error -/
  | compute (gamma : Bool) (fail : Option Nat)
  /-- `predict`, `decision_function` -/
  | predict (nfeat : Nat)
deriving DecidableEq, Repr

/-- Outcome of a call. -/
inductive Out where
  | ok
  | error
  /-- access to released memory, the null pointer, or outside an array -/
  | ub
deriving DecidableEq, Repr

/-- The array is allocated and large enough to be read with `n` rows and `p` columns. -/
def readable (st : St) (d : Data) (n p : Nat) : Bool :=
  (match d.ptr with
   | .null => false
   | .user _ => true
   | .temp k => decide (st.temp = some k)) && decide (n ≤ d.rows) && decide (p ≤ d.cols)

/-- `select_model` (svm.cpp 410-424). -/
def select (m : Nat) (st : St) : St × Out :=
  if m = st.mod then (st, .ok)
  else if 1 ≤ m ∧ m ≤ 4 then ({ st with mod := m, trained := false, loaded := false }, .ok)
  else (st, .error)

/-- `set_data` (svm.cpp 278-408). -/
def setData (n p k classes : Nat) (fail : Option Stage) (st : St) : St × Out :=
  let st := { st with nrow := n, ncol := p, multi := false, isSv := n }
  let st := if st.temp.isSome then { st with temp := none, X := ⟨.null, 0, 0⟩ } else st
  if st.mod = 0 then (st, .error)
  else if fail = some .store then (st, .error)
  else
    let st := if st.rowMajor
      then { st with X := ⟨.temp st.next, n, p⟩, temp := some st.next, next := st.next + 1 }
      else { st with X := ⟨.user k, n, p⟩ }
    -- regression: one classifier (svm.cpp 329-332)
    let classes := if st.mod = 3 ∨ st.mod = 4 then 2 else classes
    if fail = some .labels ∨ classes < 2 then (st, .error)
    else
      let st := { st with clfs := List.replicate (classes * (classes - 1) / 2) ⟨st.X, n, p, none⟩
                          multi := decide (2 < classes) }
      if decide (2 < classes) && decide (fail = some .empty) then (st, .error)
      else ({ st with loaded := true, trained := false }, .ok)

/-- `compute` (svm.cpp 471-756): default kernel parameter, the classifiers in order, and
the copy of the support vectors. -/
def compute (gamma : Bool) (fail : Option Nat) (st : St) : St × Out :=
  if !st.loaded then (st, .error)
  else if gamma && !readable st st.X st.nrow st.ncol then (st, .ub)
  else if !(st.clfs.take (fail.getD st.clfs.length)).all fun c => readable st c.X c.n c.p then (st, .ub)
  else if fail.isSome && decide (fail.getD 0 < st.clfs.length) then
    ({ st with clfs := st.clfs.mapIdx fun i c => if i < fail.getD 0 then { c with sv := some c.p } else c }, .error)
  else if st.multi && !st.clfs.all fun c => decide (c.n ≤ st.isSv) then (st, .ub)
  -- the indexes of the support vectors are row numbers of the data of the classifiers
  else if !st.clfs.all fun c => readable st st.X c.n st.ncol then (st, .ub)
  else ({ st with clfs := st.clfs.map fun c => { c with sv := some c.p }, trained := true }, .ok)

/-- `predict` (svm.cpp 760-842) and `decision_function` (svm.cpp 844-950): `sv_matrix` is
read with `nfeat` columns. -/
def predict (nfeat : Nat) (st : St) : St × Out :=
  if nfeat ≠ st.ncol then (st, .error)
  else if !st.trained then (st, .error)
  else if !st.clfs.all fun c => decide (nfeat ≤ c.sv.getD 0) then (st, .ub)
  else (st, .ok)

/-- A call. -/
def step (op : Op) (st : St) : St × Out :=
  match op with
  | .select m => select m st
  | .option r => ({ st with rowMajor := r, trained := false }, .ok)
  | .setData n p k classes fail => setData n p k classes fail st
  | .compute gamma fail => compute gamma fail st
  | .predict nfeat => predict nfeat st

/-- A sequence of calls: the state and the outcomes; it ends with the first undefined
behaviour. -/
def run : List Op → St → St × List Out
  | [], st => (st, [])
  | op :: ops, st =>
    let (st, o) := step op st
    if o = .ub then (st, [.ub]) else let (st, os) := run ops st; (st, o :: os)

/-! ### Norms of the RBF kernel over several fits -/

variable {F : Type} [Field F]

/-- `x_norm_aux[j] += ...` (base_svm.cpp 225-238): `resize` keeps the entries of an
earlier fit. -/
def fitNorms (p : Nat) (X : Nat → Nat → F) (old : Nat → F) : Nat → F := fun j =>
  (List.range p).foldl (fun s i => s + X j i * X j i) (old j)

/-- The entries after `k` fits; the array is created with zeros. -/
def norms (p : Nat) (X : Nat → Nat → F) : Nat → Nat → F
  | 0 => fun _ => 0
  | k + 1 => fitNorms p X (norms p X k)

/-- Argument of the exponential in a kernel value of a training sample and a sample of
the working set: precomputed norm, norm computed now, and the product (base_svm.cpp
620-627). -/
def rbfArgument (p : Nat) (X : Nat → Nat → F) (gamma : F) (k i j : Nat) : F :=
  -gamma * (norms p X k i + ((List.range p).map fun l => X j l * X j l).sum -
    2 * ((List.range p).map fun l => X i l * X j l).sum)

end Verif.SvmMulti.Handle
