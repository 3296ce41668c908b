import Verif.ApproxNn.Model
import Mathlib.Algebra.BigOperators.Group.Finset.Basic
import Mathlib.Algebra.Order.Field.Basic

/-
What an inverted-file index is.
-/
namespace Verif.ApproxNn

open Moments (M)

variable {K : Type} [Field K] [LinearOrder K]

/-- The distance the index works with: squared Euclidean, or minus the inner product. -/
def dist (eu : Bool) (F : Nat) (a b : Nat → K) : K :=
  if eu then ∑ l ∈ Finset.range F, (a l - b l) ^ 2 else - ∑ l ∈ Finset.range F, a l * b l

/-- `c` is the first of the nearest centroids. -/
def IsNear (eu : Bool) (F nlist : Nat) (C : Nat → Nat → K) (x : Nat → K) (c : Nat) : Prop :=
  c < nlist ∧ (∀ c' < nlist, dist eu F x (C c) ≤ dist eu F x (C c')) ∧
    ∀ c' < c, dist eu F x (C c) < dist eu F x (C c')

/-- Row `i` of a matrix in memory. -/
def rowOf (row : Bool) (X : List K) (ld i : Nat) : Nat → K := fun j => X.getD (pos row ld i j) 0

/-- The array holds all entries of the matrix. -/
def Covers (row : Bool) (X : List K) (ld n F : Nat) : Prop :=
  ∀ i < n, ∀ j < F, pos row ld i j < X.length

/-- The rows in list `c` when row `g` goes to list `near g`: those that go there, in the order in which they
were added. -/
def members (near : Nat → Nat) (N c : Nat) : List Nat := (List.range N).filter fun g => near g = c

/-- The index holds the rows `rows 0, ..., rows (N-1)`, row `g` in list `near g`, under the numbers from `base`
on. -/
structure Stores (eu : Bool) (F nlist : Nat) (rows : Nat → Nat → K) (near : Nat → Nat) (base N : Nat)
    (s : Index K) : Prop where
  nIndex : s.nIndex = base + N
  sizes : s.sizes = (List.range nlist).map fun c => (members near N c).length
  glob : s.glob = (List.range nlist).map fun c => (members near N c).map (base + ·)
  vecs : s.vecs = (List.range nlist).map fun c => (members near N c).flatMap fun g => (List.range F).map (rows g)
  norms : s.norms = (List.range nlist).map fun c =>
    if eu then (members near N c).map fun g => ∑ j ∈ Finset.range F, rows g j ^ 2 else []

/-! Sequences of calls. -/

/-- The clustering returns `k` centroids with as many entries as the rows have. -/
def KmOk (km : Bool → Nat → List (List K) → List K) : Prop :=
  ∀ row k A F, A ≠ [] → (∀ r ∈ A, r.length = F) → (km row k A).length = k * F

/-- What the caller owes: an array holds the matrix it is said to hold, in the storage order in force.  The rest
is chosen by the library and the scheduler: the block size of `add`, which is positive, and the orders in which
the blocks and the lists are done. -/
def Call.Valid (h : Handle K) : Call K → Prop
  | .setData n F X ldx => arrayOk h.optRow n F ldx → Covers h.optRow X ldx n F
  | .add n F X ldx blk ob ol => (arrayOk h.row n F ldx → Covers h.row X ldx n F) ∧
      ∃ nb rem, Blocking.blockingScheme n blk = some (nb, rem) ∧ ob.Perm (List.range nb) ∧
        ol.Perm (List.range h.nList)
  | _ => True

/-- All calls of a sequence are valid when they are made. -/
def ValidRun (km : Bool → Nat → List (List K) → List K) : Handle K → List (Call K) → Prop
  | _, [] => True
  | h, c :: cs => c.Valid h ∧ ∀ h' ok, step km h c = .ok (h', ok) → ValidRun km h' cs

/-- The rows added since the last training, after a call that did or did not succeed; `row` is the storage order
before the call. -/
def logRows (row ok : Bool) (L : List (Nat → K)) : Call K → List (Nat → K)
  | .setData _ _ _ _ => []
  | .train => if ok then [] else L
  | .add n _ X ldx _ _ _ => if ok then L ++ (List.range n).map (rowOf row X ldx) else L
  | _ => L

/-- Likewise the rows added since the last `set_training_data` and before the last training. -/
def logBase (ok : Bool) (L : List (Nat → K)) (base : Nat) : Call K → Nat
  | .setData _ _ _ _ => 0
  | .train => if ok then base + L.length else base
  | _ => base

/-- A sequence of calls with this record. -/
def runLog (km : Bool → Nat → List (List K) → List K) :
    List (Call K) → Handle K → List (Nat → K) → Nat → M (Handle K × List (Nat → K) × Nat)
  | [], h, L, base => .ok (h, L, base)
  | c :: cs, h, L, base => do
    let r ← step km h c
    runLog km cs r.1 (logRows h.row r.2 L c) (logBase r.2 L base c)

/-- The index of the handle holds the rows `L`, each in the list of the first of its nearest centroids, numbered
from `base` on. -/
def Holds (h : Handle K) (L : List (Nat → K)) (base : Nat) : Prop :=
  ∃ near : Nat → Nat,
    (∀ g x, L[g]? = some x → IsNear h.eu h.F h.nList (rowOf h.row h.cent h.ldc) x (near g)) ∧
    Stores h.eu h.F h.nList (fun g => L.getD g 0) near base L.length h.ix

end Verif.ApproxNn
