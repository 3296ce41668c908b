import Verif.PairDist.Model
import Mathlib.Algebra.BigOperators.Group.Finset.Basic
import Mathlib.Analysis.SpecialFunctions.Pow.Real

/-
What the distances ought to be (doc/Algorithms/metrics/metrics.rst:42-131), without the model.
-/
namespace Verif.PairDist.Spec

open Finset (range)

/-- Where the entry in row `i` and column `j` of a matrix is stored. -/
def pos (row : Bool) (ld i j : Nat) : Nat := if row then i * ld + j else i + j * ld

/-- A matrix with that many rows and columns fits. -/
def Fits (row : Bool) (rows cols ld : Int) : Prop := if row then cols ≤ ld else rows ≤ ld

/-- The array `D'` holds `d i j` in place of the entries of an `m × n` matrix, and otherwise what
`D` holds. -/
structure Filled {K : Type*} (row : Bool) (m n ld : Nat) (D D' : Nat → K) (d : Nat → Nat → K) :
    Prop where
  entry : ∀ i j, i < m → j < n → D' (pos row ld i j) = d i j
  rest : ∀ c, (∀ i j, i < m → j < n → c ≠ pos row ld i j) → D' c = D c

/-- The matrices a call compares: the samples are the rows. -/
structure Call (K : Type*) where
  row : Bool
  m : Nat
  n : Nat
  k : Nat
  X : Nat → K
  ldx : Nat
  Y : Option (Nat → K)
  ldy : Nat
  ldd : Nat

namespace Call
variable {K : Type*} (c : Call K)

/-- Feature `l` of sample `i` of the first matrix. -/
def x (i l : Nat) : K := c.X (pos c.row c.ldx i l)

/-- Feature `l` of sample `j` of the second matrix, the first if there is no second. -/
def y (j l : Nat) : K :=
  match c.Y with
  | some Y => Y (pos c.row c.ldy j l)
  | none => c.X (pos c.row c.ldx j l)

/-- The number of samples of the second matrix. -/
def cols : Nat :=
  match c.Y with
  | some _ => c.n
  | none => c.m

end Call

section
variable {K : Type*} [Field K] [LinearOrder K]

def sqDist (k : Nat) (x y : Nat → K) : K := ∑ l ∈ range k, (x l - y l) ^ 2

def l1Dist (k : Nat) (x y : Nat → K) : K := ∑ l ∈ range k, |x l - y l|

def inner (k : Nat) (x y : Nat → K) : K := ∑ l ∈ range k, x l * y l

end

/-- The norm of a sample. -/
noncomputable def norm (k : Nat) (x : Nat → ℝ) : ℝ := Real.sqrt (∑ l ∈ range k, x l ^ 2)

noncomputable def minkowski (p : ℝ) (k : Nat) (x y : Nat → ℝ) : ℝ :=
  (∑ l ∈ range k, |x l - y l| ^ p) ^ (1 / p)

noncomputable def cosine (k : Nat) (x y : Nat → ℝ) : ℝ := 1 - inner k x y / (norm k x * norm k y)

end Verif.PairDist.Spec
