import Mathlib.Algebra.Order.Field.Basic
import Mathlib.Algebra.BigOperators.Group.Finset.Basic

/-
What the SVM solver is supposed to do.
-/
namespace Verif.Smo

/-- `order` is a permutation of the samples. -/
structure IsPerm (order : Nat → Nat) (size : Nat) : Prop where
  lt : ∀ q, q < size → order q < size
  surj : ∀ x, x < size → ∃ q, q < size ∧ order q = x

/-- The order sorts the values `g`. -/
def Sorted {F : Type} [LE F] (g : Nat → F) (order : Nat → Nat) (size : Nat) : Prop :=
  ∀ p q, p ≤ q → q < size → g (order p) ≤ g (order q)

variable {F : Type} [Field F] [LinearOrder F]

/-- Labels are 1 and -1 (also outside the array, where they do not matter). -/
def Signs (y : Nat → F) : Prop := ∀ k, y k = 1 ∨ y k = -1

/-- Distinct samples in the first `ws` positions. -/
def Distinct (size ws : Nat) (w : Nat → Nat) : Prop :=
  (∀ i, i < ws → w i < size) ∧ ∀ i j, i < ws → j < ws → w i = w j → i = j

/-- `0 ≤ alpha ≤ C`. -/
def InBox (C : F) (size : Nat) (alpha : Nat → F) : Prop :=
  ∀ x, x < size → 0 ≤ alpha x ∧ alpha x ≤ C

/-- Kernel value of two entries; entry `x` belongs to sample `x % n`. -/
def entryKernel (n : Nat) (K : Nat → Nat → F) (x z : Nat) : F := K (x % n) (z % n)

/-- The gradient of the dual objective: `c x + Σ z, alpha z * y z * K z x`. -/
def exactGrad (n size : Nat) (K : Nat → Nat → F) (y c alpha : Nat → F) (x : Nat) : F :=
  c x + ∑ z ∈ Finset.range size, alpha z * y z * entryKernel n K z x

/-- The dual objective: half the quadratic form of `alpha * y` plus a linear term. -/
def objective (n size : Nat) (K : Nat → Nat → F) (y c alpha : Nat → F) : F :=
  (∑ x ∈ Finset.range size, ∑ z ∈ Finset.range size,
      (alpha x * y x) * (alpha z * y z) * entryKernel n K x z) / 2 +
    ∑ x ∈ Finset.range size, c x * (alpha x * y x)

/-- `alpha x` can be changed so that `alpha x * y x` grows. -/
def CanGrow (C : F) (y alpha : Nat → F) (x : Nat) : Prop :=
  (y x = 1 ∧ alpha x < C) ∨ (y x = -1 ∧ 0 < alpha x)

/-- `alpha x` can be changed so that `alpha x * y x` shrinks. -/
def CanShrink (C : F) (y alpha : Nat → F) (x : Nat) : Prop :=
  (y x = 1 ∧ 0 < alpha x) ∨ (y x = -1 ∧ alpha x < C)

/-- The linear term of the dual problem of each model: the gradient at `alpha = 0`.
Classification: `-y` for C-SVC, none for nu-SVC; regression: the targets, with the
width of the tube for epsilon-SVR.  `reg` and `nu` say which model. -/
def linearTerm (reg nu : Bool) (n : Nat) (eps : F) (y resp : Nat → F) (x : Nat) : F :=
  match reg, nu with
  | false, false => -resp x
  | false, true => 0
  | true, false => (if x < n then eps else -eps) - y (x % n)
  | true, true => -y (x % n)

/-- Number of entries of a class. -/
def classSize (size : Nat) (y : Nat → F) (l : F) : Nat :=
  ((Finset.range size).filter fun x => y x = l).card

end Verif.Smo
