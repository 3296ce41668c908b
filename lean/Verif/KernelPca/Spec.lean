import Mathlib.Algebra.BigOperators.Group.Finset.Basic
import Mathlib.Algebra.Order.Field.Basic
import Mathlib.Data.Real.Basic

/-
What the properties of the kernel principal component analysis say, without reference to the model.
-/
namespace Verif.KernelPca

open Finset

variable {K : Type*} [Field K] [LinearOrder K]

/-- The position of entry (i, j) in an array with leading dimension ld. -/
def pos (row : Bool) (ld i j : Nat) : Nat := if row then i * ld + j else i + j * ld

/-- Entry (i, j) of I - (1/n) 1 1ᵀ. -/
noncomputable def proj (n i j : Nat) : K := (if i = j then 1 else 0) - 1 / n

/-- Entry (i, j) of the kernel matrix of the centred features: (I - 1/n) k (I - 1/n). -/
noncomputable def centred (n : Nat) (k : Nat → Nat → K) (i j : Nat) : K :=
  ∑ a ∈ range n, ∑ c ∈ range n, proj n i a * k a c * proj n c j

/-- Entry (i, j) of the symmetric matrix whose upper triangle is stored by columns, as LAPACK reads it with uplo = U. -/
def upper (n : Nat) (M : Nat → K) (i j : Nat) : K := if i ≤ j then M (i + j * n) else M (j + i * n)

/-- Entry (i, j) of the kernel between new and training samples, the features of both being centred by the mean of the training
samples: (k' - (1/n) 1 1ᵀ k)(I - 1/n). -/
noncomputable def centredNew (n : Nat) (k k' : Nat → Nat → K) (i j : Nat) : K :=
  ∑ a ∈ range n, (k' i a - (∑ c ∈ range n, k c a) / n) * proj n a j

/-- `w`, ascending, and the columns of `Q` are eigenvalues and eigenvectors of the n by n matrix `c`. -/
structure Eigen (n : Nat) (c : Nat → Nat → K) (w : List K) (Q : Nat → K) : Prop where
  len : w.length = n
  sorted : w.Pairwise (· ≤ ·)
  eq : ∀ i j, i < n → j < n → ∑ l ∈ range n, c i l * Q (j * n + l) = w.getD j 0 * Q (j * n + i)

/-- Among the first n entries, one of the greatest absolute value is not negative. -/
def SignFixed (n : Nat) (v : Nat → K) : Prop := ∃ m < n, 0 ≤ v m ∧ ∀ i < n, |v i| ≤ |v m|

end Verif.KernelPca
