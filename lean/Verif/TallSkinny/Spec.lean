import Mathlib.Algebra.BigOperators.Group.Finset.Basic
import Mathlib.Algebra.Order.Field.Basic

/-
What the blocked routines are for, stated without the model.
-/
namespace Verif.TallSkinny.Spec

variable {K : Type*} [Field K]

/-- Where entry `(i, j)` is stored. -/
def pos (row : Bool) (ld i j : Nat) : Nat := if row then i * ld + j else i + j * ld

/-- Entry `(i, l)` of `A` or of its transpose. -/
def entry (row trans : Bool) (A : Nat → K) (lda i l : Nat) : K :=
  A (if trans then pos row lda l i else pos row lda i l)

/-- `D` is `C` after the symmetric update: the chosen triangle holds
`alpha op(A) op(A)ᵀ + beta C`, and nothing else has changed. -/
structure Updated (row upper trans : Bool) (n k : Nat) (alpha : K) (A : Nat → K) (lda : Nat) (beta : K)
    (C : Nat → K) (ldc : Nat) (D : Nat → K) : Prop where
  triangle : ∀ i j, i < n → j < n → (if upper then i ≤ j else j ≤ i) →
    D (pos row ldc i j) = alpha * (∑ l ∈ Finset.range k,
      entry row trans A lda i l * entry row trans A lda j l) + beta * C (pos row ldc i j)
  rest : ∀ c, (∀ i j, i < n → j < n → (if upper then i ≤ j else j ≤ i) → c ≠ pos row ldc i j) →
    D c = C c

/-- A run of a parallel loop with a static schedule over `nb` blocks on at most `t` threads, as the
list of blocks with their threads in the order of execution: every block is done once, each thread
takes its blocks in increasing order and thread 0 has some block. -/
structure Run (nb t : Nat) (L : List (Nat × Nat)) : Prop where
  blocks : (L.map Prod.fst).Perm (List.range nb)
  threads : ∀ x ∈ L, x.2 < t
  order : L.Pairwise fun x y => x.2 = y.2 → x.1 < y.1
  first : ∃ x ∈ L, x.2 = 0

/-- The `nb` blocks of a QR factorisation of `m` rows and `n` columns can be factorised one by one, if
block `i` has `height i` rows from row `start i` on, its reflectors, one for each of the fewer of its
rows and columns, go to the cells `tau i 0`, `tau i 1`, ... of an array of `size` cells, and row `r`
of its triangle is read from row `src i r`: the blocks cover the rows, each is at least as high as
wide (conditions 2 and 9 in the comment of `da_qr`), the reflectors are within the array and do not
overlap, and the triangle of a block is read from its own rows. -/
structure QrBlocks (m n nb : Nat) (start height : Nat → Nat) (tau : Nat → Nat → Nat) (size : Nat)
    (src : Nat → Nat → Nat) : Prop where
  some : 0 < nb
  first : start 0 = 0
  next : ∀ i, i + 1 < nb → start (i + 1) = start i + height i
  last : start (nb - 1) + height (nb - 1) = m
  tall : ∀ i, i < nb → n ≤ height i
  bound : ∀ i r, i < nb → r < n → r < height i → tau i r < size
  apart : ∀ i r i' r', i < nb → r < n → r < height i → i' < nb → r' < n → r' < height i' →
    tau i r = tau i' r' → i = i' ∧ r = r'
  own : ∀ i r, i < nb → r < n → src i r = start i + r ∧ r < height i

/-- The `n` columns of `Q` with `m` rows are orthonormal. -/
def Orthonormal (m n : Nat) (Q : Nat → Nat → K) : Prop :=
  ∀ a b, a < n → b < n → ∑ i ∈ Finset.range m, Q i a * Q i b = if a = b then 1 else 0

/-- `A`, stored by columns with leading dimension `lda`, is `Q R` with orthonormal columns of `Q` and
an upper triangular `R`, stored by columns with leading dimension `n`. -/
structure Factorised (m n : Nat) (A : Nat → K) (lda : Nat) (Q : Nat → Nat → K) (R : Nat → K) : Prop where
  orth : Orthonormal m n Q
  triangular : ∀ i j, i < n → j < n → j < i → R (i + j * n) = 0
  product : ∀ i j, i < m → j < n →
    A (i + j * lda) = ∑ l ∈ Finset.range n, Q i l * R (l + j * n)

/-- `D` is `C` with its first `m` rows in `r` columns replaced by the product of `Q` with the first
`n` rows. -/
structure Applied (m n r : Nat) (Q : Nat → Nat → K) (C : Nat → K) (ldc : Nat) (D : Nat → K) : Prop where
  entry : ∀ i c, i < m → c < r → D (i + c * ldc) = ∑ l ∈ Finset.range n, Q i l * C (l + c * ldc)
  rest : ∀ p, (∀ i c, i < m → c < r → p ≠ i + c * ldc) → D p = C p

end Verif.TallSkinny.Spec
