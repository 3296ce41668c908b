/-
What a quantile is, /repo/source/include/aoclda_basic_statistics.h:62-74 (ranks there are
1-based), and the guarantees of `std::nth_element` and `std::sort`.
-/
import Verif.Quantile.Model
import Verif.Copies.Props
namespace Verif.Quantile
open Verif.Copies (Order cell)

variable {K : Type} [Field K] [LinearOrder K] [FloorRing K]

/-- `s` is `l` sorted in increasing order. -/
def SortedOf (s l : List K) : Prop := s.Pairwise (· ≤ ·) ∧ s.Perm l

/-- `std::nth_element`: a permutation whose `k`-th element is the smallest of those from `k` on,
and no element before `k` exceeds one from `k` on. -/
def NthElement (nth : List K → Nat → List K) : Prop :=
  ∀ l k, k < l.length → (nth l k).Perm l ∧ (∀ a ∈ (nth l k).take k, ∀ b ∈ (nth l k).drop k, a ≤ b) ∧
    ∀ b ∈ (nth l k).drop k, ∀ a, (nth l k)[k]? = some a → a ≤ b

/-- `std::sort` of the subscripts of `h` by their values: any order that is increasing. -/
def SortsIndices (sortIdx : List K → List Nat) : Prop :=
  ∀ h : List K, (sortIdx h).Perm (List.range h.length) ∧ (sortIdx h).Pairwise fun a b => h.getD a 0 ≤ h.getD b 0

/-- The documented location `h` (1-based). -/
def location (t : QType) (n : Nat) (q : K) : K :=
  match t with
  | .t1 => n * q
  | .t2 => n * q + 1 / 2
  | .t3 => n * q - 1 / 2
  | .t4 => n * q
  | .t5 => n * q + 1 / 2
  | .t6 => (n + 1) * q
  | .t7 => (n - 1) * q + 1
  | .t8 => (n + 1 / 3) * q + 1 / 3
  | .t9 => (n + 1 / 4) * q + 3 / 8

/-- `x[r]` of the documentation: 1-based, ranks outside the sample mean its first or last element. -/
def atRank (s : List K) (r : Int) : K := s.getD (max 1 (min r s.length) - 1).toNat 0

/-- `v` is the `q` quantile of type `t` of the sorted sample `s`.  For type 3 the documentation
says "nearest integer to h"; of two equally near ones the odd rank is taken. -/
def IsQuantile (t : QType) (s : List K) (q v : K) : Prop :=
  let h := location t s.length q
  match t with
  | .t1 => v = atRank s ⌈h⌉
  | .t2 => v = (atRank s ⌈h - 1 / 2⌉ + atRank s ⌊h + 1 / 2⌋) / 2
  | .t3 => ∃ r : Int, |h - r| ≤ 1 / 2 ∧ (|h - r| = 1 / 2 → r % 2 = 1) ∧ v = atRank s r
  | _ => v = atRank s ⌊h⌋ + (h - ⌊h⌋) * (atRank s ⌈h⌉ - atRank s ⌊h⌋)

/-- Number of samples (statistics) of an `n` by `p` matrix along an axis. -/
def nStats : Axis → Nat → Nat → Nat
  | .col, _, p => p
  | .row, n, _ => n
  | .all, _, _ => 1

/-- Buffer positions of the elements of sample `i`. -/
def positions (o : Order) (axis : Axis) (n p ld i : Nat) : List Nat :=
  match axis with
  | .col => (List.range n).map fun r => cell o ld r i
  | .row => (List.range p).map fun c => cell o ld i c
  | .all => (List.range n).flatMap fun r => (List.range p).map fun c => cell o ld r c

/-- Where the documentation puts quantile `j` of sample `i`: row `j`, column `i` of an
`n_q` by `nStats` matrix without padding, stored in the order of the input. -/
def outCell (o : Order) (stats nq j i : Nat) : Nat :=
  cell o (match o with | .rowMajor => stats | .colMajor => nq) j i

end Verif.Quantile
