import Mathlib.Data.Rat.Floor

/-!
# Model of the histograms of the decision trees

`source/core/decision_forest/common/histogram.cpp`.  The number type `T` of the code occurs as the
type of the feature values, of which only comparisons matter, and in the arithmetic on quantiles,
which is a parameter (`Arith`) with two instances: exact rational numbers, and IEEE binary32 (`float`).
-/

namespace Verif.Histogram

/-- The arithmetic on quantiles in `compute_thresholds`. -/
structure Arith (T : Type) where
  /-- `1.0 / (T)max_bin` (line 52) -/
  step : Nat → T
  /-- `(T)1.0 - (T)0.001 * q_step` (line 57) -/
  limit : T → T
  add : T → T → T
  le : T → T → Bool
  /-- `(da_int)std::round(q * n_elem)` (line 58) -/
  pos : T → Nat → Int
  /-- `(T)(r_idx) / (T)(n_elem)` (line 69) -/
  frac : Nat → Nat → T

/-- The exploration of a flat region to the right of `t` (histogram.cpp 59-64).  `k` is
`n_elem - 1 - r`; `close a b` is `|a - b| < tol`. -/
def flatEnd {V} (close : V → V → Bool) (v : Nat → V) (t : Nat) : Nat → Nat → Nat
  | 0, r => r
  | k + 1, r => if close (v t) (v (r + 1)) then flatEnd close v t k (r + 1) else r

/-- `while (q <= last_q + q_step) q += q_step;` (histogram.cpp 70-72). -/
def skip {T} (A : Arith T) (step last : T) : Nat → T → Option T
  | 0, _ => none
  | fuel + 1, q =>
    if A.le q (A.add last step) then skip A step last fuel (A.add q step) else some q

/-- What `compute_thresholds` leaves: the position in the sorted values of each threshold, and whether
it accessed an element outside the values or outside the `max_bin - 1` thresholds of the feature. -/
structure Out where
  at_ : List Nat
  bad : Bool

/-- The new value of `q` (histogram.cpp 68-75). -/
def nextQ {T} (A : Arith T) (step : T) (n t r fuel : Nat) (q : T) : Option T :=
  if r ≠ t then skip A step (A.frac r n) fuel q else some (A.add q step)

/-- The loop of `compute_thresholds` (histogram.cpp 57-78), with `n` sorted values `v`.  `none`: the
fuel ran out (of this loop, or of the inner one, which gets `sf`). -/
def loop {T V} (A : Arith T) (close : V → V → Bool) (v : Nat → V) (n maxBin sf : Nat) :
    Nat → T → Out → Option Out
  | 0, _, _ => none
  | fuel + 1, q, o =>
    if A.le q (A.limit (A.step maxBin)) then
      if A.pos q n - 1 < 0 then some { o with bad := true }
      else
        let t := (A.pos q n - 1).toNat
        let r := flatEnd close v t (n - 1 - t) t
        if n - 1 ≤ r then some o
        else
          match nextQ A (A.step maxBin) n t r sf q with
          | none => none
          | some q' =>
            loop A close v n maxBin sf fuel q'
              { at_ := o.at_ ++ [r + 1], bad := o.bad || decide (maxBin - 1 ≤ o.at_.length) }
    else some o

/-- `bins<T>::compute_thresholds` (histogram.cpp 46-80) after the sort.  `nbins` is one more than the
number of thresholds. -/
def thresholds {T V} (A : Arith T) (close : V → V → Bool) (v : Nat → V) (n maxBin fuel sf : Nat) :
    Option Out :=
  loop A close v n maxBin sf fuel (A.step maxBin) { at_ := [], bad := false }

/-- The binary search of `compute_histograms` (histogram.cpp 151-160), from `start = 0` and
`end = nbins - 1`.  `ltThr i` is `X[..] < thresholds[.. + i]`. -/
def binSearch (ltThr : Nat → Bool) (start end_ : Nat) : Nat :=
  if _h : start < end_ then
    if ltThr ((start + end_) / 2) then binSearch ltThr start ((start + end_) / 2)
    else binSearch ltThr ((start + end_) / 2 + 1) end_
  else start
termination_by end_ - start

/-! ## The two arithmetics -/

/-- Exact arithmetic.  `std::round` rounds halves away from zero; the quantiles are positive. -/
def exact : Arith ℚ where
  step m := 1 / (m : ℚ)
  limit s := 1 - 1 / 1000 * s
  add := (· + ·)
  le a b := decide (a ≤ b)
  pos q n := ⌊q * n + 1 / 2⌋
  frac r n := (r : ℚ) / n

/-- `num / den` rounded to nearest, ties to even, to a binary floating-point number of `p` bits, in
units of 2⁻¹⁰⁰.  Correct for numbers of at least 2^(p-101); smaller ones do not occur here. -/
def rn (p num den : Nat) : Nat :=
  let e := Nat.log2 (num * 2 ^ 100 / den) + 1 - p
  let d := den * 2 ^ e
  let a := num * 2 ^ 100 / d
  let b := num * 2 ^ 100 % d
  (if 2 * b < d then a else if d < 2 * b then a + 1 else a + a % 2) * 2 ^ e

/-- A product of two numbers in units of 2⁻¹⁰⁰, rounded to binary32. -/
def mul32 (a b : Nat) : Nat := rn 24 (a * b) (2 ^ 200)

/-- binary32.  `1.0 / (T)max_bin` is a division in binary64 whose result is converted, as is the
constant `0.001`; everything else is binary32 arithmetic. -/
def binary32 : Arith Nat where
  step m := rn 24 (rn 53 1 m) (2 ^ 100)
  limit s := rn 24 (2 ^ 100 - mul32 (rn 24 (rn 53 1 1000) (2 ^ 100)) s) (2 ^ 100)
  add a b := rn 24 (a + b) (2 ^ 100)
  le a b := decide (a ≤ b)
  pos q n := ((mul32 q (rn 24 n 1) + 2 ^ 99) / 2 ^ 100 : Nat)
  frac r n := rn 24 (rn 24 r 1) (rn 24 n 1)

/-- binary32 when the compiler fuses the multiplication and the subtraction of line 57. -/
def binary32fma : Arith Nat :=
  { binary32 with
    limit := fun s => rn 24 (2 ^ 200 - rn 24 (rn 53 1 1000) (2 ^ 100) * s) (2 ^ 200) }

end Verif.Histogram
