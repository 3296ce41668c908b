import Mathlib.Algebra.Order.Field.Basic
import Mathlib.Algebra.Order.Group.Abs

/-
Model of `compute_probabilities` (`source/core/svm/svm.cpp`, lines 1235-1485): decision
values by cross validation and the fit of the two parameters of the logistic function.

Simplified: exact arithmetic; samples are their row numbers; the classifier trained on a
fold is an arbitrary function of the training samples; `e` and `l` are the exponential
function and the logarithm; the random order is arbitrary.  Integers do not overflow
(`i * n` in line 1285 must fit into `da_int`).
-/
namespace Verif.SvmProb

variable {F : Type} [Field F] [LinearOrder F]

/-! ### Cross validation -/

/-- `fold_start`, `fold_end` (svm.cpp 1285-1286). -/
def foldStart (n nFold i : Nat) : Nat := i * n / nFold
def foldEnd (n nFold i : Nat) : Nat := if i = nFold - 1 then n else (i + 1) * n / nFold

/-- Samples of the validation and of the training set of a fold, in order (svm.cpp
1300-1318). -/
def valSet (n nFold : Nat) (rand : Nat → Nat) (i : Nat) : List Nat :=
  ((List.range n).filter fun s => decide (foldStart n nFold i ≤ s) && decide (s < foldEnd n nFold i)).map rand
def trainSet (n nFold : Nat) (rand : Nat → Nat) (i : Nat) : List Nat :=
  ((List.range n).filter fun s => !(decide (foldStart n nFold i ≤ s) && decide (s < foldEnd n nFold i))).map rand

/-- Decision value of a sample (svm.cpp 1321-1378): `y` is `y_class = 1`; `clf` a
classifier trained on the samples given. -/
def foldDecision (y : Nat → Bool) (clf : List Nat → Nat → F) (train : List Nat) (x : Nat) : F :=
  let missing0 := train.all y
  let missing1 := train.all fun x => !y x
  if missing0 && missing1 then 0
  else if missing0 then 1
  else if missing1 then -1
  else clf train x

/-- The folds (svm.cpp 1284-1383): the values of a fold are copied to
`decision_values[rand_indices[fold_start + j]]`. -/
def crossVal (n nFold : Nat) (rand : Nat → Nat) (y : Nat → Bool) (clf : List Nat → Nat → F) : Nat → F :=
  (List.range nFold).foldl (fun dec i =>
    let val := valSet n nFold rand i
    (List.range val.length).foldl (fun dec j => fun z =>
      if z = rand (foldStart n nFold i + j)
      then foldDecision y clf (trainSet n nFold rand i) (val.getD j 0) else dec z) dec)
    fun _ => 0

/-! ### The fit -/

/-- Targets (svm.cpp 1389-1415): `t[i]`. -/
def target (n : Nat) (y : Nat → Bool) (i : Nat) : F :=
  let pos := ((List.range n).filter y).length
  let neg := ((List.range n).filter fun i => !y i).length
  if y i then ((pos : F) + 1) / ((pos : F) + 2) else 1 / ((neg : F) + 2)

/-- One term of `fval` (svm.cpp 1416-1420). -/
def term (e l : F → F) (t f : F) : F :=
  if 0 ≤ f then t * f + l (1 + e (-f)) else (t - 1) * f + l (1 + e f)

/-- `fval`, `newfval`. -/
def value (e l : F → F) (n : Nat) (dec t : Nat → F) (A B : F) : F :=
  (List.range n).foldl (fun s i => s + term e l (t i) (dec i * A + B)) 0

/-- `p`, `q` (svm.cpp 1427-1434). -/
def pq (e : F → F) (f : F) : F × F :=
  if 0 ≤ f then (e (-f) / (1 + e (-f)), 1 / (1 + e (-f))) else (1 / (1 + e f), e f / (1 + e f))

/-- `h11`, `h22`, `h21`, `g1`, `g2`. -/
structure Sums (F : Type) where
  h11 : F
  h22 : F
  h21 : F
  g1 : F
  g2 : F

/-- Derivatives (svm.cpp 1424-1442). -/
def sums (e : F → F) (sigma : F) (n : Nat) (dec t : Nat → F) (A B : F) : Sums F :=
  (List.range n).foldl (fun s i =>
    let f := dec i * A + B
    let d2 := (pq e f).1 * (pq e f).2
    let d1 := t i - (pq e f).1
    { h11 := s.h11 + dec i * dec i * d2, h22 := s.h22 + d2, h21 := s.h21 + dec i * d2
      g1 := s.g1 + dec i * d1, g2 := s.g2 + d1 })
    { h11 := sigma, h22 := sigma, h21 := 0, g1 := 0, g2 := 0 }

/-- Newton direction and slope (svm.cpp 1445-1448): `dA`, `dB`, `gd`. -/
def direction (s : Sums F) : F × F × F :=
  let det := s.h11 * s.h22 - s.h21 * s.h21
  let dA := (s.h21 * s.g2 - s.h22 * s.g1) / det
  let dB := (s.h21 * s.g1 - s.h11 * s.g2) / det
  (dA, dB, s.g1 * dA + s.g2 * dB)

/-- Line search (svm.cpp 1449-1469) for the function `L`; the first argument limits the
number of halvings.  `none`: the step became too small. -/
def lineSearch (L : F → F → F) (minstep A B fval dA dB gd : F) : Nat → F → Option (F × F × F)
  | 0, _ => none
  | k + 1, step =>
    if minstep ≤ step then
      let newA := A + step * dA
      let newB := B + step * dB
      let newfval := L newA newB
      if newfval < fval + 1 / 10000 * step * gd then some (newA, newB, newfval)
      else lineSearch L minstep A B fval dA dB gd k (step * (1 / 2))
    else none

inductive Status where
  | converged
  | lineFailed
  | maxit
deriving DecidableEq, Repr

/-- Newton iterations (svm.cpp 1422-1482); the first argument is the number left. -/
def newton (e l : F → F) (sigma eps minstep : F) (n : Nat) (dec t : Nat → F) :
    Nat → F → F → F → F × F × Status
  | 0, A, B, _ => (A, B, .maxit)
  | k + 1, A, B, fval =>
    let s := sums e sigma n dec t A B
    if |s.g1| < eps ∧ |s.g2| < eps then (A, B, .converged)
    else
      let (dA, dB, gd) := direction s
      match lineSearch (value e l n dec t) minstep A B fval dA dB gd 64 1 with
      | none => (A, B, .lineFailed)
      | some (A', B', fval') => newton e l sigma eps minstep n dec t k A' B' fval'

/-- The fit (svm.cpp 1389-1484) with the parameters of the code. -/
def platt (e l : F → F) (n : Nat) (y : Nat → Bool) (dec : Nat → F) : F × F × Status :=
  let pos := ((List.range n).filter y).length
  let neg := ((List.range n).filter fun i => !y i).length
  let B := l (((neg : F) + 1) / ((pos : F) + 1))
  let t := target n y
  newton e l (1 / 10 ^ 12) (1 / 10 ^ 5) (1 / 10 ^ 10) n dec t 100 0 B (value e l n dec t 0 B)

/-! ### The status in `compute` -/

/-- One classifier in `compute` (svm.cpp 578-641): the status of `compute_probabilities`
is replaced by that of the training; too many folds leave the parameters `old` unchanged
(svm.cpp 1239-1243).  Result: success, parameters. -/
def computeClf (predictProba : Bool) (n nFold : Nat) (old fitted : F × F) (trained : Bool) : Bool × F × F :=
  let r := if predictProba then (if n < nFold then (false, old) else (true, fitted)) else (true, old)
  (trained, r.2)

end Verif.SvmProb
