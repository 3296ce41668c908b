import Mathlib.Algebra.Order.Field.Basic
import Mathlib.Algebra.Order.Group.Abs

/-
Model of the class probabilities of an SVM handle (`source/core/svm/svm.cpp`,
`predict_proba`, lines 1108-1195): pairwise probabilities of the one-versus-one
classifiers and their coupling to probabilities of the classes.

Simplified: exact arithmetic; the matrices are functions of two indices instead of
arrays of `n_class * n_class` entries; one sample.
-/
namespace Verif.SvmProb

variable {F : Type} [Field F] [LinearOrder F]

/-- The probability of the first class of a pair (svm.cpp 1124-1130); `e` is the
exponential function, `f` the decision value times `probaA` plus `probaB`. -/
def sigmoid (e : F → F) (minProb f : F) : F :=
  let proba := if 0 ≤ f then e (-f) / (1 + e (-f)) else 1 / (1 + e f)
  min (max proba minProb) (1 - minProb)

/-- Assignment to an entry of a matrix. -/
def set (Q : Nat → Nat → F) (i j : Nat) (v : F) : Nat → Nat → F := fun a b =>
  if a = i ∧ b = j then v else Q a b

/-- Loop over the pairs of classes (svm.cpp 1121-1135): `pairwise_prob` and the number
of the next classifier. -/
def pairwise (K : Nat) (s : Nat → F) : (Nat → Nat → F) × Nat :=
  (List.range K).foldl (fun st j =>
    (List.range' (j + 1) (K - (j + 1))).foldl (fun st l =>
      (set (set st.1 j l (s st.2)) l j (1 - s st.2), st.2 + 1)) st)
    (fun _ _ => 0, 0)

/-- One row of `Q` (svm.cpp 1138-1152). -/
def qRow (K : Nat) (r : Nat → Nat → F) (Q : Nat → Nat → F) (t : Nat) : Nat → Nat → F :=
  let Q := set Q t t 0
  let Q := (List.range t).foldl (fun Q j =>
    let Q := set Q t t (Q t t + r j t * r j t)
    set Q t j (Q j t)) Q
  (List.range' (t + 1) (K - (t + 1))).foldl (fun Q j =>
    let Q := set Q t t (Q t t + r j t * r j t)
    set Q t j (-r j t * r t j)) Q

def buildQ (K : Nat) (r : Nat → Nat → F) : Nat → Nat → F :=
  (List.range K).foldl (qRow K r) fun _ _ => 0

/-- `Qp` and `pQp` (svm.cpp 1158-1166). -/
def products (K : Nat) (Q : Nat → Nat → F) (p : Nat → F) : (Nat → F) × F :=
  let Qp := fun t => (List.range K).foldl (fun s j => s + Q t j * p j) 0
  (Qp, (List.range K).foldl (fun s t => s + p t * Qp t) 0)

/-- `max_error` (svm.cpp 1168-1172). -/
def maxError (K : Nat) (Qp : Nat → F) (pQp : F) : F :=
  (List.range K).foldl (fun m t => max m |Qp t - pQp|) 0

/-- `y_proba`, `Qp`, `pQp`. -/
structure St (F : Type) where
  p : Nat → F
  Qp : Nat → F
  pQp : F

/-- Update of one probability (svm.cpp 1178-1192). -/
def updateOne (K : Nat) (Q : Nat → Nat → F) (s : St F) (t : Nat) : St F :=
  let Qt := Q t t
  if Qt = 0 then s
  else
    let diff := (-s.Qp t + s.pQp) / Qt
    let p := fun j => if j = t then s.p j + diff else s.p j
    let denom := 1 + diff
    if denom = 0 then { s with p := p }
    else
      { pQp := (s.pQp + diff * (diff * Qt + 2 * s.Qp t)) / (denom * denom)
        Qp := fun j => if j < K then (s.Qp j + diff * Q t j) / denom else s.Qp j
        p := fun j => if j < K then p j / denom else p j }

/-- One pass over the classes. -/
def updateAll (K : Nat) (Q : Nat → Nat → F) (p : Nat → F) : Nat → F :=
  let (Qp, pQp) := products K Q p
  ((List.range K).foldl (updateOne K Q) { p := p, Qp := Qp, pQp := pQp }).p

/-- The iterations (svm.cpp 1154-1194); the first argument is the number left. -/
def iterate (K : Nat) (Q : Nat → Nat → F) (eps : F) : Nat → (Nat → F) → (Nat → F)
  | 0, p => p
  | n + 1, p =>
    let (Qp, pQp) := products K Q p
    if maxError K Qp pQp < eps then p else iterate K Q eps n (updateAll K Q p)

/-- Probabilities of the classes for one sample; `s k` is the pairwise probability of
classifier `k`, `eps0 = 0.005`. -/
def couple (K : Nat) (eps0 : F) (s : Nat → F) : Nat → F :=
  iterate K (buildQ K (pairwise K s).1) (eps0 / K) (max 100 K) fun _ => 1 / (K : F)

end Verif.SvmProb
