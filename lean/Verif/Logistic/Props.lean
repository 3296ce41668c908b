import Verif.Logistic.Mse
import Verif.Logistic.Predict
import Verif.Logistic.Safe

/-
Properties C129 to C134: the cost functions of the linear models that are handed to the L-BFGS-B
solver, their gradients, and the classification.
-/
namespace Verif.Logistic

set_option linter.unusedSectionVars false

open Finset (range)

/-- Data of the examples: two samples with one feature, `1` and `2`, labelled `0` and `1`. -/
noncomputable def exData : Data ℝ :=
  mkData false (fun c => (c : ℝ) + 1) 2 (fun c => (c : ℝ)) 2 1 true 1 0 2

noncomputable def exWork : Work ℝ := ⟨fun _ => 7, fun _ => 7, fun _ => 7, fun _ => 7⟩

section
variable (round : ℝ → ℝ) (row : Bool) (X : Nat → ℝ) (ld : Nat) (y : Nat → ℝ)
  (ns nf : Nat) (ic : Bool) (lambda alpha : ℝ) (nclass : Nat) (A : Nat → Nat → ℝ) (lab : Nat → Nat)

/-! ### C129: two classes -/

/-- The two-class objective is the documented cost, whatever the work arrays hold before. -/
theorem C129_objective (hA : Stored row X ld ns nf A) (hy : Labelled round y ns 2 lab)
    (h1 : 0 ≤ lambda) (h2 : 0 ≤ alpha) (h3 : alpha ≤ 1) (W : Work ℝ) (x : Nat → ℝ) :
    (objfunTwo (realOps round) (mkData row X ld y ns nf ic lambda alpha 2) W x).1 =
      costTwo A lab ns nf ic lambda alpha x :=
  objfunTwo_eq round W x hA (fun i hi => (hy i hi).1) h1 h2 h3

/-- The two-class gradient is the gradient of the objective call-back, both when it computes the
linear combinations itself and when it reuses those of the objective at the same point. -/
theorem C129_gradient (hA : Stored false X ld ns nf A) (hy : Labelled round y ns 2 lab)
    (h1 : 0 ≤ lambda) (h2 : 0 ≤ alpha) (h3 : alpha ≤ 1) (V W : Work ℝ) (x g : Nat → ℝ) (p : Nat)
    (hp : p < width ic nf) (hd : lambda * alpha = 0 ∨ x p ≠ 0 ∨ nf ≤ p) :
    let D := mkData false X ld y ns nf ic lambda alpha 2
    HasDerivAt (fun t => (objfunTwo (realOps round) D V (moved x p t)).1)
        (objgrdTwo (realOps round) D W (width ic nf) x g true p) (x p) ∧
      HasDerivAt (fun t => (objfunTwo (realOps round) D V (moved x p t)).1)
        (objgrdTwo (realOps round) D (objfunTwo (realOps round) D W x).2 (width ic nf) x g false p)
        (x p) := by
  intro D
  have e : (fun t => (objfunTwo (realOps round) D V (moved x p t)).1) =
      fun t => costTwo A lab ns nf ic lambda alpha (moved x p t) := funext fun t =>
    objfunTwo_eq round V _ hA (fun i hi => (hy i hi).1) h1 h2 h3
  rw [e]
  have hc := costTwo_deriv A lab ns nf ic lambda alpha x p hd
  have hy' : ∀ i, i < ns → round (y i) = (lab i : ℝ) := fun i hi => (hy i hi).1
  constructor
  · rw [objgrdTwo_eq round W x g true hA hy' h1 h2 h3 (fun h => by cases h) hp]
    exact hc
  · rw [objgrdTwo_eq round _ x g false hA hy' h1 h2 h3
      (fun _ i hi => objfunTwo_work round W x hA hi) hp]
    exact hc

example : (objgrdTwo (realOps id) exData exWork 2 (fun _ => 0) (fun _ => 7) true 0 = -1 / 2) ∧
    objgrdTwo (realOps id) exData exWork 2 (fun _ => 0) (fun _ => 7) true 1 = 0 := by
  constructor <;>
    · simp [objgrdTwo, realOps, exData, mkData, loop, evalFeatureMatrix, Data.nmod, entry, upd, fill,
        reggrd]
      norm_num

example : (objfunTwo (realOps id) exData exWork (fun c => if c = 0 then 2 else -3)).1 =
    Real.log (1 + Real.exp (-1)) + Real.log (1 + Real.exp (-1)) + 2 := by
  simp [objfunTwo, realOps, exData, mkData, loop, evalFeatureMatrix, Data.nmod, entry, upd, regfun]
  norm_num

/-! ### C130: several classes with a reference class -/

/-- The full property: the objective is the documented cost, with the penalty on the coefficients
of the features of all classes. -/
def C130_statement : Prop :=
  ∀ (round : ℝ → ℝ) (row : Bool) (X : Nat → ℝ) (ld : Nat) (y : Nat → ℝ) (ns nf : Nat) (ic : Bool)
    (lambda alpha : ℝ) (nclass : Nat) (A : Nat → Nat → ℝ) (lab : Nat → Nat),
    Stored row X ld ns nf A → Labelled round y ns nclass lab → 0 ≤ lambda → 0 ≤ alpha →
    alpha ≤ 1 → ∀ (W : Work ℝ) (x : Nat → ℝ),
    (objfunRsc (realOps round) (mkData row X ld y ns nf ic lambda alpha nclass) W x).1 =
      costRef A lab ns nf nclass ic lambda alpha x

/-- What the objective is instead: only the coefficients of class 0 are penalized. -/
theorem C130_exact_extent (hA : Stored row X ld ns nf A) (hy : Labelled round y ns nclass lab)
    (h1 : 0 ≤ lambda) (h2 : 0 ≤ alpha) (h3 : alpha ≤ 1) (W : Work ℝ) (x : Nat → ℝ) :
    (objfunRsc (realOps round) (mkData row X ld y ns nf ic lambda alpha nclass) W x).1 =
      lossRef A lab ns nf nclass ic x + penalty lambda alpha nf x :=
  objfunRsc_eq hA (fun i hi => (hy i hi).1) h1 h2 h3 W x

/-- Three classes, one sample, one feature, ridge: the coefficient of class 1 goes unpenalized. -/
theorem C130_penalty_violated : ¬ C130_statement := by
  intro h
  have hA : Stored false (fun _ => 1) 1 1 1 (fun _ _ => 1) := fun _ _ _ _ => rfl
  have hy : Labelled id (fun _ => 0) 1 3 (fun _ => 0) := fun i _ => ⟨by simp, Nat.succ_pos 2⟩
  have := h id false (fun _ => 1) 1 (fun _ => 0) 1 1 false 1 0 3 (fun _ _ => 1) (fun _ => 0) hA hy
    zero_le_one (le_refl _) zero_le_one exWork (fun _ => 1)
  rw [objfunRsc_eq hA (fun i hi => (hy i hi).1) zero_le_one (le_refl _) zero_le_one] at this
  unfold costRef at this
  have e := add_left_cancel this
  simp [penalty] at e

/-- The property without a penalty, or with two classes.  What is missing is the penalty with
three classes or more, where it is false. -/
theorem C130_objective_partial (hA : Stored row X ld ns nf A)
    (hy : Labelled round y ns nclass lab) (h1 : 0 ≤ lambda) (h2 : 0 ≤ alpha) (h3 : alpha ≤ 1)
    (hn : lambda = 0 ∨ nclass = 2) (W : Work ℝ) (x : Nat → ℝ) :
    (objfunRsc (realOps round) (mkData row X ld y ns nf ic lambda alpha nclass) W x).1 =
      costRef A lab ns nf nclass ic lambda alpha x := by
  rw [objfunRsc_eq hA (fun i hi => (hy i hi).1) h1 h2 h3]
  unfold costRef
  congr 1
  rcases hn with h | h
  · subst h; simp [penalty]
  · subst h; simp

/-- The gradient with a reference class is the gradient of the objective call-back. -/
theorem C130_gradient (hA : Stored false X ld ns nf A) (hy : Labelled round y ns nclass lab)
    (h1 : 0 ≤ lambda) (h2 : 0 ≤ alpha) (h3 : alpha ≤ 1) (V W : Work ℝ) (x g : Nat → ℝ) (n p : Nat)
    (hp : p < n) (hd : lambda * alpha = 0 ∨ x p ≠ 0 ∨ nf ≤ p) :
    let D := mkData false X ld y ns nf ic lambda alpha nclass
    HasDerivAt (fun t => (objfunRsc (realOps round) D V (moved x p t)).1)
        (objgrdRsc (realOps round) D W n x g true p) (x p) ∧
      HasDerivAt (fun t => (objfunRsc (realOps round) D V (moved x p t)).1)
        (objgrdRsc (realOps round) D (objfunRsc (realOps round) D W x).2 n x g false p) (x p) := by
  intro D
  have hy' : ∀ i, i < ns → round (y i) = (lab i : ℝ) := fun i hi => (hy i hi).1
  have e : (fun t => (objfunRsc (realOps round) D V (moved x p t)).1) =
      fun t => lossRef A lab ns nf nclass ic (moved x p t) +
        penalty lambda alpha nf (moved x p t) := funext fun t =>
    objfunRsc_eq hA hy' h1 h2 h3 V _
  rw [e]
  have hc := (lossRef_deriv A lab ns nf nclass ic x p).add (pen_first_deriv lambda alpha nf p x hd)
  constructor
  · rw [objgrdRsc_eq hA hy' h1 h2 h3 W x g true (fun h => by cases h) hp]
    exact hc
  · rw [objgrdRsc_eq hA hy' h1 h2 h3 _ x g false
      (fun _ => (rscScores_ok hA hy' W x).1) hp]
    exact hc

/-- Three classes: gradient at `0`, class probabilities `1/3`. -/
example : (objgrdRsc (realOps id) (mkData false (fun c => (c : ℝ) + 1) 2 (fun c => (c : ℝ)) 2 1 true
      0 0 3) exWork 4 (fun _ => 0) (fun _ => 7) true 0 = 0) ∧
    objgrdRsc (realOps id) (mkData false (fun c => (c : ℝ) + 1) 2 (fun c => (c : ℝ)) 2 1 true
      0 0 3) exWork 4 (fun _ => 0) (fun _ => 7) true 2 = -1 := by
  have h : Real.exp (-Real.log (1 + 1 + 1)) = 1 / 3 := by
    rw [Real.exp_neg, Real.exp_log (by norm_num)]; norm_num
  constructor <;>
    · simp [objgrdRsc, rscScores, realOps, mkData, loop, evalFeatureMatrix, Data.nmod, entry, upd,
        fill, reggrd, h]
      norm_num

/-! ### C131: several classes, all alike -/

/-- The objective is the documented cost with soft-max probabilities and the penalty on the
coefficients of all classes. -/
theorem C131_objective (hA : Stored false X ld ns nf A) (hc : 0 < nclass)
    (hy : Labelled round y ns nclass lab) (h1 : 0 ≤ lambda) (h2 : 0 ≤ alpha) (h3 : alpha ≤ 1)
    (W : Work ℝ) (x : Nat → ℝ) :
    (objfunSsc (realOps round) (mkData row X ld y ns nf ic lambda alpha nclass) W
      (nclass * width ic nf) x).1 = costSoft A lab ns nf nclass ic lambda alpha x :=
  (objfunSsc_ok hA hc hy h1 h2 h3 W x).1

/-- The full property of the gradient: it is the gradient of the objective, both when it computes
the linear combinations itself and when it reuses those of the objective at the same point. -/
def C131_statement : Prop :=
  ∀ (round : ℝ → ℝ) (X : Nat → ℝ) (ld : Nat) (y : Nat → ℝ) (ns nf : Nat) (ic : Bool)
    (lambda alpha : ℝ) (nclass : Nat) (A : Nat → Nat → ℝ) (lab : Nat → Nat),
    Stored false X ld ns nf A → 0 < nclass → Labelled round y ns nclass lab → 0 ≤ lambda →
    0 ≤ alpha → alpha ≤ 1 → ∀ (V W : Work ℝ) (x g : Nat → ℝ) (p : Nat), p < nclass * width ic nf →
    (lambda * alpha = 0 ∨ x p ≠ 0 ∨ nf * nclass ≤ p) →
    let D := mkData false X ld y ns nf ic lambda alpha nclass
    let n := nclass * width ic nf
    HasDerivAt (fun t => (objfunSsc (realOps round) D V n (moved x p t)).1)
        (objgrdSsc (realOps round) D W n x g true p) (x p) ∧
      HasDerivAt (fun t => (objfunSsc (realOps round) D V n (moved x p t)).1)
        (objgrdSsc (realOps round) D (objfunSsc (realOps round) D W n x).2 n x g false p) (x p)

/-- With the linear combinations of the objective, which is how the solver calls it, the gradient
is right.  What is missing is the call with new linear combinations, where it is wrong. -/
theorem C131_gradient_partial (hA : Stored false X ld ns nf A) (hc : 0 < nclass)
    (hy : Labelled round y ns nclass lab) (h1 : 0 ≤ lambda) (h2 : 0 ≤ alpha) (h3 : alpha ≤ 1)
    (V W : Work ℝ) (x g : Nat → ℝ) (p : Nat) (hp : p < nclass * width ic nf)
    (hd : lambda * alpha = 0 ∨ x p ≠ 0 ∨ nf * nclass ≤ p) :
    let D := mkData false X ld y ns nf ic lambda alpha nclass
    let n := nclass * width ic nf
    HasDerivAt (fun t => (objfunSsc (realOps round) D V n (moved x p t)).1)
      (objgrdSsc (realOps round) D (objfunSsc (realOps round) D W n x).2 n x g false p) (x p) := by
  intro D n
  have e : (fun t => (objfunSsc (realOps round) D V n (moved x p t)).1) =
      fun t => costSoft A lab ns nf nclass ic lambda alpha (moved x p t) := funext fun t =>
    (objfunSsc_ok hA hc hy h1 h2 h3 V _).1
  rw [e]
  obtain ⟨_, k1, k2⟩ := objfunSsc_ok (row := false) (ic := ic) hA hc hy h1 h2 h3 W x
  rw [objgrdSsc_eq hA hy h1 h2 h3 _ x g
    (fun k i => probSoft nclass (fun k => linSoft A nf nclass ic x k i) k) (fun k i hk hi => ?_) hp]
  · exact costSoft_deriv (fun i hi => (hy i hi).2) x p hd
  · rw [(k2 i hi).2, k1 k i hk hi, sum_exp_shift, sub_eq_neg_add, Real.exp_add]
    unfold probSoft
    rw [mul_div_mul_left _ _ (Real.exp_pos _).ne']

/-- What the gradient with new linear combinations is: the sum of exponentials has an extra `1`,
that of a reference class that this model does not have. -/
theorem C131_exact_extent (hA : Stored false X ld ns nf A) (hy : Labelled round y ns nclass lab)
    (h1 : 0 ≤ lambda) (h2 : 0 ≤ alpha) (h3 : alpha ≤ 1) (W : Work ℝ) (x g : Nat → ℝ) (p : Nat)
    (hp : p < nclass * width ic nf) :
    objgrdSsc (realOps round) (mkData false X ld y ns nf ic lambda alpha nclass) W
        (nclass * width ic nf) x g true p =
      ∑ i ∈ range ns, ∑ k ∈ range nclass,
          (Real.exp (linSoft A nf nclass ic x k i) /
              (1 + ∑ l ∈ range nclass, Real.exp (linSoft A nf nclass ic x l i)) -
            if lab i = k then 1 else 0) *
            (∑ j ∈ range nf, (if j * nclass + k = p then A i j else 0) +
              if ic ∧ nf * nclass + k = p then 1 else 0) +
        if p < nf * nclass then
          lambda * alpha * (if x p = 0 then 0 else if x p < 0 then -1 else 1) +
            lambda * (1 - alpha) * x p
        else 0 := by
  obtain ⟨W', e, k1, k2⟩ := objgrdSsc_new (round := round) (row := false) (y := y) (ic := ic)
    (lambda := lambda) (alpha := alpha) (nclass := nclass) hA W x g
  rw [e, objgrdSsc_eq hA hy h1 h2 h3 W' x g (fun k i => Real.exp (linSoft A nf nclass ic x k i) /
      (1 + ∑ l ∈ range nclass, Real.exp (linSoft A nf nclass ic x l i))) (fun k i hk hi => ?_) hp]
  · congr 1
    refine Finset.sum_congr rfl fun i _ => Finset.sum_congr rfl fun k _ => ?_
    congr 1
    unfold dSoft dlin one_
    congr 1
    · exact Finset.sum_congr rfl fun j _ => by simp
    · cases ic <;> simp
  · rw [k2 i hi, k1 k i hk hi, sum_exp_shift, sub_eq_neg_add, Real.exp_add,
      ← mul_one_add, mul_div_mul_left _ _ (Real.exp_pos _).ne']

/-- Three classes, one sample, at the origin: probabilities of `1/4` each. -/
theorem C131_new_gradient_violated : ¬ C131_statement := by
  intro h
  have hA : Stored false (fun _ => 1) 1 1 1 (fun _ _ => 1) := fun _ _ _ _ => rfl
  have hy : Labelled id (fun _ => 0) 1 3 (fun _ => 0) := fun i _ => ⟨by simp, Nat.succ_pos 2⟩
  obtain ⟨g1, g2⟩ := h id (fun _ => 1) 1 (fun _ => 0) 1 1 false 0 0 3 (fun _ _ => 1) (fun _ => 0) hA
    (by omega) hy (le_refl _) (le_refl _) zero_le_one exWork exWork (fun _ => 0) (fun _ => 0) 1
    (by simp [width]) (Or.inl (by simp))
  have e := g1.unique g2
  rw [C131_exact_extent id (fun _ => 1) 1 (fun _ => 0) 1 1 false 0 0 3 (fun _ _ => 1) (fun _ => 0)
    hA hy (le_refl _) (le_refl _) zero_le_one exWork _ _ 1 (by simp [width])] at e
  simp [objgrdSsc, objfunSsc, sscScores, realOps, mkData, loop, entry, upd, fill, reggrd, linSoft,
    lin, icpt, Finset.sum_range_succ, width] at e
  have hcard : (Finset.filter (fun x => x = 0) ({0} : Finset Nat)).card = 1 := by decide
  rw [hcard] at e
  norm_num at e

/-- Two samples, three classes, one feature: the gradient after the objective. -/
example :
    let D := mkData false (fun c => (c : ℝ) + 1) 2 (fun c => (c : ℝ)) 2 1 true 0 0 3
    objgrdSsc (realOps id) D (objfunSsc (realOps id) D exWork 6 (fun _ => 0)).2 6 (fun _ => 0)
      (fun _ => 7) false 1 = -1 := by
  simp [objgrdSsc, objfunSsc, sscScores, realOps, mkData, loop, entry, upd, fill, reggrd]
  norm_num

/-! ### C132: classification -/

/-- Two classes: the class is 1 exactly when its probability is the larger one. -/
theorem C132_two (hA : Stored row X ld ns nf A) (x : Nat → ℝ) (pred : Nat → Nat) (i : Nat)
    (hi : i < ns) :
    predictTwo (mkData row X ld y ns nf ic lambda alpha 2) x pred i =
      if 1 - prob1 (lin A nf x (icpt ic (x nf)) i) < prob1 (lin A nf x (icpt ic (x nf)) i)
      then 1 else 0 := by
  rw [predictTwo_at hA x pred hi]
  by_cases h : 0 < lin A nf x (icpt ic (x nf)) i
  · rw [if_pos h, if_pos ((prob1_half _).mpr h)]
  · rw [if_neg h, if_neg (fun h' => h ((prob1_half _).mp h'))]

/-- A reference class: the class is the first one whose documented probability is largest. -/
theorem C132_reference (hA : Stored row X ld ns nf A) (hc : 0 < nclass) (x : Nat → ℝ)
    (pred : Nat → Nat) (i : Nat) (hi : i < ns) :
    let P := probRef nclass fun k => linRef A nf ic x k i
    let c := predictRsc (realOps round) (mkData row X ld y ns nf ic lambda alpha nclass) x pred i
    c < nclass ∧ (∀ k, k < nclass → P k ≤ P c) ∧ ∀ k, k < c → P k < P c := by
  have e := fun k hk => probaRsc_ok (round := round) (y := y) (ic := ic) (lambda := lambda)
    (alpha := alpha) (nclass := nclass) (k := k) hA x hk hi
  obtain ⟨c, hcd⟩ : ∃ c, c = predictRsc (realOps round)
    (mkData row X ld y ns nf ic lambda alpha nclass) x pred i := ⟨_, rfl⟩
  have hp := pick_at ns nclass (probaRsc (realOps round)
    (mkData row X ld y ns nf ic lambda alpha nclass) x) (fill pred 0 ns 0) hi
  change (_ ∧ predictRsc (realOps round) (mkData row X ld y ns nf ic lambda alpha nclass) x pred i
    = _) ∨ (predictRsc (realOps round) (mkData row X ld y ns nf ic lambda alpha nclass) x pred i < _
      ∧ 0 < probaRsc _ _ _ (predictRsc (realOps round)
        (mkData row X ld y ns nf ic lambda alpha nclass) x pred i * ns + i) ∧
      (∀ k, _ → _ ≤ probaRsc _ _ _ (predictRsc (realOps round)
        (mkData row X ld y ns nf ic lambda alpha nclass) x pred i * ns + i)) ∧
      ∀ k, k < predictRsc (realOps round) (mkData row X ld y ns nf ic lambda alpha nclass) x pred i →
        _ < probaRsc _ _ _ (predictRsc (realOps round)
        (mkData row X ld y ns nf ic lambda alpha nclass) x pred i * ns + i)) at hp
  intro P c'
  have hcc : c' = c := hcd.symm
  rw [hcc]
  rw [← hcd] at hp
  rcases hp with ⟨h, _⟩ | ⟨h1, _, h3, h4⟩
  · have h0 := h 0 hc
    rw [e 0 hc] at h0
    exact absurd (probRef_pos _ 0) (not_lt.mpr h0)
  · refine ⟨h1, fun k hk => ?_, fun k hk => ?_⟩
    · have := h3 k hk
      rwa [e k hk, e c h1] at this
    · have := h4 k hk
      rwa [e k (by omega), e c h1] at this

/-- The full property for classes that are all alike: the class has the largest probability. -/
def C132_statement : Prop :=
  ∀ (row : Bool) (X : Nat → ℝ) (ld : Nat) (y : Nat → ℝ) (ns nf : Nat) (ic : Bool)
    (lambda alpha : ℝ) (nclass : Nat) (A : Nat → Nat → ℝ),
    Stored row X ld ns nf A → 0 < nclass → ∀ (x : Nat → ℝ) (pred : Nat → Nat) (i : Nat), i < ns →
    let P := probSoft nclass fun k => linSoft A nf nclass ic x k i
    let c := predictSsc (mkData row X ld y ns nf ic lambda alpha nclass) (nclass * width ic nf) x
      pred i
    c < nclass ∧ ∀ k, k < nclass → P k ≤ P c

theorem predictSsc_cases (hA : Stored row X ld ns nf A) (x : Nat → ℝ) (pred : Nat → Nat) (i : Nat)
    (hi : i < ns) :
    let η := fun k => linSoft A nf nclass ic x k i
    let c := predictSsc (mkData row X ld y ns nf ic lambda alpha nclass) (nclass * width ic nf) x
      pred i
    ((∀ k, k < nclass → η k ≤ 0) ∧ c = 0) ∨
      (c < nclass ∧ 0 < η c ∧ ∀ k, k < nclass → η k ≤ η c) := by
  intro η c
  have e := fun k hk => scoresSsc_ok (y := y) (ic := ic) (lambda := lambda)
    (alpha := alpha) (nclass := nclass) (k := k) hA x hk hi
  have hp := pick_at ns nclass (scoresSsc (mkData row X ld y ns nf ic lambda alpha nclass)
    (nclass * width ic nf) x) (fill pred 0 ns 0) hi
  have hcd : pick ns nclass (scoresSsc (mkData row X ld y ns nf ic lambda alpha nclass)
    (nclass * width ic nf) x) (fill pred 0 ns 0) i = c := rfl
  rw [hcd, fill_in _ _ (Nat.zero_le _) hi] at hp
  rcases hp with ⟨h1, h2⟩ | ⟨h1, h2, h3, _⟩
  · exact Or.inl ⟨fun k hk => by have := h1 k hk; rwa [e k hk] at this, h2⟩
  · rw [e c h1] at h2
    exact Or.inr ⟨h1, h2, fun k hk => by have := h3 k hk; rwa [e k hk, e c h1] at this⟩

/-- Scores `-2`, `-1`, `-3`: class 0 is returned although class 1 is more probable. -/
theorem C132_negative_scores_violated : ¬ C132_statement := by
  intro h
  obtain ⟨x, hx⟩ : ∃ x : Nat → ℝ, x = fun c => if c = 0 then -2 else if c = 1 then -1 else -3 :=
    ⟨_, rfl⟩
  have hA : Stored false (fun _ => 1) 1 1 1 (fun _ _ => 1) := fun _ _ _ _ => rfl
  have hs := h false (fun _ => 1) 1 (fun _ => 0) 1 1 false 0 0 3 (fun _ _ => 1) hA (by omega) x
    (fun _ => 0) 0 (by omega)
  have he : ∀ k, linSoft (fun _ _ => 1) 1 3 false x k 0 = x k := fun k => by
    simp [linSoft, lin, icpt]
  have h0 : predictSsc (mkData false (fun _ => 1) 1 (fun _ => 0) 1 1 false 0 0 3)
      (3 * width false 1) x (fun _ => 0) 0 = 0 := by
    rcases predictSsc_cases false (fun _ => 1) 1 (fun _ => 0) 1 1 false 0 0 3 (fun _ _ => 1) hA x
      (fun _ => 0) 0 (by omega) with ⟨_, h⟩ | ⟨h1, h2, _⟩
    · exact h
    · exfalso
      simp only [he] at h2
      rw [hx] at h2
      revert h2
      simp only [not_lt, imp_false]
      split <;> [skip; split] <;> norm_num
  have h1 := hs.2 1 (by omega)
  rw [h0, probSoft_le (by omega)] at h1
  rw [he, he, hx] at h1
  norm_num at h1

/-- When the class returned is right: exactly when some score is positive or no class is more
probable than class 0. -/
theorem C132_exact_extent (hA : Stored row X ld ns nf A) (hc : 0 < nclass) (x : Nat → ℝ)
    (pred : Nat → Nat) (i : Nat) (hi : i < ns) :
    let η := fun k => linSoft A nf nclass ic x k i
    let P := probSoft nclass η
    let c := predictSsc (mkData row X ld y ns nf ic lambda alpha nclass) (nclass * width ic nf) x
      pred i
    (c < nclass ∧ ∀ k, k < nclass → P k ≤ P c) ↔
      ((∃ k, k < nclass ∧ 0 < η k) ∨ ∀ k, k < nclass → η k ≤ η 0) := by
  intro η P c
  have hcs := predictSsc_cases row X ld y ns nf ic lambda alpha nclass A hA x pred i hi
  constructor
  · intro ⟨h1, h2⟩
    rcases hcs with ⟨_, h4⟩ | ⟨h3, h4, _⟩
    · right
      intro k hk
      have := (probSoft_le hc η).mp (h2 k hk)
      have hc0 : c = 0 := h4
      rwa [hc0] at this
    · exact Or.inl ⟨_, h3, h4⟩
  · intro h
    rcases hcs with ⟨h3, h4⟩ | ⟨h3, _, h5⟩
    · have hc0 : c = 0 := h4
      rcases h with ⟨k, hk, h⟩ | h
      · exact absurd h (not_lt.mpr (h3 k hk))
      · rw [hc0]
        exact ⟨hc, fun k hk => (probSoft_le hc η).mpr (h k hk)⟩
    · exact ⟨h3, fun k hk => (probSoft_le hc η).mpr (h5 k hk)⟩

/-- The property for samples with a positive score.  What is missing are the samples all of whose
scores are at most zero, where it is false. -/
theorem C132_soft_partial (hA : Stored row X ld ns nf A) (hc : 0 < nclass) (x : Nat → ℝ)
    (pred : Nat → Nat) (i : Nat) (hi : i < ns)
    (hs : ∃ k, k < nclass ∧ 0 < linSoft A nf nclass ic x k i) :
    let P := probSoft nclass fun k => linSoft A nf nclass ic x k i
    let c := predictSsc (mkData row X ld y ns nf ic lambda alpha nclass) (nclass * width ic nf) x
      pred i
    c < nclass ∧ ∀ k, k < nclass → P k ≤ P c :=
  (C132_exact_extent row X ld y ns nf ic lambda alpha nclass A hA hc x pred i hi).mpr (Or.inl hs)

/-- The score is the fraction of samples whose class is the observed one. -/
theorem C132_score (pred : Nat → Nat) (obs : Nat → ℝ) :
    scoreOf ns pred obs =
      (((range ns).filter fun i => (pred i : ℝ) = obs i).card : ℝ) / (ns : ℝ) :=
  scoreOf_eq pred obs

/-- Over the rationals, where the classification can be run: three samples `1`, `2`, `-1` with the
slopes `1`, `-1`, `0` of three classes and intercepts `0`, `1`, `1`. -/
example : (List.range 3).map (predictSsc (K := ℚ)
    (mkData false (fun c => if c = 0 then 1 else if c = 1 then 2 else -1) 3 (fun _ => 0) 3 1 true 0 0 3)
    6 (fun c => [1, -1, 0, 0, 1, 1].getD c 0) (fun _ => 9)) = [0, 0, 1] := by
  decide +kernel

example : (List.range 3).map (predictTwo (K := ℚ)
    (mkData false (fun c => if c = 0 then 1 else if c = 1 then 2 else -1) 3 (fun _ => 0) 3 1 true 0 0 2)
    (fun c => [2, -3].getD c 0) (fun _ => 9)) = [0, 1, 0] := by
  decide +kernel

example : (List.range 3).map (predictRsc (K := ℚ) ⟨fun t => t * t + 1, id, id⟩
    (mkData false (fun c => if c = 0 then 1 else if c = 1 then 2 else -1) 3 (fun _ => 0) 3 1 true 0 0 3)
    (fun c => [1, 0, 0, 2].getD c 0) (fun _ => 9)) = [1, 0, 1] := by
  decide +kernel

example : scoreOf (K := ℚ) 3 (fun i => i) (fun i => if i = 1 then 0 else (i : ℚ)) = 2 / 3 := by
  decide +kernel

/-! ### C133: exponentials of positive numbers are avoided -/

/-- The two-class objective takes no exponential of a positive number and no logarithm of a number
below 1. -/
theorem C133_two (O : Ops ℝ) (hO : Safe O) (hA : Stored row X ld ns nf A)
    (hy : Labelled O.round y ns 2 lab) (h1 : 0 ≤ lambda) (h2 : 0 ≤ alpha) (h3 : alpha ≤ 1)
    (W : Work ℝ) (x : Nat → ℝ) :
    (objfunTwo O (mkData row X ld y ns nf ic lambda alpha 2) W x).1 =
      costTwo A lab ns nf ic lambda alpha x := by
  rw [← objfunTwo_eq O.round W x hA (fun i hi => (hy i hi).1) h1 h2 h3]
  unfold objfunTwo
  dsimp only
  congr 1
  refine loop_congr _ _ _ _ fun i s hi => ?_
  obtain ⟨c, hc⟩ : ∃ c, c = evalFeatureMatrix (mkData row X ld y ns nf ic lambda alpha 2).row
    (mkData row X ld y ns nf ic lambda alpha 2).nmod x 0
    (mkData row X ld y ns nf ic lambda alpha 2).nsamples
    (mkData row X ld y ns nf ic lambda alpha 2).X (mkData row X ld y ns nf ic lambda alpha 2).ldX
    W.lincomb 0 (mkData row X ld y ns nf ic lambda alpha 2).intercept i := ⟨_, rfl⟩
  rw [← hc]
  have hone : ∀ t : ℝ, 1 ≤ 1 + Real.exp t := fun t => by have := Real.exp_pos t; linarith
  by_cases h : c < 0
  · rw [if_pos h, if_pos h, hO.1 c h.le, hO.2 _ (hone _)]; rfl
  · rw [if_neg h, if_neg h, hO.1 (-c) (by linarith [not_lt.mp h]), hO.2 _ (hone _)]; rfl

/-- The same with a reference class. -/
theorem C133_reference (O : Ops ℝ) (hO : Safe O) (hA : Stored row X ld ns nf A)
    (hy : Labelled O.round y ns nclass lab) (h1 : 0 ≤ lambda) (h2 : 0 ≤ alpha) (h3 : alpha ≤ 1)
    (W : Work ℝ) (x : Nat → ℝ) :
    (objfunRsc O (mkData row X ld y ns nf ic lambda alpha nclass) W x).1 =
      lossRef A lab ns nf nclass ic x + penalty lambda alpha nf x := by
  have hy' : ∀ i, i < ns → O.round (y i) = (lab i : ℝ) := fun i hi => (hy i hi).1
  rw [← objfunRsc_eq (round := O.round) (y := y) (row := row) (X := X) (ld := ld) hA hy' h1 h2 h3 W x]
  obtain ⟨k1, k2, _⟩ := rscScores_ok (ic := ic) (lambda := lambda) (alpha := alpha)
    (nclass := nclass) hA hy' W x
  have es : rscScores O (mkData row X ld y ns nf ic lambda alpha nclass) W x =
    rscScores (realOps O.round) (mkData row X ld y ns nf ic lambda alpha nclass) W x := rfl
  unfold objfunRsc
  rw [es]
  obtain ⟨s, hs⟩ : ∃ s, s = rscScores (realOps O.round)
    (mkData row X ld y ns nf ic lambda alpha nclass) W x := ⟨_, rfl⟩
  rw [← hs] at k1 k2 ⊢
  show loop ns s.1 (fun i f => f + (s.2.1 i + O.log (loop (nclass - 1) (O.exp (-(s.2.1 i)))
    fun k v => v + O.exp (s.2.2 (k * ns + i) - s.2.1 i)))) + _ =
    loop ns s.1 (fun i f => f + (s.2.1 i + Real.log (loop (nclass - 1) (Real.exp (-(s.2.1 i)))
      fun k v => v + Real.exp (s.2.2 (k * ns + i) - s.2.1 i)))) + _
  congr 1
  refine loop_congr _ _ _ _ fun i f hi => ?_
  obtain ⟨t0, t1, t2⟩ := k2 i hi
  have ee : (loop (nclass - 1) (O.exp (-(s.2.1 i))) fun k v =>
      v + O.exp (s.2.2 (k * ns + i) - s.2.1 i)) =
      loop (nclass - 1) (Real.exp (-(s.2.1 i))) fun k v =>
        v + Real.exp (s.2.2 (k * ns + i) - s.2.1 i) := by
    rw [hO.1 _ (by linarith)]
    refine loop_congr _ _ _ _ fun k v hk => ?_
    rw [hO.1 _ (by rw [k1 k i hk hi]; have := t1 k hk; linarith)]
  rw [ee, hO.2]
  rw [loop_sum]
  have hnn : ∀ k ∈ range (nclass - 1), 0 ≤ Real.exp (s.2.2 (k * ns + i) - s.2.1 i) :=
    fun k _ => (Real.exp_pos _).le
  rcases t2 with e | ⟨l, hl, e⟩
  · rw [e]
    have := Finset.sum_nonneg hnn
    rw [e] at this
    simp only [neg_zero, Real.exp_zero]
    linarith
  · have := Finset.single_le_sum hnn (Finset.mem_range.mpr hl)
    simp only at e
    rw [k1 l i hl hi, ← e, sub_self, Real.exp_zero] at this
    have := Real.exp_pos (-(s.2.1 i))
    linarith

/-- The full property for classes that are all alike. -/
def C133_statement : Prop :=
  ∀ (O : Ops ℝ), Safe O → ∀ (X : Nat → ℝ) (ld : Nat) (y : Nat → ℝ) (ns nf : Nat) (ic : Bool)
    (lambda alpha : ℝ) (nclass : Nat) (A : Nat → Nat → ℝ) (lab : Nat → Nat),
    Stored false X ld ns nf A → 0 < nclass → Labelled O.round y ns nclass lab → 0 ≤ lambda →
    0 ≤ alpha → alpha ≤ 1 → ∀ (W : Work ℝ) (x : Nat → ℝ),
    (objfunSsc O (mkData false X ld y ns nf ic lambda alpha nclass) W (nclass * width ic nf) x).1 =
      costSoft A lab ns nf nclass ic lambda alpha x

/-- With the scores `-1000` of three classes the exponentials are subtracted the maximum `0`, which
is none of the scores, and the logarithm is that of a number that no floating-point type can
represent. -/
theorem C133_underflow_violated : ¬ C133_statement := by
  intro h
  obtain ⟨O, hO⟩ : ∃ O : Ops ℝ, O = ⟨Real.exp, fun v => if 1 ≤ v then Real.log v else -5000, id⟩ :=
    ⟨_, rfl⟩
  have hs : Safe O := by
    rw [hO]; exact ⟨fun _ _ => rfl, fun v hv => if_pos hv⟩
  have hA : Stored false (fun _ => 1) 1 1 1 (fun _ _ => 1) := fun _ _ _ _ => rfl
  have hy : Labelled id (fun _ => 0) 1 3 (fun _ => 0) := fun i _ => ⟨by simp, Nat.succ_pos 2⟩
  have e := h O hs (fun _ => 1) 1 (fun _ => 0) 1 1 false 0 0 3 (fun _ _ => 1) (fun _ => 0) hA
    (by omega) (by rw [hO]; exact hy) (le_refl _) (le_refl _) zero_le_one exWork (fun _ => -1000)
  have hp : 0 < Real.exp (-1000) := Real.exp_pos _
  have hlt : ¬ 1 ≤ Real.exp (-1000) + Real.exp (-1000) + Real.exp (-1000) := by
    have h1 : Real.exp (-1000) * Real.exp 1000 = 1 := by rw [← Real.exp_add]; simp
    have h2 : (1000 : ℝ) + 1 ≤ Real.exp 1000 := Real.add_one_le_exp 1000
    nlinarith
  have hn1 : ¬ (0 : ℝ) < -1000 := by norm_num
  simp [hO, objfunSsc, sscScores, mkData, loop, entry, upd, fill, regfun, costSoft, probSoft,
    linSoft, lin, icpt, penalty, hlt, hn1] at e
  have hl : Real.log (Real.exp (-1000) / (3 * Real.exp (-1000))) = -Real.log 3 := by
    rw [← Real.log_inv]; congr 1; field_simp
  rw [hl] at e
  have := Real.log_nonneg (show (1 : ℝ) ≤ 3 by norm_num)
  linarith

/-- The property when every sample has a score that is not negative: then the largest exponential
is `1`.  What is missing are samples all of whose scores are negative, where it is false. -/
theorem C133_soft_partial (O : Ops ℝ) (hO : Safe O) (hA : Stored false X ld ns nf A)
    (hc : 0 < nclass) (hy : Labelled O.round y ns nclass lab) (h1 : 0 ≤ lambda) (h2 : 0 ≤ alpha)
    (h3 : alpha ≤ 1) (W : Work ℝ) (x : Nat → ℝ)
    (hs : ∀ i, i < ns → ∃ k, k < nclass ∧ 0 ≤ linSoft A nf nclass ic x k i) :
    (objfunSsc O (mkData false X ld y ns nf ic lambda alpha nclass) W (nclass * width ic nf) x).1 =
      costSoft A lab ns nf nclass ic lambda alpha x := by
  rw [objfunSsc_safe O hO hA W x hs]
  exact (objfunSsc_ok hA hc hy h1 h2 h3 W x).1

/-- An exponential that overflows, and scores where it does not matter. -/
example : (objfunTwo ⟨fun t => if t ≤ 0 then Real.exp t else 0, Real.log, id⟩ exData exWork
    (fun c => if c = 0 then 2000 else -3000)).1 =
      Real.log (1 + Real.exp (-1000)) + Real.log (1 + Real.exp (-1000)) + 2000000 := by
  have h1 : (-1000 : ℝ) ≤ 0 := by norm_num
  simp [objfunTwo, exData, mkData, loop, evalFeatureMatrix, Data.nmod, entry, upd, regfun]
  norm_num [h1]

/-! ### C134: least squares -/

/-- The least-squares objective is the documented cost, for matrices stored by rows and by
columns. -/
theorem C134_objective (hA : Stored row X ld ns nf A) (h1 : 0 ≤ lambda) (h2 : 0 ≤ alpha)
    (h3 : alpha ≤ 1) (mv x : Nat → ℝ) :
    (objfunMse (mkData row X ld y ns nf ic lambda alpha nclass) mv (width ic nf) x).1 =
      costMse A y ns nf ic lambda alpha x :=
  objfunMse_eq hA h1 h2 h3 mv x

/-- The least-squares gradient is the gradient of the objective call-back. -/
theorem C134_gradient (hA : Stored row X ld ns nf A) (hn : 0 < ns) (h1 : 0 ≤ lambda)
    (h2 : 0 ≤ alpha) (h3 : alpha ≤ 1) (mu mv x g : Nat → ℝ) (p : Nat) (hp : p < width ic nf)
    (hd : lambda * alpha = 0 ∨ x p ≠ 0 ∨ nf ≤ p) :
    let D := mkData row X ld y ns nf ic lambda alpha nclass
    HasDerivAt (fun t => (objfunMse D mu (width ic nf) (moved x p t)).1)
      (objgrdMse D mv (width ic nf) x g p) (x p) := by
  intro D
  have e : (fun t => (objfunMse D mu (width ic nf) (moved x p t)).1) =
      fun t => costMse A y ns nf ic lambda alpha (moved x p t) := funext fun t =>
    objfunMse_eq hA h1 h2 h3 mu _
  rw [e, objgrdMse_eq hA h1 h2 h3 mv x g hp]
  exact costMse_deriv hn x p hd

end

/-- Rows `(1, 2)` and `(3, 4)`, targets `0` and `1`, `λ = 2`, `α = 1/2`. -/
example : ((objfunMse (K := ℚ) (mkData true (fun c => (c : ℚ) + 1) 2 (fun c => (c : ℚ)) 2 2 true 2
      (1 / 2) 0) (fun _ => 7) 3 (fun c => [1, -1, 2].getD c 0)).1 = 13 / 4) ∧
    (List.range 3).map (objgrdMse (K := ℚ) (mkData true (fun c => (c : ℚ) + 1) 2 (fun c => (c : ℚ)) 2
      2 true 2 (1 / 2) 0) (fun _ => 7) 3 (fun c => [1, -1, 2].getD c 0) (fun _ => 7)) =
      [5 / 2, -1, 1 / 2] := by
  decide +kernel

end Verif.Logistic
