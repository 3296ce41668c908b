import Verif.Smo.Init
import Verif.Smo.Model
import Verif.Blocking.Model

/-
Model of the last part of the SVM training and of the decision function
(`source/core/svm/base_svm.cpp`, `c_svm.cpp`, `nu_svm.cpp`): bias, support vectors and
the blocked sum over the support vectors.
-/
namespace Verif.Smo
open Verif.Blocking

variable {F : Type} [Field F] [LinearOrder F]

/-! ### Bias -/

/-- Sum of the gradients of the free entries, their number, smallest gradient of the
entries `up`, largest gradient of the entries `low`, over the first `k` entries
(c_svm.cpp 247-260; nu_svm.cpp 327-350 does this for each class). -/
def biasScan (free up low : Nat → Bool) (big : F) (grad : Nat → F) : Nat → F × Nat × F × F
  | 0 => (0, 0, big, -big)
  | k + 1 =>
    let (sum, cnt, mn, mx) := biasScan free up low big grad k
    (if free k then sum + grad k else sum, if free k then cnt + 1 else cnt,
     if up k then min mn (grad k) else mn, if low k then max mx (grad k) else mx)

/-- Mean of the free gradients, or the middle of the two extremes. -/
def center (free up low : Nat → Bool) (big : F) (grad : Nat → F) (size : Nat) : F :=
  let (sum, cnt, mn, mx) := biasScan free up low big grad size
  if cnt = 0 then (mn + mx) / 2 else sum / cnt

/-- Free entries. -/
def isFree (C a : F) : Bool := decide (0 < a) && decide (a < C)

/-- `csvm::set_bias` (c_svm.cpp 244-264). -/
def cBias (C big : F) (size : Nat) (y alpha grad : Nat → F) : F :=
  -center (fun i => isFree C (alpha i)) (fun i => isUpper C (alpha i) (y i))
    (fun i => isLower C (alpha i) (y i)) big grad size

/-- `bias_p` (nu_svm.cpp 352). -/
def biasP (C big : F) (size : Nat) (y alpha grad : Nat → F) : F :=
  center (fun i => isFree C (alpha i) && decide (0 < y i)) (fun i => isUpperPos C (alpha i) (y i))
    (fun i => isLowerPos (alpha i) (y i)) big grad size

/-- `bias_n` (nu_svm.cpp 353); `gradient_sum_n` is the negated sum. -/
def biasN (C big : F) (size : Nat) (y alpha grad : Nat → F) : F :=
  -center (fun i => isFree C (alpha i) && decide (y i < 0)) (fun i => isUpperNeg (alpha i) (y i))
    (fun i => isLowerNeg C (alpha i) (y i)) big grad size

/-- `nusvm::set_bias` (nu_svm.cpp 323-366): the bias and the multipliers, `none` for the
error. -/
def nuBias (svc : Bool) (C big : F) (size : Nat) (y alpha grad : Nat → F) : Option (F × (Nat → F)) :=
  let p := biasP C big size y alpha grad
  let n := biasN C big size y alpha grad
  let b := (n - p) / 2
  if svc then
    let scale := (p + n) / 2
    if scale = 0 then none else some (b / scale, fun x => alpha x / scale)
  else some (b, alpha)

/-! ### Support vectors -/

/-- The coefficients before small ones are dropped (c_svm.cpp 317, 363, nu_svm.cpp 609 and
the same in nusvr). -/
def svCoeff (m : Kind) (n : Nat) (resp alpha : Nat → F) (i : Nat) : F :=
  if m.regression then alpha i - alpha (i + n) else alpha i * resp i

/-- `support_indexes` (c_svm.cpp 332-338, 375-382): samples whose multiplier is above
the threshold.  For classification the threshold is applied to `alpha`. -/
def svIndexes (m : Kind) (n : Nat) (epsilon : F) (alpha : Nat → F) : List Nat :=
  (List.range n).filter fun i =>
    if m.regression then decide (epsilon < |alpha i - alpha (i + n)|)
    else decide (epsilon < |alpha i|)

/-! ### Decision function -/

/-- Number of entries of block `idx` (base_svm.cpp 424-429). -/
def curBlock (count bs rem idx : Nat) : Nat :=
  if 0 < rem ∧ idx = count - 1 then rem else bs

/-- `outer_block_size` (base_svm.cpp 475-476). -/
def outerBs (nsamples threads : Nat) : Nat := min ((nsamples + threads - 1) / threads) 192

/-- `inner_block_size` (base_svm.cpp 481). -/
def innerBs (nsup : Nat) : Nat := min nsup 256

/-- Parameters of the blocks. -/
structure Blocks where
  obs : Nat
  ocount : Nat
  orem : Nat
  ibs : Nat
  icount : Nat
  irem : Nat

/-- The two blocking schemes (base_svm.cpp 475-484). -/
def blocks (nsamples nsup threads : Nat) : Option Blocks := do
  let (oc, orm) ← blockingScheme nsamples (outerBs nsamples threads)
  let (ic, irm) ← blockingScheme nsup (innerBs nsup)
  some { obs := outerBs nsamples threads, ocount := oc, orem := orm
         ibs := innerBs nsup, icount := ic, irem := irm }

/-- Number of test samples and of support vectors of block `b`. -/
def Blocks.curOuter (p : Blocks) (b : Nat) : Nat := curBlock p.ocount p.obs p.orem (b / p.icount)
def Blocks.curInner (p : Blocks) (b : Nat) : Nat := curBlock p.icount p.ibs p.irem (b % p.icount)

/-- `my_decision[i]` of block `b` (base_svm.cpp 437-455): the kernel matrix of the block
times the coefficients.  `K s x` is the kernel value of support vector `s` and test
sample `x`. -/
def blockDecision (p : Blocks) (K : Nat → Nat → F) (coef : Nat → F) (b i : Nat) : F :=
  ((List.range (p.curInner b)).map fun s =>
    K (b % p.icount * p.ibs + s) (b / p.icount * p.obs + i) * coef (b % p.icount * p.ibs + s)).sum

/-- The atomic additions (base_svm.cpp 456-460) in the order in which they happen; an
event is a block and a position in it. -/
def addDecisions (p : Blocks) (K : Nat → Nat → F) (coef : Nat → F) (events : List (Nat × Nat))
    (d : Nat → F) : Nat → F :=
  events.foldl (fun d e => fun x =>
    if x = e.1 / p.icount * p.obs + e.2 then d x + blockDecision p K coef e.1 e.2 else d x) d

/-- All additions of all blocks. -/
def allEvents (p : Blocks) : List (Nat × Nat) :=
  (List.range (p.ocount * p.icount)).flatMap fun b => (List.range (p.curOuter b)).map fun i => (b, i)

/-- `decision_function` (base_svm.cpp 464-542); `none` if a block size is zero. -/
def decisionFunction (nsamples nsup threads : Nat) (bias : F) (K : Nat → Nat → F) (coef : Nat → F)
    (events : List (Nat × Nat)) : Option (Nat → F) :=
  if nsup = 0 ∨ nsamples = 0 then some fun _ => bias
  else do
    let p ← blocks nsamples nsup threads
    some (addDecisions p K coef events fun _ => bias)

end Verif.Smo
