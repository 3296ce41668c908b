import Mathlib.Algebra.Order.Field.Basic
import Mathlib.Algebra.Order.Group.Abs

/-
The call-backs that hand the linear models to the L-BFGS-B solver, and the classification done
with the coefficients it returns (source/core/linear_model/linmod_nln_optim.cpp,
source/core/linear_model/linear_model.cpp).

Numbers are the elements of an ordered field and the exponential, the logarithm and the rounding
of a label are parameters, so overflow, NaN and rounding are not modelled.  An array is a function
of its flat index, pointer arithmetic is addition on that index; what lies beyond the arrays is
not modelled here.  A call to BLAS is the loop nest of its definition (`gemv`, `gemm`, `axpy`,
`asum`, `dot`).
-/
namespace Verif.Logistic

/-- `for (i = 0; i < n; i++) s = f i s`. -/
def loop {S : Type*} : Nat → S → (Nat → S → S) → S
  | 0, s, _ => s
  | n + 1, s, f => f n (loop n s f)

/-- `a[i] = v`. -/
def upd {K : Type*} (a : Nat → K) (i : Nat) (v : K) : Nat → K :=
  fun c => if c = i then v else a c

/-- `std::fill(a + lo, a + hi, v)`. -/
def fill {K : Type*} (a : Nat → K) (lo hi : Nat) (v : K) : Nat → K :=
  fun c => if lo ≤ c ∧ c < hi then v else a c

variable {K : Type*} [Field K] [LinearOrder K]

/-- `exp`, `log`, `std::round`. -/
structure Ops (K : Type*) where
  exp : K → K
  log : K → K
  round : K → K

/-- The user data of the call-backs, `usrdata_base` and `cb_usrdata_logreg`
(linmod_nln_optim.cpp:61-99), without the work arrays.  `row` says that `X` is stored by rows. -/
structure Data (K : Type*) where
  row : Bool
  X : Nat → K
  ldX : Nat
  y : Nat → K
  nsamples : Nat
  nfeat : Nat
  intercept : Bool
  l1reg : K
  l2reg : K
  nclass : Nat

/-- The work arrays of `cb_usrdata_logreg` (linmod_nln_optim.cpp:94-97). -/
structure Work (K : Type*) where
  maxexp : Nat → K
  sumexp : Nat → K
  lincomb : Nat → K
  gradp : Nat → K

/-- The constructor `usrdata_base` (linmod_nln_optim.cpp:61-81): the two weights of the penalty
from `lambda` and `alpha`. -/
def mkData (row : Bool) (X : Nat → K) (ldX : Nat) (y : Nat → K) (nsamples nfeat : Nat)
    (intercept : Bool) (lambda alpha : K) (nclass : Nat) : Data K :=
  { row, X, ldX, y, nsamples, nfeat, intercept, nclass
    l1reg := lambda * alpha
    l2reg := lambda * (1 - alpha) / 2 }

/-- Entry `(i, j)` of the matrix that BLAS reads for the given storage. -/
def entry (row : Bool) (X : Nat → K) (ld i j : Nat) : K :=
  if row then X (i * ld + j) else X (j * ld + i)

/-- `eval_feature_matrix` without transposition, `alpha = 1`, `beta = 0`
(linmod_nln_optim.cpp:140-155): `gemv`, then `axpy` with stride 0 on the intercept.  `x` and `v`
are pointers `x + xo`, `v + vo`. -/
def evalFeatureMatrix (row : Bool) (n : Nat) (x : Nat → K) (xo m : Nat) (X : Nat → K) (ld : Nat)
    (v : Nat → K) (vo : Nat) (intercept : Bool) : Nat → K :=
  let aux := if intercept then 1 else 0
  let v := loop m v fun i v =>
    upd v (vo + i) (loop (n - aux) 0 fun j s => s + entry row X ld i j * x (xo + j))
  if intercept then
    loop m v fun i v => upd v (vo + i) (v (vo + i) + x (xo + (n - 1)))
  else v

/-- `regfun` (linmod_nln_optim.cpp:157-170). -/
def regfun (n : Nat) (x : Nat → K) (l1reg l2reg : K) : K :=
  let f1 := if 0 < l1reg then (loop n 0 fun i s => s + |x i|) * l1reg else 0
  let f2 := if 0 < l2reg then (loop n 0 fun i s => s + x i * x i) * l2reg else 0
  f1 + f2

/-- `reggrd` (linmod_nln_optim.cpp:172-188). -/
def reggrd (n : Nat) (x : Nat → K) (l1reg l2reg : K) (grad : Nat → K) : Nat → K :=
  let grad :=
    if 0 < l1reg then
      loop n grad fun i g =>
        if x i ≠ 0 then upd g i (g i + (if x i < 0 then -l1reg else l1reg)) else g
    else grad
  if 0 < l2reg then loop n grad fun i g => upd g i (g i + 2 * l2reg * x i) else grad

/-- `nmod`, the number of parameters of a class. -/
def Data.nmod (D : Data K) : Nat := if D.intercept then D.nfeat + 1 else D.nfeat

/-- The linear combinations of the reference-class call-backs and their maxima, with the part of
the objective that is summed on the way (linmod_nln_optim.cpp:219-237; the same loops without the
objective at 270-284). -/
def rscScores (O : Ops K) (D : Data K) (W : Work K) (x : Nat → K) :
    K × (Nat → K) × (Nat → K) :=
  loop (D.nclass - 1) (0, fill W.maxexp 0 D.nsamples 0, W.lincomb) fun k s =>
    let lc := evalFeatureMatrix D.row D.nmod x (k * D.nmod) D.nsamples D.X D.ldX s.2.2
      (k * D.nsamples) D.intercept
    loop D.nsamples (s.1, s.2.1, lc) fun i s =>
      let idx := k * D.nsamples + i
      let mx := if s.2.1 i < s.2.2 idx then upd s.2.1 i (s.2.2 idx) else s.2.1
      let f := if O.round (D.y i) = (k : K) then s.1 - s.2.2 idx else s.1
      (f, mx, s.2.2)

/-- `objfun_logistic_rsc` (linmod_nln_optim.cpp:198-250). -/
def objfunRsc (O : Ops K) (D : Data K) (W : Work K) (x : Nat → K) : K × Work K :=
  let s := rscScores O D W x
  let f := loop D.nsamples s.1 fun i f =>
    let val := loop (D.nclass - 1) (O.exp (-(s.2.1 i))) fun k v =>
      v + O.exp (s.2.2 (k * D.nsamples + i) - s.2.1 i)
    f + (s.2.1 i + O.log val)
  (f + regfun D.nfeat x D.l1reg D.l2reg, { W with maxexp := s.2.1, lincomb := s.2.2 })

/-- `objgrd_logistic_rsc` (linmod_nln_optim.cpp:252-310).  The gradient reads `X` by columns
whatever the order. -/
def objgrdRsc (O : Ops K) (D : Data K) (W : Work K) (n : Nat) (x grad : Nat → K) (xnew : Bool) :
    Nat → K :=
  let s := rscScores O D W x
  let mx := if xnew then s.2.1 else W.maxexp
  let lc := if xnew then s.2.2 else W.lincomb
  let idc := if D.intercept then 1 else 0
  let grad := fill grad 0 n 0
  let grad := loop D.nsamples grad fun i g =>
    let lnsumexp := loop (D.nclass - 1) (O.exp (-(mx i))) fun k v =>
      v + O.exp (lc (k * D.nsamples + i) - mx i)
    let lnsumexp := mx i + O.log lnsumexp
    loop (D.nclass - 1) g fun k g =>
      let val := -O.exp (lc (k * D.nsamples + i) - lnsumexp)
      let val := if O.round (D.y i) = (k : K) then val + 1 else val
      let g := loop (D.nmod - idc) g fun j g =>
        upd g (k * D.nmod + j) (g (k * D.nmod + j) - D.X (j * D.ldX + i) * val)
      if D.intercept then
        upd g ((k + 1) * D.nmod - 1) (g ((k + 1) * D.nmod - 1) - val)
      else g
  reggrd D.nfeat x D.l1reg D.l2reg grad

/-- `objfun_logistic_two_class` (linmod_nln_optim.cpp:312-351). -/
def objfunTwo (O : Ops K) (D : Data K) (W : Work K) (x : Nat → K) : K × Work K :=
  let lc := evalFeatureMatrix D.row D.nmod x 0 D.nsamples D.X D.ldX W.lincomb 0 D.intercept
  let f := loop D.nsamples 0 fun i f =>
    if lc i < 0 then f + (O.log (1 + O.exp (lc i)) - O.round (D.y i) * lc i)
    else f + (O.log (1 + O.exp (-(lc i))) + (1 - O.round (D.y i)) * lc i)
  (f + regfun D.nfeat x D.l1reg D.l2reg, { W with lincomb := lc })

/-- `objgrd_logistic_two_class` (linmod_nln_optim.cpp:353-398). -/
def objgrdTwo (O : Ops K) (D : Data K) (W : Work K) (n : Nat) (x grad : Nat → K) (xnew : Bool) :
    Nat → K :=
  let lc :=
    if xnew then
      evalFeatureMatrix D.row D.nmod x 0 D.nsamples D.X D.ldX W.lincomb 0 D.intercept
    else W.lincomb
  let grad := fill grad 0 n 0
  let s := loop D.nsamples (W.gradp, (0 : K)) fun i s =>
    let gp :=
      if lc i < 0 then upd s.1 i (O.exp (lc i) / (1 + O.exp (lc i)) - O.round (D.y i))
      else upd s.1 i (1 / (1 + O.exp (-(lc i))) - O.round (D.y i))
    (gp, s.2 + gp i)
  -- gemv, transposed, by columns, beta = 1
  let grad := loop D.nfeat grad fun j g =>
    upd g j (g j + loop D.nsamples 0 fun i t => t + entry false D.X D.ldX i j * s.1 i)
  let grad := if D.intercept then upd grad (n - 1) s.2 else grad
  reggrd D.nfeat x D.l1reg D.l2reg grad

/-- The linear combinations of the call-backs with one set of parameters for every class
(linmod_nln_optim.cpp:423-437 and 484-497): the intercepts are filled in and `gemm` with `beta = 1`
adds the product of `X` with the transposed matrix of coefficients, which has leading dimension
`nclass`. -/
def sscScores (D : Data K) (n : Nat) (lc x : Nat → K) : Nat → K :=
  let lc :=
    if D.intercept then
      loop D.nclass lc fun k lc =>
        fill lc (k * D.nsamples) ((k + 1) * D.nsamples) (x (n - (D.nclass - k)))
    else fill lc 0 (D.nsamples * D.nclass) 0
  loop D.nclass lc fun k lc =>
    loop D.nsamples lc fun i lc =>
      upd lc (k * D.nsamples + i) (lc (k * D.nsamples + i) +
        loop D.nfeat 0 fun j t => t + entry false D.X D.ldX i j * x (j * D.nclass + k))

/-- `objfun_logistic_ssc` (linmod_nln_optim.cpp:400-463). -/
def objfunSsc (O : Ops K) (D : Data K) (W : Work K) (n : Nat) (x : Nat → K) : K × Work K :=
  let mx := fill W.maxexp 0 D.nsamples 0
  let se := fill W.sumexp 0 D.nsamples 0
  let lc := sscScores D n W.lincomb x
  let s := loop D.nsamples ((0 : K), mx, se) fun i s =>
    let fm := loop D.nclass (s.1, s.2.1) fun k q =>
      let m := if q.2 i < lc (k * D.nsamples + i) then upd q.2 i (lc (k * D.nsamples + i)) else q.2
      let f := if O.round (D.y i) = (k : K) then q.1 - lc (k * D.nsamples + i) else q.1
      (f, m)
    let se := upd s.2.2 i (loop D.nclass 0 fun k t =>
      t + O.exp (lc (k * D.nsamples + i) - fm.2 i))
    (fm.1 + (fm.2 i + O.log (se i)), fm.2, se)
  (s.1 + regfun (D.nfeat * D.nclass) x D.l1reg D.l2reg,
    { W with maxexp := s.2.1, sumexp := s.2.2, lincomb := lc })

/-- `objgrd_logistic_ssc` (linmod_nln_optim.cpp:465-535). -/
def objgrdSsc (O : Ops K) (D : Data K) (W : Work K) (n : Nat) (x grad : Nat → K) (xnew : Bool) :
    Nat → K :=
  let W :=
    if xnew then
      let mx := fill W.maxexp 0 D.nsamples 0
      let lc := sscScores D n W.lincomb x
      let s := loop D.nsamples (mx, W.sumexp) fun i s =>
        let m := loop D.nclass s.1 fun k m =>
          if m i < lc (k * D.nsamples + i) then upd m i (lc (k * D.nsamples + i)) else m
        let se := upd s.2 i (loop D.nclass (O.exp (-(m i))) fun k t =>
          t + O.exp (lc (k * D.nsamples + i) - m i))
        (m, se)
      { W with maxexp := s.1, sumexp := s.2, lincomb := lc }
    else W
  let grad := fill grad 0 n 0
  let gp := loop D.nsamples W.gradp fun i gp =>
    loop D.nclass gp fun k gp =>
      let c := k * D.nsamples + i
      let gp := upd gp c (O.exp (W.lincomb c - W.maxexp i) / W.sumexp i)
      if O.round (D.y i) = (k : K) then upd gp c (gp c - 1) else gp
  -- gemm, beta = 0
  let grad := loop D.nfeat grad fun j g =>
    loop D.nclass g fun k g =>
      upd g (j * D.nclass + k)
        (loop D.nsamples 0 fun i t => t + gp (k * D.nsamples + i) * entry false D.X D.ldX i j)
  let grad :=
    if D.intercept then
      loop D.nclass grad fun k g =>
        upd g (n - (D.nclass - k)) (loop D.nsamples 0 fun i t => t + gp (k * D.nsamples + i))
    else grad
  reggrd (D.nfeat * D.nclass) x D.l1reg D.l2reg grad

/-- `objfun_mse` (linmod_nln_optim.cpp:541-567); also what `loss_mse` returns when observations
are given (590-624), with the predictions in the place of the work array. -/
def objfunMse (D : Data K) (mv : Nat → K) (n : Nat) (x : Nat → K) : K × (Nat → K) :=
  let mv := evalFeatureMatrix D.row n x 0 D.nsamples D.X D.ldX mv 0 D.intercept
  let mv := loop D.nsamples mv fun i v => upd v i (v i + -1 * D.y i)
  let ls := loop D.nsamples 0 fun i s => s + mv i ^ 2
  let loss := ls / ((2 * D.nsamples : Nat) : K)
  let nmod := if D.intercept then n - 1 else n
  (loss + regfun nmod x D.l1reg D.l2reg, mv)

/-- `objgrd_mse` (linmod_nln_optim.cpp:630-666). -/
def objgrdMse (D : Data K) (mv : Nat → K) (n : Nat) (x grad : Nat → K) : Nat → K :=
  let mv := evalFeatureMatrix D.row n x 0 D.nsamples D.X D.ldX mv 0 D.intercept
  let mv := loop D.nsamples mv fun i v => upd v i (v i + -1 * D.y i)
  let alpha : K := 1 / (D.nsamples : K)
  let aux := if D.intercept then 1 else 0
  let grad := loop (n - aux) grad fun j g =>
    upd g j (alpha * loop D.nsamples 0 fun i t => t + entry D.row D.X D.ldX i j * mv i)
  let grad :=
    if D.intercept then
      loop D.nsamples (upd grad (n - 1) 0) fun i g => upd g (n - 1) (g (n - 1) + alpha * mv i)
    else grad
  let nmod := if D.intercept then n - 1 else n
  reggrd nmod x D.l1reg D.l2reg grad

/-! ### Classification -/

/-- `evaluate_model`, two classes (linear_model.cpp:668-673). -/
def predictTwo (D : Data K) (coef : Nat → K) (pred : Nat → Nat) : Nat → Nat :=
  let pred := fill pred 0 D.nsamples 0
  let sc := evalFeatureMatrix D.row D.nmod coef 0 D.nsamples D.X D.ldX (fun _ => 0) 0 D.intercept
  loop D.nsamples pred fun i p => if 0 < sc i then upd p i 1 else upd p i 0

/-- The loop that picks a class for every sample (linear_model.cpp:697-705, 731-739). -/
def pick (nsamples nclass : Nat) (sc : Nat → K) (pred : Nat → Nat) : Nat → Nat :=
  loop nsamples pred fun i p =>
    (loop nclass ((0 : K), p) fun k s =>
      if s.1 < sc (k * nsamples + i) then (sc (k * nsamples + i), upd s.2 i k) else s).2

/-- The probabilities of `evaluate_model` with a reference class (linear_model.cpp:674-696). -/
def probaRsc (O : Ops K) (D : Data K) (coef : Nat → K) : Nat → K :=
  let lp := fill (fun _ => (0 : K)) (D.nsamples * (D.nclass - 1)) (D.nsamples * D.nclass) 1
  let lp := loop (D.nclass - 1) lp fun k lp =>
    let lp := loop D.nsamples lp fun i lp =>
      upd lp (k * D.nsamples + i)
        (loop D.nfeat 0 fun j s => s + entry D.row D.X D.ldX i j * coef (k * D.nmod + j))
    let lp :=
      if D.intercept then
        loop D.nsamples lp fun i lp =>
          upd lp (k * D.nsamples + i) (lp (k * D.nsamples + i) + coef ((k + 1) * D.nmod - 1))
      else lp
    loop D.nsamples lp fun i lp =>
      upd lp (k * D.nsamples + i) (O.exp (lp (k * D.nsamples + i)))
  loop D.nsamples lp fun i lp =>
    let aux := loop D.nclass 0 fun k a => a + lp (k * D.nsamples + i)
    loop D.nclass lp fun k lp => upd lp (k * D.nsamples + i) (lp (k * D.nsamples + i) / aux)

/-- `evaluate_model` with a reference class (linear_model.cpp:674-705). -/
def predictRsc (O : Ops K) (D : Data K) (coef : Nat → K) (pred : Nat → Nat) : Nat → Nat :=
  pick D.nsamples D.nclass (probaRsc O D coef) (fill pred 0 D.nsamples 0)

/-- The scores of `evaluate_model` with one set of parameters for every class
(linear_model.cpp:706-729). -/
def scoresSsc (D : Data K) (ncoef : Nat) (coef : Nat → K) : Nat → K :=
  let sc : Nat → K := fun _ => 0
  let sc :=
    if D.intercept then
      loop D.nclass sc fun k sc =>
        fill sc (k * D.nsamples) ((k + 1) * D.nsamples) (coef (ncoef - (D.nclass - k)))
    else sc
  loop D.nclass sc fun k sc =>
    loop D.nsamples sc fun i sc =>
      upd sc (k * D.nsamples + i) (sc (k * D.nsamples + i) +
        loop D.nfeat 0 fun j t => t + entry D.row D.X D.ldX i j * coef (j * D.nclass + k))

/-- `evaluate_model` with one set of parameters for every class (linear_model.cpp:706-739). -/
def predictSsc (D : Data K) (ncoef : Nat) (coef : Nat → K) (pred : Nat → Nat) : Nat → Nat :=
  pick D.nsamples D.nclass (scoresSsc D ncoef coef) (fill pred 0 D.nsamples 0)

/-- The score that `evaluate_model` stores in the place of the loss (linear_model.cpp:741-751). -/
def scoreOf (nsamples : Nat) (pred : Nat → Nat) (obs : Nat → K) : K :=
  (loop nsamples (0 : K) fun i s => if (pred i : K) = obs i then s + 1 else s) / (nsamples : K)

end Verif.Logistic
