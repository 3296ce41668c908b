import Mathlib.Algebra.Order.Field.Basic
import Mathlib.Algebra.Order.BigOperators.Group.Finset
import Mathlib.Algebra.BigOperators.Group.Finset.Basic
import Mathlib.Algebra.BigOperators.Intervals

/-!
# The coordinate descent solver

`/repo/source/core/optimization/coord.hpp`: the reverse communication solver `coord_rcomm` (lines 881-1072), its
ledger of skipped coordinates (class `coord_slv`, lines 215-312) and the driver `coord` (lines 356-845).

Numbers are those of an ordered field `K`; arrays are functions of the index.  The two integer hazards of the code,
the remainder by `restart` and the product `iter * n`, are kept: they end the run with the task `crash`.

Left out: printing, the counters given back for information other than the numbers of evaluations, the flags for
printing, the check of the sizes of the ledger (they are set by the driver).
-/

namespace Verif.Coord

/-- `solver_tasks` (lines 207-213); `crash` stands for undefined behaviour. -/
inductive Task where
  | start | newx | eval | stop | optimchk | crash
  deriving DecidableEq, Repr

/-- The parameters of a run: the options read by the driver (lines 366-441), the tuning constants of `coord_slv`
(lines 246-280) and of the driver (lines 462-475), and the bounds on the variables (lines 55-200; `none` is an
infinite bound).  `skipmaxReset` is the value after line 432-435.  `imax` is the largest `da_int`. -/
structure Par (K : Type) where
  n : Nat
  eps : K
  tol : K
  optim : K
  skiptol : K
  skipmin : Nat
  skipmaxReset : Nat
  skipminReset : Nat
  threshold : Nat
  restart : Nat
  convType : Nat
  maxit : Nat
  imax : Nat
  slowFactor : K
  slowMax : Nat
  lo : Nat → Option K
  hi : Nat → Option K

/-- The variables shared by the solver and the driver, and the workspace `coord_slv`. -/
structure Work (K : Type) where
  x : Nat → K
  k : Nat
  newxk : K
  iter : Nat
  inorm : K
  inormbeta : K
  kdiff : K
  action : Int
  skip : Nat → Nat
  skipmax : Nat → Nat
  skipmin : Nat
  task : Task

/-- An array with one entry replaced. -/
def put {A : Type} (f : Nat → A) (k : Nat) (a : A) : Nat → A := fun j => if j = k then a else f j

section
variable {K : Type} [Field K] [LinearOrder K]

/-- `bound_constr::proj(i, x)`, lines 73-93: the upper bound first, then the lower one. -/
def proj (p : Par K) (i : Nat) (v : K) : K :=
  let v := match p.hi i with
    | some u => min v u
    | none => v
  match p.lo i with
  | some l => max l v
  | none => v

/-- The tolerances saved at the start, lines 917-918. -/
def stepTol (p : Par K) : K := max p.eps p.tol

def optimTol (p : Par K) : K := max p.eps p.optim

/-- `case START` of `coord_rcomm`, lines 900-924. -/
def begin_ (p : Par K) (w : Work K) : Work K :=
  { w with
    skip := fun _ => 0, skipmax := fun _ => p.skipmaxReset
    iter := 0
    x := fun i => if i < p.n then proj p i (w.x i) else w.x i
    k := 0, action := 1, task := .eval, kdiff := 0, inorm := 0, inormbeta := 0 }

/-- `case EVAL`, lines 927-950: the new value is projected, a change not larger than `eps` is dropped, and the
coordinate is written. -/
def takeStep (p : Par K) (w : Work K) : Work K :=
  let v := proj p w.k w.newxk
  let small := |v - w.x w.k| ≤ p.eps
  let v' := if small then w.x w.k else v
  let kdiff := if small then 0 else v - w.x w.k
  { w with
    newxk := v', kdiff := kdiff
    inorm := max w.inorm |kdiff|
    inormbeta := max w.inormbeta |v'|
    x := put w.x w.k v'
    action := if |kdiff| = 0 then 0 else -((w.k : Int) + 1) }

/-- Lines 952-974: the ledger entry of the coordinate just evaluated. -/
def ledgerStep (p : Par K) (w : Work K) : Work K :=
  if p.skiptol < |w.kdiff| then
    if 0 < w.skip w.k then
      { w with skip := put w.skip w.k 0, skipmax := put w.skipmax w.k p.skipmaxReset }
    else w
  else if w.skipmax w.k ≤ w.skip w.k then
    let big := max p.skipmaxReset p.threshold
    let m := min (w.skipmax w.k * 2) big
    { w with
      skipmax := put w.skipmax w.k m
      skip := put w.skip w.k (w.skip w.k + if m = big then 0 else 1) }
  else { w with skip := put w.skip w.k (w.skip w.k + 1) }

/-- The loop of lines 985-994 that passes over the coordinates to be skipped; `f` bounds the number of passes, and
`n` of them are enough (`skipLoop_done`). -/
def skipLoop (n kold skipmin : Nat) (skipmax : Nat → Nat) :
    Nat → (Nat → Nat) → Nat → Bool → (Nat → Nat) × Nat × Bool
  | 0, skip, k, e => (skip, k, e)
  | f + 1, skip, k, e =>
    if skipmin < skip k ∧ skip k < skipmax k ∧ k ≠ kold then
      if n ≤ k + 1 then skipLoop n kold skipmin skipmax f (put skip k (skip k + 1)) 0 true
      else skipLoop n kold skipmin skipmax f (put skip k (skip k + 1)) (k + 1) e
    else (skip, k, e)

/-- Lines 976-994: the next coordinate and whether a cycle has ended. -/
def advance (p : Par K) (w : Work K) : Work K × Bool :=
  let first : Nat × Bool := if w.k + 1 < p.n then (w.k + 1, false) else (0, true)
  let r := skipLoop p.n w.k w.skipmin w.skipmax p.n w.skip first.1 first.2
  ({ w with skip := r.1, k := r.2.1 }, r.2.2)

/-- The tolerance on the step at the end of a cycle, lines 999-1006. -/
def cycleTol (p : Par K) (w : Work K) : K :=
  let t := if 1 ≤ p.convType then max (stepTol p * w.inormbeta) p.eps else stepTol p
  if 2 ≤ p.convType then max t (stepTol p) else t

/-- `check_skip_ledger`, lines 298-306. -/
def ledgerOk (p : Par K) (w : Work K) : Bool := (List.range p.n).all fun j => w.skip j ≤ w.skipmin

/-- Lines 996-1027, the end of a cycle; `kold` is the coordinate just evaluated. -/
def endCycle (p : Par K) (kold : Nat) (w : Work K) : Work K :=
  let w := { w with iter := w.iter + 1 }
  if w.inormbeta = 0 ∨ w.inorm ≤ cycleTol p w ∨ w.k = kold then
    let w := if ledgerOk p w then w
      else { w with skip := fun _ => 0, skipmax := fun _ => p.skipmaxReset }
    { w with task := .optimchk, skipmin := max w.skipmin p.skipminReset }
  else { w with task := .newx }

/-- Lines 1028-1041: whether the next evaluation has to start afresh.  The product is formed in `da_int`, and the
remainder by zero is undefined. -/
def restartCheck (p : Par K) (w : Work K) : Work K :=
  if w.action < 1 then
    if p.imax < w.iter * p.n + w.k then { w with task := .crash }
    else if p.restart = 0 then { w with task := .crash }
    else if (w.iter * p.n + w.k) % p.restart = 0 then { w with action := 1 }
    else w
  else { w with action := 1 }

/-- `case EVAL`, lines 925-1044. -/
def evalTask (p : Par K) (w : Work K) : Work K :=
  let a := advance p (ledgerStep p (takeStep p w))
  restartCheck p (if a.2 then endCycle p w.k a.1 else a.1)

/-- `optim <= w.optim` with `none` for infinity. -/
def leInf (o : Option K) (b : K) : Bool :=
  match o with
  | some a => a ≤ b
  | none => false

/-- `coord_rcomm`, lines 881-1072. -/
def rcomm (p : Par K) (optim : Option K) (w : Work K) : Work K :=
  match w.task with
  | .start => begin_ p w
  | .eval => evalTask p w
  | .optimchk => if leInf optim (optimTol p) then { w with task := .stop } else { w with task := .newx }
  | .newx => { w with task := .eval, inorm := 0, inormbeta := 0 }
  | .stop => { w with task := .stop }
  | .crash => w

end

/-- The statuses of the driver. -/
inductive Status where
  | success | maxit | usrstop | maxtime | callback | slow | internal
  deriving DecidableEq, Repr

/-- The call-backs.  `step x k action kdiff u` gives the new value of the coordinate, the changed user data and
whether it failed; `value` is the same call-back with `f` given; `check` gives the measure of optimality. -/
structure Calls (U K : Type) where
  step : (Nat → K) → Nat → Int → K → U → K × U × Bool
  value : (Nat → K) → U → K
  check : (Nat → K) → U → K × U × Bool

/-- What the run is told from outside, for each iteration: whether the monitor is due, whether it asks to stop and
whether the time is up. -/
structure Env where
  due : Nat → Bool
  wants : Nat → Bool
  late : Nat → Bool

/-- The state of the driver. -/
structure Drv (U K : Type) where
  w : Work K
  u : U
  optim : Option K
  optimOld : Option K
  f : Option K
  cbstop : Bool
  chkcnt : Nat
  chkIter : Int
  slow : Nat
  nfull : Nat
  nlow : Nat
  evals : Nat
  status : Status

section
variable {U K : Type} [Field K] [LinearOrder K]

/-- `case EVAL` of the driver, lines 526-544. -/
def driveEval (cb : Calls U K) (d : Drv U K) : Drv U K :=
  let r := cb.step d.w.x d.w.k d.w.action d.w.kdiff d.u
  { d with
    optim := if d.w.iter = 0 then none else d.optim
    nfull := if 0 < d.w.action then d.nfull + 1 else d.nfull
    nlow := if d.w.action < 0 then d.nlow + 1 else d.nlow
    evals := d.evals + 1
    u := r.2.1
    cbstop := r.2.2
    w := { d.w with newxk := if r.2.2 then d.w.x d.w.k else r.1 } }

/-- The call of `stepchk`, lines 634-645 and 690-702. -/
def driveCheck (cb : Calls U K) (d : Drv U K) : Drv U K :=
  let old := if d.chkcnt = 0 then d.optimOld else d.optim
  let r := cb.check d.w.x d.u
  { d with
    optimOld := old
    chkcnt := d.chkcnt + 1
    chkIter := d.w.iter
    u := r.2.1
    cbstop := r.2.2
    optim := if r.2.2 then old else some r.1 }

/-- `check_progress`, lines 325-340: `current / old >= tol`.  With `old` zero the quotient of the code is infinite
or not a number; with `old` infinite it is zero. -/
def stagnates (cur old : Option K) (tol : K) : Bool :=
  match cur, old with
  | some c, some o => if o = 0 then decide (0 < c) else tol ≤ c / o
  | _, _ => false

/-- The value and the check at the end of an iteration, lines 656-702. -/
def measure (p : Par K) (cb : Calls U K) (e : Env) (d : Drv U K) : Drv U K :=
  if e.due d.w.iter || decide (p.maxit ≤ d.w.iter) || e.late d.w.iter || decide (d.w.task = .stop) || d.cbstop then
    let d := { d with f := some (cb.value d.w.x d.u) }
    if d.chkIter < d.w.iter then driveCheck cb d else d
  else d

/-- The run ends with a status. -/
def halt (d : Drv U K) (s : Status) : Drv U K := { d with status := s, w := { d.w with task := .stop } }

/-- The slow progress counter, lines 325-340 and 784-788. -/
def progress (p : Par K) (d : Drv U K) : Nat :=
  if 1 < d.chkcnt then (if stagnates d.optim d.optimOld p.slowFactor then d.slow + 1 else 0) else d.slow

/-- Whether to stop, lines 737-797. -/
def decideStop (p : Par K) (e : Env) (d : Drv U K) : Drv U K :=
  if d.cbstop then halt d .callback
  else if d.w.task = .stop then d
  else if p.maxit ≤ d.w.iter then halt d .maxit
  else if e.due d.w.iter && e.wants d.w.iter then halt d .usrstop
  else if e.late d.w.iter then halt d .maxtime
  else if d.chkIter = d.w.iter then
    if p.slowMax ≤ progress p d then halt { d with slow := progress p d } .slow
    else { d with slow := progress p d }
  else d

/-- `case STOP` and `case NEWX` of the driver, lines 646-797. -/
def driveNewx (p : Par K) (cb : Calls U K) (e : Env) (d : Drv U K) : Drv U K :=
  decideStop p e (measure p cb e d)

/-- One pass of the loop of lines 521-803. -/
def pass (p : Par K) (cb : Calls U K) (e : Env) (d : Drv U K) : Drv U K :=
  let w := rcomm p d.optim d.w
  let d := { d with w := w, status := .success }
  match w.task with
  | .eval => driveEval cb d
  | .optimchk => driveCheck cb d
  | .stop => driveNewx p cb e d
  | .newx => driveNewx p cb e d
  | .start => { d with status := .internal, w := { w with task := .stop } }
  | .crash => d

/-- The state before the loop, lines 478-520. -/
def initial (p : Par K) (x : Nat → K) (u : U) : Drv U K :=
  { w := { x := x, k := 0, newxk := 0, iter := 0, inorm := 0, inormbeta := 0, kdiff := 0, action := 0,
           skip := fun _ => 0, skipmax := fun _ => p.skipmaxReset, skipmin := p.skipmin, task := .start }
    u := u, optim := some p.optim, optimOld := none, f := none, cbstop := false, chkcnt := 0, chkIter := -1
    slow := 0, nfull := 0, nlow := 0, evals := 0, status := .success }

/-- The run goes on. -/
def Drv.busy (d : Drv U K) : Bool :=
  match d.w.task with
  | .stop => false
  | .crash => false
  | _ => true

/-- The loop of the driver with at most `f` passes; `driver_ends` shows that a number of passes known in advance is
enough. -/
def drive (p : Par K) (cb : Calls U K) (e : Env) : Nat → Drv U K → Drv U K
  | 0, d => d
  | f + 1, d => if d.busy then drive p cb e f (pass p cb e d) else d

end

end Verif.Coord
