import Mathlib.Algebra.BigOperators.Group.List.Basic
import Mathlib.Algebra.Order.Field.Basic

/-
The sums behind the basic statistics:
/repo/source/core/basic_statistics/moment_statistics.cpp:45-433.

Values are taken from an arbitrary commutative monoid, so additions are exact; the
`omp simd reduction` loops, which may add in any order, are written in index order.
A `da_int` is a natural number (every argument has been checked to be a count when these
functions run) and never wraps.  Memory is a list: reading or writing past its end, using
freed memory, taking the value of an empty `std::optional`, dividing by zero and looping
for ever are faults, each distinct from every normal result.  `std::bad_alloc` and the
`_Float16` instantiations (where the accumulator type is wider than the data) are not
modelled.  `thr` stands for RECURSIVE_SUM_THRESHOLD, which is 2048 (line 46).
-/
namespace Verif.Moments

inductive Fault
  /-- read or write outside an array -/
  | oob
  /-- `.value()` of an empty optional -/
  | noParam
  /-- use of a freed or null array -/
  | freed
  /-- division by zero -/
  | divZero
  /-- square root of a negative number -/
  | nan
  /-- a loop that does not end -/
  | stuck
  deriving DecidableEq, Repr

abbrev M := Except Fault

variable {A W : Type}

def rd (x : List A) (i : Nat) : M A :=
  match x[i]? with
  | some a => .ok a
  | none => .error .oob

def wr (x : List A) (i : Nat) (a : A) : M (List A) :=
  if i < x.length then .ok (x.set i a) else .error .oob

/-- `for (i = 0; i < n; ++i) s = f(i, s)`. -/
def forUp (n : Nat) (f : Nat → A → M A) (s : A) : M A :=
  (List.range n).foldlM (fun s i => f i s) s

/-- The summand `S` of the templates: a function of the entry, or of the entry and a
parameter (the mean); the exponent of `sum_of_powers` is part of the function. -/
inductive Kern (A W : Type)
  | one (f : A → W)
  | two (f : A → A → W)

/-- moment_statistics.cpp:117-123: which call of `S` is compiled. -/
def Kern.app (S : Kern A W) (p : Option A) (x : A) : M W :=
  match S, p with
  | .one f, _ => .ok (f x)
  | .two f, some p => .ok (f x p)
  | .two _, none => .error .noParam

variable [AddCommMonoid W]

/-- `recursive_sum`, the inner loop of the base case, moment_statistics.cpp:115-124. -/
def addRun (S : Kern A W) (x : List A) (p : Option A) (pos left : Nat) (acc : W) : M W :=
  forUp left (fun i acc => do
    let a ← rd x (pos + i)
    let w ← S.app p a
    .ok (acc + w)) acc

/-- `recursive_sum`, the `while` loop of the base case, moment_statistics.cpp:114-129.
`pos` is where `data` points. -/
def walk (S : Kern A W) (x : List A) (p : Option A) (inner stride : Nat) :
    (fuel pos chunk left : Nat) → W → M W
  | 0, _, _, _, _ => .error .stuck
  | fuel + 1, pos, chunk, left, acc =>
    if chunk = 0 then .ok acc
    else do
      let acc ← addRun S x p pos left acc
      let chunk := chunk - left
      walk S x p inner stride fuel (pos + (left + stride)) chunk (min inner chunk) acc

/-- `recursive_sum`, moment_statistics.cpp:95-140. -/
def recSum (thr : Nat) (S : Kern A W) (x : List A) (p : Option A) (inner stride : Nat) :
    (fuel chunk element : Nat) → M W
  | 0, _, _ => .error .stuck
  | fuel + 1, chunk, element =>
    if chunk ≤ thr then
      if inner = 0 then .error .divZero
      else
        let outerN := element / inner
        walk S x p inner stride (chunk + 1) (element + outerN * stride) chunk
          (min chunk (inner * (outerN + 1) - element)) 0
    else do
      let s1 ← recSum thr S x p inner stride fuel (chunk / 2) element
      let s2 ← recSum thr S x p inner stride fuel (chunk - chunk / 2) (element + chunk / 2)
      .ok (s1 + s2)

/-- `sum1[i] += v`. -/
def addAt (s : List W) (i : Nat) (v : W) : M (List W) := do
  let a ← rd s i
  wr s i (a + v)

/-- The parameter of entry `j`: `opt_param1.value()[j]` when there is one. -/
def paramAt (p : Option (List A)) (j : Nat) : M (Option A) :=
  match p with
  | none => .ok none
  | some l => do
    let a ← rd l j
    .ok (some a)

/-- `recursive_sum_vector`, the base case, moment_statistics.cpp:152-177: rows `base`,
`base + ldx`, … are added to the `inner` entries of `s` from `so` on.  `po` is where the
parameter pointer points within the caller's array. -/
def vecLeaf (S : Kern A W) (x : List A) (p : Option (List A)) (po inner ldx chunk base so : Nat)
    (s : List W) : M (List W) :=
  forUp chunk (fun i s =>
    forUp inner (fun j s => do
      let a ← rd x (base + ldx * i + j)
      let q ← match S with
        | .one _ => .ok none
        | .two _ => paramAt p (po + j)
      let w ← S.app q a
      addAt s (so + j) w) s) s

/-- `recursive_sum_vector`, moment_statistics.cpp:146-202.  `dst` is the array that `sum1`
points into, with the offset at which it points; `none` is a null pointer. -/
def recVec (thr : Nat) (S : Kern A W) (x : List A) (p : Option (List A)) (po inner ldx : Nat) :
    (fuel chunk base : Nat) → Option (List W × Nat) → M (List W × Nat)
  | 0, _, _, _ => .error .stuck
  | fuel + 1, chunk, base, dst =>
    if chunk ≤ thr then
      let d := dst.getD (List.replicate inner 0, 0)
      do
        let s ← vecLeaf S x p po inner ldx chunk base d.2 d.1
        .ok (s, d.2)
    else do
      let d1 ← recVec thr S x p po inner ldx fuel (chunk / 2) base dst
      let d2 ← recVec thr S x p po inner ldx fuel (chunk - chunk / 2)
        (base + chunk / 2 * ldx) none
      let s ← forUp inner (fun i s => do
        let v ← rd d2.1 (d2.2 + i)
        addAt s (d1.2 + i) v) d1.1
      .ok (s, d1.2)

/-- What the run time decides: the numbers of threads and the order in which the
iterations of the parallel loops take effect. -/
structure Env where
  /-- `omp_get_max_threads()` -/
  maxThreads : Nat
  /-- the number of threads of the parallel region of `full_sum` -/
  team : Nat
  /-- `full_sum`: the order in which the threads reach the atomic addition -/
  sumOrder : List Nat
  /-- `sum_axis_aligned`: the order of the iterations -/
  lines : List Nat
  /-- `sum_axis_misaligned`: the order of the iterations of the collapsed loop -/
  blocks : List (Nat × Nat)
  /-- `sum_axis_misaligned`: the order of the iterations of the reduction, per stride -/
  level : Nat → List Nat

/-- The number of threads that run the region of `full_sum`: its `if` clause,
moment_statistics.cpp:216-229. -/
def Env.fullTeam (e : Env) (outer inner : Nat) : Nat :=
  if 32768 < outer * inner then e.team else 1

/-- `full_sum`, moment_statistics.cpp:208-251.  `out` is the array `asum`. -/
def fullSum (thr : Nat) (e : Env) (S : Kern A W) (outer inner : Nat) (x : List A) (ldx : Nat)
    (p : Option (List A)) (out : List W) : M (List W) := do
  let out ← wr out 0 0
  let q ← paramAt p 0
  let nt := e.fullTeam outer inner
  e.sumOrder.foldlM (fun out t => do
    let chunk := outer * inner / nt
    let start := t * chunk
    let chunk := if t = nt - 1 then chunk + outer * inner % nt else chunk
    let s ← recSum thr S x q inner (ldx - inner) (chunk + 1) chunk start
    addAt out 0 s) out

/-- `sum_axis_aligned`, moment_statistics.cpp:253-276. -/
def alignedSum (thr : Nat) (e : Env) (S : Kern A W) (inner : Nat) (x : List A) (ldx : Nat)
    (p : Option (List A)) (out : List W) : M (List W) :=
  e.lines.foldlM (fun out i => do
    let q ← paramAt p i
    let s ← recSum thr S x q inner (ldx - inner) (inner + 1) inner (i * inner)
    wr out i s) out

/-- The blocks of `sum_axis_misaligned`. -/
structure Plan where
  nOuter : Nat
  outerSize : Nat
  nInner : Nat
  innerSize : Nat
  deriving DecidableEq, Repr

/-- moment_statistics.cpp:286-307. -/
def plan (thr maxThreads outer inner : Nat) : M Plan :=
  let mt := if inner ≥ 1024 ∨ outer ≥ 1024 then maxThreads else 1
  if thr = 0 then .error .divZero
  else
    let nInner := (inner + thr - 1) / thr
    let nOuter := min mt ((outer + thr - 1) / thr)
    if nOuter = 0 then .error .divZero
    else
      let outerSize := outer / nOuter
      if nOuter * nInner < mt then
        let c1 := (inner + 32 - 1) / 32
        let c2 := (mt + nOuter - 1) / nOuter
        let nInner := min c1 c2
        if nInner = 0 then .error .divZero
        else .ok ⟨nOuter, outerSize, nInner, inner / nInner⟩
      else .ok ⟨nOuter, outerSize, nInner, thr⟩

/-- One iteration of the collapsed loop, moment_statistics.cpp:344-373.  `ls` are the
arrays `local_sums`, `none` being a null or freed pointer. -/
def block (thr : Nat) (S : Kern A W) (pl : Plan) (outer inner : Nat) (x : List A) (ldx : Nat)
    (p : Option (List A)) (ij : Nat × Nat) (ls : List (Option (List W))) :
    M (List (Option (List W))) := do
  let innerOff := ij.2 * pl.innerSize
  let curOuter := if ij.1 = pl.nOuter - 1 then outer - ij.1 * pl.outerSize else pl.outerSize
  let curInner := if ij.2 = pl.nInner - 1 then inner - innerOff else pl.innerSize
  let start := ij.1 * pl.outerSize * ldx + innerOff
  match ← rd ls ij.1 with
  | none => .error .freed
  | some arr =>
    let d ← recVec thr S x p innerOff curInner ldx (curOuter + 1) curOuter start
      (some (arr, innerOff))
    wr ls ij.1 (some d.1)

/-- One iteration of the reduction, moment_statistics.cpp:382-395. -/
def merge (nOuter inner stride dst : Nat) (ls : List (Option (List W))) :
    M (List (Option (List W))) :=
  let src := dst + stride
  if src < nOuter then do
    match ← rd ls dst, ← rd ls src with
    | some a, some b =>
      let s ← forUp inner (fun k s => do
        let v ← rd b k
        addAt s k v) a
      let ls ← wr ls dst (some s)
      wr ls src none
    | _, _ => .error .freed
  else .ok ls

/-- The loop over the strides, moment_statistics.cpp:377-397. -/
def mergeAll (e : Env) (nOuter inner : Nat) :
    (fuel stride : Nat) → List (Option (List W)) → M (List (Option (List W)))
  | 0, _, _ => .error .stuck
  | fuel + 1, stride, ls =>
    if stride < nOuter then do
      let ls ← (e.level stride).foldlM (fun ls dst => merge nOuter inner stride dst ls) ls
      mergeAll e nOuter inner fuel (2 * stride) ls
    else .ok ls

/-- The arrays before the collapsed loop, moment_statistics.cpp:314-340: the first is the
caller's, the others are new and full of zeros. -/
def locals (nOuter inner : Nat) (out : List W) : List (Option (List W)) :=
  some out :: List.replicate (nOuter - 1) (some (List.replicate inner 0))

/-- `sum_axis_misaligned`, moment_statistics.cpp:278-408, with all its arrays at the end. -/
def misalignedArrays (thr : Nat) (e : Env) (S : Kern A W) (outer inner : Nat) (x : List A)
    (ldx : Nat) (p : Option (List A)) (out : List W) : M (List (Option (List W))) := do
  let out ← forUp inner (fun i s => wr s i 0) out
  let pl ← plan thr e.maxThreads outer inner
  let ls ← e.blocks.foldlM (fun ls ij => block thr S pl outer inner x ldx p ij ls)
    (locals pl.nOuter inner out)
  mergeAll e pl.nOuter inner (pl.nOuter + 1) 1 ls

def misalignedSum (thr : Nat) (e : Env) (S : Kern A W) (outer inner : Nat) (x : List A)
    (ldx : Nat) (p : Option (List A)) (out : List W) : M (List W) := do
  let ls ← misalignedArrays thr e S outer inner x ldx p out
  match ← rd ls 0 with
  | some s => .ok s
  | none => .error .freed

inductive Order | col | row
  deriving DecidableEq, Repr

inductive Axis | all | col | row
  deriving DecidableEq, Repr

/-- `da_sum`, moment_statistics.cpp:410-433. -/
def daSum (thr : Nat) (e : Env) (order : Order) (axis : Axis) (m n : Nat) (S : Kern A W)
    (x : List A) (ldx : Nat) (out : List W) (p : Option (List A)) : M (List W) :=
  let outer := if order = .col then n else m
  let inner := if order = .col then m else n
  let aligned := (order = .col ∧ axis = .col) ∨ (order = .row ∧ axis = .row)
  if axis = .all then fullSum thr e S outer inner x ldx p out
  else if aligned then alignedSum thr e S inner x ldx p out
  else misalignedSum thr e S outer inner x ldx p out

end Verif.Moments
