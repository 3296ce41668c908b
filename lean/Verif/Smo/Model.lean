import Mathlib.Algebra.Order.Field.Basic
import Mathlib.Algebra.BigOperators.Group.Finset.Basic

/-
Model of the training loop of the support vector machines
(`source/core/svm/base_svm.cpp`, `c_svm.cpp`, `nu_svm.cpp`, `svm_kernels.cpp`):
selection of the working set, the local SMO solver, the gradient update.

Numbers are elements of an ordered field (exact arithmetic).  Arrays are functions
from their indices.  The kernel function, the sorting of the gradient and the number
of outer iterations are parameters.
-/
namespace Verif.Smo

variable {F : Type} [Field F] [LinearOrder F]

/-! ### Size of the working set -/

/-- The loop of `maxpowtwo` (base_svm.cpp 828-834); the fuel `n` is never used up. -/
def maxpowtwoLoop (n : Nat) : Nat → Nat → Nat
  | 0, power => power
  | fuel + 1, power => if power * 2 ≤ n then maxpowtwoLoop n fuel (power * 2) else power

/-- `compute_ws_size` (base_svm.cpp 549-553).  Overflow of `power * 2` for more than
`2^30` (64 bit: `2^62`) entries is not modelled. -/
def wsSize (actualSize maxWsSize : Nat) : Nat :=
  min (maxpowtwoLoop actualSize actualSize 1) maxWsSize

/-! ### Membership in `I_up` and `I_low` -/

/-- `is_upper` (c_svm.cpp 47-49). -/
def isUpper (C a y : F) : Bool := if 0 < y then decide (a < C) else decide (0 < a)

/-- `is_lower` (c_svm.cpp 51-53). -/
def isLower (C a y : F) : Bool := if 0 < y then decide (0 < a) else decide (a < C)

/-- `is_upper_pos` (nu_svm.cpp 52-54). -/
def isUpperPos (C a y : F) : Bool := decide (a < C) && decide (0 < y)

/-- `is_upper_neg` (nu_svm.cpp 57-59). -/
def isUpperNeg (a y : F) : Bool := decide (0 < a) && decide (y < 0)

/-- `is_lower_pos` (nu_svm.cpp 62-64). -/
def isLowerPos (a y : F) : Bool := decide (0 < a) && decide (0 < y)

/-- `is_lower_neg` (nu_svm.cpp 67-69). -/
def isLowerNeg (C a y : F) : Bool := decide (a < C) && decide (y < 0)

/-! ### Working set selection -/

/-- `selected_ws_idx`, `selected_ws_indicator` and `n_selected`. -/
structure Sel where
  ws : Nat → Nat
  ind : Nat → Bool
  cnt : Nat

/-- `selected_ws_idx[n_selected++] = x; selected_ws_indicator[x] = true`. -/
def Sel.add (s : Sel) (x : Nat) : Sel :=
  { ws := fun i => if i = s.cnt then x else s.ws i
    ind := fun i => if i = x then true else s.ind i
    cnt := s.cnt + 1 }

/-- The scan from the left (c_svm.cpp 110-122, nu_svm.cpp 132-142, 153-163): the
first position from `pos` on whose sample is acceptable, `size` if there is none.
`order` is `index_aux`. -/
def scanUp (order : Nat → Nat) (ok : Nat → Bool) (size : Nat) : Nat → Nat → Nat
  | 0, pos => pos
  | fuel + 1, pos =>
    if pos < size then
      if ok (order pos) then pos else scanUp order ok size fuel (pos + 1)
    else pos

/-- The scan from the right (c_svm.cpp 131-142, nu_svm.cpp 174-184, 195-205) on
`pos_right + 1`; the result 0 stands for `pos_right = -1`. -/
def scanDown (order : Nat → Nat) (ok : Nat → Bool) : Nat → Nat
  | 0 => 0
  | p + 1 => if ok (order p) then p + 1 else scanDown order ok p

/-- One block of the selection loop that works from the left. -/
def takeLeft (order : Nat → Nat) (flag : Nat → Bool) (size : Nat) (s : Sel) (l : Nat) :
    Sel × Nat :=
  let l' := scanUp order (fun x => !s.ind x && flag x) size size l
  (if l' < size then s.add (order l') else s, l')

/-- One block of the selection loop that works from the right. -/
def takeRight (order : Nat → Nat) (flag : Nat → Bool) (s : Sel) (r : Nat) : Sel × Nat :=
  let r' := scanDown order (fun x => !s.ind x && flag x) r
  (if 0 < r' then s.add (order (r' - 1)) else s, r')

/-- The selection loop of `csvm::outer_wss` (c_svm.cpp 108-149).  The bound on the
number of rounds is never reached (`cSelect_spec`). -/
def cSelect (up low : Nat → Bool) (order : Nat → Nat) (size ws : Nat) :
    Nat → Sel → Nat → Nat → Sel × Nat × Nat
  | 0, s, l, r => (s, l, r)
  | fuel + 1, s, l, r =>
    if s.cnt < ws ∧ (0 < r ∨ l < size) then
      let (s1, l1) := takeLeft order up size s l
      if ws ≤ s1.cnt then (s1, l1, r)
      else
        let (s2, r2) := takeRight order low s1 r
        cSelect up low order size ws fuel s2 l1 r2
    else (s, l, r)

/-- `csvm::outer_wss` (c_svm.cpp 95-150). -/
def cOuter (up low : Nat → Bool) (order : Nat → Nat) (size ws : Nat) (s : Sel) : Sel :=
  (cSelect up low order size ws (ws + 1) s 0 size).1

/-- The positions of `nusvm::outer_wss`: the left ones, and the right ones plus one. -/
structure NuPos where
  lp : Nat
  ln : Nat
  rp : Nat
  rn : Nat

/-- The selection loop of `nusvm::outer_wss` (nu_svm.cpp 129-209). -/
def nuSelect (upP upN lowP lowN : Nat → Bool) (order : Nat → Nat) (size ws : Nat) :
    Nat → Sel → NuPos → Sel × NuPos
  | 0, s, p => (s, p)
  | fuel + 1, s, p =>
    if s.cnt < ws ∧ (0 < p.rp ∨ p.lp < size) ∧ (0 < p.rn ∨ p.ln < size) then
      let (s1, lp) := takeLeft order upP size s p.lp
      if ws ≤ s1.cnt then (s1, { p with lp })
      else
        let (s2, ln) := takeLeft order upN size s1 p.ln
        if ws ≤ s2.cnt then (s2, { p with lp, ln })
        else
          let (s3, rp) := takeRight order lowP s2 p.rp
          if ws ≤ s3.cnt then (s3, { p with lp, ln, rp })
          else
            let (s4, rn) := takeRight order lowN s3 p.rn
            nuSelect upP upN lowP lowN order size ws fuel s4 ⟨lp, ln, rp, rn⟩
    else (s, p)

/-- `nusvm::outer_wss` (nu_svm.cpp 111-210). -/
def nuOuter (upP upN lowP lowN : Nat → Bool) (order : Nat → Nat) (size ws : Nat) (s : Sel) :
    Sel :=
  (nuSelect upP upN lowP lowN order size ws (ws + 1) s ⟨0, 0, size, size⟩).1

/-! ### Local SMO -/

/-- `wssi` with the scalar kernel (base_svm.cpp 838-896, svm_kernels.cpp 41-49);
`big` is `numeric_limits<T>::max()`.  Returns `i` (`none` = -1) and `min_grad`. -/
def wssi (big : F) (ws : Nat) (up : Nat → Bool) (g : Nat → F) : Option Nat × F :=
  (List.range ws).foldl
    (fun a k => if up k && decide (g k < a.2) then (some k, g k) else a) (none, big)

/-- Results of `wssj`. -/
structure WssJ (F : Type) where
  j : Option Nat
  maxGrad : F
  maxFun : F
  delta : F

/-- One iteration of `wssj_kernel_scalar` (svm_kernels.cpp 514-538). -/
def wssjStep (tau : F) (low : Nat → Bool) (g row diag : Nat → F) (kii minGrad : F)
    (a : WssJ F) (k : Nat) : WssJ F :=
  if low k then
    let m := max a.maxGrad (g k)
    let b := g k - minGrad
    if b < 0 then { a with maxGrad := m }
    else
      let q := kii + diag k - 2 * row k
      let q := if q ≤ 0 then tau else q
      let ratio := b / q
      if a.maxFun < ratio * b then
        { j := some k, maxGrad := m, maxFun := ratio * b, delta := ratio }
      else { a with maxGrad := m }
  else a

/-- `wssj` (base_svm.cpp 901-975); `big` as in `wssi`, `lowest` is `-big`. -/
def wssj (big tau : F) (ws : Nat) (low : Nat → Bool) (g : Nat → F) (K : Nat → Nat → F)
    (diag : Nat → F) (i : Option Nat) (minGrad : F) : WssJ F :=
  let a : WssJ F := { j := none, maxGrad := -big, maxFun := -big, delta := 0 }
  match i with
  | none => a
  | some i =>
    (List.range ws).foldl (wssjStep tau low g (K i) diag (K i i) minGrad) a

/-- The local arrays of `local_smo`.  For the C variants `upN` and `lowN` are unused. -/
structure Loc (F : Type) where
  alpha : Nat → F
  grad : Nat → F
  upP : Nat → Bool
  lowP : Nat → Bool
  upN : Nat → Bool
  lowN : Nat → Bool

/-- Which of the two solvers; the names of the flags are those of the code. -/
inductive Variant where
  | c
  | nu
deriving DecidableEq

/-- The flags of one element (c_svm.cpp 169-170, nu_svm.cpp 233-236). -/
def flagUpP (v : Variant) (C a y : F) : Bool :=
  match v with
  | .c => isUpper C a y
  | .nu => isUpperPos C a y
def flagLowP (v : Variant) (C a y : F) : Bool :=
  match v with
  | .c => isLower C a y
  | .nu => isLowerPos a y
def flagUpN (v : Variant) (a y : F) : Bool :=
  match v with
  | .c => false
  | .nu => isUpperNeg a y
def flagLowN (v : Variant) (C a y : F) : Bool :=
  match v with
  | .c => false
  | .nu => isLowerNeg C a y

/-- Parameters of the solver: `C`, `tau`, `tol`, `numeric_limits<T>::max()` and the
maximum number of inner iterations (`ws_size * 100`, or `ws_size * 24` in half
precision). -/
structure Par (F : Type) where
  C : F
  tau : F
  tol : F
  big : F
  inner : Nat

/-- What an inner iteration has chosen: `diff`, and `(i, j, delta)` unless one of the
indices is -1. -/
structure Choice (F : Type) where
  diff : F
  pick : Option (Nat × Nat × F)

def mkPick (i : Option Nat) (w : WssJ F) : Option (Nat × Nat × F) :=
  match i, w.j with
  | some i, some j => some (i, j, w.delta)
  | _, _ => none

/-- Choice of the pair, C variants (c_svm.cpp 193-197) and nu variants
(nu_svm.cpp 258-265, 278-286). -/
def choose (v : Variant) (p : Par F) (ws : Nat) (K : Nat → Nat → F) (diag : Nat → F)
    (s : Loc F) : Choice F :=
  match v with
  | .c =>
    let (i, mn) := wssi p.big ws s.upP s.grad
    let w := wssj p.big p.tau ws s.lowP s.grad K diag i mn
    { diff := w.maxGrad - mn, pick := mkPick i w }
  | .nu =>
    let (ip, mp) := wssi p.big ws s.upP s.grad
    let (i_n, mn) := wssi p.big ws s.upN s.grad
    let wp := wssj p.big p.tau ws s.lowP s.grad K diag ip mp
    let wn := wssj p.big p.tau ws s.lowN s.grad K diag i_n mn
    { diff := max (wp.maxGrad - mp) (wn.maxGrad - mn)
      pick := if wn.maxFun < wp.maxFun then mkPick ip wp else mkPick i_n wn }

/-- The step length (c_svm.cpp 212-215, nu_svm.cpp 289-292). -/
def stepLen (C : F) (alpha y : Nat → F) (i j : Nat) (d : F) : F :=
  min (if 0 < y i then C - alpha i else alpha i)
    (min (if 0 < y j then alpha j else C - alpha j) d)

/-- Update of the local arrays (c_svm.cpp 212-234, nu_svm.cpp 289-316). -/
def update (v : Variant) (C : F) (K : Nat → Nat → F) (y : Nat → F) (s : Loc F) (i j : Nat)
    (d : F) : Loc F :=
  let delta := stepLen C s.alpha y i j d
  let a1 : Nat → F := fun k => if k = i then s.alpha k + delta * y i else s.alpha k
  let a2 : Nat → F := fun k => if k = j then a1 k - delta * y j else a1 k
  { alpha := a2
    grad := fun k => s.grad k + delta * (K i k - K j k)
    upP := fun k => if k = i ∨ k = j then flagUpP v C (a2 k) (y k) else s.upP k
    lowP := fun k => if k = i ∨ k = j then flagLowP v C (a2 k) (y k) else s.lowP k
    upN := fun k => if k = i ∨ k = j then flagUpN v (a2 k) (y k) else s.upN k
    lowN := fun k => if k = i ∨ k = j then flagLowN v C (a2 k) (y k) else s.lowN k }

/-- The inner iterations from the second on, with the tolerance fixed in the first
(c_svm.cpp 192-235, nu_svm.cpp 257-318). -/
def innerLoop (v : Variant) (p : Par F) (ws : Nat) (K : Nat → Nat → F) (diag y : Nat → F)
    (eps : F) : Nat → Loc F → Loc F
  | 0, s => s
  | fuel + 1, s =>
    let c := choose v p ws K diag s
    if c.diff < eps then s
    else
      match c.pick with
      | none => s
      | some (i, j, d) => innerLoop v p ws K diag y eps fuel (update v p.C K y s i j d)

/-- All inner iterations; also returns `first_diff`, which keeps its old value
`old` if there is no iteration.  The half precision choice of the tolerance is not
modelled. -/
def inner (v : Variant) (p : Par F) (ws : Nat) (K : Nat → Nat → F) (diag y : Nat → F)
    (s : Loc F) (old : F) : Loc F × F :=
  match p.inner with
  | 0 => (s, old)
  | fuel + 1 =>
    let c := choose v p ws K diag s
    (innerLoop v p ws K diag y (max p.tol (c.diff / 10)) (fuel + 1) s, c.diff)

/-- The scatter loop (c_svm.cpp 238-241): one element. -/
def scatterStep (ly la : Nat → F) (idx : Nat → Nat) (a : (Nat → F) × (Nat → F)) (k : Nat) :
    (Nat → F) × (Nat → F) :=
  (fun x => if x = k then (la k - a.2 (idx k)) * ly k else a.1 x,
   fun x => if x = idx k then la k else a.2 x)

/-- `local_smo` (c_svm.cpp 152-242, nu_svm.cpp 212-323).  `kcol s r` is entry `r` of the
kernel column of sample `s`; position `k` of the working set belongs to sample
`idx k % n`.  Returns `alpha`, `alpha_diff` and `first_diff`. -/
def localSmo (v : Variant) (p : Par F) (n ws : Nat) (kcol : Nat → Nat → F) (y : Nat → F)
    (idx : Nat → Nat) (alpha grad : Nat → F) (old : F) : (Nat → F) × (Nat → F) × F :=
  let la : Nat → F := fun k => alpha (idx k)
  let ly : Nat → F := fun k => y (idx k)
  let K : Nat → Nat → F := fun j k => kcol (idx j % n) (idx k % n)
  let s : Loc F :=
    { alpha := la
      grad := fun k => grad (idx k)
      upP := fun k => flagUpP v p.C (la k) (ly k)
      lowP := fun k => flagLowP v p.C (la k) (ly k)
      upN := fun k => flagUpN v (la k) (ly k)
      lowN := fun k => flagLowN v p.C (la k) (ly k) }
  let (s', fd) := inner v p ws K (fun k => K k k) ly s old
  let (diff, alpha') := (List.range ws).foldl (scatterStep ly s'.alpha idx) (fun _ => 0, alpha)
  (alpha', diff, fd)

/-! ### Outer iterations -/

/-- State between outer iterations. -/
structure State (F : Type) where
  alpha : Nat → F
  grad : Nat → F
  ws : Nat → Nat
  firstDiff : F

/-- `update_gradient_impl` (base_svm.cpp 655-698) without the threads: entry `x` of the
gradient belongs to sample `x % n` (for classification `x < n`).  See C74 for the
threads. -/
def updateGradient (n ws : Nat) (kcol : Nat → Nat → F) (idx : Nat → Nat) (diff grad : Nat → F) :
    Nat → F :=
  fun x => grad x + ∑ k ∈ Finset.range ws, diff k * kcol (idx k % n) (x % n)

/-- The start of an outer iteration (base_svm.cpp 312-326). -/
def startSel (first : Bool) (ws : Nat) (w : Nat → Nat) : Sel :=
  if first then { ws := w, ind := fun _ => false, cnt := 0 }
  else
    { ws := fun i => if i < ws / 2 then w (i + ws / 2) else w i
      ind := fun x => (List.range (ws / 2)).any fun i => w (i + ws / 2) == x
      cnt := ws / 2 }

/-- `outer_wss` with the flags of the current `alpha`. -/
def outer (v : Variant) (C : F) (size ws : Nat) (y alpha : Nat → F) (order : Nat → Nat)
    (s : Sel) : Sel :=
  match v with
  | .c => cOuter (fun x => isUpper C (alpha x) (y x)) (fun x => isLower C (alpha x) (y x))
      order size ws s
  | .nu => nuOuter (fun x => isUpperPos C (alpha x) (y x)) (fun x => isUpperNeg (alpha x) (y x))
      (fun x => isLowerPos (alpha x) (y x)) (fun x => isLowerNeg C (alpha x) (y x))
      order size ws s

/-- One iteration of the main loop (base_svm.cpp 311-337).  `sort` is the result of
`parallel_argsort` on the gradient. -/
def iteration (v : Variant) (p : Par F) (n size ws : Nat) (kcol : Nat → Nat → F) (y : Nat → F)
    (sort : (Nat → F) → Nat → Nat) (first : Bool) (s : State F) : State F :=
  let sel := outer v p.C size ws y s.alpha (sort s.grad) (startSel first ws s.ws)
  let (alpha, diff, fd) := localSmo v p n ws kcol y sel.ws s.alpha s.grad s.firstDiff
  { alpha, grad := updateGradient n ws kcol sel.ws diff s.grad, ws := sel.ws, firstDiff := fd }

/-- `k` iterations of the main loop. -/
def train (v : Variant) (p : Par F) (n size ws : Nat) (kcol : Nat → Nat → F) (y : Nat → F)
    (sort : (Nat → F) → Nat → Nat) : Nat → State F → State F
  | 0, s => s
  | k + 1, s => iteration v p n size ws kcol y sort (k == 0) (train v p n size ws kcol y sort k s)

end Verif.Smo
