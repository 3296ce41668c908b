import Verif.Smo.Spec
import Verif.SvmKernel.Threads

/-
Model of the start of the SVM solver (`source/core/svm/c_svm.cpp`, `nu_svm.cpp`,
`base_svm.cpp`): initial `alpha` and gradient of the four models, the gradient of a
warm start, and the sums that are shared between threads.
-/
namespace Verif.Smo
open Verif.SvmKernel

variable {F : Type} [Field F] [LinearOrder F]

/-- The four models. -/
inductive Kind where
  | svc
  | svr
  | nusvc
  | nusvr
deriving DecidableEq

/-- `mod == svr || mod == nusvr`. -/
def Kind.regression : Kind → Bool
  | .svr => true
  | .nusvr => true
  | _ => false

/-- `mod == nusvc || mod == nusvr`. -/
def Kind.isNu : Kind → Bool
  | .nusvc => true
  | .nusvr => true
  | _ => false

/-- `actual_size` (base_svm.cpp 150-160): regression has two entries per sample. -/
def Kind.size (m : Kind) (n : Nat) : Nat := if m.regression then 2 * n else n

/-- `response` (c_svm.cpp 270-273, 290-294, nu_svm.cpp 515-518, 560-564). -/
def response (m : Kind) (n : Nat) (y : Nat → F) : Nat → F :=
  if m.regression then fun x => if x < n then 1 else -1
  else fun x => if y x = 0 then -1 else y x

/-- A piece of work `i` done by thread `t`: `f i r` is added to position `r` of the
buffer of the thread.  The list is the order in which the additions happen. -/
def accumulate (f : Nat → Nat → F) (events : List (Nat × Nat)) (buf : Nat → Nat → F) :
    Nat → Nat → F :=
  events.foldl (fun b e => fun t r => if t = e.1 then b t r + f e.2 r else b t r) buf

/-- The sums over the threads (base_svm.cpp 678-685, nu_svm.cpp 494-503). -/
def merge (threads : Nat) (buf : Nat → Nat → F) (r : Nat) : F :=
  (List.range threads).foldl (fun s t => s + buf t r) 0

/-- `update_gradient_impl` (base_svm.cpp 655-698).  `events` lists the columns with the
thread that adds them; `buf` is `gradient_threads`.  Returns the gradient and
`gradient_threads`. -/
def threadedUpdate (threads nrow : Nat) (col : Nat → Nat → F) (diff : Nat → F)
    (events : List (Nat × Nat)) (buf : Nat → Nat → F) (grad : Nat → F) :
    (Nat → F) × (Nat → Nat → F) :=
  let b := accumulate (fun i r => diff i * col i r) events buf
  (fun x => grad x + (0 + merge threads b (x % nrow)),
   fun t r => if t < threads ∧ r < nrow then 0 else b t r)

/-- The initial `alpha` of nu-SVC (nu_svm.cpp 532-542) after the first `i` samples:
`sum_pos`, `sum_neg` and `alpha`. -/
def nusvcAlpha (resp : Nat → F) (s0 : F) : Nat → F × F × (Nat → F)
  | 0 => (s0, s0, fun _ => 0)
  | i + 1 =>
    let (sp, sn, a) := nusvcAlpha resp s0 i
    if 0 < resp i then
      let v := min 1 sp
      (sp - v, sn, fun x => if x = i then v else a x)
    else
      let v := min 1 sn
      (sp, sn - v, fun x => if x = i then v else a x)

/-- The initial `alpha` of nu-SVR (nu_svm.cpp 572, 579-586) after the first `i` samples:
`sum` and the first half of `alpha`. -/
def nusvrAlpha (C s0 : F) : Nat → F × (Nat → F)
  | 0 => (s0, fun _ => 0)
  | i + 1 =>
    let (s, a) := nusvrAlpha C s0 i
    let v := min C s
    (s - v, fun x => if x = i then v else a x)

/-- Initial `alpha`. -/
def coldAlpha (m : Kind) (n : Nat) (C nu : F) (resp : Nat → F) : Nat → F :=
  match m with
  | .svc => fun _ => 0
  | .svr => fun _ => 0
  | .nusvc => (nusvcAlpha resp (nu * n / 2) n).2.2
  | .nusvr => fun x => (nusvrAlpha C (C * nu * n / 2) n).2 (x % n)

/-- `index_aux` up to `counter` (nu_svm.cpp 543-551, 587-595). -/
def nonZero (n : Nat) (alpha : Nat → F) : List Nat :=
  (List.range n).filter fun i => alpha i ≠ 0

/-- What block `i` adds to the buffer of its thread (nu_svm.cpp 421-490): the columns
of the block times `alpha_diff`, for nu-SVR also with the opposite sign.  The sums
inside one call of `update_gradient` are those of `threadedUpdate`. -/
def blockTerm (m : Kind) (n : Nat) (kcol : Nat → Nat → F) (diff : Nat → F) (l : List Nat) (i x : Nat) :
    F :=
  let s := ((nuBlock l.length l i).map fun z => diff z * kcol (z % n) (x % n)).sum
  if m = .nusvr then s + ((nuBlock l.length l i).map fun z => -diff z * kcol (z % n) (x % n)).sum
  else s

/-- `initialise_gradient` (nu_svm.cpp 369-505) on the gradient `grad`. -/
def initialiseGradient (m : Kind) (n threads : Nat) (kcol : Nat → Nat → F) (diff : Nat → F)
    (l : List Nat) (events : List (Nat × Nat)) (grad : Nat → F) : Nat → F :=
  if l.length ≤ 0 then grad
  else fun x => grad x + merge threads
    (accumulate (blockTerm m n kcol diff l) events fun _ _ => 0) x

/-- Initial gradient (c_svm.cpp 279-282, 300-305, base_svm.cpp 269-273, nu_svm.cpp 509-554,
556-598).  `y` is the array of the user. -/
def coldGrad (m : Kind) (n threads : Nat) (eps : F) (kcol : Nat → Nat → F) (y resp alpha : Nat → F)
    (events : List (Nat × Nat)) : Nat → F :=
  match m with
  | .svc => fun x => -resp x
  | .svr => fun x => if x < n then eps - y x else -eps - y (x - n)
  | .nusvc => initialiseGradient .nusvc n threads kcol (fun z => alpha z * resp z)
      (nonZero n alpha) events fun _ => 0
  | .nusvr => initialiseGradient .nusvr n threads kcol alpha (nonZero n alpha) events
      fun x => if x < n then -y x else -y (x - n)

/-- The coefficients of a warm start (base_svm.cpp 734-740). -/
def warmCoeff (m : Kind) (n : Nat) (alpha resp : Nat → F) (i : Nat) : F :=
  if m.regression then alpha i - alpha (i + n) else alpha i * resp i

/-- The loop over blocks of a warm start (base_svm.cpp 783-801) from `offset` on; the
columns are right by C44.  The fuel is the number of columns. -/
def warmLoop (n : Nat) (kcol : Nat → Nat → F) (coeff : Nat → F) (l : List Nat) (bs : Nat) :
    Nat → Nat → (Nat → F) → Nat → F
  | 0, _, acc => acc
  | fuel + 1, offset, acc =>
    if offset < l.length then
      let blk := (l.drop offset).take (min bs (l.length - offset))
      warmLoop n kcol coeff l bs fuel (offset + bs)
        fun r => acc r + (blk.map fun i => coeff i * kcol (i % n) r).sum
    else acc

/-- `recompute_gradient` (base_svm.cpp 717-825). -/
def warmGrad (m : Kind) (n : Nat) (eps : F) (kcol : Nat → Nat → F) (y resp alpha : Nat → F) :
    Nat → F :=
  let l := (List.range n).filter fun i => warmCoeff m n alpha resp i ≠ 0
  if l = [] then
    if m.regression then fun x => if x < n then -y x else -y (x - n)
    else fun x => -resp x
  else
    let bs := min 256 l.length
    let acc := warmLoop n kcol (warmCoeff m n alpha resp) l bs l.length 0 fun _ => 0
    match m with
    | .svr => fun x => if x < n then acc x + eps - y x else acc (x - n) - eps - y (x - n)
    | .nusvr => fun x => if x < n then acc x - y x else acc (x - n) - y (x - n)
    | .nusvc => acc
    | .svc => fun x => acc x - resp x

end Verif.Smo
