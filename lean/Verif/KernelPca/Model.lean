import Verif.KnnPredict.Model
import Verif.PairDist.Model

/-
Kernel principal component analysis (source/core/factorization/kernel_pca/kernel_pca.cpp and .hpp): the centring of the kernel
matrix, the choice and order of the components, the scores, the transformation of new samples, and what the handle remembers.

Numbers are the elements of an ordered field, the square root is a parameter; rounding, NaN and infinities are not modelled.  An array
is a function of its flat index, a std::vector whose length matters is a list.  The kernel functions appear as the array they return
(they are in KernelFn), the means by their contract (Moments), syevd, da_random_syevd and the ridge regression as parameters.
Failed allocations and the checks of the arguments of transform are left out.
-/
namespace Verif.KernelPca

open Verif.Logistic (loop upd)
open Verif.PairDist (cell)
open Verif.KnnPredict (iamax)

variable {K : Type*} [Field K] [LinearOrder K]

/-- Contract of da_basic_statistics::mean with da_axis_row: the mean of row i of an array with n columns. -/
def rowMean (row : Bool) (n ld : Nat) (M : Nat → K) (i : Nat) : K :=
  (loop n 0 fun j s => s + M (cell row ld i j)) / n

/-- Contract of da_basic_statistics::mean with da_axis_all for one row of n entries, kernel_pca.cpp:454-455. -/
def grandMean (n : Nat) (r : Nat → K) : K := (loop n 0 fun i s => s + r i) / n

/-- The update of the upper triangle, kernel_pca.cpp:457-464. -/
def centreUpper (n : Nat) (r : Nat → K) (g : K) (M : Nat → K) : Nat → K :=
  loop n M fun j M => loop (j + 1) M fun i M => upd M (i + j * n) (M (i + j * n) + ((g - r j) - r i))

/-- The means and the centring of K_work in compute, kernel_pca.cpp:450-464. -/
def centreTraining (row : Bool) (n : Nat) (M : Nat → K) : Nat → K :=
  let r := rowMean row n n M
  centreUpper n r (grandMean n r) M

/-- One column of sign_normalize_columns. -/
def signColumn (rows : Nat) (j : Nat) (A : Nat → K) : Nat → K :=
  let m := iamax rows fun i => A (i + j * rows)
  if A (m + j * rows) < 0 then loop rows A fun i A => upd A (i + j * rows) (-A (i + j * rows)) else A

/-- sign_normalize_columns, kernel_pca.hpp:48-60. -/
def signColumns (rows cols : Nat) (A : Nat → K) : Nat → K :=
  loop cols A fun j A => signColumn rows j A

/-- The constants of clamp_near_zero_eigenvalues before they are scaled, kernel_pca.hpp:91-99. -/
structure Bounds (K : Type*) where
  pos : K
  negAbs : K
  negRel : K

/-- The loop of clamp_near_zero_eigenvalues, kernel_pca.hpp:105-115: the vector as it is left and whether the loop ran to its end. -/
def clampFrom (pb nb : K) (nCheck : Nat) : Nat → List K → List K × Bool
  | _, [] => ([], true)
  | idx, e :: es =>
    if e < 0 then
      if idx < nCheck ∧ e < nb then (e :: es, false)
      else (0 :: (clampFrom pb nb nCheck (idx + 1) es).1, (clampFrom pb nb nCheck (idx + 1) es).2)
    else ((if 0 < e ∧ e < pb then 0 else e) :: (clampFrom pb nb nCheck (idx + 1) es).1,
      (clampFrom pb nb nCheck (idx + 1) es).2)

/-- clamp_near_zero_eigenvalues, kernel_pca.hpp:67-117. -/
def clamp (b : Bounds K) (ev : List K) (nCheck : Nat) : List K × Bool :=
  clampFrom (b.pos * ev.headD 0) (-min b.negAbs (b.negRel * ev.headD 0))
    (if nCheck = 0 ∨ ev.length < nCheck then ev.length else nCheck) 0 ev

/-- std::lower_bound with 0 and std::greater, kernel_pca.cpp:540-542: the number of leading positive entries.  The standard requires
that the entries greater than 0 come first; otherwise (`none`) the result is unspecified. -/
def lowerBound (ev : List K) : Option Nat :=
  if ev.Pairwise (fun a c => 0 < c → 0 < a) then some (ev.takeWhile fun e => decide (0 < e)).length else none

/-- The number of components, kernel_pca.cpp:537-544. -/
def components (nOpt : Nat) (removeZero : Bool) (ev : List K) : Option Nat :=
  if nOpt = 0 ∨ removeZero = true then
    (lowerBound ev).map fun nnz => if nOpt = 0 then nnz else min nnz nOpt
  else some nOpt

/-- The eigenvectors in descending order, kernel_pca.cpp:567-583. -/
def copyVectors (row : Bool) (n nc : Nat) (W E : Nat → K) : Nat → K :=
  if row then loop n E fun i E => loop nc E fun j E => upd E (i * nc + j) (W (i + (n - 1 - j) * n))
  else loop nc E fun j E => loop n E fun i E => upd E (j * n + i) (W ((n - 1 - j) * n + i))

/-- The scores, kernel_pca.cpp:93-128. -/
def scores (sq : K → K) (row : Bool) (n nc : Nat) (ev : List K) (E out : Nat → K) : Nat → K :=
  if row then loop n out fun i out => loop nc out fun j out =>
    upd out (i * nc + j) (E (i * nc + j) * sq (ev.getD j 0))
  else loop nc out fun j out => loop n out fun i out =>
    upd out (i + j * n) (E (i + j * n) * sq (ev.getD j 0))

/-- The centring of the kernel between new samples and the training samples, kernel_pca.cpp:836-855. -/
def centreNew (row : Bool) (m n : Nat) (r : Nat → K) (g : K) (M : Nat → K) : Nat → K :=
  let nr := rowMean row n (if row then n else m) M
  if row then loop m M fun i M => loop n M fun j M =>
    upd M (i * n + j) (M (i * n + j) + ((g - nr i) - r j))
  else loop n M fun j M => loop m M fun i M =>
    upd M (i + j * m) (M (i + j * m) + ((g - r j) - nr i))

/-- Contract of cblas_gemm without transposition, alpha = 1, beta = 0. -/
def gemmNN (row : Bool) (m nc n : Nat) (M : Nat → K) (ldk : Nat) (E : Nat → K) (ldev : Nat) (X : Nat → K) (ldx : Nat) : Nat → K :=
  loop nc X fun j X => loop m X fun i X =>
    upd X (cell row ldx i j) (loop n 0 fun l s => s + M (cell row ldk i l) * E (cell row ldev l j))

/-- The factor of column j, kernel_pca.cpp:876-878, 892-894. -/
def scaleOf (sq : K → K) (ev : List K) (j : Nat) : K :=
  if 0 < ev.getD j 0 then 1 / sq (ev.getD j 0) else 0

/-- The scaling of the columns, kernel_pca.cpp:874-901. -/
def scaleColumns (sq : K → K) (row : Bool) (m nc : Nat) (ev : List K) (X : Nat → K) (ldx : Nat) : Nat → K :=
  if row then loop m X fun i X => loop nc X fun j X =>
    upd X (i * ldx + j) (X (i * ldx + j) * scaleOf sq ev j)
  else loop nc X fun j X => loop m X fun i X =>
    upd X (i + ldx * j) (X (i + ldx * j) * scaleOf sq ev j)

/-- What the handle remembers (kernel_pca.hpp:122-163): `order`, `n_samples`, the flags, and the results. -/
structure Handle (K : Type*) where
  row : Bool
  n : Nat
  trained : Bool
  inverseFitted : Bool
  nc : Nat
  rowMeans : Nat → K
  grand : K
  eigenvalues : List K
  eigenvectors : Nat → K
  dual : Nat → K

/-- transform from the kernel array on, kernel_pca.cpp:836-904. -/
def transform (sq : K → K) (h : Handle K) (m : Nat) (M : Nat → K) (X : Nat → K) (ldx : Nat) : Nat → K :=
  scaleColumns sq h.row m h.nc h.eigenvalues
    (gemmNN h.row m h.nc h.n (centreNew h.row m h.n h.rowMeans h.grand M) (if h.row then h.n else m) h.eigenvectors
      (if h.row then h.nc else h.n) X ldx) ldx

/-- std::vector::resize with the value 0. -/
def resize (n : Nat) (l : List K) : List K := l.take n ++ List.replicate (n - l.length) 0

/-- The options that compute reads; `valid` says whether the checks at kernel_pca.cpp:355-375 pass and the kernel is computed. -/
structure Opts where
  valid : Bool
  nOpt : Nat
  removeZero : Bool
  fitInverse : Bool
  random : Bool

/-- What compute gets from elsewhere: the kernel array, the eigenvalues (ascending) and vectors left by syevd, the first n_components
eigenvalues and the vectors written by da_random_syevd, and the dual coefficients unless the Cholesky factorisation fails. -/
structure Env (K : Type*) where
  kernel : Nat → K
  syevd : (Nat → K) → List K × (Nat → K)
  random : (Nat → K) → List K × (Nat → K)
  ridge : Option (Nat → K)

inductive Status | success | failed | unspecified
deriving DecidableEq

/-- init, kernel_pca.cpp:230-315. -/
def setData (row : Bool) (n : Nat) (h : Handle K) : Handle K :=
  { h with row := row, n := n, trained := false, inverseFitted := false, rowMeans := fun _ => 0, grand := 0, eigenvalues := []
           eigenvectors := fun _ => 0, dual := fun _ => 0 }

/-- The vectors kept for a number of components, kernel_pca.cpp:549-583. -/
def keepVectors (h : Handle K) (o : Opts) (nc : Nat) (V : Nat → K) : Nat → K :=
  if o.random then (if h.row then fun c => V (c % nc * h.n + c / nc) else V)
  else copyVectors h.row h.n nc V h.eigenvectors

/-- compute after the decomposition, kernel_pca.cpp:529-710. -/
def finish (b : Bounds K) (e : Env K) (o : Opts) (h : Handle K) (ev : List K) (V : Nat → K) : Handle K × Status :=
  let c := clamp b ev o.nOpt
  let h := { h with eigenvalues := c.1 }
  if c.2 = false then (h, .failed)
  else match components o.nOpt o.removeZero c.1 with
    | none => (h, .unspecified)
    | some nc =>
      let h := { h with nc := nc, eigenvectors := keepVectors h o nc V, eigenvalues := resize nc c.1 }
      if o.fitInverse then
        match e.ridge with
        | none => (h, .failed)
        | some d => ({ h with dual := d, inverseFitted := true, trained := true }, .success)
      else ({ h with trained := true }, .success)

/-- compute, kernel_pca.cpp:317-711. -/
def compute (b : Bounds K) (e : Env K) (o : Opts) (h : Handle K) : Handle K × Status :=
  if o.valid = false then (h, .failed)
  else
    let r := rowMean h.row h.n h.n e.kernel
    let M := centreTraining h.row h.n e.kernel
    let h := { h with rowMeans := r, grand := grandMean h.n r }
    if o.random then
      let w := (e.random M).1
      finish b e o h (w ++ (resize h.n h.eigenvalues).drop w.length) (signColumns h.n o.nOpt (e.random M).2)
    else finish b e o h (e.syevd M).1.reverse (signColumns h.n h.n (e.syevd M).2)

/-- The query da_kernel_pca_eigenvalues, kernel_pca.cpp:61-65, 131-140: the entries written to an array of the user of length `dim`;
`none` when nothing is written. -/
def getEigenvalues (h : Handle K) (dim : Nat) : Option (List K) :=
  if h.trained = false then none else if dim < h.nc then none else some h.eigenvalues

/-- Whether the query for the dual coefficients (kernel_pca.cpp:157-161) and inverse_transform (909-925) go ahead, the other conditions
being met. -/
def inverseAvailable (h : Handle K) : Bool := h.trained && h.inverseFitted

end Verif.KernelPca
