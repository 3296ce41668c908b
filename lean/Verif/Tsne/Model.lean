import Verif.Moments.Stats

/-
The affinities of t-SNE: /repo/source/core/dimension_reduction/tsne/tsne.cpp:308-576.

Memory and faults are those of `Moments`; arithmetic is exact, in an ordered field.  `exp` and `log`
are arbitrary functions, so that an `exp` that underflows to 0 is covered.  The pairwise distances
(440-446) and the nearest neighbours (508-509) are arguments.
-/
namespace Verif.Tsne

open Moments (M Fault rd wr forUp divM)

variable {K : Type} [Field K] [LinearOrder K] [IsStrictOrderedRing K]

/-- compute_distances_exact, tsne.cpp:421-462, from the line after the distance matrix `dm` has been
computed; `r` is what the output arrays hold before. -/
def distancesExact (n : Nat) (dm : List K) (r : List Nat × List K) : M (List Nat × List K) :=
  let k := n - 1
  forUp n (fun i r => forUp (n - (i + 1)) (fun t r => do
    let j := i + 1 + t
    let d ← rd dm (i * n + j)
    let ind ← wr r.1 (i * k + (j - 1)) j
    let sq ← wr r.2 (i * k + (j - 1)) d
    let ind ← wr ind (j * k + i) i
    let sq ← wr sq (j * k + i) d
    .ok (ind, sq)) r) r

/-- The loop body of compute_distances_knn for sample `i`, tsne.cpp:514-527.  `t` runs on when all is
filled, without doing anything. -/
def knnRow (k : Nat) (nind : List Nat) (ndist : List K) (i : Nat) (r : List Nat × List K) :
    M (List Nat × List K) := do
  let s ← forUp (k + 1) (fun t (s : Nat × List Nat × List K) =>
    if s.1 < k then do
      let j ← rd nind (i * (k + 1) + t)
      if j = i then .ok s
      else do
        let ind ← wr s.2.1 (i * k + s.1) j
        let d ← rd ndist (i * (k + 1) + t)
        let sq ← wr s.2.2 (i * k + s.1) (d * d)
        .ok (s.1 + 1, ind, sq)
    else .ok s) (0, r)
  .ok s.2

/-- compute_distances_knn, tsne.cpp:466-531, after kneighbors has given `nind` and `ndist`. -/
def distancesKnn (n k : Nat) (nind : List Nat) (ndist : List K) (r : List Nat × List K) :
    M (List Nat × List K) :=
  forUp n (fun i r => knnRow k nind ndist i r) r

/-- The variables of the search in compute_row_probabilities; `none` is infinite. -/
structure Search (K : Type) where
  beta : K
  lo : Option K
  hi : Option K
  prob : List K

/-- The loop of tsne.cpp:325-330: the terms for one bandwidth and their sums.  The row starts at `o`
in the arrays (tsne.cpp:565-566). -/
def rowTerms (exp : K → K) (sq : List K) (o k : Nat) (beta : K) (prob : List K) :
    M (List K × K × K) :=
  forUp k (fun j (r : List K × K × K) => do
    let d ← rd sq (o + j)
    let p := exp (-beta * d)
    let prob ← wr r.1 (o + j) p
    .ok (prob, r.2.1 + p, r.2.2 + d * p)) (prob, 0, 0)

/-- tsne.cpp:340-341. -/
def raise (s : Search K) (prob : List K) : Search K :=
  ⟨match s.hi with
    | none => s.beta * 2
    | some h => (s.beta + h) / 2, some s.beta, s.hi, prob⟩

/-- tsne.cpp:332-333, 343-344. -/
def lower (s : Search K) (prob : List K) : Search K :=
  ⟨match s.lo with
    | none => s.beta / 2
    | some l => (s.beta + l) / 2, s.lo, some s.beta, prob⟩

/-- The loop of tsne.cpp:323-346; the first argument is the number of iterations that are left. -/
def search (exp log : K → K) (sq : List K) (o k : Nat) (target tol : K) : Nat → Search K → M (Search K)
  | 0, s => .ok s
  | m + 1, s => do
    let r ← rowTerms exp sq o k s.beta s.prob
    if r.2.1 ≤ 0 then search exp log sq o k target tol m (lower s r.1)
    else
      let H := log r.2.1 + s.beta * r.2.2 / r.2.1
      if |H - target| < tol then .ok { s with prob := r.1 }
      else if H > target then search exp log sq o k target tol m (raise s r.1)
      else search exp log sq o k target tol m (lower s r.1)

/-- compute_row_probabilities, tsne.cpp:310-362.  `tiny` is `numeric_limits<T>::min()`. -/
def rowProbabilities (exp log : K → K) (maxIter : Nat) (tol tiny : K) (sq : List K) (o k : Nat)
    (target : K) (prob : List K) : M (List K) :=
  if k = 0 then .ok prob
  else do
    let s ← search exp log sq o k target tol maxIter ⟨1, none, none, prob⟩
    let sum ← forUp k (fun j a => do
      let p ← rd s.prob (o + j)
      .ok (a + p)) 0
    if sum ≥ tiny then do
      let inv ← divM 1 sum
      forUp k (fun j prob => do
        let p ← rd prob (o + j)
        wr prob (o + j) (p * inv)) s.prob
    else do
      let uniform ← divM 1 (k : K)
      forUp k (fun j prob => wr prob (o + j) uniform) s.prob

/-- The entries of all rows, tsne.cpp:380-388. -/
def contributions (n k : Nat) (ind : List Nat) (prob : List K) : M (List (List (Nat × K))) :=
  forUp n (fun i rows => forUp k (fun t rows => do
    let j ← rd ind (i * k + t)
    let p ← rd prob (i * k + t)
    let c ← divM p ((2 * n : Nat) : K)
    let row ← rd rows i
    let rows ← wr rows i (row ++ [(j, c)])
    let row ← rd rows j
    wr rows j (row ++ [(i, c)])) rows) (List.replicate n [])

/-- The inner loop of tsne.cpp:400-402: the sum of the entries at the front that have this column,
and what is left of the row. -/
def sumRun (col : Nat) : List (Nat × K) → K → K × List (Nat × K)
  | [], v => (v, [])
  | e :: l, v => if e.1 = col then sumRun col l (v + e.2) else (v, e :: l)

/-- P_col_idx, P_values and total. -/
structure Out (K : Type) where
  col : List Nat
  val : List K
  total : K

/-- The loop of tsne.cpp:398-408 over a sorted row; the first argument bounds the iterations. -/
def mergeRow : Nat → List (Nat × K) → Out K → M (Out K)
  | _, [], s => .ok s
  | 0, _ :: _, _ => .error .stuck
  | m + 1, e :: l, s =>
    let r := sumRun e.1 (e :: l) 0
    mergeRow m r.2 (if r.1 > 0 then ⟨s.col ++ [e.1], s.val ++ [r.1], s.total + r.1⟩ else s)

/-- symmetrize_to_csr, tsne.cpp:367-417.  `sort` is std::sort; `ptr0` is what P_row_ptr holds after
the call of `resize`.  The result is P_row_ptr, P_col_idx and P_values. -/
def symmetrize (sort : List (Nat × K) → List (Nat × K)) (n k : Nat) (ind : List Nat) (prob : List K)
    (ptr0 : List Nat) : M (List Nat × List Nat × List K) := do
  let rows ← contributions n k ind prob
  let ptr ← wr ptr0 0 0
  let r ← forUp n (fun i (r : List Nat × Out K) => do
    let row ← rd rows i
    let out ← mergeRow row.length (sort row) r.2
    let ptr ← wr r.1 (i + 1) out.col.length
    .ok (ptr, out)) (ptr, ⟨[], [], 0⟩)
  if r.2.total > 0 then do
    let inv ← divM 1 r.2.total
    .ok (r.1, r.2.col, r.2.val.map fun v => v * inv)
  else .ok (r.1, r.2.col, r.2.val)

/-- The part of compute_affinities that follows the distances, tsne.cpp:553-576.  `order` is the
order in which the rows are treated by the parallel loop; `prob` and `ptr0` are the arrays after
`resize`. -/
def affinities (exp log : K → K) (maxIter : Nat) (tol tiny : K)
    (sort : List (Nat × K) → List (Nat × K)) (order : List Nat) (n k : Nat) (target : K)
    (ind : List Nat) (sq : List K) (prob : List K) (ptr0 : List Nat) :
    M (List Nat × List Nat × List K) := do
  let prob ← order.foldlM (fun prob i =>
    rowProbabilities exp log maxIter tol tiny sq (i * k) k target prob) prob
  symmetrize sort n k ind prob ptr0

end Verif.Tsne
