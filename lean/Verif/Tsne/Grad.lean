import Verif.Tsne.Model

/-
The gradient of t-SNE: /repo/source/core/dimension_reduction/tsne/tsne_kernels.cpp:38-297 and
tsne.cpp:676-772, 866-961.

A vector register is a function of the lane.  The parallel loops over samples run in any order
(`order`), the others in index order.  `D` is the number of components.
-/
namespace Verif.Tsne

open Moments (M Fault rd wr forUp divM)

variable {K : Type} [Field K] [LinearOrder K] [IsStrictOrderedRing K]

/-- Reads `D` values from position `o`. -/
def point (D : Nat) (emb : List K) (o : Nat) : M (Nat → K) := do
  let l ← forUp D (fun d l => do
    let x ← rd emb (o + d)
    .ok (l ++ [x])) ([] : List K)
  .ok fun d => l.getD d 0

/-- A function with one value replaced. -/
def put (f : Nat → K) (i : Nat) (v : K) : Nat → K := fun j => if j = i then v else f j

/-- attractive_forces_scalar_impl, tsne_kernels.cpp:42-62.  `yi` is `emb_i`; the result is what is
written to `grad_i`. -/
def scalarKernel (D : Nat) (yi : Nat → K) (col : List Nat) (val : List K) (emb : List K) (ex : K)
    (start stop : Nat) : M (Nat → K) :=
  forUp (stop - start) (fun u g => do
    let j ← rd col (start + u)
    let p ← rd val (start + u)
    let yj ← point D emb (j * D)
    let r ← forUp D (fun d (r : (Nat → K) × K) =>
      let x := yi d - yj d
      .ok (put r.1 d x, r.2 + x * x)) ((fun _ => 0), 0)
    let q ← divM 1 (1 + r.2)
    forUp D (fun d g => .ok (put g d (g d + p * ex * q * r.1 d))) g) (fun _ => 0)

/-- The sum of the lanes, kt_hsum_p. -/
def hsum (W : Nat) (v : Nat → K) : K := (List.range W).foldl (fun a l => a + v l) 0

/-- attractive_forces_kt, tsne_kernels.cpp:74-109, with `W` lanes; when there are more lanes than
components the others are 0. -/
def ktKernel (W D : Nat) (yi : Nat → K) (col : List Nat) (val : List K) (emb : List K) (ex : K)
    (start stop : Nat) : M (Nat → K) := do
  let load := fun (y : Nat → K) l => if D = W then y l else if l < D then y l else 0
  let vi := load yi
  forUp (stop - start) (fun u vg => do
    let j ← rd col (start + u)
    let yj ← point D emb (j * D)
    let vj := load yj
    let p ← rd val (start + u)
    let dist2 := hsum W fun l => (vi l - vj l) * (vi l - vj l)
    let q ← divM 1 (1 + dist2)
    .ok fun l => p * ex * q * (vi l - vj l) + vg l) (fun _ => 0)

/-- hreduce_d2 by halves, tsne_kernels.cpp:135-152, 165-174, for `2 ^ (m + 1)` lanes. -/
def hreduce : Nat → (Nat → K) → Nat → K
  | 0, v => v
  | m + 1, v => hreduce m fun l => v l + v (l + 2 ^ (m + 1))

/-- hreduce_d2 of `_Float16`, tsne_kernels.cpp:190-245. -/
def hreduceSeq (N : Nat) (v : Nat → K) (d : Nat) : K :=
  (List.range N).foldl (fun a i => a + v (2 * i + d)) 0

/-- The lane that swap_adjacent_p puts into a lane, tsne_kernels.cpp:126-163. -/
def swapLane (l : Nat) : Nat := if l % 2 = 0 then l + 1 else l - 1

/-- The full groups of attractive_forces_multi_d2, tsne_kernels.cpp:269-288; `m` groups of `N`. -/
def multiGroups (N : Nat) (yi : Nat → K) (col : List Nat) (val : List K) (emb : List K) (ex : K)
    (start m : Nat) : M (Nat → K) :=
  forUp m (fun g vg => do
    let idx := start + g * N
    let r ← forUp N (fun k (r : (Nat → K) × (Nat → K)) => do
      let j ← rd col (idx + k)
      let x ← rd emb (j * 2)
      let y ← rd emb (j * 2 + 1)
      let v ← rd val (idx + k)
      let p := v * ex
      .ok (put (put r.1 (2 * k) x) (2 * k + 1) y, put (put r.2 (2 * k) p) (2 * k + 1) p))
      ((fun _ => 0), fun _ => 0)
    let diff := fun l => yi (l % 2) - r.1 l
    let dist2 := fun l => diff l * diff l + diff (swapLane l) * diff (swapLane l)
    let q ← forUp (2 * N) (fun l q => do
      let v ← divM 1 (1 + dist2 l)
      .ok (put q l v)) (fun _ => 0)
    .ok fun l => r.2 l * q l * diff l + vg l) (fun _ => 0)

/-- attractive_forces_multi_d2, tsne_kernels.cpp:249-297.  `reduce` is hreduce_d2. -/
def multiKernel (N : Nat) (reduce : (Nat → K) → Nat → K) (yi : Nat → K) (col : List Nat)
    (val : List K) (emb : List K) (ex : K) (start stop : Nat) : M (Nat → K) := do
  let m := (stop - start) / N
  let vg ← multiGroups N yi col val emb ex start m
  let g := reduce vg
  let tail ← scalarKernel 2 yi col val emb ex (start + m * N) stop
  .ok fun d => g d + tail d

/-- A kernel: the row of the sample, the matrix, the embedding, the exaggeration, first and end. -/
abbrev Kernel (K : Type) := (Nat → K) → List Nat → List K → List K → K → Nat → Nat → M (Nat → K)

/-- Writes `D` values at `o`. -/
def store (D : Nat) (l : List K) (o : Nat) (v : Nat → K) : M (List K) :=
  forUp D (fun d l => wr l (o + d) (v d)) l

/-- compute_attractive_forces, tsne.cpp:676-697. -/
def attractiveForces (kernel : Kernel K) (order : List Nat) (D : Nat) (ex : K) (ptr : List Nat)
    (col : List Nat) (val : List K) (emb rep : List K) (sumQ : K) (grad : List K) : M (List K) :=
  order.foldlM (fun grad i => do
    let yi ← point D emb (i * D)
    let s ← rd ptr i
    let e ← rd ptr (i + 1)
    let g ← kernel yi col val emb ex s e
    let grad ← store D grad (i * D) g
    forUp D (fun k grad => do
      let g ← rd grad (i * D + k)
      let r ← rd rep (i * D + k)
      let f ← divM r sumQ
      wr grad (i * D + k) (4 * (g - f))) grad) grad

/-- The squared distance of the samples `i` and `j` in the embedding, as in tsne.cpp:921-925. -/
def pairDist2 (D : Nat) (emb : List K) (i j : Nat) : M K :=
  forUp D (fun k s => do
    let a ← rd emb (i * D + k)
    let b ← rd emb (j * D + k)
    .ok (s + (a - b) * (a - b))) 0

/-- The matrix without compression, tsne.cpp:866-877. -/
def denseP (n : Nat) (ptr col : List Nat) (val : List K) : M (List K) :=
  forUp n (fun i P => do
    let s ← rd ptr i
    let e ← rd ptr (i + 1)
    forUp (e - s) (fun u P => do
      let j ← rd col (s + u)
      let v ← rd val (s + u)
      wr P (i * n + j) v) P) (List.replicate (n * n) 0)

/-- Pass 1 of the exact gradient, tsne.cpp:914-935: the normalisation. -/
def exactSumQ (order : List Nat) (n D : Nat) (emb work : List K) : M (K × List K) := do
  let work ← order.foldlM (fun work i => do
    let partial_ ← forUp n (fun j a => do
      let d ← pairDist2 D emb i j
      let q ← divM 1 (1 + d)
      .ok (a + q)) 0
    wr work i (partial_ - 1)) work
  let s ← forUp n (fun i s => do
    let w ← rd work i
    .ok (s + w)) 0
  .ok (if s ≤ 0 then 1 else s, work)

/-- Pass 2 of the exact gradient, tsne.cpp:936-961. -/
def exactGradient (order : List Nat) (n D : Nat) (emb P : List K) (ex sumQ : K) (grad : List K) :
    M (List K) := do
  let inv ← divM 1 sumQ
  order.foldlM (fun grad i => do
    let grad ← store D grad (i * D) fun _ => 0
    let grad ← forUp n (fun j grad => do
      let d ← pairDist2 D emb i j
      let q ← divM 1 (1 + d)
      let p ← rd P (i * n + j)
      let f := (p * ex - q * inv) * q
      forUp D (fun k grad => do
        let a ← rd emb (i * D + k)
        let b ← rd emb (j * D + k)
        let g ← rd grad (i * D + k)
        wr grad (i * D + k) (g + f * (a - b))) grad) grad
    forUp D (fun k grad => do
      let g ← rd grad (i * D + k)
      wr grad (i * D + k) (g * 4)) grad) grad

/-- The normalisation for compute_kl_divergence when none is given, tsne.cpp:710-728: the pairs
above the diagonal count twice. -/
def klNormaliser (order : List Nat) (n D : Nat) (emb : List K) (sumQ : K) (work : List K) :
    M (K × List K) :=
  if sumQ ≤ 0 then do
    let work ← order.foldlM (fun work i => do
      let a ← forUp (n - (i + 1)) (fun u a => do
        let d ← pairDist2 D emb i (i + 1 + u)
        let q ← divM 2 (1 + d)
        .ok (a + q)) 0
      wr work i a) work
    let s ← forUp n (fun i s => do
      let w ← rd work i
      .ok (s + w)) 0
    .ok (s, work)
  else .ok (sumQ, work)

/-- compute_kl_divergence, tsne.cpp:703-755.  `order1` and `order2` are the orders of the two
parallel loops. -/
def klDivergence (log : K → K) (order1 order2 : List Nat) (n D : Nat) (eps : K) (ptr col : List Nat)
    (val emb : List K) (sumQ : K) (work : List K) : M K := do
  let work := if work.length < n then work ++ List.replicate (n - work.length) 0 else work
  let r ← klNormaliser order1 n D emb sumQ work
  let sumQ := if r.1 ≤ 0 then 1 else r.1
  let work ← order2.foldlM (fun work i => do
    let s ← rd ptr i
    let e ← rd ptr (i + 1)
    let a ← forUp (e - s) (fun u a => do
      let j ← rd col (s + u)
      let d ← pairDist2 D emb i j
      let v ← rd val (s + u)
      let p := max v eps
      let q ← divM 1 ((1 + d) * sumQ)
      let q := max q eps
      let x ← divM p q
      .ok (a + p * log x)) 0
    wr work i a) r.2
  forUp n (fun i s => do
    let w ← rd work i
    .ok (s + w)) 0

/-- The loop body of update_embedding, tsne.cpp:763-771, for entry `i`. -/
def updateEntry (mom rate : K) (grad : List K) (i : Nat) (s : List K × List K × List K) :
    M (List K × List K × List K) := do
  let y ← rd s.1 i
  let g ← rd grad i
  let a ← rd s.2.1 i
  let gains ← wr s.2.1 i (if y * g < 0 then a + 1 / 5 else a * (4 / 5))
  let a ← rd gains i
  let gains ← wr gains i (max a (1 / 100))
  let a ← rd gains i
  let iY ← wr s.1 i (mom * y - rate * a * g)
  let e ← rd s.2.2 i
  let v ← rd iY i
  let emb ← wr s.2.2 i (e + v)
  .ok (iY, gains, emb)

/-- update_embedding, tsne.cpp:757-772: `iY`, `gains` and `emb`. -/
def updateEmbedding (order : List Nat) (mom rate : K) (grad : List K) (s : List K × List K × List K) :
    M (List K × List K × List K) :=
  order.foldlM (fun s i => updateEntry mom rate grad i s) s

end Verif.Tsne
