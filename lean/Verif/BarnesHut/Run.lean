import Verif.BarnesHut.Model

/-
The rest of the Barnes-Hut code: the memory, the bounding box, `build`, the traversal and
`compute_repulsive_forces`.
-/
namespace Verif.BarnesHut

open Moments (M Fault rd wr forUp divM)

variable {K : Type} [Field K] [LinearOrder K] [IsStrictOrderedRing K] {σ : Type}

/-- `MAX_DEPTH`, tsne.hpp:60. -/
def maxDepth : Nat := 32

/-- `STACK_SIZE`, tsne.hpp:61. -/
def stackSize (D : Nat) : Nat := 2 ^ D * maxDepth + 2 ^ D

/-- `capacity`, barnes_hut.cpp:43. -/
def capacityOf (D n : Nat) : Nat := max 256 (2 ^ D * n + 64)

/-- `std::vector::resize`. -/
def resize {α : Type} (l : List α) (k : Nat) (x : α) : List α := l.take k ++ List.replicate (k - l.length) x

/-- The arrays that a tree keeps from one `build` to the next, tsne.hpp:69-82. -/
structure Mem (K : Type) where
  nodes : List (Node K)
  idx : List Nat
  pos : List Nat
  sorted : List K
  capacity : Nat
  ready : Bool

/-- `initialize_memory`, barnes_hut.cpp:39-48. -/
def initMem (D n : Nat) (m : Mem K) : Mem K :=
  if m.ready = true ∧ n > 0 ∧ m.capacity / 2 ^ D ≥ n then m
  else
    { m with capacity := capacityOf D n, ready := true
             nodes := resize m.nodes (capacityOf D n) ⟨List.replicate D 0, 0, 0, 0, 0⟩
             idx := resize m.idx n 0, pos := resize m.pos n 0 }

/-- The part of a thread in the loop of `compute_bbox`, barnes_hut.cpp:59-65. -/
def boxPart (D : Nat) (pts : List K) (part : List Nat) (box : List K × List K) : M (List K × List K) :=
  part.foldlM (fun r i => forUp D (fun d r => do
    let p ← rd pts (i * D + d)
    let lo ← rd r.1 d
    let hi ← rd r.2 d
    let l ← wr r.1 d (min lo p)
    let h ← wr r.2 d (max hi p)
    .ok (l, h)) r) box

/-- One step of the reductions, barnes_hut.cpp:58. -/
def boxMerge (D : Nat) (r q : List K × List K) : M (List K × List K) :=
  forUp D (fun d r => do
    let a ← rd q.1 d
    let b ← rd q.2 d
    let lo ← rd r.1 d
    let hi ← rd r.2 d
    let l ← wr r.1 d (min lo a)
    let h ← wr r.2 d (max hi b)
    .ok (l, h)) r

/-- The smallest and the greatest coordinates, barnes_hut.cpp:54-65: the samples are divided into
`parts`, one for each thread, and each thread starts from the values that do not matter. -/
def boxOf (D : Nat) (pts : List K) (parts : List (List Nat)) (big low : K) : M (List K × List K) :=
  parts.foldlM (fun r part => do
    let q ← boxPart D pts part (List.replicate D big, List.replicate D low)
    boxMerge D r q) (List.replicate D big, List.replicate D low)

/-- `bbox_width`, barnes_hut.cpp:69-73. -/
def widthOf (D : Nat) (box : List K × List K) (tiny : K) : M K :=
  forUp D (fun d m => do
    let hi ← rd box.2 d
    let lo ← rd box.1 d
    .ok (max m (hi - lo))) tiny

/-- `bbox_center`, barnes_hut.cpp:76-77; `bbox_min` and `bbox_max` are not read again. -/
def centerOf (D : Nat) (box : List K × List K) : M (List K) :=
  forUp D (fun d l => do
    let lo ← rd box.1 d
    let hi ← rd box.2 d
    .ok (l ++ [(lo + hi) / 2])) []

/-- `dist2_thresh`, barnes_hut.cpp:257-269; `none` is infinity. -/
def thresholds (hw theta floor : K) : List (Option K) :=
  let four := if theta > 0 then some (4 / (theta * theta)) else none
  ((List.range maxDepth).foldl (fun (r : List (Option K) × Option K) _ =>
    (r.1 ++ [r.2.map (· + floor)], r.2.map (· * (1 / 4)))) ([], four.map (hw * hw * ·))).1

/-- What the traversal reads of the tree. -/
structure Tree (K : Type) where
  nodes : List (Node K)
  num : Nat
  idx : List Nat
  pos : List Nat
  sorted : List K
  thr : List (Option K)

/-- One iteration of the loop that stores the order of the points, barnes_hut.cpp:248-254. -/
def place (D : Nat) (pts : List K) (idx : List Nat) (k : Nat) (r : List Nat × List K) :
    M (List Nat × List K) := do
  let i ← rd idx k
  let pos ← wr r.1 i k
  let sorted ← forUp D (fun d s => do
    let x ← rd pts (i * D + d)
    wr s (k * D + d) x) r.2
  .ok (pos, sorted)

/-- `build`, barnes_hut.cpp:232-270, for `n > 0`.  `parts` and `sched` are the distributions of the
two parallel loops.  Also gives the arrays for the next call. -/
def buildTree (A : Arena σ) (D n thr : Nat) (pts : List K) (parts : List (List Nat)) (sched : List Nat)
    (big low tiny theta floor : K) (m : Mem K) : M (Tree K × Mem K) := do
  let m := initMem D n m
  let box ← boxOf D pts parts big low
  let width ← widthOf D box tiny
  let center ← centerOf D box
  let idx := List.range m.idx.length
  let s ← build A D thr pts maxDepth [] 0 0 n center (width / 2) ⟨idx, m.nodes, A.init⟩
  let r ← sched.foldlM (fun r k => place D pts s.idx k r) (m.pos, resize m.sorted (n * D) 0)
  .ok (⟨s.nodes, A.num s.arena, s.idx, r.1, r.2, thresholds (width / 2) theta floor⟩,
    { m with nodes := s.nodes, idx := s.idx, pos := r.1, sorted := r.2 })

/-- The sums of the traversal, barnes_hut.cpp:294-295: `sq[b]` and `f[d][b]`. -/
structure Acc (K : Type) where
  sq : Nat → K
  f : Nat → Nat → K

/-- The squared distance of lane `b` from `c`, barnes_hut.cpp:322-331. -/
def dist2 (D : Nat) (q : Nat → Nat → K) (c : Nat → K) (b : Nat) : K :=
  (List.range D).foldl (fun s d => s + (q d b - c d) * (q d b - c d)) 0

/-- `accum_force`, barnes_hut.cpp:339-354.  The divisor is at least `eps * eps`, which is not zero. -/
def accum (D : Nat) (eps : K) (q : Nat → Nat → K) (c : Nat → K) (weight : K) (incl : Nat → Bool)
    (a : Acc K) : Acc K :=
  let dxy1 := fun b => dist2 D q c b + eps
  let scale := fun b => (if incl b then 1 else 0) * weight / (dxy1 b * dxy1 b)
  ⟨fun b => a.sq b + scale b * dxy1 b, fun d b => a.f d b + (q d b - c d) * scale b⟩

/-- A leaf with several points, barnes_hut.cpp:362-384. -/
def leafPoints (D : Nat) (eps : K) (t : Tree K) (pidx : Nat → Nat) (q : Nat → Nat → K) (nd : Node K)
    (a : Acc K) : M (Acc K) :=
  forUp nd.cnt (fun c a => do
    let p ← rd t.idx (nd.start + c)
    let x ← forUp D (fun d l => do
      let v ← rd t.sorted ((nd.start + c) * D + d)
      .ok (l ++ [v])) []
    .ok (accum D eps q (fun d => x.getD d 0) 1 (fun b => p ≠ pidx b) a)) a

/-- Whether a cell is far from all four lanes, barnes_hut.cpp:387-393. -/
def allFar (D : Nat) (q : Nat → Nat → K) (c : Nat → K) (thresh : Option K) : Bool :=
  (List.range 4).all fun b => match thresh with
    | none => false
    | some t => !decide (dist2 D q c b < t)

/-- `contains_any_query`, barnes_hut.cpp:398-406. -/
def holdsQuery (qpos : Nat → Nat) (nd : Node K) : Bool :=
  (List.range 4).any fun b => decide (nd.start ≤ qpos b ∧ qpos b < nd.start + nd.cnt)

/-- The loop of `compute_repulsive_batch4`, barnes_hut.cpp:306-420.  The two stacks are a list of
pairs of a node and a level with the top first; to push more than `STACK_SIZE` is a fault.  The
array `com[D]` of a node is read with a default, as `D` values are stored in it. -/
def walk (D : Nat) (eps : K) (t : Tree K) (pidx qpos : Nat → Nat) (q : Nat → Nat → K) :
    (fuel : Nat) → List (Nat × Nat) → Acc K → M (Acc K)
  | 0, _, _ => .error .stuck
  | _ + 1, [], a => .ok a
  | fuel + 1, (node, level) :: stack, a =>
    if node ≥ t.num then walk D eps t pidx qpos q fuel stack a
    else do
      let nd ← rd t.nodes node
      if nd.cnt = 0 then walk D eps t pidx qpos q fuel stack a
      else do
        let com := fun d => nd.com.getD d 0
        let thresh ← rd t.thr (if level < maxDepth then level else maxDepth - 1)
        if nd.cnt = 1 then do
          let p ← rd t.idx nd.start
          walk D eps t pidx qpos q fuel stack (accum D eps q com 1 (fun b => p ≠ pidx b) a)
        else if nd.kids = 0 then do
          let a ← leafPoints D eps t pidx q nd a
          walk D eps t pidx qpos q fuel stack a
        else if (allFar D q com thresh = true ∨ stack.length + nd.kids > stackSize D) ∧
            holdsQuery qpos nd = false then
          walk D eps t pidx qpos q fuel stack (accum D eps q com (nd.cnt : K) (fun _ => true) a)
        else if stack.length + nd.kids > stackSize D then .error .oob
        else
          walk D eps t pidx qpos q fuel
            (((List.range nd.kids).map fun c => (nd.first + c, level + 1)) ++ stack) a

/-- `compute_repulsive_batch4`, barnes_hut.cpp:273-427: `sum_q_out` and `force_out`. -/
def batch4 (D n : Nat) (eps : K) (t : Tree K) (pts : List K) (pidx : List Nat) :
    M (List K × List (List K)) :=
  if t.num = 0 then .ok (List.replicate 4 0, List.replicate 4 (List.replicate D 0))
  else do
    let pt ← forUp 4 (fun b l => do
      let p ← rd pidx b
      let x ← forUp D (fun d x => do
        let v ← rd pts (p * D + d)
        .ok (x ++ [v])) []
      .ok (l ++ [x])) []
    let qpos ← forUp 4 (fun b l => do
      let p ← rd pidx b
      let k ← rd t.pos p
      .ok (l ++ [k])) []
    let a ← walk D eps t (fun b => pidx.getD b 0) (fun b => qpos.getD b 0)
      (fun d b => (pt.getD b []).getD d 0) ((maxDepth + 1) * n + 1) [(0, 0)] ⟨fun _ => 0, fun _ _ => 0⟩
    .ok ((List.range 4).map a.sq, (List.range 4).map fun b => (List.range D).map fun d => a.f d b)

/-- The four points of a batch, tsne.cpp:789-796. -/
def lanesOf (n : Nat) (idx : List Nat) (batch : Nat) : M (List Nat) := do
  let count := min 4 (n - batch * 4)
  let l ← forUp count (fun b l => do
    let p ← rd idx (batch * 4 + b)
    .ok (l ++ [p])) []
  .ok (l ++ List.replicate (4 - count) (l.getD 0 0))

/-- One iteration of the loop over the batches, tsne.cpp:786-807; `r` holds `repulsive` and
`thread_sum_q`. -/
def batchStep (D n : Nat) (eps : K) (t : Tree K) (pts : List K) (batch : Nat) (r : List K × List K) :
    M (List K × List K) := do
  let pidx ← lanesOf n t.idx batch
  let out ← batch4 D n eps t pts pidx
  let w ← forUp (min 4 (n - batch * 4)) (fun b (w : List K × K) => do
    let i ← rd pidx b
    let force ← rd out.2 b
    let rep ← forUp D (fun d rep => do
      let v ← rd force d
      wr rep (i * D + d) v) w.1
    let s ← rd out.1 b
    .ok (rep, w.2 + s)) (r.1, 0)
  let sums ← wr r.2 batch w.2
  .ok (w.1, sums)

/-- `compute_repulsive_forces`, tsne.cpp:774-815; `sched` is the order in which the batches run, and
`sums` is `thread_sum_q` from the call before.  Gives `repulsive`, `sum_q_total` and `thread_sum_q`. -/
def repulsiveForces (D n : Nat) (eps : K) (t : Tree K) (pts rep sums : List K) (sched : List Nat) :
    M (List K × K × List K) := do
  let nb := (n + 3) / 4
  let sums := if sums.length < nb then resize sums nb 0 else sums
  let r ← sched.foldlM (fun r batch => batchStep D n eps t pts batch r) (rep, sums)
  let total ← forUp nb (fun b s => do
    let v ← rd r.2 b
    .ok (s + v)) 0
  .ok (r.1, if total = 0 then 1 else total, r.2)

end Verif.BarnesHut
