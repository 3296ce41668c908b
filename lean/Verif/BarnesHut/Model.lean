import Verif.Moments.Stats

/-
The Barnes-Hut tree of t-SNE: /repo/source/core/dimension_reduction/tsne/barnes_hut.cpp:39-427 and
compute_repulsive_forces in tsne.cpp:774-815.

Memory and faults are those of `Moments`; arithmetic is exact, in an ordered field.  `da_int`,
`int32_t` and `int8_t` are natural numbers that do not wrap.  The local arrays of fixed size that are
indexed by a lane (0 to 3) or a dimension (0 to D - 1) are functions.
-/
namespace Verif.BarnesHut

open Moments (M Fault rd wr forUp divM)

variable {K : Type} [Field K] [LinearOrder K] [IsStrictOrderedRing K]

/-- `TreeNode`, tsne.hpp:48-54. -/
structure Node (K : Type) where
  com : List K
  cnt : Nat
  start : Nat
  first : Nat
  kids : Nat
  deriving DecidableEq, Repr

/-- How slots are reserved and in which order the tasks of a node run.  `take` gives the first of
the reserved slots, or nothing if the arena is full; it gets the path of the node, so that any
outcome of concurrent reservations can be described.  `init` is the state when the slot of the root
has been taken, and `num` reads `num_nodes` off a state. -/
structure Arena (σ : Type) where
  init : σ
  num : σ → Nat
  take : σ → List Nat → Nat → Option Nat × σ
  seq : List Nat → Nat → List Nat

/-- The reservation of barnes_hut.cpp:174-188 by a single thread, with `num_nodes` as state; the
children are run in order. -/
def Arena.serial (capacity : Nat) : Arena Nat where
  init := 1
  num := id
  take := fun num _ ne => if num + ne > capacity then (none, num) else (some num, num + ne)
  seq := fun _ ne => List.range ne

/-- The arrays that the tree is built in. -/
structure St (K σ : Type) where
  idx : List Nat
  nodes : List (Node K)
  arena : σ

/-- `classify_point`, barnes_hut.cpp:125-131. -/
def classify (D : Nat) (pts center : List K) (p : Nat) : M Nat :=
  forUp D (fun d i => do
    let a ← rd pts (p * D + d)
    let c ← rd center d
    .ok (if c ≤ a then i ||| (1 <<< d) else i)) 0

/-- barnes_hut.cpp:135-138. -/
def countOctants (D : Nat) (pts center : List K) (idx : List Nat) (start stop : Nat) : M (List Nat) :=
  forUp (stop - start) (fun i counts => do
    let p ← rd idx (start + i)
    let c ← classify D pts center p
    let v ← rd counts c
    wr counts c (v + 1)) (List.replicate (2 ^ D) 0)

/-- barnes_hut.cpp:140-143.  The array is not initialized; that it holds zeros does not matter, since
every cell is written before it is read. -/
def boundaries (D start : Nat) (counts : List Nat) : M (List Nat) :=
  forUp (2 ^ D) (fun c b => do
    let v ← rd b c
    let w ← rd counts c
    wr b (c + 1) (v + w)) (start :: List.replicate (2 ^ D) 0)

/-- The `while` loop for octant `c`, barnes_hut.cpp:152-161. -/
def cycle (D : Nat) (pts center : List K) (b : List Nat) (c : Nat) :
    (fuel : Nat) → List Nat × List Nat → M (List Nat × List Nat)
  | 0, _ => .error .stuck
  | fuel + 1, (idx, w) => do
    let wc ← rd w c
    let e ← rd b (c + 1)
    if wc < e then do
      let p ← rd idx wc
      let k ← classify D pts center p
      if k = c then do
        let w ← wr w c (wc + 1)
        cycle D pts center b c fuel (idx, w)
      else do
        let wk ← rd w k
        let q ← rd idx wk
        let idx ← wr idx wc q
        let idx ← wr idx wk p
        let w ← wr w k (wk + 1)
        cycle D pts center b c fuel (idx, w)
    else .ok (idx, w)

/-- The partition of `sorted_indices`, barnes_hut.cpp:145-162. -/
def partition (D : Nat) (pts center : List K) (b : List Nat) (start stop : Nat) (idx : List Nat) :
    M (List Nat) := do
  let r ← forUp (2 ^ D) (fun c s => cycle D pts center b c (stop - start + 1) s) (idx, b.take (2 ^ D))
  .ok r.1

/-- `nonempty_map`, barnes_hut.cpp:164-170. -/
def nonempty (D : Nat) (b : List Nat) : M (List Nat) :=
  forUp (2 ^ D) (fun c l => do
    let x ← rd b c
    let y ← rd b (c + 1)
    .ok (if y > x then l ++ [c] else l)) []

/-- The centre of a child, barnes_hut.cpp:193-195. -/
def childCenter (D : Nat) (center : List K) (h : K) (c : Nat) : M (List K) :=
  forUp D (fun d l => do
    let x ← rd center d
    .ok (l ++ [x + if c.testBit d then h else -h])) []

/-- The sum of `make_leaf`, barnes_hut.cpp:89-94. -/
def sumPoints (D : Nat) (pts : List K) (idx : List Nat) (start stop : Nat) : M (List K) :=
  forUp (stop - start) (fun i sum => do
    let p ← rd idx (start + i)
    forUp D (fun d sum => do
      let a ← rd pts (p * D + d)
      let s ← rd sum d
      wr sum d (s + a)) sum) (List.replicate D 0)

/-- `make_leaf`, barnes_hut.cpp:86-102. -/
def makeLeaf (D : Nat) (pts : List K) (idx : List Nat) (nodes : List (Node K)) (slot start stop : Nat) :
    M (List (Node K)) := do
  let sum ← sumPoints D pts idx start stop
  let com ← forUp D (fun d l => do
    let s ← rd sum d
    let q ← divM s ((stop - start : Nat) : K)
    .ok (l ++ [q])) []
  wr nodes slot ⟨com, stop - start, start, 0, 0⟩

/-- The sums over the children, barnes_hut.cpp:210-221. -/
def gather (D : Nat) (nodes : List (Node K)) (first ne : Nat) : M (Nat × List K) :=
  forUp ne (fun s r => do
    let nd ← rd nodes (first + s)
    if nd.cnt > 0 then do
      let sum ← forUp D (fun d sum => do
        let x ← rd nd.com d
        let y ← rd sum d
        wr sum d (y + (nd.cnt : K) * x)) r.2
      .ok (r.1 + nd.cnt, sum)
    else .ok r) (0, List.replicate D 0)

/-- The end of `build_subtree`, barnes_hut.cpp:206-229. -/
def combine (D : Nat) (nodes : List (Node K)) (slot start first ne : Nat) : M (List (Node K)) := do
  let r ← gather D nodes first ne
  let old ← rd nodes slot
  if r.1 > 0 then do
    let inv ← divM (1 : K) (r.1 : K)
    wr nodes slot ⟨r.2.map fun s => s * inv, r.1, start, first, ne⟩
  else wr nodes slot ⟨old.com, r.1, start, first, ne⟩

/-- The first part of `build_subtree`, barnes_hut.cpp:133-170: the boundaries, the octants that are
not empty and the new order. -/
def divide (D : Nat) (pts center : List K) (start stop : Nat) (idx : List Nat) :
    M (List Nat × List Nat × List Nat) := do
  let counts ← countOctants D pts center idx start stop
  let b ← boundaries D start counts
  let idx ← partition D pts center b start stop idx
  let map ← nonempty D b
  .ok (b, map, idx)

variable {σ : Type}

/-- `build_subtree`, barnes_hut.cpp:104-230; `left` is MAX_DEPTH minus `level`.  A task runs as a
whole; what it reads and writes is not shared with its siblings, as the proofs show. -/
def build (A : Arena σ) (D thr : Nat) (pts : List K) : (left : Nat) → (path : List Nat) →
    (slot start stop : Nat) → (center : List K) → (hw : K) → St K σ → M (St K σ)
  | 0, _, slot, start, stop, _, _, s =>
    if stop - start = 0 then do
      let old ← rd s.nodes slot
      let nodes ← wr s.nodes slot ⟨old.com, 0, start, 0, 0⟩
      .ok ⟨s.idx, nodes, s.arena⟩
    else do
      let nodes ← makeLeaf D pts s.idx s.nodes slot start stop
      .ok ⟨s.idx, nodes, s.arena⟩
  | left + 1, path, slot, start, stop, center, hw, s =>
    if stop - start = 0 then do
      let old ← rd s.nodes slot
      let nodes ← wr s.nodes slot ⟨old.com, 0, start, 0, 0⟩
      .ok ⟨s.idx, nodes, s.arena⟩
    else if stop - start ≤ thr then do
      let nodes ← makeLeaf D pts s.idx s.nodes slot start stop
      .ok ⟨s.idx, nodes, s.arena⟩
    else do
      let r ← divide D pts center start stop s.idx
      match A.take s.arena path r.2.1.length with
      | (none, a) => do
        let nodes ← makeLeaf D pts r.2.2 s.nodes slot start stop
        .ok ⟨r.2.2, nodes, a⟩
      | (some first, a) => do
        let s ← (A.seq path r.2.1.length).foldlM (fun s j => do
          let c ← rd r.2.1 j
          let cc ← childCenter D center (hw / 2) c
          let b0 ← rd r.1 c
          let b1 ← rd r.1 (c + 1)
          build A D thr pts left (path ++ [j]) (first + j) b0 b1 cc (hw / 2) s) ⟨r.2.2, s.nodes, a⟩
        let nodes ← combine D s.nodes slot start first r.2.1.length
        .ok ⟨s.idx, nodes, s.arena⟩

end Verif.BarnesHut
