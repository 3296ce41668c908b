/-
The bounded heap of the k-nearest-neighbour searches,
/repo/source/core/nearest_neighbors/binary_tree.cpp:129-196 and binary_tree.hpp:113-140.

The heap does not own memory: it works on the two arrays handed to its constructor (one row of
`k_ind` and of `k_dist`), which are functions from positions to values here, with arbitrary
contents to begin with.  `da_int` is unbounded.  The only thing assumed of the type of distances
is that `<` can be decided; floating-point numbers with infinities and NaN are one instance.
-/
namespace Verif.Heap

/-- `MaxHeap<T>`: the arrays, the capacity and the current size, binary_tree.hpp:132-135. -/
structure MaxHeap (K : Type) where
  indices : Nat → Nat
  distances : Nat → K
  capacity : Nat
  size : Nat

/-- Constructor, lines 130-134. -/
def create {K : Type} (capacity : Nat) (indices : Nat → Nat) (distances : Nat → K) : MaxHeap K :=
  ⟨indices, distances, capacity, 0⟩

/-- A store to one position of an array. -/
def put {V : Type} (f : Nat → V) (i : Nat) (v : V) : Nat → V := fun j => if j = i then v else f j

/-- `std::swap` of two positions of an array. -/
def swap {V : Type} (f : Nat → V) (i j : Nat) : Nat → V := put (put f i (f j)) j (f i)

section
variable {K : Type} [LT K] [DecidableLT K]

/-- `GetMaxDist`, lines 136-139; `top` is `std::numeric_limits<T>::max()`. -/
def getMaxDist (top : K) (h : MaxHeap K) : K := if h.size < h.capacity then top else h.distances 0

/-- `heapify_up`, lines 160-173.  `index` drops with every turn of the loop, so `index` turns are enough. -/
def heapifyUpLoop : Nat → Nat → MaxHeap K → MaxHeap K
  | 0, _, h => h
  | fuel + 1, index, h =>
    if index > 0 then
      let parent := (index - 1) / 2
      if h.distances parent < h.distances index then
        heapifyUpLoop fuel parent
          { h with indices := swap h.indices index parent, distances := swap h.distances index parent }
      else h
    else h

def heapifyUp (index : Nat) (h : MaxHeap K) : MaxHeap K := heapifyUpLoop index index h

/-- `largest`, lines 178-187. -/
def largestOf (h : MaxHeap K) (index : Nat) : Nat :=
  let left := 2 * index + 1
  let right := 2 * index + 2
  let largest := index
  let largest := if left < h.size ∧ h.distances largest < h.distances left then left else largest
  if right < h.size ∧ h.distances largest < h.distances right then right else largest

/-- `heapify_down`, lines 175-196.  `index` grows with every turn and stays below `size`, so `size` turns are
enough. -/
def heapifyDownLoop : Nat → Nat → MaxHeap K → MaxHeap K
  | 0, _, h => h
  | fuel + 1, index, h =>
    let largest := largestOf h index
    if largest ≠ index then
      heapifyDownLoop fuel largest
        { h with distances := swap h.distances index largest, indices := swap h.indices index largest }
    else h

def heapifyDown (index : Nat) (h : MaxHeap K) : MaxHeap K := heapifyDownLoop h.size index h

/-- `Insert`, lines 142-153. -/
def insert (h : MaxHeap K) (index : Nat) (distance : K) : MaxHeap K :=
  if h.size < h.capacity then
    let h1 := { h with indices := put h.indices h.size index, distances := put h.distances h.size distance }
    let h2 := heapifyUp h.size h1
    { h2 with size := h2.size + 1 }
  else if distance < h.distances 0 then
    let h1 := { h with indices := put h.indices 0 index, distances := put h.distances 0 distance }
    heapifyDown 0 h1
  else h

/-- A sequence of insertions. -/
def insertAll (h : MaxHeap K) (l : List (Nat × K)) : MaxHeap K := l.foldl (fun h p => insert h p.1 p.2) h

end
end Verif.Heap
