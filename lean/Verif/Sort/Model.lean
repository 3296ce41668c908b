/-!
# Model of the index sorts

`source/core/decision_forest/common/idx_sorting.cpp`.  The two vectors `indices` and `values` are
functions of the position with one common size; an access outside it sets `bad`.  The comparison
`<` of the values is an arbitrary Boolean function `lt`, so that NaN is included.  Positions and
lengths are natural numbers (the callers pass non-negative ones).
-/

namespace Verif.Sort

/-- `indices` and `values`. -/
structure St (α : Type) where
  idx : Nat → Int
  val : Nat → α
  size : Nat
  bad : Bool

/-- An access to position `i`. -/
def St.touch {α} (s : St α) (i : Nat) : St α := { s with bad := s.bad || decide (s.size ≤ i) }

/-- Exchange of two entries of a function. -/
def swapF {β : Type} (f : Nat → β) (i j : Nat) : Nat → β :=
  fun k => if k = i then f j else if k = j then f i else f k

/-- `swap` (idx_sorting.cpp 80-85). -/
def St.swap {α} (s : St α) (i j : Nat) : St α :=
  { (s.touch i).touch j with idx := swapF s.idx i j, val := swapF s.val i j }

/-- The larger of a node and its left child (idx_sorting.cpp 97-98). -/
def pickLeft {α} (lt : α → α → Bool) (start n root : Nat) (s : St α) : Nat :=
  if 2 * root + 1 < n ∧ lt (s.val (root + start)) (s.val (2 * root + 1 + start)) then 2 * root + 1
  else root

/-- The largest of a node and its two children (idx_sorting.cpp 97-101). -/
def pickMax {α} (lt : α → α → Bool) (start n root : Nat) (s : St α) : Nat :=
  if 2 * root + 2 < n ∧
      lt (s.val (pickLeft lt start n root s + start)) (s.val (2 * root + 2 + start)) then 2 * root + 2
  else pickLeft lt start n root s

/-- The reads of one step of `heapify`: the node if it has a child, and its children. -/
def touchNode {α} (start n root : Nat) (s : St α) : St α :=
  let s1 := if 2 * root + 1 < n then (s.touch (root + start)).touch (2 * root + 1 + start) else s
  if 2 * root + 2 < n then s1.touch (2 * root + 2 + start) else s1

theorem pickMax_cases {α} (lt : α → α → Bool) (start n root : Nat) (s : St α) :
    pickMax lt start n root s = root ∨
    (pickMax lt start n root s = 2 * root + 1 ∧ 2 * root + 1 < n) ∨
    (pickMax lt start n root s = 2 * root + 2 ∧ 2 * root + 2 < n) := by
  unfold pickMax pickLeft
  by_cases h1 : 2 * root + 1 < n ∧ lt (s.val (root + start)) (s.val (2 * root + 1 + start))
  · simp only [if_pos h1]; split
    · next h => exact .inr (.inr ⟨rfl, h.1⟩)
    · exact .inr (.inl ⟨rfl, h1.1⟩)
  · simp only [if_neg h1]; split
    · next h => exact .inr (.inr ⟨rfl, h.1⟩)
    · exact .inl rfl

/-- `multi_range_heapify` (idx_sorting.cpp 87-108).  The children of `root` are at `2 root + 1` and
`2 root + 2`, relative to `start`. -/
def heapify {α} (lt : α → α → Bool) (start n root : Nat) (s : St α) : St α :=
  if _h : pickMax lt start n root s ≠ root then
    heapify lt start n (pickMax lt start n root s)
      ((touchNode start n root s).swap (root + start) (pickMax lt start n root s + start))
  else touchNode start n root s
termination_by n - root
decreasing_by
  rcases pickMax_cases lt start n root s with h1 | ⟨h1, h2⟩ | ⟨h1, h2⟩
  · exact absurd h1 _h
  · omega
  · omega

/-- The first loop of `multi_range_heap_sort` (idx_sorting.cpp 114-118): from `k - 1` down to 0. -/
def buildHeap {α} (lt : α → α → Bool) (start n : Nat) : Nat → St α → St α
  | 0, s => s
  | k + 1, s => buildHeap lt start n k (heapify lt start n k s)

/-- The second loop (idx_sorting.cpp 120-126), with `n_unsorted` counting down. -/
def drainHeap {α} (lt : α → α → Bool) (start : Nat) : Nat → St α → St α
  | 0, s => s
  | k + 1, s => drainHeap lt start k (heapify lt start (k + 1) 0 (s.swap start (start + (k + 1))))

/-- `multi_range_heap_sort` (idx_sorting.cpp 110-127). -/
def heapSort {α} (lt : α → α → Bool) (start n : Nat) (s : St α) : St α :=
  drainHeap lt start (n - 1) (buildHeap lt start n (n / 2) s)

/-- `pivot_median3` (idx_sorting.cpp 68-78). -/
def pivot {α} (lt : α → α → Bool) (start n : Nat) (s : St α) : α :=
  if lt (s.val start) (s.val (start + n / 2)) then
    if lt (s.val (start + n / 2)) (s.val (start + n - 1)) then s.val (start + n / 2)
    else if lt (s.val start) (s.val (start + n - 1)) then s.val (start + n - 1)
    else s.val start
  else if lt (s.val start) (s.val (start + n - 1)) then s.val start
  else if lt (s.val (start + n / 2)) (s.val (start + n - 1)) then s.val (start + n - 1)
  else s.val (start + n / 2)

/-- The reads of `pivot_median3`. -/
def touchPivot {α} (start n : Nat) (s : St α) : St α :=
  ((s.touch start).touch (start + n / 2)).touch (start + n - 1)

/-- The partition loop of `multi_range_intro_sort` (idx_sorting.cpp 149-164); the result also gives
`pivot_idx` and `right`. -/
def partLoop {α} (lt : α → α → Bool) (p : α) (left right piv : Nat) (s : St α) :
    St α × Nat × Nat :=
  if _h : left < right then
    if lt (s.val left) p then
      partLoop lt p (left + 1) right (piv + 1) ((s.touch left).swap left piv)
    else if lt p (s.val left) then
      partLoop lt p left (right - 1) piv ((s.touch left).swap (right - 1) left)
    else partLoop lt p (left + 1) right piv (s.touch left)
  else (s, piv, right)
termination_by right - left

/-- `multi_range_intro_sort` (idx_sorting.cpp 129-174).  `entry` is true for a call and false for a
further round of its `while` loop, where the depth is not looked at.  `fuel` bounds the number of
nested calls and rounds; `none` means that it ran out. -/
def introSort {α} (lt : α → α → Bool) : Nat → Bool → Nat → Nat → Int → St α → Option (St α)
  | 0, _, _, _, _, _ => none
  | fuel + 1, entry, start, n, maxd, s =>
    if n ≤ 1 then some s
    else if entry ∧ maxd ≤ 0 then some (heapSort lt start n s)
    else
      let s0 := touchPivot start n s
      let r := partLoop lt (pivot lt start n s) start (start + n) start s0
      (introSort lt fuel true start (r.2.1 - start) (maxd - 1) r.1).bind fun s2 =>
        introSort lt fuel false r.2.2 (start + n - r.2.2) (maxd - 1) s2

/-! ## Bucket sort -/

/-- The working arrays of `bucket_sort_samples`: `buckets` with its size, and `bucket_idx`. -/
structure Buckets where
  cells : Nat → Int
  size : Nat
  cnt : Nat → Nat

/-- One round of the first loop of `bucket_sort_samples` (idx_sorting.cpp 182-187).  `rnd` is
`std::round` followed by the conversion to an integer; a result that is no category writes outside
the arrays. -/
def bucketStep {α} (rnd : α → Int) (ncat ld : Nat) (i : Nat) (sb : St α × Buckets) :
    St α × Buckets :=
  let s := sb.1.touch i
  let b := sb.2
  let x := rnd (s.val i)
  if x < 0 ∨ (ncat : Int) ≤ x then ({ s with bad := true }, b)
  else
    let x := x.toNat
    let pos := ld * x + b.cnt x
    ({ s with bad := s.bad || decide (b.size ≤ pos) },
      { b with
        cells := fun k => if k = pos then s.idx i else b.cells k
        cnt := fun c => if c = x then b.cnt c + 1 else b.cnt c })

/-- The first loop. -/
def bucketFill {α} (rnd : α → Int) (ncat ld : Nat) : List Nat → St α × Buckets → St α × Buckets
  | [], sb => sb
  | i :: is, sb => bucketFill rnd ncat ld is (bucketStep rnd ncat ld i sb)

/-- One round of the second loop (idx_sorting.cpp 189-195): `memcpy` of a bucket into `indices`, and
`fill` of `values` with the category.  The address `&indices[s_idx]` taken for an empty bucket at the
end of the vector is not counted as an access. -/
def emptyStep {α} (ofCat : Nat → α) (ld : Nat) (b : Buckets) (c : Nat) (st : St α × Nat) :
    St α × Nat :=
  let s := st.1
  let pos := st.2
  let m := b.cnt c
  ({ s with
      idx := fun k => if pos ≤ k ∧ k < pos + m then b.cells (c * ld + (k - pos)) else s.idx k
      val := fun k => if pos ≤ k ∧ k < pos + m then ofCat c else s.val k
      bad := s.bad || (decide (0 < m) && (decide (s.size < pos + m) || decide (b.size < c * ld + m))) },
    pos + m)

/-- The second loop. -/
def bucketEmpty {α} (ofCat : Nat → α) (ld : Nat) (b : Buckets) : List Nat → St α × Nat → St α × Nat
  | [], st => st
  | c :: cs, st => bucketEmpty ofCat ld b cs (emptyStep ofCat ld b c st)

/-- `bucket_sort_samples` (idx_sorting.cpp 176-196).  `ofCat` is the conversion of a category to a
value. -/
def bucketSort {α} (rnd : α → Int) (ofCat : Nat → α) (ncat start n ld : Nat) (b : Buckets)
    (s : St α) : St α :=
  let f := bucketFill rnd ncat ld (List.range' start n) (s, { b with cnt := fun _ => 0 })
  (bucketEmpty ofCat ld f.2 (List.range ncat) (f.1, start)).1

/-! ## Counting a bootstrap sample -/

/-- The end of the run of `v` that is at `head` (idx_sorting.cpp 49-51). -/
def runEnd (idx : Nat → Nat) (size v head : Nat) : Nat :=
  if _h : head + 1 < size ∧ idx (head + 1) = v then runEnd idx size v (head + 1) else head + 1
termination_by size - head

theorem runEnd_gt (idx : Nat → Nat) (size v head : Nat) : head < runEnd idx size v head := by
  fun_induction runEnd idx size v head with
  | case1 head h ih => omega
  | case2 head h => omega

/-- The arrays `indices` and `count` with the size of the latter. -/
structure Tally where
  idx : Nat → Nat
  cnt : Nat → Nat
  csize : Nat
  bad : Bool

/-- Writing one entry of an array. -/
def setF (f : Nat → Nat) (i v : Nat) : Nat → Nat := fun k => if k = i then v else f k

/-- The loop of `compress_count_occurences` (idx_sorting.cpp 46-55), in place.  Returns also the number
of distinct indices. -/
def compressLoop (size head u : Nat) (t : Tally) : Tally × Nat :=
  if _h : head < size then
    compressLoop size (runEnd t.idx size (t.idx head) head) (u + 1)
      { t with
        idx := setF t.idx u (t.idx head)
        cnt := setF t.cnt (t.idx head) (runEnd t.idx size (t.idx head) head - head)
        bad := t.bad || decide (t.csize ≤ t.idx head) }
  else (t, u)
termination_by size - head
decreasing_by
  have := runEnd_gt t.idx size (t.idx head) head
  omega

/-- `compress_count_occurences` (idx_sorting.cpp 39-63).  `sort` is `std::sort`. -/
def compress (sort : List Nat → List Nat) (l : List Nat) (csize : Nat) : Tally × Nat :=
  compressLoop (sort l).length 0 0
    { idx := fun i => (sort l).getD i 0, cnt := fun _ => 0, csize := csize, bad := false }

end Verif.Sort
