/-
C29: the bounded heap keeps the k smallest distances.
-/
import Verif.Heap.Proof
namespace Verif.Heap

/-- The distances in the order type `K`; `top` is the largest number of the type.  After inserting `l` one by one
into a heap of capacity `k` made over the arrays `ind` and `dst`:
* the first `min k |l|` cells of the arrays hold pairs of `l` (each as often as it was inserted at most), and none
  of the pairs left out is closer than one that is kept;
* the reported maximum is the largest number while fewer than `k` pairs were inserted, and afterwards it is the
  largest of the distances kept;
* nothing is stored outside the first `k` cells. -/
theorem C29_heap {K : Type} [LinearOrder K] (top : K) (k : Nat) (hk : 0 < k) (ind : Nat → Nat) (dst : Nat → K)
    (l : List (Nat × K)) :
    let h := insertAll (create k ind dst) l
    let kept := (List.range (min k l.length)).map fun i => (h.indices i, h.distances i)
    h.size = min k l.length ∧
    (∃ left, (kept ++ left).Perm l ∧ ∀ p ∈ kept, ∀ q ∈ left, p.2 ≤ q.2) ∧
    (l.length < k → getMaxDist top h = top) ∧
    (k ≤ l.length → getMaxDist top h ∈ kept.map (·.2) ∧ ∀ p ∈ kept, p.2 ≤ getMaxDist top h) ∧
    (∀ j, k ≤ j → h.indices j = ind j ∧ h.distances j = dst j) := by
  obtain ⟨b, f⟩ := best_insertAll hk l [] _ (best_create k ind dst)
  simp only [List.nil_append] at b
  intro h kept
  have hs : h.size = min k l.length := b.size
  have hkept : kept = cells h.size h := by rw [hs]; rfl
  refine ⟨hs, ?_, (best_max b top).1, ?_, f⟩
  · rw [hkept]; exact b.sel
  · intro hl
    have hm := (best_max b top).2 hl
    have h0 : 0 < h.size := by omega
    rw [hm, hkept]
    constructor
    · exact List.mem_map.2 ⟨(h.indices 0, h.distances 0), List.mem_map.2 ⟨0, List.mem_range.2 h0, rfl⟩, rfl⟩
    · intro p hp
      obtain ⟨j, hj, rfl⟩ := mem_cells hp
      exact ordered_root b.ordered j hj

/-- Five insertions with ties into a heap of capacity three: the three smallest distances 1, 2, 2 are kept. -/
example :
    let h := insertAll (create 3 (fun _ => 99) (fun _ => 77)) [(0, 5), (1, 2), (2, 9), (3, 1), (4, 2)]
    (List.range 4).map (fun i => (h.indices i, h.distances i)) = [(4, 2), (1, 2), (3, 1), (99, 77)] ∧
    getMaxDist 1000 h = 2 := by decide

example : let h := insertAll (create 3 (fun _ => 0) (fun _ => 0)) [(7, 4)]
    h.size = 1 ∧ getMaxDist 1000 h = 1000 := by decide

/-! ### NaN

The order of floating-point numbers is not linear once NaN is among them.  `N` has one such value. -/

/-- A natural number or NaN. -/
inductive N | num (n : Nat) | nan
deriving DecidableEq

/-- `<` of IEEE 754: false as soon as NaN is involved. -/
def N.lt : N → N → Bool
  | .num a, .num b => a < b
  | _, _ => false

instance : LT N := ⟨fun a b => N.lt a b = true⟩
instance : DecidableLT N := fun a b => inferInstanceAs (Decidable (N.lt a b = true))

/-- With NaN the property fails: once NaN has reached the root of a full heap nothing is inserted any more, however
close it is. -/
theorem C29_nan (d : Nat) :
    let h := insertAll (create 1 (fun _ => 0) (fun _ => N.num 0)) [(0, .nan), (1, .num d)]
    h.size = 1 ∧ h.indices 0 = 0 ∧ h.distances 0 = .nan := by
  refine ⟨rfl, rfl, rfl⟩

end Verif.Heap
