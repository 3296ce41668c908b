import Verif.ApproxNn.SearchModel
import Verif.ApproxNn.Add
import Verif.Heap.Proof

/-
The heaps of the search.
-/
namespace Verif.ApproxNn

set_option linter.unusedSectionVars false

open Moments (M Fault rd wr forUp ok_bind rd_ok wr_ok forUp_zero forUp_succ)
open Tsne (forUp_inv cell_eq cell_lt get_set)
open Heap (MaxHeap create getMaxDist insert Best cells)

variable {K : Type} [Field K] [LinearOrder K] [IsStrictOrderedRing K]

theorem up_frame (fuel : Nat) : ∀ (index : Nat) (h : MaxHeap K) (j : Nat), index < j →
    (Heap.heapifyUpLoop fuel index h).indices j = h.indices j ∧
    (Heap.heapifyUpLoop fuel index h).distances j = h.distances j := by
  induction fuel with
  | zero => intro index h j _; exact ⟨rfl, rfl⟩
  | succ fuel ih =>
    intro index h j hj
    rw [Heap.heapifyUpLoop]
    by_cases h0 : index > 0
    · rw [if_pos h0]
      simp only
      by_cases h1 : h.distances ((index - 1) / 2) < h.distances index
      · rw [if_pos h1]
        have := ih ((index - 1) / 2) { h with
          indices := Heap.swap h.indices index ((index - 1) / 2)
          distances := Heap.swap h.distances index ((index - 1) / 2) } j (by omega)
        simp only at this
        rw [Heap.swap_ne _ _ _ _ (by omega) (by omega), Heap.swap_ne _ _ _ _ (by omega) (by omega)] at this
        exact this
      · rw [if_neg h1]; exact ⟨rfl, rfl⟩
    · rw [if_neg h0]; exact ⟨rfl, rfl⟩

theorem up_size (fuel : Nat) : ∀ (index : Nat) (h : MaxHeap K),
    (Heap.heapifyUpLoop fuel index h).size = h.size := by
  induction fuel with
  | zero => intro index h; rfl
  | succ fuel ih =>
    intro index h
    rw [Heap.heapifyUpLoop]
    split
    · simp only
      split
      · rw [ih]
      · rfl
    · rfl

theorem down_frame (fuel : Nat) : ∀ (index : Nat) (h : MaxHeap K) (j : Nat), index < h.size → h.size ≤ j →
    (Heap.heapifyDownLoop fuel index h).indices j = h.indices j ∧
    (Heap.heapifyDownLoop fuel index h).distances j = h.distances j ∧
    (Heap.heapifyDownLoop fuel index h).size = h.size := by
  induction fuel with
  | zero => intro index h j _ _; exact ⟨rfl, rfl, rfl⟩
  | succ fuel ih =>
    intro index h j hi hj
    rw [Heap.heapifyDownLoop]
    by_cases h1 : Heap.largestOf h index ≠ index
    · rw [if_pos h1]
      have hl : Heap.largestOf h index < h.size := by
        rcases (Heap.largest_cases h index).1 with h2 | h2 | h2
        · omega
        · exact h2.2
        · exact h2.2
      have := ih (Heap.largestOf h index) { h with
        distances := Heap.swap h.distances index (Heap.largestOf h index)
        indices := Heap.swap h.indices index (Heap.largestOf h index) } j hl hj
      simp only at this
      rw [Heap.swap_ne _ _ _ _ (by omega) (by omega), Heap.swap_ne _ _ _ _ (by omega) (by omega)] at this
      exact this
    · rw [if_neg h1]; exact ⟨rfl, rfl, rfl⟩

/-- Positions past the end of the heap are not touched. -/
theorem insert_frame {h : MaxHeap K} {i : Nat} {x : K} (hc : 0 < h.capacity) (j : Nat) (hj : (insert h i x).size ≤ j) :
    (insert h i x).indices j = h.indices j ∧ (insert h i x).distances j = h.distances j := by
  unfold Heap.insert at hj ⊢
  by_cases h1 : h.size < h.capacity
  · rw [if_pos h1] at hj ⊢
    simp only [Heap.heapifyUp] at hj ⊢
    rw [up_size] at hj
    simp only at hj
    have := up_frame h.size h.size { h with
      indices := Heap.put h.indices h.size i, distances := Heap.put h.distances h.size x } j (by omega)
    rw [this.1, this.2]
    simp only [Heap.put]
    rw [if_neg (by omega), if_neg (by omega)]
    exact ⟨rfl, rfl⟩
  · rw [if_neg h1] at hj ⊢
    by_cases h2 : x < h.distances 0
    · rw [if_pos h2] at hj ⊢
      simp only [Heap.heapifyDown] at hj ⊢
      have h3 := down_frame h.size 0 { h with
        indices := Heap.put h.indices 0 i, distances := Heap.put h.distances 0 x } j
      simp only at h3
      by_cases h4 : h.size ≤ j
      · obtain ⟨h5, h6, h7⟩ := h3 (by omega) h4
        rw [h5, h6]
        simp only [Heap.put]
        rw [if_neg (by omega), if_neg (by omega)]
        exact ⟨rfl, rfl⟩
      · have h8 := (down_frame h.size 0 { h with
          indices := Heap.put h.indices 0 i, distances := Heap.put h.distances 0 x } h.size (by simp only; omega)
          (by simp)).2.2
        simp only at h8
        rw [h8] at hj
        omega
    · rw [if_neg h2]; exact ⟨rfl, rfl⟩

/-- The scan as a function. -/
def scanL (top : K) (h : MaxHeap K) (l : List (Nat × K)) : MaxHeap K :=
  l.foldl (fun h p => if p.2 < getMaxDist top h then insert h p.1 p.2 else h) h

theorem scanL_append (top : K) (h : MaxHeap K) (l m : List (Nat × K)) :
    scanL top h (l ++ m) = scanL top (scanL top h l) m := by simp [scanL]

theorem scan_ok {top : K} {n : Nat} {ix : Nat → M Nat} {d : Nat → M K} {i : Nat → Nat} {x : Nat → K}
    (h : MaxHeap K) (hd : ∀ v < n, d v = .ok (x v)) (hi : ∀ v < n, ix v = .ok (i v)) :
    scan top n ix d h = .ok (scanL top h ((List.range n).map fun v => (i v, x v))) := by
  have key := forUp_inv n (fun v (r : MaxHeap K × K) => do
    let x ← d v
    if x < r.2 then do
      let i ← ix v
      let h := insert r.1 i x
      .ok (h, getMaxDist top h)
    else .ok r) (h, getMaxDist top h)
    (fun v r => r.1 = scanL top h ((List.range v).map fun v => (i v, x v)) ∧ r.2 = getMaxDist top r.1)
    ⟨rfl, rfl⟩ ?_
  · obtain ⟨r, h1, h2, _⟩ := key
    rw [scan, h1, ok_bind, h2]
  · intro v hv r ⟨h1, h2⟩
    rw [hd v hv, ok_bind]
    have e : scanL top h ((List.range (v + 1)).map fun v => (i v, x v)) =
        if x v < getMaxDist top r.1 then insert r.1 (i v) (x v) else r.1 := by
      rw [List.range_succ, List.map_append, scanL_append, ← h1]
      rfl
    by_cases hlt : x v < r.2
    · rw [if_pos hlt, hi v hv, ok_bind]
      refine ⟨_, rfl, ?_, rfl⟩
      rw [e, if_pos (h2 ▸ hlt)]
    · rw [if_neg hlt]
      refine ⟨r, rfl, ?_, h2⟩
      rw [e, if_neg (h2 ▸ hlt)]

/-- What a heap holds after the candidates `C`: the `k` best of those below `top`, and the initial contents
past its end. -/
structure Kept (top : K) (k : Nat) (ind : Nat → Nat) (dst : Nat → K) (C : List (Nat × K)) (h : MaxHeap K) : Prop where
  best : Best k (C.filter fun p => p.2 < top) h
  rest : ∀ j, h.size ≤ j → h.indices j = ind j ∧ h.distances j = dst j

theorem kept_create (top : K) (k : Nat) (ind : Nat → Nat) (dst : Nat → K) :
    Kept top k ind dst [] (create k ind dst) :=
  ⟨Heap.best_create k ind dst, fun _ _ => ⟨rfl, rfl⟩⟩

theorem insert_size_ge {h : MaxHeap K} {i : Nat} {x : K} : h.size ≤ (insert h i x).size := by
  unfold Heap.insert
  by_cases h1 : h.size < h.capacity
  · rw [if_pos h1]
    simp only [Heap.heapifyUp]
    rw [up_size]
    simp
  · rw [if_neg h1]
    by_cases h2 : x < h.distances 0
    · rw [if_pos h2]
      simp only [Heap.heapifyDown]
      rcases Nat.eq_zero_or_pos h.size with h3 | h3
      · rw [h3]; exact Nat.zero_le _
      · have := (down_frame h.size 0 { h with
          indices := Heap.put h.indices 0 i, distances := Heap.put h.distances 0 x } h.size h3 (by simp)).2.2
        rw [this]
    · rw [if_neg h2]

theorem kept_step {top : K} {k : Nat} {ind : Nat → Nat} {dst : Nat → K} {C : List (Nat × K)} {h : MaxHeap K}
    (hk : 0 < k) (b : Kept top k ind dst C h) (p : Nat × K) :
    Kept top k ind dst (C ++ [p]) (if p.2 < getMaxDist top h then insert h p.1 p.2 else h) := by
  have hcap := b.best.cap
  have hins : p.2 < top → Kept top k ind dst (C ++ [p]) (insert h p.1 p.2) := by
    intro hp
    refine ⟨?_, ?_⟩
    · rw [List.filter_append]
      have : [p].filter (fun p => decide (p.2 < top)) = [(p.1, p.2)] := by simp [hp]
      rw [this]
      exact (Heap.best_insert b.best hk p.1 p.2).1
    · intro j hj
      have h1 := insert_frame (h := h) (i := p.1) (x := p.2) (by omega) j hj
      have h2 := b.rest j (le_trans insert_size_ge hj)
      rw [h1.1, h1.2]
      exact h2
  have hskip : ¬ p.2 < top → Kept top k ind dst (C ++ [p]) h := by
    intro hp
    refine ⟨?_, b.rest⟩
    rw [List.filter_append]
    have : [p].filter (fun p => decide (p.2 < top)) = [] := by simpa using hp
    rw [this, List.append_nil]
    exact b.best
  by_cases hs : h.size < h.capacity
  · have e : getMaxDist top h = top := by rw [getMaxDist, if_pos hs]
    rw [e]
    by_cases hp : p.2 < top
    · rw [if_pos hp]; exact hins hp
    · rw [if_neg hp]; exact hskip hp
  · have e : getMaxDist top h = h.distances 0 := by rw [getMaxDist, if_neg hs]
    rw [e]
    have hsz : 0 < h.size := by omega
    have h0 : h.distances 0 < top := by
      obtain ⟨rest, h1, _⟩ := b.best.sel
      have : (h.indices 0, h.distances 0) ∈ cells h.size h := by
        unfold cells
        exact List.mem_map.2 ⟨0, List.mem_range.2 hsz, rfl⟩
      have := h1.mem_iff.1 (List.mem_append_left _ this)
      have := (List.mem_filter.1 this).2
      simpa using this
    by_cases hp : p.2 < h.distances 0
    · rw [if_pos hp]; exact hins (lt_trans hp h0)
    · rw [if_neg hp]
      by_cases ht : p.2 < top
      · refine ⟨?_, b.rest⟩
        rw [List.filter_append]
        have : [p].filter (fun p => decide (p.2 < top)) = [p] := by simp [ht]
        rw [this]
        refine Heap.best_skip b.best [p] fun _ => ⟨?_, ?_⟩
        · have := b.best.size
          omega
        · intro q hq
          rw [List.mem_singleton.1 hq]
          exact not_lt.1 hp
      · exact hskip ht

theorem kept_scan {top : K} {k : Nat} {ind : Nat → Nat} {dst : Nat → K} (hk : 0 < k) (l : List (Nat × K)) :
    ∀ (C : List (Nat × K)) (h : MaxHeap K), Kept top k ind dst C h → Kept top k ind dst (C ++ l) (scanL top h l) := by
  induction l with
  | nil => intro C h b; simpa [scanL] using b
  | cons p l ih =>
    intro C h b
    have := ih (C ++ [p]) _ (kept_step hk b p)
    rw [List.append_assoc] at this
    exact this

/-- The probes of a query: `nprobe` different centroids, none of the others nearer. -/
def IsProbes (nlist nprobe : Nat) (d : Nat → K) (S : List Nat) : Prop :=
  S.Nodup ∧ S.length = nprobe ∧ (∀ c ∈ S, c < nlist) ∧ ∀ c ∈ S, ∀ c' < nlist, c' ∉ S → d c ≤ d c'

theorem isProbes {top : K} {nlist nprobe : Nat} {d : Nat → K} {ind : Nat → Nat} {dst : Nat → K} (hp : 0 < nprobe)
    (hn : nprobe ≤ nlist) (hd : ∀ c < nlist, d c < top) :
    IsProbes nlist nprobe d ((List.range nprobe).map
      (scanL top (create nprobe ind dst) ((List.range nlist).map fun c => (c, d c))).indices) := by
  have hk := kept_scan hp ((List.range nlist).map fun c => (c, d c)) [] _ (kept_create top nprobe ind dst)
  obtain ⟨h, hh⟩ : ∃ h, h = scanL top (create nprobe ind dst) ((List.range nlist).map fun c => (c, d c)) := ⟨_, rfl⟩
  rw [← hh] at hk ⊢
  rw [List.nil_append] at hk
  have hf : ((List.range nlist).map fun c => (c, d c)).filter (fun p => decide (p.2 < top)) =
      (List.range nlist).map fun c => (c, d c) := by
    rw [List.filter_eq_self]
    intro p hp
    obtain ⟨c, hc, rfl⟩ := List.mem_map.1 hp
    simpa using hd c (List.mem_range.1 hc)
  have hb := hk.best
  rw [hf] at hb
  have hsz : h.size = nprobe := by
    have := hb.size
    simp at this
    omega
  obtain ⟨rest, h1, h2⟩ := hb.sel
  rw [hsz] at h1 h2
  have hfst : (cells nprobe h).map Prod.fst = (List.range nprobe).map h.indices := by
    simp [cells, Function.comp_def]
  have h3 : ((List.range nprobe).map h.indices ++ rest.map Prod.fst).Perm (List.range nlist) := by
    have := h1.map Prod.fst
    rw [List.map_append, hfst, List.map_map] at this
    simpa [Function.comp_def] using this
  have hnd : ((List.range nprobe).map h.indices ++ rest.map Prod.fst).Nodup := h3.nodup_iff.2 List.nodup_range
  refine ⟨(List.nodup_append.1 hnd).1, by simp, ?_, ?_⟩
  · intro c hc
    exact List.mem_range.1 (h3.mem_iff.1 (List.mem_append_left _ hc))
  · intro c hc c' hc' hnc
    have hval : ∀ p, p ∈ cells nprobe h ++ rest → p.2 = d p.1 := by
      intro p hp
      obtain ⟨c, _, rfl⟩ := List.mem_map.1 (h1.mem_iff.1 hp)
      rfl
    have hm' : c' ∈ rest.map Prod.fst := by
      rcases List.mem_append.1 (h3.mem_iff.2 (List.mem_range.2 hc')) with h | h
      · exact absurd h hnc
      · exact h
    rw [← hfst] at hc
    obtain ⟨p, hp, rfl⟩ := List.mem_map.1 hc
    obtain ⟨q, hq, rfl⟩ := List.mem_map.1 hm'
    rw [← hval p (List.mem_append_left _ hp), ← hval q (List.mem_append_right _ hq)]
    exact h2 p hp q hq

/-- A list sorted by its second components is what lies below a bound followed by the rest. -/
theorem sorted_split (t : K) (l : List (Nat × K)) (h : l.Pairwise fun a b => a.2 ≤ b.2) :
    l = l.filter (fun p => p.2 < t) ++ l.filter (fun p => ¬ p.2 < t) := by
  induction l with
  | nil => rfl
  | cons p l ih =>
    rw [List.pairwise_cons] at h
    have ih := ih h.2
    by_cases hp : p.2 < t
    · rw [List.filter_cons_of_pos (by simpa using hp), List.filter_cons_of_neg (by simpa using hp),
        List.cons_append, ← ih]
    · have hz : ∀ q ∈ p :: l, ¬ q.2 < t := by
        intro q hq
        rcases List.mem_cons.1 hq with h1 | h1
        · rw [h1]; exact hp
        · exact not_lt.2 (le_trans (not_lt.1 hp) (h.1 q h1))
      have e1 : (p :: l).filter (fun p => decide (p.2 < t)) = [] := by
        rw [List.filter_eq_nil_iff]
        intro q hq
        simpa using hz q hq
      have e2 : (p :: l).filter (fun p => decide (¬ p.2 < t)) = p :: l := by
        rw [List.filter_eq_self]
        intro q hq
        simpa using hz q hq
      rw [e1, e2, List.nil_append]

/-- The result of a query with the candidates `C` (index plus one, distance): the `k` nearest of them in
ascending order, or all of them and then -1 with an infinite distance. -/
def Answer (k : Nat) (inf : K) (C : List (Nat × K)) (row : List (Nat × K)) : Prop :=
  ∃ kept rest, (kept ++ rest).Perm C ∧ (∀ p ∈ kept, ∀ q ∈ rest, p.2 ≤ q.2) ∧ kept.length = min k C.length ∧
    kept.Pairwise (fun p q => p.2 ≤ q.2) ∧ row = kept ++ List.replicate (k - kept.length) (0, inf)

theorem sorted_answer {top inf : K} {k : Nat} {C : List (Nat × K)} {h : MaxHeap K} (hti : top ≤ inf)
    (hk : Kept top k (fun _ => 0) (fun _ => inf) C h) :
    Answer k inf (C.filter fun p => p.2 < top)
      (((List.range k).insertionSort fun i j => h.distances i ≤ h.distances j).map
        fun p => (h.indices p, h.distances p)) := by
  obtain ⟨rest, h1, h2⟩ := hk.best.sel
  have hsz := hk.best.size
  have hlow : ∀ p ∈ cells h.size h, p.2 < top := by
    intro p hp
    have := (List.mem_filter.1 (h1.mem_iff.1 (List.mem_append_left _ hp))).2
    simpa using this
  obtain ⟨perm, hperm⟩ : ∃ perm, perm = (List.range k).insertionSort fun i j => h.distances i ≤ h.distances j := ⟨_, rfl⟩
  rw [← hperm]
  have hs : (perm.map fun p => (h.indices p, h.distances p)).Pairwise fun a b => a.2 ≤ b.2 := by
    rw [List.pairwise_map, hperm]
    exact List.pairwise_insertionSort (fun i j => h.distances i ≤ h.distances j) _
  have hcells : cells k h = cells h.size h ++ List.replicate (k - h.size) (0, inf) := by
    have e : k = h.size + (k - h.size) := by omega
    unfold cells
    conv_lhs => rw [e, List.range_add, List.map_append, List.map_map]
    congr 1
    rw [List.eq_replicate_iff]
    refine ⟨by simp, ?_⟩
    intro b hb
    obtain ⟨j, _, rfl⟩ := List.mem_map.1 hb
    simp only [Function.comp]
    have := hk.rest (h.size + j) (by omega)
    rw [this.1, this.2]
  have hp : (perm.map fun p => (h.indices p, h.distances p)).Perm
      (cells h.size h ++ List.replicate (k - h.size) (0, inf)) := by
    rw [← hcells, hperm]
    exact (List.perm_insertionSort _ _).map _
  have f1 : (cells h.size h ++ List.replicate (k - h.size) ((0 : Nat), inf)).filter (fun p => decide (p.2 < top)) =
      cells h.size h := by
    rw [List.filter_append, List.filter_eq_self.2 (fun p hp => by simpa using hlow p hp), List.filter_eq_nil_iff.2,
      List.append_nil]
    intro p hp
    rw [(List.mem_replicate.1 hp).2]
    simpa using hti
  have f2 : (cells h.size h ++ List.replicate (k - h.size) ((0 : Nat), inf)).filter (fun p => decide (¬ p.2 < top)) =
      List.replicate (k - h.size) (0, inf) := by
    rw [List.filter_append, List.filter_eq_nil_iff.2 (fun p hp => by simpa using hlow p hp), List.nil_append,
      List.filter_eq_self]
    intro p hp
    rw [(List.mem_replicate.1 hp).2]
    simpa using hti
  have g1 := hp.filter fun p => decide (p.2 < top)
  have g2 := hp.filter fun p => decide (¬ p.2 < top)
  rw [f1] at g1
  rw [f2, List.perm_replicate] at g2
  have hsplit := sorted_split top _ hs
  refine ⟨_, rest, (g1.append_right rest).trans h1, ?_, ?_, hs.filter _, ?_⟩
  · intro p hp q hq
    exact h2 p (g1.mem_iff.1 hp) q hq
  · rw [g1.length_eq]
    simp [cells, hsz]
  · rw [g1.length_eq]
    conv_lhs => rw [hsplit]
    rw [g2]
    simp [cells]

end Verif.ApproxNn
