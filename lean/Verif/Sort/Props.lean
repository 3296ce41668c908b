import Verif.Sort.Bucket
import Mathlib.Data.List.GetD

/-!
# C25, C49: the index sorts and the counting of a bootstrap sample
-/

namespace Verif.Sort

/-- `s'` is `s` sorted on the `n` positions from `lo`: the same (index, value) pairs there, in
non-decreasing order of the values, everything else unchanged, and no access outside the vectors. -/
structure SortedFrom {α} (lt : α → α → Bool) (lo n : Nat) (s s' : St α) : Prop where
  same : ((List.range' lo n).map fun i => (s'.idx i, s'.val i)).Perm
    ((List.range' lo n).map fun i => (s.idx i, s.val i))
  sorted : ∀ i j, lo ≤ i → i ≤ j → j < lo + n → lt (s'.val j) (s'.val i) = false
  outside : ∀ i, i < lo ∨ lo + n ≤ i → s'.idx i = s.idx i ∧ s'.val i = s.val i
  inside : lo + n ≤ s.size → s'.bad = s.bad

theorem Rearr.out {α} {lo n : Nat} {s s' : St α} (h : Rearr lo (lo + n) s s') :
    ∀ i, i < lo ∨ lo + n ≤ i → s'.idx i = s.idx i ∧ s'.val i = s.val i := by
  obtain ⟨σ, f, hi, hv, _, _⟩ := h
  intro i h
  rw [hi, hv, f i (by omega)]
  exact ⟨rfl, rfl⟩

theorem Rearr.bad {α} {lo hi : Nat} {s s' : St α} (h : Rearr lo hi s s') (hs : hi ≤ s.size) :
    s'.bad = s.bad := by
  obtain ⟨σ, _, _, _, _, hb⟩ := h
  exact hb hs

/-- C25 for `multi_range_heap_sort`. -/
theorem C25_heapSort {α} (lt : α → α → Bool)
    (irrefl : ∀ a, lt a a = false)
    (asymm : ∀ a b, lt a b = true → lt b a = false)
    (trans : ∀ a b c, lt a b = false → lt b c = false → lt a c = false)
    (start n : Nat) (s : St α) : SortedFrom lt start n s (heapSort lt start n s) :=
  have ho : Ordered lt := ⟨irrefl, trans, asymm⟩
  have hR := heapSort_rearr lt start n s
  ⟨hR.pairs, heapSort_sorted ho start n s, hR.out, hR.bad⟩

/-- C25 for `multi_range_intro_sort`, with any depth limit: the call ends (any `fuel` above the number
of entries suffices, and all give the same result) with the range sorted. -/
theorem C25_introSort {α} (lt : α → α → Bool)
    (irrefl : ∀ a, lt a a = false)
    (asymm : ∀ a b, lt a b = true → lt b a = false)
    (trans : ∀ a b c, lt a b = false → lt b c = false → lt a c = false)
    (start n : Nat) (maxDepth : Int) (s : St α) :
    ∃ s', (∀ fuel, n < fuel → introSort lt fuel true start n maxDepth s = some s') ∧
      SortedFrom lt start n s s' := by
  obtain ⟨s', h1, hR, hS⟩ := introSort_run lt irrefl (n + 1) true start n maxDepth s (by omega)
  refine ⟨s', fun fuel hf => ?_, hR.pairs, hS ⟨irrefl, trans, asymm⟩, hR.out, hR.bad⟩
  obtain ⟨d, rfl⟩ : ∃ d, fuel = n + 1 + d := ⟨fuel - (n + 1), by omega⟩
  clear hf
  induction d with
  | zero => exact h1
  | succ d ih => exact introSort_mono lt _ _ _ _ _ _ _ ih

/-- Even when the values are not ordered by `<` (NaN among them), the introsort ends, inside the
vectors, with a rearrangement of the range. -/
theorem C25_introSort_nan {α} (lt : α → α → Bool) (irrefl : ∀ a, lt a a = false)
    (start n : Nat) (maxDepth : Int) (s : St α) :
    ∃ s', introSort lt (n + 1) true start n maxDepth s = some s' ∧
      ((List.range' start n).map fun i => (s'.idx i, s'.val i)).Perm
        ((List.range' start n).map fun i => (s.idx i, s.val i)) ∧
      (∀ i, i < start ∨ start + n ≤ i → s'.idx i = s.idx i ∧ s'.val i = s.val i) ∧
      (start + n ≤ s.size → s'.bad = s.bad) := by
  obtain ⟨s', h1, hR, _⟩ := introSort_run lt irrefl (n + 1) true start n maxDepth s (by omega)
  exact ⟨s', h1, hR.pairs, hR.out, hR.bad⟩

/-- C25 for `bucket_sort_samples`: values that are categories `0 .. n_cat - 1`, with bucket arrays of
at least `n_cat` rows of `ldbuck ≥ n_elem` cells. -/
theorem C25_bucketSort {α} (lt : α → α → Bool) (rnd : α → Int) (ofCat : Nat → α)
    (ncat start n ld : Nat) (b : Buckets) (s : St α)
    (hlt : ∀ c d, c < ncat → d < ncat → (lt (ofCat c) (ofCat d) = true ↔ c < d))
    (hrnd : ∀ c, c < ncat → rnd (ofCat c) = (c : Int))
    (hval : ∀ i, start ≤ i → i < start + n → ∃ c, c < ncat ∧ s.val i = ofCat c)
    (hsize : start + n ≤ s.size) (hld : n ≤ ld) (hb : ncat * ld ≤ b.size) :
    SortedFrom lt start n s (bucketSort rnd ofCat ncat start n ld b s) := by
  have hv : ∀ i, start ≤ i → i < start + n → 0 ≤ rnd (s.val i) ∧ rnd (s.val i) < ncat := by
    intro i h1 h2
    obtain ⟨c, hc, e⟩ := hval i h1 h2
    rw [e, hrnd c hc]; omega
  obtain ⟨h1, h2, h3, h4⟩ := bucketSort_spec rnd ofCat ncat start n ld b s hsize hld hb hv
  generalize bucketSort rnd ofCat ncat start n ld b s = s' at *
  have hcat : ∀ c, c < ncat → ∀ i ∈ (List.range' start n).filter fun i => rnd (s.val i) = (c : Int),
      s.val i = ofCat c := by
    intro c hc i hi
    rw [List.mem_filter, List.mem_range'_1] at hi
    obtain ⟨d, hd, e⟩ := hval i hi.1.1 hi.1.2
    have := of_decide_eq_true hi.2
    rw [e, hrnd d hd] at this
    rw [e, Int.natCast_inj.1 this]
  have hb2 : bucketed rnd ofCat ncat start n s =
      ((List.range ncat).flatMap fun (c : Nat) =>
        (List.range' start n).filter fun i => rnd (s.val i) = (c : Int)).map
          fun i => (s.idx i, s.val i) := by
    unfold bucketed
    rw [List.map_flatMap]
    unfold List.flatMap
    congr 1
    apply List.map_congr_left
    intro c hc
    rw [List.map_map]
    apply List.map_congr_left
    intro i hi
    rw [hcat c (List.mem_range.1 hc) i hi]; rfl
  have hperm := flatMap_filter_perm (fun i => rnd (s.val i)) ncat (List.range' start n)
    (fun i hi => by
      rw [List.mem_range'_1] at hi
      exact hv i hi.1 hi.2)
  refine ⟨?_, ?_, fun i hi => h3 i (by omega), fun _ => h2⟩
  · show (pairs s' start n).Perm _
    rw [h4, hb2]
    exact hperm.map _
  · -- the categories come in increasing order
    have hp : (pairs s' start n).Pairwise fun x y => lt y.2 x.2 = false := by
      rw [h4]
      unfold bucketed
      rw [List.pairwise_flatMap]
      refine ⟨fun c hc => ?_, ?_⟩
      · rw [List.pairwise_map]
        refine List.pairwise_of_forall fun _ _ => ?_
        have hc := List.mem_range.1 hc
        exact Bool.eq_false_iff.2 fun h => absurd ((hlt c c hc hc).1 h) (Nat.lt_irrefl _)
      · refine List.Pairwise.imp_of_mem ?_ (List.pairwise_lt_range (n := ncat))
        intro c d hc hd hcd x hx y hy
        obtain ⟨_, _, rfl⟩ := List.mem_map.1 hx
        obtain ⟨_, _, rfl⟩ := List.mem_map.1 hy
        have hc := List.mem_range.1 hc
        have hd := List.mem_range.1 hd
        exact Bool.eq_false_iff.2 fun h => absurd ((hlt d c hd hc).1 h) (by omega)
    intro i j hi hij hj
    rcases Nat.eq_or_lt_of_le hij with e | hlt'
    · subst e
      obtain ⟨c, hc, e⟩ : ∃ c, c < ncat ∧ s'.val i = ofCat c := by
        have hm : (s'.idx i, s'.val i) ∈ bucketed rnd ofCat ncat start n s := by
          rw [← h4]
          exact List.mem_map.2 ⟨i, List.mem_range'_1.2 ⟨hi, hj⟩, rfl⟩
        unfold bucketed at hm
        obtain ⟨c, hc, hm⟩ := List.mem_flatMap.1 hm
        obtain ⟨_, _, e⟩ := List.mem_map.1 hm
        exact ⟨c, List.mem_range.1 hc, (congrArg Prod.snd e).symm⟩
      rw [e]
      exact Bool.eq_false_iff.2 fun h => absurd ((hlt c c hc hc).1 h) (Nat.lt_irrefl _)
    · have := List.pairwise_iff_getElem.1 hp (i - start) (j - start)
        (by simp [pairs]; omega) (by simp [pairs]; omega) (by omega)
      simp only [pairs, List.getElem_map, List.getElem_range', Nat.one_mul] at this
      rwa [show start + (i - start) = i by omega, show start + (j - start) = j by omega] at this

/-! ### Examples -/

/-- A state holding a list of values at position 0, with indices 100, 101, … -/
def ofList (l : List Nat) : St Nat :=
  { idx := fun i => 100 + i, val := fun i => l.getD i 0, size := l.length, bad := false }

def natLt (a b : Nat) : Bool := decide (a < b)

def show' (s : St Nat) : List (Int × Nat) × Bool :=
  ((List.range s.size).map fun i => (s.idx i, s.val i), s.bad)

-- the range 1 .. 5 of seven entries, with ties
example : show' (heapSort natLt 1 5 (ofList [9, 3, 1, 3, 2, 1, 0])) =
    ([(100, 9), (102, 1), (105, 1), (104, 2), (103, 3), (101, 3), (106, 0)], false) := by
  decide_cbv

example : (introSort natLt 6 true 1 5 4 (ofList [9, 3, 1, 3, 2, 1, 0])).map show' =
    some ([(100, 9), (102, 1), (105, 1), (104, 2), (101, 3), (103, 3), (106, 0)], false) := by
  decide_cbv

-- the hypotheses hold for the order of the natural numbers
example : ∃ s', (∀ fuel, 5 < fuel →
      introSort natLt fuel true 1 5 4 (ofList [9, 3, 1, 3, 2, 1, 0]) = some s') ∧
    SortedFrom natLt 1 5 (ofList [9, 3, 1, 3, 2, 1, 0]) s' :=
  C25_introSort natLt (by simp [natLt]) (by simp [natLt]; omega) (by simp [natLt]; omega) 1 5 4 _

/-- Values with a NaN (`none`). -/
def nanLt : Option Nat → Option Nat → Bool
  | some a, some b => decide (a < b)
  | _, _ => false

/-- With a NaN in the middle the other values need not come out in order. -/
theorem C25_nan_unsorted :
    ((introSort nanLt 4 true 0 3 3
      { idx := fun i => i, val := fun i => [some 2, none, some 1].getD i none, size := 3, bad := false }).map
        fun s => (List.range 3).map s.val) = some [some 2, none, some 1] := by
  decide_cbv

example : show' (bucketSort (fun v : Nat => (v : Int)) id 3 1 5 5
      { cells := fun _ => 0, size := 15, cnt := fun _ => 7 } (ofList [9, 2, 0, 2, 1, 0, 7])) =
    ([(100, 9), (102, 0), (105, 0), (104, 1), (101, 2), (103, 2), (106, 7)], false) := by
  decide_cbv

-- a value that is not a category is written outside the buckets
example : (bucketSort (fun v : Nat => (v : Int)) id 3 1 5 5
      { cells := fun _ => 0, size := 15, cnt := fun _ => 7 } (ofList [9, 2, 0, 3, 1, 0, 7])).bad = true := by
  decide_cbv

/-! ## C49 -/

/-- C49: after `compress_count_occurences` the indices of a bootstrap sample are listed once each in
increasing order, and `count` holds how often each was drawn; nothing outside `count` is written when
the indices are below its size.  `sort` is any function that sorts. -/
theorem C49_counts (sort : List Nat → List Nat)
    (hsort : ∀ l, (sort l).Perm l ∧ (sort l).Pairwise (· ≤ ·)) (l : List Nat) (csize : Nat) :
    let r := compress sort l csize
    let out := (List.range r.2).map r.1.idx
    r.2 ≤ l.length ∧ out.Pairwise (· < ·) ∧ (∀ v, v ∈ out ↔ v ∈ l) ∧
    (∀ v, r.1.cnt v = l.count v) ∧ ((∀ v ∈ l, v < csize) → r.1.bad = false) := by
  intro r out
  obtain ⟨hp, hs⟩ := hsort l
  have hmono : ∀ i j, i ≤ j → j < (sort l).length → (sort l).getD i 0 ≤ (sort l).getD j 0 := by
    intro i j h1 h2
    rcases Nat.eq_or_lt_of_le h1 with e | h1
    · rw [e]
    · have := List.pairwise_iff_getElem.1 hs i j (by omega) h2 h1
      rw [List.getD_eq_getElem _ _ (by omega), List.getD_eq_getElem _ _ h2]
      exact this
  obtain ⟨h1, h2, h3, h4, h5⟩ := compressLoop_spec (fun i => (sort l).getD i 0) (sort l).length hmono
    0 0 { idx := fun i => (sort l).getD i 0, cnt := fun _ => 0, csize := csize, bad := false }
    (Nat.le_refl _) (Nat.zero_le _) (fun _ _ _ => rfl) (fun i j _ h => absurd h (Nat.not_lt_zero _))
    (fun v => by constructor <;> rintro ⟨i, h, _⟩ <;> omega) (fun v => by simp [occ])
    (fun i h _ => absurd h (Nat.not_lt_zero _)) (fun _ => rfl)
  have hm : ∀ v, (∃ i, i < (sort l).length ∧ (sort l).getD i 0 = v) ↔ v ∈ l := by
    intro v
    rw [← hp.mem_iff, List.mem_iff_getElem]
    constructor
    · rintro ⟨i, h, e⟩
      rw [List.getD_eq_getElem _ _ h] at e
      exact ⟨i, h, e⟩
    · rintro ⟨i, h, e⟩
      exact ⟨i, h, by rw [List.getD_eq_getElem _ _ h]; exact e⟩
  refine ⟨by rw [← hp.length_eq]; exact h1, ?_, ?_, ?_, ?_⟩
  · rw [List.pairwise_map]
    refine List.Pairwise.imp_of_mem ?_ (List.pairwise_lt_range (n := r.2))
    intro i j _ hj hij
    exact h2 i j hij (List.mem_range.1 hj)
  · intro v
    rw [← hm v, ← h3 v]
    simp only [out, List.mem_map, List.mem_range]
    exact Iff.rfl
  · intro v
    rw [← hp.count_eq v]
    refine (h4 v).trans ?_
    unfold occ
    have : (List.range (sort l).length).map (fun i => (sort l).getD i 0) = sort l := by
      apply List.ext_getElem
      · simp
      · intro i a b
        simp [List.getElem?_eq_getElem b]
    conv_rhs => rw [← this]
    rw [List.count, List.countP_map]
    congr 1
  · intro hc
    refine h5 fun i hi => hc _ ((hm _).1 ⟨i, hi, rfl⟩)

-- the sample 3, 1, 3, 0, 3 of five rows
example : let r := compress (fun _ => [0, 1, 3, 3, 3]) [3, 1, 3, 0, 3] 5
    (List.range r.2).map r.1.idx = [0, 1, 3] ∧ (List.range 5).map r.1.cnt = [1, 1, 0, 3, 0] ∧
      r.1.bad = false := by
  decide_cbv

end Verif.Sort
