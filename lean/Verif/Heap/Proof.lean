/-
The heap order and the contents of the bounded heap.
-/
import Verif.Heap.Model
import Mathlib.Order.Defs.LinearOrder
import Mathlib.Order.Basic
import Mathlib.Data.List.Perm.Basic
import Mathlib.Logic.Equiv.Basic
import Mathlib.Data.List.Nodup
namespace Verif.Heap

theorem swap_apply {V : Type} (f : Nat → V) (i j t : Nat) :
    swap f i j t = f (Equiv.swap i j t) := by
  unfold swap put
  rw [Equiv.swap_apply_def]
  split
  · next h => subst h; by_cases h2 : t = i
              · subst h2; simp
              · simp [h2]
  · next h => by_cases h2 : t = i
              · subst h2; simp
              · simp [h2]

/-- The first `n` cells of the two arrays. -/
def cells {K : Type} (n : Nat) (h : MaxHeap K) : List (Nat × K) :=
  (List.range n).map fun i => (h.indices i, h.distances i)

theorem map_swap_perm {V : Type} (n i j : Nat) (hi : i < n) (hj : j < n) (u : Nat → V) :
    ((List.range n).map fun t => u (Equiv.swap i j t)).Perm ((List.range n).map u) := by
  have h1 : ((List.range n).map fun t => u (Equiv.swap i j t)) = ((List.range n).map (Equiv.swap i j)).map u := by
    rw [List.map_map]; rfl
  rw [h1]
  apply List.Perm.map
  rw [List.perm_ext_iff_of_nodup
    (List.Nodup.map (Equiv.injective _) List.nodup_range) List.nodup_range]
  intro a
  simp only [List.mem_map, List.mem_range]
  have key : ∀ x, x < n → Equiv.swap i j x < n := by
    intro x hx
    rw [Equiv.swap_apply_def]
    split
    · exact hj
    · split
      · exact hi
      · exact hx
  constructor
  · rintro ⟨x, hx, rfl⟩; exact key x hx
  · intro ha
    exact ⟨Equiv.swap i j a, key a ha, by simp⟩

theorem cells_swap {K : Type} (n i j : Nat) (hi : i < n) (hj : j < n) (h : MaxHeap K) (c s : Nat) :
    (cells n ⟨swap h.indices i j, swap h.distances i j, c, s⟩).Perm (cells n h) := by
  unfold cells
  simp only [swap_apply]
  exact map_swap_perm n i j hi hj (fun t => (h.indices t, h.distances t))

section
variable {K : Type} [LinearOrder K]

/-- The heap order on the first `n` cells. -/
def Ordered (n : Nat) (d : Nat → K) : Prop := ∀ j, 0 < j → j < n → d j ≤ d ((j - 1) / 2)

theorem ordered_root {n : Nat} {d : Nat → K} (h : Ordered n d) : ∀ j, j < n → d j ≤ d 0 := by
  intro j
  induction j using Nat.strongRecOn with
  | ind j ih =>
    intro hj
    rcases Nat.eq_zero_or_pos j with h0 | h0
    · subst h0; exact le_refl _
    · exact le_trans (h j h0 hj) (ih ((j - 1) / 2) (by omega) (by omega))

theorem swap_left {V : Type} (f : Nat → V) (i j : Nat) : swap f i j i = f j := by rw [swap_apply]; simp
theorem swap_right {V : Type} (f : Nat → V) (i j : Nat) : swap f i j j = f i := by rw [swap_apply]; simp
theorem swap_ne {V : Type} (f : Nat → V) (i j t : Nat) (h1 : t ≠ i) (h2 : t ≠ j) : swap f i j t = f t := by
  rw [swap_apply, Equiv.swap_apply_of_ne_of_ne h1 h2]

theorem up_spec (n : Nat) : ∀ (fuel index : Nat) (h : MaxHeap K), index ≤ fuel → index < n →
    (∀ j, 0 < j → j < n → j ≠ index → h.distances j ≤ h.distances ((j - 1) / 2)) →
    (∀ j, 0 < j → j < n → (j - 1) / 2 = index → 0 < index → h.distances j ≤ h.distances ((index - 1) / 2)) →
    let r := heapifyUpLoop fuel index h
    Ordered n r.distances ∧ (cells n r).Perm (cells n h) ∧ r.capacity = h.capacity ∧ r.size = h.size ∧
      ∀ j, n ≤ j → r.indices j = h.indices j ∧ r.distances j = h.distances j := by
  intro fuel
  induction fuel with
  | zero =>
    intro index h hf hi h1 h2
    refine ⟨?_, List.Perm.refl _, by trivial, by trivial, fun _ _ => ⟨by trivial, by trivial⟩⟩
    intro j hj hjn
    exact h1 j hj hjn (by omega)
  | succ fuel ih =>
    intro index h hf hi h1 h2
    unfold heapifyUpLoop
    by_cases hpos : index > 0
    · rw [if_pos hpos]
      by_cases hlt : h.distances ((index - 1) / 2) < h.distances index
      · simp only [if_pos hlt]
        have hp : (index - 1) / 2 < n := by omega
        have := ih ((index - 1) / 2)
          { h with indices := swap h.indices index ((index - 1) / 2), distances := swap h.distances index ((index - 1) / 2) }
          (by omega) hp ?_ ?_
        · obtain ⟨a, b, c, d, e⟩ := this
          refine ⟨a, b.trans (cells_swap n _ _ hi hp h _ _), c, d, ?_⟩
          intro j hj
          rw [(e j hj).1, (e j hj).2]
          exact ⟨swap_ne _ _ _ _ (by omega) (by omega), swap_ne _ _ _ _ (by omega) (by omega)⟩
        · intro j hj hjn hjp
          show swap h.distances index ((index - 1) / 2) j ≤ swap h.distances index ((index - 1) / 2) ((j - 1) / 2)
          by_cases hji : j = index
          · subst hji
            rw [swap_left, swap_right]; exact le_of_lt hlt
          · rw [swap_ne _ _ _ _ hji hjp]
            by_cases hpi : (j - 1) / 2 = index
            · rw [hpi, swap_left]; exact h2 j hj hjn hpi hpos
            · by_cases hpp : (j - 1) / 2 = (index - 1) / 2
              · rw [hpp, swap_right]
                have := h1 j hj hjn hji
                rw [hpp] at this
                exact le_trans this (le_of_lt hlt)
              · rw [swap_ne _ _ _ _ hpi hpp]; exact h1 j hj hjn hji
        · intro j hj hjn hjp h0
          show swap h.distances index ((index - 1) / 2) j ≤ swap h.distances index ((index - 1) / 2) (((index - 1) / 2 - 1) / 2)
          have hg : h.distances ((index - 1) / 2) ≤ h.distances (((index - 1) / 2 - 1) / 2) :=
            h1 ((index - 1) / 2) h0 (by omega) (by omega)
          rw [swap_ne _ _ _ (((index - 1) / 2 - 1) / 2) (by omega) (by omega)]
          by_cases hji : j = index
          · subst hji; rw [swap_left]; exact hg
          · rw [swap_ne _ _ _ _ hji (by omega)]
            have := h1 j hj hjn hji
            rw [hjp] at this
            exact le_trans this hg
      · simp only [if_neg hlt]
        refine ⟨?_, List.Perm.refl _, by trivial, by trivial, fun _ _ => ⟨by trivial, by trivial⟩⟩
        intro j hj hjn
        by_cases hji : j = index
        · subst hji; exact le_of_not_gt hlt
        · exact h1 j hj hjn hji
    · rw [if_neg hpos]
      refine ⟨?_, List.Perm.refl _, by trivial, by trivial, fun _ _ => ⟨by trivial, by trivial⟩⟩
      intro j hj hjn
      exact h1 j hj hjn (by omega)

theorem largest_cases (h : MaxHeap K) (i : Nat) :
    let l := largestOf h i
    (l = i ∨ (l = 2 * i + 1 ∧ l < h.size) ∨ (l = 2 * i + 2 ∧ l < h.size)) ∧
    h.distances i ≤ h.distances l ∧
    (2 * i + 1 < h.size → h.distances (2 * i + 1) ≤ h.distances l) ∧
    (2 * i + 2 < h.size → h.distances (2 * i + 2) ≤ h.distances l) := by
  unfold largestOf
  by_cases c1 : 2 * i + 1 < h.size ∧ h.distances i < h.distances (2 * i + 1)
  · simp only [if_pos c1]
    by_cases c2 : 2 * i + 2 < h.size ∧ h.distances (2 * i + 1) < h.distances (2 * i + 2)
    · simp only [if_pos c2]
      exact ⟨Or.inr (Or.inr ⟨by trivial, c2.1⟩), le_of_lt (lt_trans c1.2 c2.2), fun _ => le_of_lt c2.2, fun _ => le_refl _⟩
    · simp only [if_neg c2]
      exact ⟨Or.inr (Or.inl ⟨by trivial, c1.1⟩), le_of_lt c1.2, fun _ => le_refl _,
        fun h2 => le_of_not_gt fun h3 => c2 ⟨h2, h3⟩⟩
  · simp only [if_neg c1]
    by_cases c2 : 2 * i + 2 < h.size ∧ h.distances i < h.distances (2 * i + 2)
    · simp only [if_pos c2]
      refine ⟨Or.inr (Or.inr ⟨by trivial, c2.1⟩), le_of_lt c2.2, fun h2 => ?_, fun _ => le_refl _⟩
      exact le_trans (le_of_not_gt fun h3 => c1 ⟨h2, h3⟩) (le_of_lt c2.2)
    · simp only [if_neg c2]
      exact ⟨Or.inl (by trivial), le_refl _, fun h2 => le_of_not_gt fun h3 => c1 ⟨h2, h3⟩,
        fun h2 => le_of_not_gt fun h3 => c2 ⟨h2, h3⟩⟩

theorem down_spec : ∀ (fuel index : Nat) (h : MaxHeap K), h.size - index ≤ fuel → index < h.size →
    (∀ j, 0 < j → j < h.size → (j - 1) / 2 ≠ index → h.distances j ≤ h.distances ((j - 1) / 2)) →
    (∀ j, 0 < j → j < h.size → (j - 1) / 2 = index → 0 < index → h.distances j ≤ h.distances ((index - 1) / 2)) →
    let r := heapifyDownLoop fuel index h
    Ordered h.size r.distances ∧ (cells h.size r).Perm (cells h.size h) ∧ r.capacity = h.capacity ∧
      r.size = h.size ∧ ∀ j, h.size ≤ j → r.indices j = h.indices j ∧ r.distances j = h.distances j := by
  intro fuel
  induction fuel with
  | zero => intro index h hf hi; omega
  | succ fuel ih =>
    intro index h hf hi h1 h2
    unfold heapifyDownLoop
    obtain ⟨lc, l0, l1, l2⟩ := largest_cases h index
    generalize largestOf h index = l at *
    by_cases hl : l ≠ index
    · simp only [if_pos hl]
      have hln : l < h.size := by omega
      have hpl : (l - 1) / 2 = index := by omega
      have := ih l { h with distances := swap h.distances index l, indices := swap h.indices index l }
        (by show h.size - l ≤ fuel; omega) hln ?_ ?_
      · obtain ⟨a, b, c, d, e⟩ := this
        refine ⟨a, b.trans (cells_swap h.size _ _ hi hln h _ _), c, d, ?_⟩
        intro j hj
        rw [(e j hj).1, (e j hj).2]
        exact ⟨swap_ne _ _ _ _ (by omega) (by omega), swap_ne _ _ _ _ (by omega) (by omega)⟩
      · intro j hj hjn hjp
        replace hjn : j < h.size := hjn
        show swap h.distances index l j ≤ swap h.distances index l ((j - 1) / 2)
        by_cases hpi : (j - 1) / 2 = index
        · rw [hpi, swap_left]
          by_cases hjl : j = l
          · subst hjl; rw [swap_right]; exact l0
          · rw [swap_ne _ _ _ _ (by omega) hjl]
            rcases (by omega : j = 2 * index + 1 ∨ j = 2 * index + 2) with e | e
            · subst e; exact l1 hjn
            · subst e; exact l2 hjn
        · rw [swap_ne _ _ _ ((j - 1) / 2) hpi hjp]
          by_cases hji : j = index
          · subst hji
            rw [swap_left]
            exact h2 l (by omega) hln hpl hj
          · rw [swap_ne _ _ _ _ hji (by rintro rfl; exact hpi hpl)]
            exact h1 j hj hjn hpi
      · intro j hj hjn hjp h0
        replace hjn : j < h.size := hjn
        show swap h.distances index l j ≤ swap h.distances index l ((l - 1) / 2)
        rw [hpl, swap_left, swap_ne _ _ _ _ (by omega) (by omega)]
        have := h1 j hj hjn (by omega)
        rw [hjp] at this
        exact this
    · simp only [if_neg hl]
      have hl : l = index := by omega
      subst hl
      refine ⟨?_, List.Perm.refl _, by trivial, by trivial, fun _ _ => ⟨by trivial, by trivial⟩⟩
      intro j hj hjn
      by_cases hpi : (j - 1) / 2 = l
      · rw [hpi]
        rcases (by omega : j = 2 * l + 1 ∨ j = 2 * l + 2) with e | e
        · subst e; exact l1 hjn
        · subst e; exact l2 hjn
      · exact h1 j hj hjn hpi

omit [LinearOrder K] in
theorem cells_succ (n : Nat) (h : MaxHeap K) : cells (n + 1) h = cells n h ++ [(h.indices n, h.distances n)] := by
  simp [cells, List.range_succ]

omit [LinearOrder K] in
theorem cells_congr (n : Nat) (h g : MaxHeap K)
    (e : ∀ j, j < n → h.indices j = g.indices j ∧ h.distances j = g.distances j) : cells n h = cells n g := by
  unfold cells
  apply List.map_congr_left
  intro j hj
  rw [(e j (List.mem_range.1 hj)).1, (e j (List.mem_range.1 hj)).2]

omit [LinearOrder K] in
theorem cells_head (n : Nat) (h : MaxHeap K) :
    cells (n + 1) h = (h.indices 0, h.distances 0) :: (List.range n).map fun i => (h.indices (i + 1), h.distances (i + 1)) := by
  simp [cells, List.range_succ_eq_map, Function.comp_def]

omit [LinearOrder K] in
theorem mem_cells {n : Nat} {h : MaxHeap K} {p : Nat × K} (hp : p ∈ cells n h) :
    ∃ j, j < n ∧ p = (h.indices j, h.distances j) := by
  unfold cells at hp
  obtain ⟨j, hj, e⟩ := List.mem_map.1 hp
  exact ⟨j, List.mem_range.1 hj, e.symm⟩

/-- `h` holds a best selection from the candidates `C`. -/
structure Best (k : Nat) (C : List (Nat × K)) (h : MaxHeap K) : Prop where
  cap : h.capacity = k
  size : h.size = min k C.length
  ordered : Ordered h.size h.distances
  sel : ∃ rest, (cells h.size h ++ rest).Perm C ∧ ∀ p ∈ cells h.size h, ∀ q ∈ rest, p.2 ≤ q.2

theorem best_create (k : Nat) (ind : Nat → Nat) (dst : Nat → K) : Best k [] (create k ind dst) :=
  ⟨rfl, by simp [create], by intro j _ h; simp [create] at h, [], by simp [cells, create], by simp [cells, create]⟩

theorem best_perm {k : Nat} {C D : List (Nat × K)} {h : MaxHeap K} (b : Best k C h) (p : C.Perm D) : Best k D h := by
  obtain ⟨rest, h1, h2⟩ := b.sel
  exact ⟨b.cap, by rw [b.size, p.length_eq], b.ordered, rest, h1.trans p, h2⟩

/-- Candidates that are no better than the maximum of a full heap may be passed over. -/
theorem best_skip {k : Nat} {C : List (Nat × K)} {h : MaxHeap K} (b : Best k C h) (P : List (Nat × K))
    (hf : P ≠ [] → h.size = k ∧ ∀ q ∈ P, h.distances 0 ≤ q.2) : Best k (C ++ P) h := by
  by_cases hP : P = []
  · subst hP; simpa using b
  obtain ⟨h1, h2⟩ := hf hP
  obtain ⟨rest, h3, h4⟩ := b.sel
  refine ⟨b.cap, ?_, b.ordered, rest ++ P, ?_, ?_⟩
  · have := b.size; simp only [List.length_append]; omega
  · rw [← List.append_assoc]; exact h3.append_right P
  · intro p hp q hq
    rcases List.mem_append.1 hq with hq | hq
    · exact h4 p hp q hq
    · obtain ⟨j, hj, rfl⟩ := mem_cells hp
      exact le_trans (ordered_root b.ordered j hj) (h2 q hq)

theorem best_insert {k : Nat} {C : List (Nat × K)} {h : MaxHeap K} (b : Best k C h) (hk : 0 < k) (i : Nat) (x : K) :
    Best k (C ++ [(i, x)]) (insert h i x) ∧
      ∀ j, k ≤ j → (insert h i x).indices j = h.indices j ∧ (insert h i x).distances j = h.distances j := by
  obtain ⟨rest, h1, h2⟩ := b.sel
  have hlen : h.size + rest.length = C.length := by
    have := h1.length_eq; simp [cells] at this; exact this
  unfold insert
  by_cases hs : h.size < h.capacity
  · simp only [if_pos hs]
    have hr0 : rest = [] := by
      have := b.size; rw [b.cap] at hs
      apply List.eq_nil_of_length_eq_zero; omega
    have hput : ∀ j, j ≠ h.size → put h.distances h.size x j = h.distances j := by
      intro j hj; simp [put, hj]
    have key := up_spec (h.size + 1) h.size h.size
      { h with indices := put h.indices h.size i, distances := put h.distances h.size x } (Nat.le_refl _) (by omega)
      (by
        intro j hj hjn hne
        show put h.distances h.size x j ≤ put h.distances h.size x ((j - 1) / 2)
        rw [hput _ hne, hput _ (by omega)]
        exact b.ordered j hj (by omega))
      (by intro j hj hjn hp; omega)
    unfold heapifyUp
    dsimp only at key
    generalize heapifyUpLoop h.size h.size { h with indices := put h.indices h.size i, distances := put h.distances h.size x } = r at *
    obtain ⟨a1, a2, a3, a4, a5⟩ := key
    replace a4 : r.size = h.size := a4
    have hcell : (cells (h.size + 1) r).Perm (cells h.size h ++ [(i, x)]) := by
      refine a2.trans ?_
      rw [cells_succ]
      have : cells h.size { h with indices := put h.indices h.size i, distances := put h.distances h.size x } = cells h.size h := by
        apply cells_congr
        intro j hj
        have hne : ¬ j = h.size := Nat.ne_of_lt hj
        simp only [put, if_neg hne]; trivial
      rw [this]
      simp [put]
    subst hr0
    simp only [List.append_nil] at h1
    refine ⟨⟨a3.trans b.cap, ?_, ?_, [], ?_, by simp⟩, ?_⟩
    · show r.size + 1 = _
      have := b.size; have := b.cap; simp only [List.length_append, List.length_singleton]; omega
    · show Ordered (r.size + 1) r.distances
      rw [a4]; exact a1
    · show (cells (r.size + 1) _ ++ []).Perm _
      rw [a4, List.append_nil]
      exact hcell.trans (h1.append_right _)
    · intro j hj
      have := b.cap
      have h5 := a5 j (by omega)
      refine ⟨h5.1.trans ?_, h5.2.trans ?_⟩
      · exact if_neg (by omega)
      · exact if_neg (by omega)
  · simp only [if_neg hs]
    have hsz : h.size = k := by have := b.size; have := b.cap; omega
    by_cases hx : x < h.distances 0
    · simp only [if_pos hx]
      have hput : ∀ j, j ≠ 0 → put h.distances 0 x j = h.distances j := by
        intro j hj; simp [put, hj]
      have key := down_spec h.size 0
        { h with indices := put h.indices 0 i, distances := put h.distances 0 x } (by simp) (by show 0 < h.size; omega)
        (by
          intro j hj hjn hne
          show put h.distances 0 x j ≤ put h.distances 0 x ((j - 1) / 2)
          rw [hput _ (by omega), hput _ hne]
          exact b.ordered j hj hjn)
        (by intro j hj hjn hp h0; omega)
      unfold heapifyDown
      dsimp only at key ⊢
      generalize heapifyDownLoop h.size 0 { h with indices := put h.indices 0 i, distances := put h.distances 0 x } = r at *
      obtain ⟨a1, a2, a3, a4, a5⟩ := key
      replace a4 : r.size = h.size := a4
      replace a3 : r.capacity = h.capacity := a3
      replace a5 : ∀ j, h.size ≤ j → r.indices j = put h.indices 0 i j ∧ r.distances j = put h.distances 0 x j := a5
      replace a1 : Ordered h.size r.distances := a1
      obtain ⟨m, hm⟩ : ∃ m, h.size = m + 1 := ⟨h.size - 1, by omega⟩
      replace a2 : (cells h.size r).Perm ((i, x) :: (List.range m).map fun t => (h.indices (t + 1), h.distances (t + 1))) := by
        refine a2.trans ?_
        rw [show (MaxHeap.mk (put h.indices 0 i) (put h.distances 0 x) h.capacity h.size).size = m + 1 from hm, cells_head]
        simp [put]
      have hC : ((h.indices 0, h.distances 0) :: ((List.range m).map fun t => (h.indices (t + 1), h.distances (t + 1))) ++ rest).Perm C := by
        rw [hm, cells_head] at h1; exact h1
      have hmem : ∀ p ∈ (List.range m).map (fun t => (h.indices (t + 1), h.distances (t + 1))), p ∈ cells h.size h := by
        intro p hp; rw [hm, cells_head]; exact List.mem_cons_of_mem _ hp
      have hmax : ∀ p ∈ cells h.size r, p.2 ≤ h.distances 0 := by
        intro p hp
        rcases List.mem_cons.1 (a2.subset hp) with e | e
        · subst e; exact le_of_lt hx
        · obtain ⟨j, hj, rfl⟩ := mem_cells (hmem p e)
          exact ordered_root b.ordered j hj
      refine ⟨⟨a3.trans b.cap, ?_, ?_, (h.indices 0, h.distances 0) :: rest, ?_, ?_⟩, ?_⟩
      · have := b.size; simp only [List.length_append, List.length_singleton]; omega
      · rw [a4]; exact a1
      · rw [a4]
        generalize (List.range m).map (fun t => (h.indices (t + 1), h.distances (t + 1))) = L at *
        refine (a2.append_right _).trans ?_
        have e1 : ((i, x) :: L ++ (h.indices 0, h.distances 0) :: rest).Perm ((h.indices 0, h.distances 0) :: L ++ rest ++ [(i, x)]) := by
          simp only [List.cons_append, List.append_assoc]
          refine (List.Perm.cons _ List.perm_middle).trans ?_
          refine (List.Perm.swap _ _ _).trans ?_
          refine List.Perm.cons _ ?_
          rw [← List.append_assoc]
          exact (List.perm_append_singleton _ _).symm
        exact e1.trans (hC.append_right _)
      · rw [a4]
        intro p hp q hq
        rcases List.mem_cons.1 hq with e | e
        · subst e; exact hmax p hp
        · refine le_trans (hmax p hp) ?_
          exact h2 (h.indices 0, h.distances 0) (by rw [hm, cells_head]; exact List.mem_cons_self) q e
      · intro j hj
        have h5 := a5 j (by omega)
        refine ⟨h5.1.trans ?_, h5.2.trans ?_⟩
        · exact if_neg (by omega)
        · exact if_neg (by omega)
    · simp only [if_neg hx]
      refine ⟨best_skip b _ ?_, fun _ _ => ⟨by trivial, by trivial⟩⟩
      intro _
      refine ⟨hsz, ?_⟩
      intro q hq
      rw [List.mem_singleton.1 hq]
      exact le_of_not_gt hx

theorem best_insertAll {k : Nat} (hk : 0 < k) : ∀ (l C : List (Nat × K)) (h : MaxHeap K), Best k C h →
    Best k (C ++ l) (insertAll h l) ∧
      ∀ j, k ≤ j → (insertAll h l).indices j = h.indices j ∧ (insertAll h l).distances j = h.distances j := by
  intro l
  induction l with
  | nil => intro C h b; exact ⟨by simpa [insertAll] using b, fun _ _ => ⟨rfl, rfl⟩⟩
  | cons p l ih =>
    intro C h b
    obtain ⟨b1, f1⟩ := best_insert b hk p.1 p.2
    obtain ⟨b2, f2⟩ := ih _ _ b1
    refine ⟨?_, ?_⟩
    · have : insertAll h (p :: l) = insertAll (insert h p.1 p.2) l := rfl
      rw [this]
      simpa using b2
    · intro j hj
      have e : insertAll h (p :: l) = insertAll (insert h p.1 p.2) l := rfl
      rw [e, (f2 j hj).1, (f2 j hj).2]
      exact f1 j hj

theorem best_max {k : Nat} {C : List (Nat × K)} {h : MaxHeap K} (b : Best k C h) (top : K) :
    (C.length < k → getMaxDist top h = top) ∧
    (k ≤ C.length → getMaxDist top h = h.distances 0) := by
  have := b.size; have := b.cap
  unfold getMaxDist
  constructor
  · intro hC; rw [if_pos (by omega)]
  · intro hC; rw [if_neg (by omega)]

end
end Verif.Heap
