import Verif.Sort.Model
import Mathlib.Logic.Equiv.Basic

/-!
# Proofs about the index sorts
-/

namespace Verif.Sort

/-- `s'` is `s` with the entries of `[lo, hi)` rearranged, index and value together, and without an
access outside the vectors if `[lo, hi)` lies in them. -/
def Rearr {α} (lo hi : Nat) (s s' : St α) : Prop :=
  ∃ σ : Equiv.Perm Nat, (∀ i, ¬ (lo ≤ i ∧ i < hi) → σ i = i) ∧ (∀ i, s'.idx i = s.idx (σ i)) ∧
    (∀ i, s'.val i = s.val (σ i)) ∧ s'.size = s.size ∧ (hi ≤ s.size → s'.bad = s.bad)

theorem Rearr.refl {α} (lo hi : Nat) (s : St α) : Rearr lo hi s s :=
  ⟨Equiv.refl _, fun _ _ => rfl, fun _ => rfl, fun _ => rfl, rfl, fun _ => rfl⟩

theorem Rearr.trans {α} {lo hi : Nat} {a b c : St α} (h1 : Rearr lo hi a b) (h2 : Rearr lo hi b c) :
    Rearr lo hi a c := by
  obtain ⟨σ, f1, i1, v1, z1, b1⟩ := h1
  obtain ⟨τ, f2, i2, v2, z2, b2⟩ := h2
  refine ⟨τ.trans σ, fun i hi => ?_, fun i => ?_, fun i => ?_, z2.trans z1, fun h => ?_⟩
  · simp only [Equiv.trans_apply]; rw [f2 i hi, f1 i hi]
  · simp only [Equiv.trans_apply]; rw [i2, i1]
  · simp only [Equiv.trans_apply]; rw [v2, v1]
  · rw [b2 (by omega), b1 h]

theorem Rearr.mono {α} {lo hi lo' hi' : Nat} {a b : St α} (h : Rearr lo hi a b) (h1 : lo' ≤ lo)
    (h2 : hi ≤ hi') : Rearr lo' hi' a b := by
  obtain ⟨σ, f1, i1, v1, z1, b1⟩ := h
  exact ⟨σ, fun i hi => f1 i (by omega), i1, v1, z1, fun h => b1 (by omega)⟩

theorem Rearr.touch {α} {lo hi : Nat} (s : St α) {i : Nat} (h : i < hi) :
    Rearr lo hi s (s.touch i) := by
  refine ⟨Equiv.refl _, fun _ _ => rfl, fun _ => rfl, fun _ => rfl, rfl, fun hs => ?_⟩
  simp only [St.touch]
  have : ¬ s.size ≤ i := by omega
  simp [this]

theorem swapF_eq {β : Type} (f : Nat → β) (i j k : Nat) :
    swapF f i j k = f (Equiv.swap i j k) := by
  unfold swapF
  by_cases h1 : k = i
  · subst h1; rw [if_pos rfl, Equiv.swap_apply_left]
  · by_cases h2 : k = j
    · subst h2; rw [if_neg h1, if_pos rfl, Equiv.swap_apply_right]
    · rw [if_neg h1, if_neg h2, Equiv.swap_apply_of_ne_of_ne h1 h2]

theorem Rearr.swap {α} {lo hi : Nat} (s : St α) {i j : Nat} (h1 : lo ≤ i) (h2 : i < hi)
    (h3 : lo ≤ j) (h4 : j < hi) : Rearr lo hi s (s.swap i j) := by
  refine ⟨Equiv.swap i j, fun k hk => ?_, fun k => ?_, fun k => ?_, rfl, fun hs => ?_⟩
  · exact Equiv.swap_apply_of_ne_of_ne (by rintro rfl; exact hk ⟨h1, h2⟩)
      (by rintro rfl; exact hk ⟨h3, h4⟩)
  · exact swapF_eq _ _ _ _
  · exact swapF_eq _ _ _ _
  · have a : ¬ s.size ≤ i := by omega
    have b : ¬ s.size ≤ j := by omega
    simp [St.swap, St.touch, a, b]

/-- A rearrangement maps the range to itself. -/
theorem Rearr.range {α} {lo hi : Nat} {s s' : St α} (h : Rearr lo hi s s') {i : Nat}
    (h1 : lo ≤ i) (h2 : i < hi) : ∃ j, lo ≤ j ∧ j < hi ∧ s'.val i = s.val j := by
  obtain ⟨σ, f, _, v, _, _⟩ := h
  refine ⟨σ i, ?_, ?_, v i⟩
  · by_contra hc
    have := f (σ i) (by omega)
    have := σ.injective this
    omega
  · by_contra hc
    have := f (σ i) (by omega)
    have := σ.injective this
    omega

theorem Rearr.outside {α} {lo hi : Nat} {s s' : St α} (h : Rearr lo hi s s') {i : Nat}
    (h1 : ¬ (lo ≤ i ∧ i < hi)) : s'.val i = s.val i := by
  obtain ⟨σ, f, _, v, _, _⟩ := h
  rw [v, f i h1]

/-! ## Heap sort rearranges -/

theorem touchNode_rearr {α} (start n root : Nat) (s : St α) :
    Rearr start (start + n) s (touchNode start n root s) := by
  unfold touchNode
  dsimp only
  have h1 : Rearr start (start + n) s (if 2 * root + 1 < n then
      (s.touch (root + start)).touch (2 * root + 1 + start) else s) := by
    split
    · exact (Rearr.touch s (by omega)).trans (Rearr.touch _ (by omega))
    · exact Rearr.refl _ _ _
  by_cases h : 2 * root + 2 < n
  · rw [if_pos h]; exact h1.trans (Rearr.touch _ (by omega))
  · rw [if_neg h]; exact h1

theorem touchNode_val {α} (start n root : Nat) (s : St α) : (touchNode start n root s).val = s.val := by
  unfold touchNode; dsimp only; split <;> split <;> rfl

theorem heapify_rearr {α} (lt : α → α → Bool) (start n : Nat) (root : Nat) (s : St α) :
    Rearr start (start + n) s (heapify lt start n root s) := by
  fun_induction heapify lt start n root s with
  | case1 root s h ih =>
    refine ((touchNode_rearr start n root s).trans (Rearr.swap _ ?_ ?_ ?_ ?_)).trans ih
    all_goals rcases pickMax_cases lt start n root s with h1 | ⟨h1, h2⟩ | ⟨h1, h2⟩
    all_goals first | exact absurd h1 h | omega
  | case2 root s h => exact touchNode_rearr start n root s

theorem buildHeap_rearr {α} (lt : α → α → Bool) (start n : Nat) : ∀ (k : Nat) (s : St α),
    Rearr start (start + n) s (buildHeap lt start n k s)
  | 0, _ => Rearr.refl _ _ _
  | k + 1, s => (heapify_rearr lt start n k s).trans (buildHeap_rearr lt start n k _)

theorem drainHeap_rearr {α} (lt : α → α → Bool) (start : Nat) : ∀ (k : Nat) (s : St α),
    Rearr start (start + (k + 1)) s (drainHeap lt start k s)
  | 0, _ => Rearr.refl _ _ _
  | k + 1, s => by
    unfold drainHeap
    have h1 : Rearr start (start + (k + 1 + 1)) s (s.swap start (start + (k + 1))) :=
      Rearr.swap s (by omega) (by omega) (by omega) (by omega)
    have h2 := (heapify_rearr lt start (k + 1) 0 (s.swap start (start + (k + 1)))).mono
      (Nat.le_refl start) (show start + (k + 1) ≤ start + (k + 1 + 1) by omega)
    have h3 := (drainHeap_rearr lt start k
      (heapify lt start (k + 1) 0 (s.swap start (start + (k + 1))))).mono
      (Nat.le_refl start) (show start + (k + 1) ≤ start + (k + 1 + 1) by omega)
    exact (h1.trans h2).trans h3

theorem heapSort_rearr {α} (lt : α → α → Bool) (start n : Nat) (s : St α) :
    Rearr start (start + n) s (heapSort lt start n s) := by
  unfold heapSort
  rcases Nat.eq_zero_or_pos n with h | h
  · subst h; exact Rearr.refl _ _ _
  · have h2 := drainHeap_rearr lt start (n - 1) (buildHeap lt start n (n / 2) s)
    rw [show start + (n - 1 + 1) = start + n by omega] at h2
    exact (buildHeap_rearr lt start n (n / 2) s).trans h2

/-! ## Heap sort sorts -/

/-- `lt` orders the values up to ties: what `<` does in the absence of NaN. -/
structure Ordered {α} (lt : α → α → Bool) : Prop where
  irrefl : ∀ a, lt a a = false
  /-- `a ≥ b` and `b ≥ c` give `a ≥ c`. -/
  trans : ∀ a b c, lt a b = false → lt b c = false → lt a c = false
  asymm : ∀ a b, lt a b = true → lt b a = false

/-- Every node from `k` on is at least as large as its children. -/
def HeapFrom {α} (lt : α → α → Bool) (start k n : Nat) (s : St α) : Prop :=
  ∀ i c, k ≤ i → (c = 2 * i + 1 ∨ c = 2 * i + 2) → c < n →
    lt (s.val (i + start)) (s.val (c + start)) = false

theorem swap_val_left {α} (s : St α) (i j : Nat) : (s.swap i j).val i = s.val j := by
  simp [St.swap, swapF]

theorem swap_val_right {α} (s : St α) (i j : Nat) : (s.swap i j).val j = s.val i := by
  by_cases h : j = i
  · subst h; simp [St.swap, swapF]
  · simp [St.swap, swapF, h]

theorem swap_val_ne {α} (s : St α) {i j k : Nat} (h1 : k ≠ i) (h2 : k ≠ j) :
    (s.swap i j).val k = s.val k := by
  simp [St.swap, swapF, h1, h2]

theorem pickMax_max {α} {lt : α → α → Bool} (ho : Ordered lt) (start n root : Nat) (s : St α) (c : Nat)
    (hc : c = 2 * root + 1 ∨ c = 2 * root + 2) (hn : c < n) :
    lt (s.val (pickMax lt start n root s + start)) (s.val (c + start)) = false := by
  have hL : 2 * root + 1 < n →
      lt (s.val (pickLeft lt start n root s + start)) (s.val (2 * root + 1 + start)) = false := by
    intro h
    unfold pickLeft
    split
    · exact ho.irrefl _
    · next hh => simpa [h] using hh
  unfold pickMax
  split
  · next h =>
    rcases hc with rfl | rfl
    · exact ho.trans _ _ _ (ho.asymm _ _ h.2) (hL hn)
    · exact ho.irrefl _
  · next h =>
    rcases hc with rfl | rfl
    · exact hL hn
    · simpa [hn] using h

/-- The state of the sift-down at node `p`: all the other nodes from `k` on dominate their children,
and the parent of `p` dominates the children of `p`. -/
theorem heapify_heap {α} {lt : α → α → Bool} (ho : Ordered lt) (start n k : Nat) (p : Nat) (s : St α)
    (h1 : ∀ i c, k ≤ i → i ≠ p → (c = 2 * i + 1 ∨ c = 2 * i + 2) → c < n →
      lt (s.val (i + start)) (s.val (c + start)) = false)
    (h2 : ∀ q c, k ≤ q → (p = 2 * q + 1 ∨ p = 2 * q + 2) → (c = 2 * p + 1 ∨ c = 2 * p + 2) → c < n →
      lt (s.val (q + start)) (s.val (c + start)) = false)
    (hk : k ≤ p) : HeapFrom lt start k n (heapify lt start n p s) := by
  fun_induction heapify lt start n p s with
  | case1 p s h ih =>
    have hmax := pickMax_max ho start n p s
    generalize hm : pickMax lt start n p s = m at *
    have hmc : (m = 2 * p + 1 ∨ m = 2 * p + 2) ∧ m < n := by
      rcases pickMax_cases lt start n p s with h1 | ⟨h1, h2⟩ | ⟨h1, h2⟩
      · omega
      · omega
      · omega
    have hval : ∀ j, ((touchNode start n p s).swap (p + start) (m + start)).val (j + start) =
        if j = p then s.val (m + start) else if j = m then s.val (p + start)
        else s.val (j + start) := by
      intro j
      simp only [St.swap, swapF, touchNode_val]
      by_cases e1 : j = p
      · simp [e1]
      · by_cases e2 : j = m
        · simp [e2]
        · simp [e1, e2]
    apply ih
    · intro i c hi him hc hcn
      rw [hval, hval]
      have him' : i ≠ m := him
      by_cases e : i = p
      · subst e
        rw [if_pos rfl]
        have hcp : c ≠ i := by omega
        rw [if_neg hcp]
        by_cases e2 : c = m
        · rw [if_pos e2]
          -- the old node is smaller than the chosen child
          have : lt (s.val (m + start)) (s.val (i + start)) = false := by
            have hlt : lt (s.val (i + start)) (s.val (m + start)) = true ∨
                lt (s.val (m + start)) (s.val (i + start)) = false := by
              unfold pickMax pickLeft at hm
              by_cases q1 : 2 * i + 1 < n ∧ lt (s.val (i + start)) (s.val (2 * i + 1 + start))
              · simp only [if_pos q1] at hm
                split at hm
                · next q2 =>
                  right
                  subst hm
                  exact ho.trans _ _ _ (ho.asymm _ _ q2.2) (ho.asymm _ _ q1.2)
                · left; subst hm; exact q1.2
              · simp only [if_neg q1] at hm
                split at hm
                · next q2 => left; subst hm; exact q2.2
                · omega
            rcases hlt with hh | hh
            · exact ho.asymm _ _ hh
            · exact hh
          exact this
        · rw [if_neg e2]; exact hmax c hc hcn
      · rw [if_neg e, if_neg him']
        by_cases e2 : c = p
        · rw [if_pos e2]
          exact h2 i m hi (by omega) hmc.1 hmc.2
        · rw [if_neg e2]
          have : c ≠ m := by omega
          rw [if_neg this]
          exact h1 i c hi e hc hcn
    · intro q c hq hmq hc hcn
      have e : q = p := by omega
      subst e
      rw [hval, hval, if_pos rfl, if_neg (by omega), if_neg (by omega)]
      exact h1 m c (by omega) (by omega) hc hcn
    · omega
  | case2 p s h =>
    intro i c hi hc hcn
    rw [touchNode_val]
    by_cases e : i = p
    · have hm : pickMax lt start n p s = p := by simpa using h
      have := pickMax_max ho start n p s c (by rw [← e]; exact hc) hcn
      rw [hm] at this
      rw [e]; exact this
    · exact h1 i c hi e hc hcn

theorem buildHeap_heap {α} {lt : α → α → Bool} (ho : Ordered lt) (start n : Nat) :
    ∀ (k : Nat) (s : St α), HeapFrom lt start k n s → HeapFrom lt start 0 n (buildHeap lt start n k s)
  | 0, s, h => h
  | k + 1, s, h => by
    unfold buildHeap
    apply buildHeap_heap ho
    apply heapify_heap ho
    · intro i c hi hik hc hn; exact h i c (by omega) hc hn
    · intro q c hq hk hc hn; omega
    · omega

theorem heap_root {α} {lt : α → α → Bool} (ho : Ordered lt) {start n : Nat} {s : St α}
    (h : HeapFrom lt start 0 n s) : ∀ i, i < n → lt (s.val start) (s.val (i + start)) = false := by
  intro i
  induction i using Nat.strongRecOn with
  | _ i ih =>
    intro hi
    rcases Nat.eq_zero_or_pos i with h0 | h0
    · subst h0; rw [Nat.zero_add]; exact ho.irrefl _
    · have h1 := ih ((i - 1) / 2) (by omega) (by omega)
      have h2 := h ((i - 1) / 2) i (by omega) (by omega) hi
      exact ho.trans _ _ _ h1 h2

/-- The entries of `[lo, hi)` are in non-decreasing order. -/
def SortedOn {α} (lt : α → α → Bool) (lo hi : Nat) (s : St α) : Prop :=
  ∀ i j, lo ≤ i → i ≤ j → j < hi → lt (s.val j) (s.val i) = false

theorem drainHeap_sorted {α} {lt : α → α → Bool} (ho : Ordered lt) (start n : Nat) :
    ∀ (k : Nat) (s : St α), k + 1 ≤ n → HeapFrom lt start 0 (k + 1) s →
      SortedOn lt (start + (k + 1)) (start + n) s →
      (∀ i j, start ≤ i → i < start + (k + 1) → start + (k + 1) ≤ j → j < start + n →
        lt (s.val j) (s.val i) = false) →
      SortedOn lt start (start + n) (drainHeap lt start k s)
  | 0, s, hk, hh, hs, hb => by
    unfold drainHeap
    intro i j h1 h2 h3
    by_cases e : i < start + 1
    · by_cases e2 : j < start + 1
      · have : i = j := by omega
        subst this; exact ho.irrefl _
      · exact hb i j h1 (by omega) (by omega) h3
    · exact hs i j (by omega) h2 h3
  | k + 1, s, hk, hh, hs, hb => by
    unfold drainHeap
    -- the state after the exchange
    generalize hu : s.swap start (start + (k + 1)) = u
    have hR : Rearr start (start + (k + 1 + 1)) s u := by
      rw [← hu]; exact Rearr.swap s (by omega) (by omega) (by omega) (by omega)
    have hlast : u.val (start + (k + 1)) = s.val start := by rw [← hu]; exact swap_val_right _ _ _
    have hmid : ∀ i, start < i → i < start + (k + 1) → u.val i = s.val i := by
      intro i h1 h2; rw [← hu]; exact swap_val_ne _ (by omega) (by omega)
    have hR2 := heapify_rearr lt start (k + 1) 0 u
    have hheap : HeapFrom lt start 0 (k + 1) (heapify lt start (k + 1) 0 u) := by
      apply heapify_heap ho
      · intro i c _ hi hc hn
        rw [hmid _ (by omega) (by omega), hmid _ (by omega) (by omega)]
        exact hh i c (by omega) hc (by omega)
      · intro q c _ hq; omega
      · omega
    generalize hv : heapify lt start (k + 1) 0 u = v at *
    have hvout : ∀ i, start + (k + 1) ≤ i → v.val i = u.val i := fun i h => hR2.outside (by omega)
    have htail : ∀ i, start + (k + 1 + 1) ≤ i → v.val i = s.val i := fun i h => by
      rw [hvout i (by omega), hR.outside (by omega)]
    apply drainHeap_sorted ho start n k v (by omega) hheap
    · intro i j h1 h2 h3
      by_cases e : i = start + (k + 1)
      · by_cases e2 : j = start + (k + 1)
        · rw [e, e2]; exact ho.irrefl _
        · rw [e, hvout _ (Nat.le_refl _), hlast, htail j (by omega)]
          exact hb start j (Nat.le_refl _) (by omega) (by omega) h3
      · rw [htail i (by omega), htail j (by omega)]
        exact hs i j (by omega) h2 h3
    · intro i j h1 h2 h3 h4
      obtain ⟨i', a1, a2, a3⟩ := hR2.range h1 (by omega)
      obtain ⟨i'', b1, b2, b3⟩ := hR.range a1 (by omega)
      rw [a3, b3]
      by_cases e : j = start + (k + 1)
      · rw [e, hvout _ (Nat.le_refl _), hlast]
        have := heap_root ho hh (i'' - start) (by omega)
        rwa [show i'' - start + start = i'' by omega] at this
      · rw [htail j (by omega)]
        exact hb i'' j b1 (by omega) (by omega) h4

theorem heapSort_sorted {α} {lt : α → α → Bool} (ho : Ordered lt) (start n : Nat) (s : St α) :
    SortedOn lt start (start + n) (heapSort lt start n s) := by
  rcases Nat.eq_zero_or_pos n with h | h
  · subst h; intro i j h1 h2 h3; omega
  · unfold heapSort
    apply drainHeap_sorted ho start n (n - 1) _ (by omega)
    · rw [show n - 1 + 1 = n by omega]
      apply buildHeap_heap ho
      intro i c hi hc hn; omega
    · intro i j h1 h2 h3; omega
    · intro i j h1 h2 h3 h4; omega

/-! ## Introsort -/

theorem partLoop_rearr {α} (lt : α → α → Bool) (p : α) (lo hi : Nat) (left right piv : Nat)
    (s : St α) (h1 : lo ≤ piv) (h2 : piv ≤ left) (h3 : left ≤ right) (h4 : right ≤ hi) :
    Rearr lo hi s (partLoop lt p left right piv s).1 ∧
    lo ≤ (partLoop lt p left right piv s).2.1 ∧
    (partLoop lt p left right piv s).2.1 ≤ (partLoop lt p left right piv s).2.2 ∧
    (partLoop lt p left right piv s).2.2 ≤ hi := by
  fun_induction partLoop lt p left right piv s with
  | case1 left right piv s h c ih =>
    obtain ⟨a, b⟩ := ih (by omega) (by omega) (by omega) (by omega)
    exact ⟨((Rearr.touch s (by omega)).trans
      (Rearr.swap _ (by omega) (by omega) (by omega) (by omega))).trans a, b⟩
  | case2 left right piv s h c c2 ih =>
    obtain ⟨a, b⟩ := ih (by omega) (by omega) (by omega) (by omega)
    exact ⟨((Rearr.touch s (by omega)).trans
      (Rearr.swap _ (by omega) (by omega) (by omega) (by omega))).trans a, b⟩
  | case3 left right piv s h c c2 ih =>
    obtain ⟨a, b⟩ := ih (by omega) (by omega) (by omega) (by omega)
    exact ⟨(Rearr.touch s (by omega)).trans a, b⟩
  | case4 left right piv s h => exact ⟨Rearr.refl _ _ _, h1, by dsimp only; omega, h4⟩

/-- The partition loop keeps: smaller entries in `[lo, piv)`, neither smaller nor larger ones in
`[piv, left)`, larger ones in `[right, hi)`. -/
theorem partLoop_spec {α} (lt : α → α → Bool) (p : α) (lo hi : Nat) (left right piv : Nat)
    (s : St α) (h1 : lo ≤ piv) (h2 : piv ≤ left) (h3 : left ≤ right) (h4 : right ≤ hi)
    (i1 : ∀ i, lo ≤ i → i < piv → lt (s.val i) p = true)
    (i2 : ∀ i, piv ≤ i → i < left → lt (s.val i) p = false ∧ lt p (s.val i) = false)
    (i3 : ∀ i, right ≤ i → i < hi → lt p (s.val i) = true) :
    let r := partLoop lt p left right piv s
    (∀ i, lo ≤ i → i < r.2.1 → lt (r.1.val i) p = true) ∧
    (∀ i, r.2.1 ≤ i → i < r.2.2 → lt (r.1.val i) p = false ∧ lt p (r.1.val i) = false) ∧
    (∀ i, r.2.2 ≤ i → i < hi → lt p (r.1.val i) = true) := by
  fun_induction partLoop lt p left right piv s with
  | case1 left right piv s h c ih =>
    have hv : ∀ k, ((s.touch left).swap left piv).val k =
        if k = left then s.val piv else if k = piv then s.val left else s.val k := fun k => rfl
    refine ih (by omega) (by omega) (by omega) (by omega) ?_ ?_ ?_
    · intro i a b
      rw [hv]
      by_cases e : i = left
      · have : piv = left := by omega
        rw [if_pos e, this]; exact c
      · rw [if_neg e]
        by_cases e2 : i = piv
        · rw [if_pos e2]; exact c
        · rw [if_neg e2]; exact i1 i a (by omega)
    · intro i a b
      rw [hv]
      by_cases e : i = left
      · rw [if_pos e]
        by_cases e2 : piv = left
        · omega
        · exact i2 piv (Nat.le_refl _) (by omega)
      · rw [if_neg e, if_neg (by omega)]; exact i2 i (by omega) (by omega)
    · intro i a b
      rw [hv, if_neg (by omega), if_neg (by omega)]; exact i3 i a b
  | case2 left right piv s h c c2 ih =>
    have hv : ∀ k, ((s.touch left).swap (right - 1) left).val k =
        if k = right - 1 then s.val left else if k = left then s.val (right - 1) else s.val k :=
      fun k => rfl
    refine ih (by omega) (by omega) (by omega) (by omega) ?_ ?_ ?_
    · intro i a b
      rw [hv, if_neg (by omega), if_neg (by omega)]; exact i1 i a b
    · intro i a b
      rw [hv, if_neg (by omega), if_neg (by omega)]; exact i2 i a b
    · intro i a b
      rw [hv]
      by_cases e : i = right - 1
      · rw [if_pos e]; exact c2
      · rw [if_neg e, if_neg (by omega)]; exact i3 i (by omega) b
  | case3 left right piv s h c c2 ih =>
    refine ih (by omega) (by omega) (by omega) (by omega) i1 ?_ i3
    intro i a b
    by_cases e : i = left
    · subst e
      exact ⟨Bool.eq_false_iff.2 c, Bool.eq_false_iff.2 c2⟩
    · exact i2 i a (by omega)
  | case4 left right piv s h =>
    exact ⟨i1, fun i a b => i2 i a (by dsimp only at b; omega), i3⟩

theorem pivot_mem {α} (lt : α → α → Bool) (start n : Nat) (s : St α) (h : 0 < n) :
    ∃ i, start ≤ i ∧ i < start + n ∧ s.val i = pivot lt start n s := by
  unfold pivot
  split_ifs
  all_goals first
    | exact ⟨start, by omega, by omega, rfl⟩
    | exact ⟨start + n / 2, by omega, by omega, rfl⟩
    | exact ⟨start + n - 1, by omega, by omega, rfl⟩

theorem touchPivot_rearr {α} (start n : Nat) (s : St α) (h : 0 < n) :
    Rearr start (start + n) s (touchPivot start n s) :=
  ((Rearr.touch s (by omega)).trans (Rearr.touch _ (by omega))).trans (Rearr.touch _ (by omega))

/-- The facts about one partition used below. -/
theorem partition_facts {α} (lt : α → α → Bool) (hirr : ∀ a, lt a a = false) (start n : Nat) (s : St α)
    (hn : 1 < n) :
    let p := pivot lt start n s
    let r := partLoop lt p start (start + n) start (touchPivot start n s)
    Rearr start (start + n) s r.1 ∧ start ≤ r.2.1 ∧ r.2.1 < r.2.2 ∧ r.2.2 ≤ start + n ∧
    (∀ i, start ≤ i → i < r.2.1 → lt (r.1.val i) p = true) ∧
    (∀ i, r.2.1 ≤ i → i < r.2.2 → lt (r.1.val i) p = false ∧ lt p (r.1.val i) = false) ∧
    (∀ i, r.2.2 ≤ i → i < start + n → lt p (r.1.val i) = true) := by
  intro p r
  obtain ⟨a1, a2, a3, a4⟩ := partLoop_rearr lt p start (start + n) start (start + n) start
    (touchPivot start n s) (by omega) (by omega) (by omega) (by omega)
  obtain ⟨b1, b2, b3⟩ := partLoop_spec lt p start (start + n) start (start + n) start
    (touchPivot start n s) (by omega) (by omega) (by omega) (by omega)
    (fun i _ _ => by omega) (fun i _ _ => by omega) (fun i _ _ => by omega)
  have hR : Rearr start (start + n) s r.1 := (touchPivot_rearr start n s (by omega)).trans a1
  have a3 : r.2.1 ≤ r.2.2 := a3
  refine ⟨hR, a2, ?_, a4, b1, b2, b3⟩
  -- the pivot itself is an entry of the range
  obtain ⟨i, h1, h2, h3⟩ := pivot_mem lt start n s (by omega)
  obtain ⟨σ, f, _, v, _, _⟩ := hR
  by_contra hc
  have he : r.2.1 = r.2.2 := by omega
  have hj : start ≤ σ.symm i ∧ σ.symm i < start + n := by
    by_contra hc2
    have := f (σ.symm i) hc2
    rw [Equiv.apply_symm_apply] at this
    omega
  have hval : r.1.val (σ.symm i) = p := by rw [v, Equiv.apply_symm_apply, h3]
  by_cases hs : σ.symm i < r.2.1
  · have := b1 _ hj.1 hs
    rw [hval, hirr] at this; cases this
  · have := b3 (σ.symm i) (show r.2.2 ≤ _ by omega) hj.2
    rw [hval, hirr] at this; cases this

theorem introSort_run {α} (lt : α → α → Bool) (hirr : ∀ a, lt a a = false) :
    ∀ (fuel : Nat) (entry : Bool) (start n : Nat) (maxd : Int) (s : St α), n < fuel →
      ∃ s', introSort lt fuel entry start n maxd s = some s' ∧ Rearr start (start + n) s s' ∧
        (Ordered lt → SortedOn lt start (start + n) s')
  | 0, _, _, _, _, _, h => absurd h (Nat.not_lt_zero _)
  | fuel + 1, entry, start, n, maxd, s, h => by
    unfold introSort
    by_cases c1 : n ≤ 1
    · rw [if_pos c1]
      refine ⟨s, rfl, Rearr.refl _ _ _, fun ho i j a b d => ?_⟩
      have : i = j := by omega
      subst this; exact ho.irrefl _
    rw [if_neg c1]
    by_cases c2 : entry = true ∧ maxd ≤ 0
    · rw [if_pos c2]
      exact ⟨_, rfl, heapSort_rearr lt start n s, fun ho => heapSort_sorted ho start n s⟩
    rw [if_neg c2]
    have hF := partition_facts lt hirr start n s (by omega)
    dsimp only at hF ⊢
    generalize pivot lt start n s = p at *
    generalize partLoop lt p start (start + n) start (touchPivot start n s) = r at *
    obtain ⟨hR, h1, h2, h3, b1, b2, b3⟩ := hF
    obtain ⟨s2, e2, R2, S2⟩ := introSort_run lt hirr fuel true start (r.2.1 - start) (maxd - 1) r.1
      (by omega)
    obtain ⟨s3, e3, R3, S3⟩ := introSort_run lt hirr fuel false r.2.2 (start + n - r.2.2) (maxd - 1)
      s2 (by omega)
    rw [show start + (r.2.1 - start) = r.2.1 by omega] at R2 S2
    rw [show r.2.2 + (start + n - r.2.2) = start + n by omega] at R3 S3
    rw [e2, Option.bind_some, e3]
    refine ⟨s3, rfl, (hR.trans (R2.mono (Nat.le_refl _) (by omega))).trans
      (R3.mono (by omega) (Nat.le_refl _)), fun ho => ?_⟩
    have S2 := S2 ho
    have S3 := S3 ho
    -- the three parts of the final state
    have v1 : ∀ i, start ≤ i → i < r.2.1 → s3.val i = s2.val i := fun i a b => R3.outside (by omega)
    have c1 : ∀ i, start ≤ i → i < r.2.1 → lt (s3.val i) p = true := fun i a b => by
      obtain ⟨j, x1, x2, x3⟩ := R2.range a b
      rw [v1 i a b, x3]; exact b1 j x1 x2
    have c2 : ∀ i, r.2.1 ≤ i → i < r.2.2 → lt (s3.val i) p = false ∧ lt p (s3.val i) = false :=
      fun i a b => by
      rw [R3.outside (by omega), R2.outside (by omega)]; exact b2 i a b
    have c3 : ∀ i, r.2.2 ≤ i → i < start + n → lt p (s3.val i) = true := fun i a b => by
      obtain ⟨j, x1, x2, x3⟩ := R3.range a b
      rw [x3, R2.outside (by omega)]; exact b3 j x1 x2
    intro i j a b d
    by_cases e1 : j < r.2.1
    · rw [v1 i a (by omega), v1 j (by omega) e1]; exact S2 i j a b e1
    by_cases e2 : r.2.2 ≤ i
    · exact S3 i j e2 b d
    -- at least one of the two is on the pivot's side
    have hj : lt (s3.val j) p = false := by
      by_cases q : j < r.2.2
      · exact (c2 j (by omega) q).1
      · exact ho.asymm _ _ (c3 j (by omega) d)
    have hi : lt p (s3.val i) = false := by
      by_cases q : i < r.2.1
      · exact ho.asymm _ _ (c1 i a q)
      · exact (c2 i (by omega) (by omega)).2
    exact ho.trans _ _ _ hj hi

/-- More fuel does not change the result. -/
theorem introSort_mono {α} (lt : α → α → Bool) : ∀ (fuel : Nat) (entry : Bool) (start n : Nat)
    (maxd : Int) (s r : St α), introSort lt fuel entry start n maxd s = some r →
    introSort lt (fuel + 1) entry start n maxd s = some r
  | 0, _, _, _, _, _, _, h => by cases h
  | fuel + 1, entry, start, n, maxd, s, r, h => by
    rw [introSort] at h ⊢
    by_cases c1 : n ≤ 1
    · rw [if_pos c1] at h ⊢; exact h
    rw [if_neg c1] at h ⊢
    by_cases c2 : entry = true ∧ maxd ≤ 0
    · rw [if_pos c2] at h ⊢; exact h
    rw [if_neg c2] at h ⊢
    dsimp only at h ⊢
    obtain ⟨s2, e1, e2⟩ := Option.bind_eq_some_iff.1 h
    rw [introSort_mono lt fuel _ _ _ _ _ _ e1, Option.bind_some]
    exact introSort_mono lt fuel _ _ _ _ _ _ e2

end Verif.Sort
