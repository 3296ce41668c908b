import Verif.TreeSplit.Model

/-!
# Proofs about the search for the best split
-/

namespace Verif.TreeSplit

/-- Sum of `f` over the positions `a, …, b - 1`. -/
def sumR (f : Nat → Int) (a b : Nat) : Int := ((List.range' a (b - a)).map f).sum

theorem sumR_split (f : Nat → Int) (a b c : Nat) (h1 : a ≤ b) (h2 : b ≤ c) :
    sumR f a b + sumR f b c = sumR f a c := by
  unfold sumR
  have e : List.range' a (c - a) = List.range' a (b - a) ++ List.range' b (c - b) := by
    have := @List.range'_append_1 a (b - a) (c - b)
    rw [show a + (b - a) = b by omega, show b - a + (c - b) = c - a by omega] at this
    exact this.symm
  rw [e, List.map_append, List.sum_append]

theorem sumR_self (f : Nat → Int) (a : Nat) : sumR f a a = 0 := by simp [sumR]

theorem sumR_ge (f : Nat → Int) (a b : Nat) (h : a ≤ b) (hf : ∀ i, a ≤ i → i < b → 1 ≤ f i) :
    ((b - a : Nat) : Int) ≤ sumR f a b := by
  obtain ⟨n, rfl⟩ : ∃ n, b = a + n := ⟨b - a, by omega⟩
  clear h
  induction n with
  | zero => simp [sumR]
  | succ n ih =>
    have h1 := sumR_split f a (a + n) (a + (n + 1)) (by omega) (by omega)
    have h2 : sumR f (a + n) (a + (n + 1)) = f (a + n) := by
      unfold sumR
      rw [show a + (n + 1) - (a + n) = 1 by omega]
      simp
    have := ih fun i x y => hf i x (by omega)
    have := hf (a + n) (by omega) (by omega)
    omega

/-- The weight of the sample at a position, and its weight in class `k`. -/
def wt (sm : Samples) (samp : Nat → Nat) (i : Nat) : Int := sm.w (samp i)

def wtc (sm : Samples) (samp : Nat → Nat) (k i : Nat) : Int :=
  if sm.y (samp i) = k then (sm.w (samp i) : Int) else 0

theorem addAll_spec (sm : Samples) (samp : Nat → Nat) : ∀ (l : List Nat) (r : Int × (Nat → Int)),
    (addAll sm samp l r).1 = r.1 + (l.map (wt sm samp)).sum ∧
    ∀ k, (addAll sm samp l r).2 k = r.2 k + (l.map (wtc sm samp k)).sum
  | [], r => by simp [addAll]
  | i :: is, r => by
    obtain ⟨h1, h2⟩ := addAll_spec sm samp is
      (r.1 + sm.w (samp i), addClass r.2 (sm.y (samp i)) (sm.w (samp i)))
    constructor
    · rw [addAll, h1, List.map_cons, List.sum_cons]
      simp only [wt]; omega
    · intro k
      rw [addAll, h2, List.map_cons, List.sum_cons]
      simp only [addClass, wtc]
      by_cases c : k = sm.y (samp i)
      · rw [if_pos c, if_pos c.symm]; omega
      · rw [if_neg c, if_neg (fun h => c h.symm)]; omega

theorem tieEnd_spec {V} (near : V → V → Bool) (fv : Nat → V) (sidx : Nat) : ∀ (k next : Nat),
    next ≤ tieEnd near fv sidx k next ∧ tieEnd near fv sidx k next ≤ next + k ∧
    (tieEnd near fv sidx k next < next + k →
      near (fv (tieEnd near fv sidx k next + 1)) (fv sidx) = false) ∧
    (∀ j, next < j → j ≤ tieEnd near fv sidx k next → near (fv j) (fv sidx) = true)
  | 0, next => by
    refine ⟨Nat.le_refl _, Nat.le_refl _, fun h => absurd h (Nat.lt_irrefl _), fun j a b => ?_⟩
    simp only [tieEnd] at b; omega
  | k + 1, next => by
    simp only [tieEnd]
    by_cases c : near (fv (next + 1)) (fv sidx) = true
    · rw [if_pos c]
      obtain ⟨a1, a2, a3, a4⟩ := tieEnd_spec near fv sidx k (next + 1)
      refine ⟨by omega, by omega, fun h => a3 (by omega), fun j h1 h2 => ?_⟩
      by_cases e : j = next + 1
      · rw [e]; exact c
      · exact a4 j (by omega) h2
    · rw [if_neg c]
      exact ⟨Nat.le_refl _, by omega, fun _ => by simpa using c, fun j h1 h2 => by omega⟩

section
variable {V S : Type} (nm : Num V) (cr : Crit S) (sm : Samples) (samp : Nat → Nat) (fv : Nat → V)
  (nd : Nd S) (minNode : Int)

/-- The counts of a candidate are those of the positions before `b`. -/
def Left (c : Cand S) (b : Nat) : Prop :=
  c.nsl = sumR (wt sm samp) nd.start b ∧ ∀ k, c.cl k = sumR (wtc sm samp k) nd.start b

/-- … and of the others. -/
def Right (c : Cand S) (b : Nat) : Prop :=
  c.nsr = sumR (wt sm samp) b (nd.end_ + 1) ∧ ∀ k, c.cr k = sumR (wtc sm samp k) b (nd.end_ + 1)

/-- The counts of the node are those of its samples. -/
def Total : Prop :=
  nd.ns = sumR (wt sm samp) nd.start (nd.end_ + 1) ∧
  ∀ k, nd.counts k = sumR (wtc sm samp k) nd.start (nd.end_ + 1)

/-- All the values up to the end of the node are near that at `sidx`. -/
def Dead (sidx : Nat) : Prop := ∀ j, sidx < j → j ≤ nd.end_ → nm.near (fv j) (fv sidx) = true

theorem update_cases (sidx : Nat) (c : Cand S) (h : sidx < nd.end_) :
    let r := update nm cr sm samp fv nd sidx c
    (nd.end_ ≤ r.1 ∧ r.2 = c ∧ Dead nm fv nd sidx) ∨
    (sidx ≤ r.1 ∧ r.1 < nd.end_ ∧ nm.near (fv (r.1 + 1)) (fv sidx) = false ∧
      (∀ j, sidx < j → j ≤ r.1 → nm.near (fv j) (fv sidx) = true) ∧
      (nd.start ≤ sidx → Total sm samp nd → Left sm samp nd c sidx →
        Left sm samp nd r.2 (r.1 + 1) ∧ Right sm samp nd r.2 (r.1 + 1))) := by
  intro r
  obtain ⟨a1, a2, a3, a4⟩ := tieEnd_spec nm.near fv sidx (nd.end_ - sidx) sidx
  have hr : r = update nm cr sm samp fv nd sidx c := rfl
  unfold update at hr
  dsimp only at hr
  generalize hx : tieEnd nm.near fv sidx (nd.end_ - sidx) sidx = next at *
  by_cases d : nd.end_ ≤ next
  · rw [if_pos d] at hr
    left
    rw [hr]
    exact ⟨d, rfl, fun j h1 h2 => a4 j h1 (by omega)⟩
  · rw [if_neg d] at hr
    right
    have hr1 : r.1 = next := by rw [hr]
    rw [hr1]
    refine ⟨a1, by omega, a3 (by omega), a4, fun hs ht hl => ?_⟩
    have tot : ∀ f : Nat → Int, sumR f nd.start (next + 1) + sumR f (next + 1) (nd.end_ + 1) =
        sumR f nd.start (nd.end_ + 1) := fun f => sumR_split f _ _ _ (by omega) (by omega)
    by_cases e : next - sidx + 1 ≤ nd.end_ - next + 1
    · rw [if_pos e] at hr
      have add : ∀ f : Nat → Int, sumR f nd.start sidx + sumR f sidx (next + 1) =
        sumR f nd.start (next + 1) := fun f => sumR_split f _ _ _ (by omega) (by omega)
      obtain ⟨hA1, hA2⟩ := addAll_spec sm samp (List.range' sidx (next + 1 - sidx)) (c.nsl, c.cl)
      have hA1 : _ = c.nsl + sumR (wt sm samp) sidx (next + 1) := hA1
      have hA2 : ∀ k, _ = c.cl k + sumR (wtc sm samp k) sidx (next + 1) := hA2
      generalize addAll sm samp (List.range' sidx (next + 1 - sidx)) (c.nsl, c.cl) = l at *
      constructor
      · constructor
        · rw [hr]; dsimp only
          rw [hA1, ← add, hl.1]
        · intro k
          rw [hr]; dsimp only
          rw [hA2 k, ← add, hl.2 k]
      · constructor
        · rw [hr]; dsimp only
          rw [hA1, ht.1, ← tot, ← add, hl.1]; omega
        · intro k
          rw [hr]; dsimp only
          rw [hA2 k, ht.2 k, ← tot, ← add, hl.2 k]; omega
    · rw [if_neg e] at hr
      obtain ⟨hA1, hA2⟩ := addAll_spec sm samp (List.range' (next + 1) (nd.end_ - next)).reverse
        (0, fun _ => 0)
      have rev : ∀ f : Nat → Int,
          ((List.range' (next + 1) (nd.end_ - next)).reverse.map f).sum =
            sumR f (next + 1) (nd.end_ + 1) := by
        intro f
        unfold sumR
        rw [List.map_reverse, List.sum_reverse]
        rw [show nd.end_ + 1 - (next + 1) = nd.end_ - next by omega]
      rw [rev] at hA1
      simp only [rev] at hA2
      generalize addAll sm samp (List.range' (next + 1) (nd.end_ - next)).reverse
        (0, fun _ => 0) = l at *
      constructor
      · constructor
        · rw [hr]; dsimp only
          rw [hA1, ht.1, ← tot]; omega
        · intro k
          rw [hr]; dsimp only
          rw [hA2 k, ht.2 k, ← tot]; omega
      · constructor
        · rw [hr]; dsimp only
          rw [hA1]; omega
        · intro k
          rw [hr]; dsimp only
          rw [hA2 k]; omega

/-- What is recorded of an accepted split whatever the counts: the position is inside the node, with
a value beyond it that is not near the first of its group, while the group itself is near. -/
def Placed (b : Best V S) : Prop :=
  nd.start ≤ b.next ∧ b.next < nd.end_ ∧ b.thr = nm.mid (fv b.next) (fv (b.next + 1)) ∧
  ∃ s, nd.start ≤ s ∧ s ≤ b.next ∧ nm.near (fv (b.next + 1)) (fv s) = false ∧
    (s < b.next → nm.near (fv b.next) (fv s) = true)

/-- Not going to be accepted as it stands. -/
def Stale (c : Cand S) (best : Option (Best V S)) : Prop :=
  c.nsl < minNode ∨ (cr.lt c.sc (spScore nd best) && cr.enough c.sc) = false

theorem stale_accept (hirr : ∀ a, cr.lt a a = false) (c : Cand S) (best : Option (Best V S)) (n : Nat)
    (t : V) : Stale cr nd minNode c
      (if cr.lt c.sc (spScore nd best) && cr.enough c.sc then
        some { next := n, thr := t, score := c.sc, cand := c } else best) := by
  right
  by_cases h : (cr.lt c.sc (spScore nd best) && cr.enough c.sc) = true
  · rw [if_pos h]; simp [spScore, hirr]
  · rw [if_neg h]; simpa using h

/-- Every accepted split is inside the node. -/
theorem loop_placed (hirr : ∀ a, cr.lt a a = false) : ∀ (fuel sidx : Nat) (c : Cand S)
    (best : Option (Best V S)), nd.start ≤ sidx → Stale cr nd minNode c best →
    (∀ b ∈ best, Placed nm fv nd b) →
    ∀ b ∈ loop nm cr sm samp fv nd minNode fuel sidx c best, Placed nm fv nd b
  | 0, _, _, _, _, _, h => h
  | fuel + 1, sidx, c, best, hs, hst, hb => by
    rw [loop]
    by_cases h : sidx < nd.end_
    · rw [if_pos h]
      dsimp only
      have hu := update_cases nm cr sm samp fv nd sidx c h
      dsimp only at hu
      generalize update nm cr sm samp fv nd sidx c = r at *
      by_cases h1 : r.2.nsl < minNode
      · rw [if_pos h1]
        exact loop_placed hirr fuel _ _ _ (by omega) (.inl h1) hb
      · rw [if_neg h1]
        by_cases h2 : r.2.nsr < minNode
        · rw [if_pos h2]; exact hb
        · rw [if_neg h2]
          refine loop_placed hirr fuel _ _ _ (by omega) (stale_accept cr nd minNode hirr _ _ _ _) ?_
          rcases hu with ⟨u1, u2, _⟩ | ⟨u1, u2, u3, u4, _⟩
          · rw [u2] at h1 ⊢
            rcases hst with hst | hst
            · exact absurd hst h1
            · rw [if_neg (by simp [hst])]; exact hb
          · intro b hb'
            by_cases h3 : (cr.lt r.2.sc (spScore nd best) && cr.enough r.2.sc) = true
            · rw [if_pos h3] at hb'
              cases Option.some.inj hb'
              exact ⟨Nat.le_trans hs u1, u2, rfl, sidx, hs, u1, u3, fun hlt => u4 _ hlt (Nat.le_refl _)⟩
            · rw [if_neg h3] at hb'; exact hb b hb'
    · rw [if_neg h]; exact hb

/-- The counts of an accepted split are exact. -/
def Counted (b : Best V S) : Prop :=
  Left sm samp nd b.cand (b.next + 1) ∧ Right sm samp nd b.cand (b.next + 1) ∧
  minNode ≤ b.cand.nsl ∧ minNode ≤ b.cand.nsr

theorem loop_counted (hirr : ∀ a, cr.lt a a = false) (ht : Total sm samp nd)
    (hdead : ∀ i, nd.start ≤ i → i < nd.end_ → Dead nm fv nd i → Dead nm fv nd (i + 1))
    (hw : ∀ i, nd.start ≤ i → i ≤ nd.end_ → 1 ≤ sm.w (samp i))
    (hmin : minNode ≤ 2 ∨ ∀ i, nd.start ≤ i → i < nd.end_ → nm.near (fv (i + 1)) (fv i) = false) :
    ∀ (fuel sidx : Nat) (c : Cand S)
    (best : Option (Best V S)), nd.start ≤ sidx → Stale cr nd minNode c best →
    (Left sm samp nd c sidx ∨ Dead nm fv nd sidx) → (∀ b ∈ best, Counted sm samp nd minNode b) →
    ∀ b ∈ loop nm cr sm samp fv nd minNode fuel sidx c best, Counted sm samp nd minNode b
  | 0, _, _, _, _, _, _, h => h
  | fuel + 1, sidx, c, best, hs, hst, hl, hb => by
    rw [loop]
    by_cases h : sidx < nd.end_
    · rw [if_pos h]
      dsimp only
      have hu := update_cases nm cr sm samp fv nd sidx c h
      dsimp only at hu
      generalize update nm cr sm samp fv nd sidx c = r at *
      by_cases h1 : r.2.nsl < minNode
      · rw [if_pos h1]
        refine loop_counted hirr ht hdead hw hmin fuel _ _ _ (by omega) (.inl h1) ?_ hb
        rcases hu with ⟨u1, u2, u3⟩ | ⟨u1, u2, u3, u4, u5⟩
        · exact .inr (hdead sidx hs h u3)
        · rcases hl with hl | hl
          · obtain ⟨c1, c2⟩ := u5 hs ht hl
            left
            have : r.1 = sidx := by
              rcases Nat.eq_or_lt_of_le u1 with e | hlt
              · exact e.symm
              · exfalso
                rcases hmin with hm | hm
                · have := sumR_ge (wt sm samp) nd.start (r.1 + 1) (by omega) (fun i a b => by
                    have := hw i a (by omega); simp only [wt]; omega)
                  rw [← c1.1] at this
                  omega
                · have := u4 (sidx + 1) (by omega) (by omega)
                  rw [hm sidx hs h] at this
                  cases this
            rw [this] at c1
            exact c1
          · rw [hl _ (by omega) (by omega)] at u3
            cases u3
      · rw [if_neg h1]
        by_cases h2 : r.2.nsr < minNode
        · rw [if_pos h2]; exact hb
        · rw [if_neg h2]
          rcases hu with ⟨u1, u2, u3⟩ | ⟨u1, u2, u3, u4, u5⟩
          · refine loop_counted hirr ht hdead hw hmin fuel _ _ _ (by omega)
              (stale_accept cr nd minNode hirr _ _ _ _) (.inr fun j a b => by omega) ?_
            rw [u2] at h1 ⊢
            rcases hst with hst | hst
            · exact absurd hst h1
            · rw [if_neg (by simp [hst])]; exact hb
          · rcases hl with hl | hl
            · obtain ⟨c1, c2⟩ := u5 hs ht hl
              refine loop_counted hirr ht hdead hw hmin fuel _ _ _ (by omega)
                (stale_accept cr nd minNode hirr _ _ _ _) (.inl c1) ?_
              intro b hb'
              by_cases h3 : (cr.lt r.2.sc (spScore nd best) && cr.enough r.2.sc) = true
              · rw [if_pos h3] at hb'
                cases Option.some.inj hb'
                exact ⟨c1, c2, Int.not_lt.1 h1, Int.not_lt.1 h2⟩
              · rw [if_neg h3] at hb'; exact hb b hb'
            · rw [hl _ (by omega) (by omega)] at u3
              cases u3
    · rw [if_neg h]; exact hb

end

end Verif.TreeSplit
