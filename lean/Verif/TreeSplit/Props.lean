import Verif.TreeSplit.Proof

/-!
# C50: splits are judged by the samples they really separate
-/

namespace Verif.TreeSplit

/-- Total weight of the samples at the positions `a, …, b`, of all classes or of one. -/
def weight (sm : Samples) (samp : Nat → Nat) (a b : Nat) : Int :=
  ((List.range' a (b + 1 - a)).map fun i => (sm.w (samp i) : Int)).sum

def classWeight (sm : Samples) (samp : Nat → Nat) (k a b : Nat) : Int :=
  ((List.range' a (b + 1 - a)).map fun i => if sm.y (samp i) = k then (sm.w (samp i) : Int) else 0).sum

/-- The situation in which the search is called: values sorted by a total order, the counts of the node
are those of its samples, each of weight at least 1, and nearness is that of an interval. -/
structure Ready {V S} (le : V → V → Prop) (nm : Num V) (cr : Crit S) (sm : Samples) (samp : Nat → Nat)
    (fv : Nat → V) (nd : Nd S) (minNode : Int) : Prop where
  irrefl : ∀ a, cr.lt a a = false
  pos : 1 ≤ minNode
  sorted : ∀ i j, nd.start ≤ i → i ≤ j → j ≤ nd.end_ → le (fv i) (fv j)
  near : ∀ a b c, le a b → le b c → nm.near c a = true → nm.near c b = true
  ns : nd.ns = weight sm samp nd.start nd.end_
  counts : ∀ k, nd.counts k = classWeight sm samp k nd.start nd.end_
  drawn : ∀ i, nd.start ≤ i → i ≤ nd.end_ → 1 ≤ sm.w (samp i)

/-- The split found is inside the node, its threshold is between the values on its two sides, it was
judged by the counts of the samples on the two sides, and each side has at least `minNode` samples. -/
def Honest {V S} (nm : Num V) (sm : Samples) (samp : Nat → Nat) (fv : Nat → V) (nd : Nd S)
    (minNode : Int) (b : Best V S) : Prop :=
  nd.start ≤ b.next ∧ b.next < nd.end_ ∧ b.thr = nm.mid (fv b.next) (fv (b.next + 1)) ∧
  b.cand.nsl = weight sm samp nd.start b.next ∧ b.cand.nsr = weight sm samp (b.next + 1) nd.end_ ∧
  (∀ k, b.cand.cl k = classWeight sm samp k nd.start b.next) ∧
  (∀ k, b.cand.cr k = classWeight sm samp k (b.next + 1) nd.end_) ∧
  minNode ≤ weight sm samp nd.start b.next ∧ minNode ≤ weight sm samp (b.next + 1) nd.end_

/-- C50 in full. -/
def C50_statement : Prop :=
  ∀ (V S : Type) (le : V → V → Prop) (nm : Num V) (cr : Crit S) (sm : Samples) (samp : Nat → Nat)
    (fv : Nat → V) (nd : Nd S) (minNode : Int), Ready le nm cr sm samp fv nd minNode →
    ∀ b, splitRaw nm cr sm samp fv nd minNode = some b → Honest nm sm samp fv nd minNode b

/-! ### The witness -/

/-- Values that are integers, with `feature threshold` 1 (values nearer than 1 are equal); midpoints
are doubled. -/
def intNum : Num Int := { near := fun a b => decide ((a - b).natAbs < 1), mid := fun a b => a + b }

/-- The Gini score of two classes as a pair of numerator and denominator, compared by cross
multiplication; the average is `Σ (ns - Σ count² / ns) / ns`. -/
def gini2 : Crit (Int × Int) where
  score ns c := (ns * ns - c 0 * c 0 - c 1 * c 1, ns * ns)
  avg l nl r nr ns := (l.1 * nl * r.2 + r.1 * nr * l.2, l.2 * r.2 * ns)
  lt a b := decide (a.1 * b.2 < b.1 * a.2)
  enough _ := true
  zero := (0, 1)

/-- Six samples with values 1, 1, 2, 3, 4, 5, the first two of class 0, the others of class 1. -/
def six : Samples := { y := fun i => if i < 2 then 0 else 1, w := fun _ => 1 }
def sixV (i : Nat) : Int := [1, 1, 2, 3, 4, 5].getD i 0
def sixNd : Nd (Int × Int) :=
  { start := 0, end_ := 5, ns := 6, counts := fun k => if k = 0 then 2 else if k = 1 then 4 else 0,
    score := (36 - 4 - 16, 36) }

theorem six_ready : Ready (· ≤ ·) intNum gini2 six id sixV sixNd 3 where
  irrefl a := by simp [gini2]
  pos := by decide
  sorted := by
    have : ∀ i j : Fin 6, i ≤ j → sixV i.1 ≤ sixV j.1 := by decide +kernel
    intro i j _ h1 h2
    have h2 : j ≤ 5 := h2
    exact this ⟨i, by omega⟩ ⟨j, by omega⟩ h1
  near a b c h1 h2 h := by
    simp only [intNum, decide_eq_true_eq] at h ⊢
    omega
  ns := by decide +kernel
  counts k := by
    by_cases h0 : k = 0
    · subst h0; decide +kernel
    · by_cases h1 : k = 1
      · subst h1; decide +kernel
      · have h0' : ¬ 0 = k := fun h => h0 h.symm
        have h1' : ¬ 1 = k := fun h => h1 h.symm
        simp [sixNd, classWeight, six, List.range', h0, h1, h0', h1']
  drawn _ _ _ := Nat.le_refl _

/-- With a minimum of 3, the two samples of value 1 are counted, found too few, and the second is
counted again: the split between 1 and 2 is accepted with a count of 3, although it separates two
samples. -/
theorem C50_violated : ¬ C50_statement := by
  intro h
  have h := h Int (Int × Int) (· ≤ ·) intNum gini2 six id sixV sixNd 3 six_ready
  have e : (splitRaw intNum gini2 six id sixV sixNd 3).map (fun b => (b.next, b.cand.nsl)) =
      some (1, 3) := by decide +kernel
  obtain ⟨b, h1, h2⟩ := Option.map_eq_some_iff.1 e
  obtain ⟨_, _, _, h3, _⟩ := h b h1
  have h4 := (Prod.mk.inj h2).1
  have h5 := (Prod.mk.inj h2).2
  rw [h4, h5] at h3
  revert h3
  decide +kernel

/-- C50 holds when the minimum is 1 or 2 (the default), or no two samples of the node have values that
are near. -/
theorem C50_partial {V S : Type} (le : V → V → Prop) (nm : Num V) (cr : Crit S) (sm : Samples)
    (samp : Nat → Nat) (fv : Nat → V) (nd : Nd S) (minNode : Int)
    (hr : Ready le nm cr sm samp fv nd minNode)
    (h : minNode ≤ 2 ∨ ∀ i, nd.start ≤ i → i < nd.end_ → nm.near (fv (i + 1)) (fv i) = false)
    (b : Best V S) (hb : splitRaw nm cr sm samp fv nd minNode = some b) :
    Honest nm sm samp fv nd minNode b := by
  have hst : ∀ c : Cand S, c.nsl = 0 → Stale cr nd minNode c (none : Option (Best V S)) := by
    intro c hc
    left
    have := hr.pos
    omega
  obtain ⟨p1, p2, p3, _⟩ := loop_placed nm cr sm samp fv nd minNode hr.irrefl _ _ _ none
    (Nat.le_refl _) (hst _ rfl) (fun b hb => by cases hb) b hb
  obtain ⟨c1, c2, c3, c4⟩ := loop_counted nm cr sm samp fv nd minNode hr.irrefl ⟨hr.ns, hr.counts⟩
    (fun i a1 a2 hd j b1 b2 => hr.near (fv i) _ _ (hr.sorted _ _ a1 (by omega) (by omega))
      (hr.sorted _ _ (by omega) (by omega) b2) (hd j (by omega) b2))
    hr.drawn h _ _ _ none (Nat.le_refl _) (hst _ rfl)
    (.inl ⟨by rw [sumR_self], fun k => by rw [sumR_self]⟩) (fun b hb => by cases hb) b hb
  refine ⟨p1, p2, p3, c1.1, c2.1, c1.2, c2.2, ?_, ?_⟩
  · rw [c1.1] at c3; exact c3
  · rw [c2.1] at c4; exact c4

-- with the default minimum the same samples are split correctly
example : (splitRaw intNum gini2 six id sixV sixNd 2).map (fun b => (b.next, b.cand.nsl, b.cand.nsr, b.thr)) =
    some (1, 2, 4, 3) := by decide +kernel

end Verif.TreeSplit
