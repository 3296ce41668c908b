import Verif.TreeSplit.CatProof
import Verif.TreeSplit.Props

/-!
# C53: splits on categories and bins are judged by the samples they really separate
-/

namespace Verif.TreeSplit

/-- Total weight of the samples of a node at positions satisfying `P`, of all classes or of one. -/
def weightIf {S} (sm : Samples) (samp : Nat → Nat) (nd : Nd S) (P : Nat → Prop) [DecidablePred P] : Int :=
  ((List.range' nd.start (nd.end_ + 1 - nd.start)).map fun i =>
    if P i then (sm.w (samp i) : Int) else 0).sum

def classWeightIf {S} (sm : Samples) (samp : Nat → Nat) (nd : Nd S) (k : Nat) (P : Nat → Prop)
    [DecidablePred P] : Int :=
  ((List.range' nd.start (nd.end_ + 1 - nd.start)).map fun i =>
    if P i ∧ sm.y (samp i) = k then (sm.w (samp i) : Int) else 0).sum

/-- The split found was judged by the counts of the samples satisfying `P` and of the others, and each
side has at least `minNode` samples. -/
def HonestCat {S} (sm : Samples) (samp : Nat → Nat) (nd : Nd S) (minNode : Int) (P : Nat → Prop)
    [DecidablePred P] (b : BestCat S) : Prop :=
  b.cand.nsl = weightIf sm samp nd P ∧ b.cand.nsr = weightIf sm samp nd (fun i => ¬ P i) ∧
  (∀ k, b.cand.cl k = classWeightIf sm samp nd k P) ∧
  (∀ k, b.cand.cr k = classWeightIf sm samp nd k (fun i => ¬ P i)) ∧
  minNode ≤ weightIf sm samp nd P ∧ minNode ≤ weightIf sm samp nd (fun i => ¬ P i)

/-- The counts of the node are those of its samples, whose classes are below `nClass`. -/
def Counts {S} (sm : Samples) (samp : Nat → Nat) (nClass : Nat) (nd : Nd S) : Prop :=
  nd.ns = weightIf sm samp nd (fun _ => True) ∧
  (∀ k, nd.counts k = classWeightIf sm samp nd k (fun _ => True)) ∧
  ∀ i, nd.start ≤ i → i ≤ nd.end_ → sm.y (samp i) < nClass

/-- C53 in full: one-vs-all on raw categories, and the two histogram strategies. -/
def C53_statement : Prop :=
  ∀ (S : Type) (cr : Crit S) (sm : Samples) (samp cat : Nat → Nat) (nClass n : Nat) (nd : Nd S)
    (minNode : Int), Counts sm samp nClass nd → ∀ b,
    (splitOnevall cr sm samp cat nClass n nd minNode = some b →
      HonestCat sm samp nd minNode (fun i => cat i = b.cat) b) ∧
    (splitHist cr sm samp cat nClass n nd minNode false = some b →
      HonestCat sm samp nd minNode (fun i => cat i ≤ b.cat) b) ∧
    (splitHist cr sm samp cat nClass n nd minNode true = some b →
      HonestCat sm samp nd minNode (fun i => cat i = b.cat) b)

/-- Two samples of one category, one drawn three times, of class 0, and one drawn once, of class 1. -/
def drawn : Samples := { y := fun i => i, w := fun i => if i = 0 then 3 else 1 }
def drawnNd : Nd (Int × Int) :=
  { start := 0, end_ := 1, ns := 4, counts := fun k => if k = 0 then 3 else if k = 1 then 1 else 0,
    score := (16 - 9 - 1, 16) }

/-- In a bootstrap sample `split_raw_onevall` counts every drawn sample once on the left but with its
frequency in the total: a category that all samples of the node share is accepted as a split, with
two samples supposedly on each side. -/
theorem C53_violated : ¬ C53_statement := by
  intro h
  have h := h (Int × Int) gini2 drawn id (fun _ => 0) 2 3 drawnNd 2 (by
    refine ⟨by decide +kernel, fun k => ?_, fun i _ h2 => ?_⟩
    · by_cases h0 : k = 0
      · subst h0; decide +kernel
      · by_cases h1 : k = 1
        · subst h1; decide +kernel
        · have h0' : ¬ 0 = k := fun h => h0 h.symm
          have h1' : ¬ 1 = k := fun h => h1 h.symm
          simp [drawnNd, classWeightIf, drawn, List.range', h0, h1, h0', h1']
    · exact Nat.lt_succ_of_le h2)
  have e : (splitOnevall gini2 drawn id (fun _ => 0) 2 3 drawnNd 2).map
      (fun b => (b.cat, b.cand.nsl, b.cand.nsr)) = some (0, 2, 2) := by decide +kernel
  obtain ⟨b, h1, h2⟩ := Option.map_eq_some_iff.1 e
  obtain ⟨h3, _⟩ := (h b).1 h1
  have h4 := (Prod.mk.inj h2).1
  have h5 := (Prod.mk.inj (Prod.mk.inj h2).2).1
  rw [h4, h5] at h3
  revert h3
  decide +kernel

theorem honest_of_judged {S} (sm : Samples) (samp : Nat → Nat) (nClass : Nat) (nd : Nd S) (minNode : Int)
    (hc : Counts sm samp nClass nd) (wg : Nat → Int)
    (hw : ∀ i, nd.start ≤ i → i ≤ nd.end_ → wg (samp i) = sm.w (samp i))
    (Q : Nat → Nat → Bool) (b : BestCat S) (hb : Judged nd minNode sm.y wg samp Q b)
    (P : Nat → Prop) [DecidablePred P] (hP : ∀ i, P i ↔ Q b.cat i = true) :
    HonestCat sm samp nd minNode P b := by
  have hmem : ∀ i ∈ positions nd, nd.start ≤ i ∧ i ≤ nd.end_ := by
    intro i hi
    unfold positions at hi
    rw [List.mem_range'_1] at hi
    omega
  have w1 : ∀ (P : Nat → Prop) [DecidablePred P] (R : Nat → Bool), (∀ i, P i ↔ R i = true) →
      weightIf sm samp nd P = sumIf (positions nd) R fun i => wg (samp i) := by
    intro P _ R h
    unfold weightIf sumIf positions
    congr 1
    apply List.map_congr_left
    intro i hi
    have := hmem i hi
    show _ = if R i = true then wg (samp i) else 0
    rw [hw i this.1 this.2]
    by_cases hp : P i
    · rw [if_pos hp, if_pos ((h i).1 hp)]
    · rw [if_neg hp, if_neg fun x => hp ((h i).2 x)]
  have w2 : ∀ (k : Nat) (P : Nat → Prop) [DecidablePred P] (R : Nat → Bool), (∀ i, P i ↔ R i = true) →
      classWeightIf sm samp nd k P = sumIf (positions nd) R (inClass sm.y wg samp k) := by
    intro k P _ R h
    unfold classWeightIf sumIf positions inClass
    congr 1
    apply List.map_congr_left
    intro i hi
    have := hmem i hi
    show _ = if R i = true then (if sm.y (samp i) = k then wg (samp i) else 0) else 0
    rw [hw i this.1 this.2]
    by_cases hp : P i
    · rw [if_pos ((h i).1 hp)]
      by_cases hq : sm.y (samp i) = k
      · rw [if_pos ⟨hp, hq⟩, if_pos hq]
      · rw [if_neg fun x => hq x.2, if_neg hq]
    · rw [if_neg fun x => hp x.1, if_neg fun x => hp ((h i).2 x)]
  have add : ∀ f, sumIf (positions nd) (Q b.cat) f + sumIf (positions nd) (fun i => !Q b.cat i) f =
      sumIf (positions nd) (fun _ => true) f := by
    intro f
    apply sumIf_add
    intro i _
    cases Q b.cat i <;> simp
  obtain ⟨j1, j2, j3, j4, j5, j6⟩ := hb
  have n1 := w1 P (Q b.cat) hP
  have n2 := w1 (fun i => ¬ P i) (fun i => !Q b.cat i) (fun i => by rw [hP i]; simp)
  have n3 := hc.1
  rw [w1 (fun _ => True) (fun _ => true) (fun _ => by simp), ← add] at n3
  have e2 : b.cand.nsr = weightIf sm samp nd (fun i => ¬ P i) := by omega
  refine ⟨by omega, e2, ?_, ?_, by omega, by omega⟩
  · intro k
    rw [j3 k, w2 k P (Q b.cat) hP]
  · intro k
    have m3 := hc.2.1 k
    rw [w2 k (fun _ => True) (fun _ => true) (fun _ => by simp), ← add] at m3
    rw [j4 k, j3 k, m3, w2 k (fun i => ¬ P i) (fun i => !Q b.cat i) (fun i => by rw [hP i]; simp)]
    omega

/-- C53 for the histogram strategies, with or without bootstrap. -/
theorem C53_hist {S : Type} (cr : Crit S) (sm : Samples) (samp bin : Nat → Nat) (nClass nBins : Nat)
    (nd : Nd S) (minNode : Int) (hc : Counts sm samp nClass nd) (b : BestCat S) :
    (splitHist cr sm samp bin nClass nBins nd minNode false = some b →
      HonestCat sm samp nd minNode (fun i => bin i ≤ b.cat) b) ∧
    (splitHist cr sm samp bin nClass nBins nd minNode true = some b →
      HonestCat sm samp nd minNode (fun i => bin i = b.cat) b) := by
  have hy : ∀ i ∈ positions nd, sm.y (samp i) < nClass := by
    intro i hi
    unfold positions at hi
    rw [List.mem_range'_1] at hi
    exact hc.2.2 i hi.1 (by omega)
  constructor
  · intro h
    exact honest_of_judged sm samp nClass nd minNode hc _ (fun _ _ _ => rfl) _ b
      (splitHist_judged cr nClass nd minNode sm samp bin nBins false hy b h) _
      (fun i => by simp [histLeft])
  · intro h
    exact honest_of_judged sm samp nClass nd minNode hc _ (fun _ _ _ => rfl) _ b
      (splitHist_judged cr nClass nd minNode sm samp bin nBins true hy b h) _
      (fun i => by simp [histLeft])

/-- C53 for raw categories, without repetitions in the sample. -/
theorem C53_onevall_partial {S : Type} (cr : Crit S) (sm : Samples) (samp cat : Nat → Nat)
    (nClass nCat : Nat) (nd : Nd S) (minNode : Int) (hc : Counts sm samp nClass nd)
    (hw : ∀ i, nd.start ≤ i → i ≤ nd.end_ → sm.w (samp i) = 1) (b : BestCat S)
    (h : splitOnevall cr sm samp cat nClass nCat nd minNode = some b) :
    HonestCat sm samp nd minNode (fun i => cat i = b.cat) b := by
  have hy : ∀ i ∈ positions nd, sm.y (samp i) < nClass := by
    intro i hi
    unfold positions at hi
    rw [List.mem_range'_1] at hi
    exact hc.2.2 i hi.1 (by omega)
  exact honest_of_judged sm samp nClass nd minNode hc (fun _ => 1)
    (fun i h1 h2 => by rw [hw i h1 h2]; rfl) _ b
    (splitOnevall_judged cr nClass nd minNode sm samp cat nCat hy b h) _ (fun i => by simp)

/-! ### Examples -/

-- the six samples of `C50_violated` with bins 0, 0, 1, 2, 2, 3: the best split is after bin 0
example : (splitHist gini2 six id (fun i => [0, 0, 1, 2, 2, 3].getD i 0) 2 4 sixNd 2 false).map
    (fun b => (b.cat, b.cand.nsl, b.cand.nsr, b.cand.cl 0, b.cand.cl 1, b.cand.cr 1)) =
      some (0, 2, 4, 2, 0, 4) := by decide +kernel

example : (splitOnevall gini2 six id (fun i => [0, 0, 1, 2, 2, 3].getD i 0) 2 4 sixNd 2).map
    (fun b => (b.cat, b.cand.nsl, b.cand.nsr)) = some (0, 2, 4) := by decide +kernel

end Verif.TreeSplit
