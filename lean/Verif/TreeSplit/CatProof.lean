import Verif.TreeSplit.CatModel
import Verif.TreeSplit.Proof
import Mathlib.Tactic.ByContra

/-!
# Proofs about the categorical and histogram searches
-/

namespace Verif.TreeSplit

/-- Sum over the listed positions satisfying `P`. -/
def sumIf (l : List Nat) (P : Nat → Bool) (f : Nat → Int) : Int :=
  (l.map fun i => if P i then f i else 0).sum

theorem sumIf_nil (P : Nat → Bool) (f : Nat → Int) : sumIf [] P f = 0 := rfl

theorem sumIf_cons (i : Nat) (l : List Nat) (P : Nat → Bool) (f : Nat → Int) :
    sumIf (i :: l) P f = (if P i then f i else 0) + sumIf l P f := by
  simp [sumIf]

theorem sumIf_congr (l : List Nat) (P Q : Nat → Bool) (f : Nat → Int)
    (h : ∀ i ∈ l, P i = Q i) : sumIf l P f = sumIf l Q f := by
  unfold sumIf
  congr 1
  exact List.map_congr_left fun i hi => by rw [h i hi]

theorem sumIf_congr' (l : List Nat) (P : Nat → Bool) (f g : Nat → Int)
    (h : ∀ i ∈ l, f i = g i) : sumIf l P f = sumIf l P g := by
  unfold sumIf
  congr 1
  exact List.map_congr_left fun i hi => by rw [h i hi]

theorem sumIf_add (l : List Nat) (P Q R : Nat → Bool) (f : Nat → Int)
    (h : ∀ i ∈ l, (P i = true ∧ Q i = false ∧ R i = true) ∨ (P i = false ∧ Q i = true ∧ R i = true) ∨
      (P i = false ∧ Q i = false ∧ R i = false)) :
    sumIf l P f + sumIf l Q f = sumIf l R f := by
  induction l with
  | nil => rfl
  | cons i l ih =>
    rw [sumIf_cons, sumIf_cons, sumIf_cons]
    have := ih fun j hj => h j (List.mem_cons_of_mem _ hj)
    rcases h i List.mem_cons_self with ⟨a, b, c⟩ | ⟨a, b, c⟩ | ⟨a, b, c⟩ <;> simp [a, b, c] <;> omega

theorem sumIf_none (l : List Nat) (P : Nat → Bool) (f : Nat → Int) (h : ∀ i ∈ l, P i = false) :
    sumIf l P f = 0 := by
  induction l with
  | nil => rfl
  | cons i l ih =>
    rw [sumIf_cons, ih fun j hj => h j (List.mem_cons_of_mem _ hj), h i List.mem_cons_self]
    rfl

/-- A positive sum has a term. -/
theorem sumIf_pos (l : List Nat) (P : Nat → Bool) (f : Nat → Int) (h : 1 ≤ sumIf l P f) :
    ∃ i ∈ l, P i = true := by
  by_contra hc
  rw [sumIf_none l P f fun i hi => by
    cases e : P i with
    | false => rfl
    | true => exact absurd ⟨i, hi, e⟩ hc] at h
  omega

/-- The weight of a sample in one class. -/
def inClass (y : Nat → Nat) (wg : Nat → Int) (samp : Nat → Nat) (k i : Nat) : Int :=
  if y (samp i) = k then wg (samp i) else 0

theorem fillTable_spec (y : Nat → Nat) (wg : Nat → Int) (samp cat : Nat → Nat) :
    ∀ (l : List Nat) (t : Nat → Nat → Int) (a k : Nat),
    fillTable y wg samp cat l t a k = t a k + sumIf l (fun i => cat i == a) (inClass y wg samp k)
  | [], t, a, k => by simp [fillTable, sumIf]
  | i :: is, t, a, k => by
    rw [fillTable, fillTable_spec y wg samp cat is, sumIf_cons]
    simp only [bump, inClass]
    by_cases h1 : cat i = a
    · by_cases h2 : y (samp i) = k
      · rw [if_pos ⟨h1.symm, h2.symm⟩]; simp [h1, h2]; omega
      · rw [if_neg fun h => h2 h.2.symm]; simp [h1, h2]
    · rw [if_neg fun h => h1 h.1.symm]; simp [h1]

theorem sumClasses_zero (n : Nat) : sumClasses n (fun _ => 0) = 0 := by
  unfold sumClasses
  induction n with
  | zero => rfl
  | succ n ih => rw [List.range_succ, List.map_append, List.sum_append, ih]; rfl

/-- Summing over the classes. -/
theorem sumClasses_sumIf (y : Nat → Nat) (wg : Nat → Int) (samp : Nat → Nat) (nClass : Nat)
    (P : Nat → Bool) : ∀ l : List Nat, (∀ i ∈ l, y (samp i) < nClass) →
    sumClasses nClass (fun k => sumIf l P (inClass y wg samp k)) = sumIf l P fun i => wg (samp i)
  | [], _ => by
    simp only [sumIf_nil, sumClasses_zero]
  | i :: is, h => by
    have ih := sumClasses_sumIf y wg samp nClass P is fun j hj => h j (List.mem_cons_of_mem _ hj)
    have add : ∀ (m : Nat) (f g : Nat → Int),
        sumClasses m (fun k => f k + g k) = sumClasses m f + sumClasses m g := by
      intro m f g
      unfold sumClasses
      induction m with
      | zero => rfl
      | succ m ih => simp only [List.range_succ, List.map_append, List.sum_append, ih, List.map_cons,
          List.map_nil, List.sum_cons, List.sum_nil]; omega
    have one : ∀ (m c : Nat) (w : Int), sumClasses m (fun k => if c = k then w else 0) =
        if c < m then w else 0 := by
      intro m c w
      unfold sumClasses
      induction m with
      | zero => rfl
      | succ m ih =>
        simp only [List.range_succ, List.map_append, List.sum_append, ih, List.map_cons,
          List.map_nil, List.sum_cons, List.sum_nil]
        by_cases h1 : c < m
        · rw [if_pos h1, if_neg (by omega), if_pos (by omega)]; omega
        · by_cases h2 : c = m
          · rw [if_neg h1, if_pos h2, if_pos (by omega)]; omega
          · rw [if_neg h1, if_neg h2, if_neg (by omega)]; omega
    simp only [sumIf_cons]
    rw [add, ih]
    congr 1
    cases P i with
    | false => simp only [Bool.false_eq_true, if_false]; exact sumClasses_zero _
    | true =>
      simp only [inClass, if_true]
      rw [one, if_pos (h i List.mem_cons_self)]

section
variable {S : Type} (cr : Crit S) (nClass : Nat) (nd : Nd S) (minNode : Int)

/-- The positions of a node. -/
def positions : List Nat := List.range' nd.start (nd.end_ + 1 - nd.start)

/-- An accepted split was judged by the weights `wg` of the positions satisfying `P`. -/
def Judged (y : Nat → Nat) (wg : Nat → Int) (samp : Nat → Nat) (P : Nat → Nat → Bool) (b : BestCat S) :
    Prop :=
  b.cand.nsl = sumIf (positions nd) (P b.cat) (fun i => wg (samp i)) ∧
  b.cand.nsr = nd.ns - b.cand.nsl ∧
  (∀ k, b.cand.cl k = sumIf (positions nd) (P b.cat) (inClass y wg samp k)) ∧
  (∀ k, b.cand.cr k = nd.counts k - b.cand.cl k) ∧
  minNode ≤ b.cand.nsl ∧ minNode ≤ b.cand.nsr

theorem candOf_judged (y : Nat → Nat) (wg : Nat → Int) (samp : Nat → Nat) (P : Nat → Nat → Bool)
    (cat : Nat) (cl : Nat → Int) (hy : ∀ i ∈ positions nd, y (samp i) < nClass)
    (hcl : ∀ k, cl k = sumIf (positions nd) (P cat) (inClass y wg samp k))
    (h1 : minNode ≤ (candOf cr nClass nd cl).nsl) (h2 : minNode ≤ (candOf cr nClass nd cl).nsr)
    (best : Option (BestCat S)) (hb : ∀ b ∈ best, Judged nd minNode y wg samp P b) :
    ∀ b ∈ take cr nd cat (candOf cr nClass nd cl) best, Judged nd minNode y wg samp P b := by
  intro b hb'
  unfold take at hb'
  by_cases c : (cr.lt (candOf cr nClass nd cl).sc (catScore nd best) &&
      cr.enough (candOf cr nClass nd cl).sc) = true
  · rw [if_pos c] at hb'
    cases Option.some.inj hb'
    refine ⟨?_, rfl, hcl, fun _ => rfl, h1, h2⟩
    show sumClasses nClass cl = _
    rw [← sumClasses_sumIf y wg samp nClass (P cat) (positions nd) hy]
    congr 1
    funext k
    exact hcl k
  · rw [if_neg c] at hb'
    exact hb b hb'

theorem onevallLoop_judged (y : Nat → Nat) (wg : Nat → Int) (samp cat : Nat → Nat)
    (hy : ∀ i ∈ positions nd, y (samp i) < nClass) (t : Nat → Nat → Int)
    (ht : ∀ a k, t a k = sumIf (positions nd) (fun i => cat i == a) (inClass y wg samp k)) :
    ∀ (cats : List Nat) (best : Option (BestCat S)),
    (∀ b ∈ best, Judged nd minNode y wg samp (fun a i => cat i == a) b) →
    ∀ b ∈ onevallLoop cr nClass nd minNode t cats best,
      Judged nd minNode y wg samp (fun a i => cat i == a) b
  | [], _, hb => hb
  | c :: cats, best, hb => by
    rw [onevallLoop]
    by_cases h1 : (candOf cr nClass nd (t c)).nsl < minNode
    · rw [if_pos h1]; exact onevallLoop_judged y wg samp cat hy t ht cats best hb
    · rw [if_neg h1]
      by_cases h2 : (candOf cr nClass nd (t c)).nsr < minNode
      · rw [if_pos h2]; exact onevallLoop_judged y wg samp cat hy t ht cats best hb
      · rw [if_neg h2]
        exact onevallLoop_judged y wg samp cat hy t ht cats _
          (candOf_judged cr nClass nd minNode y wg samp _ c (t c) hy (ht c) (Int.not_lt.1 h1)
            (Int.not_lt.1 h2) best hb)

theorem splitOnevall_judged (sm : Samples) (samp cat : Nat → Nat) (nCat : Nat)
    (hy : ∀ i ∈ positions nd, sm.y (samp i) < nClass) (b : BestCat S)
    (hb : splitOnevall cr sm samp cat nClass nCat nd minNode = some b) :
    Judged nd minNode sm.y (fun _ => 1) samp (fun a i => cat i == a) b :=
  onevallLoop_judged cr nClass nd minNode sm.y (fun _ => 1) samp cat hy _
    (fun a k => by rw [fillTable_spec]; show 0 + _ = _; rw [Int.zero_add]; rfl) _ none
    (fun b hb => by cases hb) b hb

/-- The samples a histogram split sends to the left. -/
def histLeft (onevall : Bool) (bin : Nat → Nat) (b i : Nat) : Bool :=
  if onevall then bin i == b else decide (bin i ≤ b)

theorem histLoop_judged (y : Nat → Nat) (wg : Nat → Int) (samp bin : Nat → Nat) (onevall : Bool)
    (hy : ∀ i ∈ positions nd, y (samp i) < nClass) (t : Nat → Nat → Int)
    (ht : ∀ a k, t a k = sumIf (positions nd) (fun i => bin i == a) (inClass y wg samp k))
    (present : Nat → Bool) (hp : ∀ b, present b = (positions nd).any fun i => bin i == b) :
    ∀ (n c0 : Nat) (acc : Nat → Int) (old : Int) (best : Option (BestCat S)),
    (onevall = false →
      ∀ k, acc k = sumIf (positions nd) (fun i => decide (bin i < c0)) (inClass y wg samp k)) →
    (∀ b ∈ best, Judged nd minNode y wg samp (histLeft onevall bin) b) →
    ∀ b ∈ histLoop cr nClass nd minNode onevall present t (List.range' c0 n) acc old best,
      Judged nd minNode y wg samp (histLeft onevall bin) b
  | 0, _, _, _, _, _, hb => hb
  | n + 1, c0, acc, old, best, hacc, hb => by
    rw [List.range'_succ, histLoop]
    have step : ∀ k, sumIf (positions nd) (fun i => decide (bin i < c0)) (inClass y wg samp k) +
        sumIf (positions nd) (fun i => bin i == c0) (inClass y wg samp k) =
        sumIf (positions nd) (fun i => decide (bin i < c0 + 1)) (inClass y wg samp k) := by
      intro k
      apply sumIf_add
      intro i _
      simp only [decide_eq_true_eq, decide_eq_false_iff_not, beq_iff_eq, beq_eq_false_iff_ne]
      omega
    by_cases h0 : present c0 = true
    · rw [if_neg (by simp [h0])]
      dsimp only
      have hcl : ∀ k, (if onevall = true then t c0 else fun k => acc k + t c0 k) k =
          sumIf (positions nd) (histLeft onevall bin c0) (inClass y wg samp k) := by
        intro k
        cases ho : onevall with
        | true => simp only [if_true]; rw [ht]; rfl
        | false =>
          simp only [Bool.false_eq_true, if_false]
          rw [hacc ho k, ht, step]
          apply sumIf_congr
          intro i _
          simp only [histLeft, Bool.false_eq_true, if_false]
          exact decide_eq_decide.2 (by omega)
      have hacc' : onevall = false → ∀ k, (if onevall = true then t c0 else fun k => acc k + t c0 k) k =
          sumIf (positions nd) (fun i => decide (bin i < c0 + 1)) (inClass y wg samp k) := by
        intro ho k
        rw [hcl]
        apply sumIf_congr
        intro i _
        simp only [histLeft, ho, Bool.false_eq_true, if_false]
        exact decide_eq_decide.2 (by omega)
      generalize (if onevall = true then t c0 else fun k => acc k + t c0 k) = cl at *
      by_cases h1 : (candOf cr nClass nd cl).nsl < minNode ∨ (candOf cr nClass nd cl).nsl ≤ old
      · rw [if_pos h1]
        exact histLoop_judged y wg samp bin onevall hy t ht present hp n (c0 + 1) _ _ _ hacc' hb
      · rw [if_neg h1]
        by_cases h2 : (candOf cr nClass nd cl).nsr < minNode
        · rw [if_pos h2]; exact hb
        · rw [if_neg h2]
          refine histLoop_judged y wg samp bin onevall hy t ht present hp n (c0 + 1) _ _ _ hacc' ?_
          exact candOf_judged cr nClass nd minNode y wg samp _ c0 cl hy hcl (by omega)
            (Int.not_lt.1 h2) best hb
    · rw [if_pos (by simpa using h0)]
      refine histLoop_judged y wg samp bin onevall hy t ht present hp n (c0 + 1) _ _ _ ?_ hb
      intro ho k
      rw [hacc ho k, ← step, sumIf_none _ (fun i => bin i == c0), Int.add_zero]
      intro i hi
      rw [hp] at h0
      cases e : bin i == c0 with
      | false => rfl
      | true => exact absurd (List.any_eq_true.2 ⟨i, hi, e⟩) h0

theorem splitHist_judged (sm : Samples) (samp bin : Nat → Nat) (nBins : Nat) (onevall : Bool)
    (hy : ∀ i ∈ positions nd, sm.y (samp i) < nClass) (b : BestCat S)
    (hb : splitHist cr sm samp bin nClass nBins nd minNode onevall = some b) :
    Judged nd minNode sm.y (fun s => sm.w s) samp (histLeft onevall bin) b := by
  unfold splitHist at hb
  rw [List.range_eq_range'] at hb
  refine histLoop_judged cr nClass nd minNode sm.y (fun s => sm.w s) samp bin onevall hy _
    (fun a k => by rw [fillTable_spec]; show 0 + _ = _; rw [Int.zero_add]; rfl) _ (fun _ => rfl)
    nBins 0 _ _ none ?_ (fun b hb => by cases hb) b hb
  intro _ k
  rw [sumIf_none]
  intro i _
  simp

end

end Verif.TreeSplit
