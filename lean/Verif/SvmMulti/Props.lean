import Verif.SvmMulti.Proof
import Mathlib.Data.Rat.Defs
import Mathlib.Algebra.Order.Field.Rat

/-
C78: results of a multiclass SVM.
-/
namespace Verif.SvmMulti

/-- The multiclass results are right: `mult a b` are the multipliers of the classifier of
classes `a < b`, in the order of the rows with these labels.

* a sample is a support vector if its multiplier in some classifier is above the
  threshold; `n_sv` and `n_sv_per_class` count them;
* `support_indexes` lists them by class, then by row;
* column `k` of `support_coefficients` (`K - 1` rows) belongs to sample
  `support_indexes[k]`; its rows are the coefficients in the classifiers against the
  other classes in increasing order, positive in the classifiers in which its class is
  the first. -/
def Good {F : Type} [Field F] [LinearOrder F] (nrow K : Nat) (y : Nat → Nat) (epsilon : F)
    (mult : Nat → Nat → Nat → F) (r : Option (Result F)) : Prop :=
  let position := fun a b x => ((List.range x).filter fun z => decide (y z = a) || decide (y z = b)).length
  let support := fun x => ∃ a b, a < b ∧ b < K ∧ (y x = a ∨ y x = b) ∧ epsilon < |mult a b (position a b x)|
  ∃ R, r = some R ∧
    (∃ isSv : Nat → Bool, (∀ x, x < nrow → (isSv x = true ↔ support x)) ∧
      R.nsv = ((List.range nrow).filter isSv).length ∧
      ∀ c, R.per c = ((List.range nrow).filter fun x => isSv x && decide (y x = c)).length) ∧
    (∀ k, k < R.nsv → R.index k < nrow ∧ support (R.index k)) ∧
    (∀ x, x < nrow → support x → ∃ k, k < R.nsv ∧ R.index k = x) ∧
    (∀ k l, k < l → l < R.nsv → y (R.index k) < y (R.index l) ∨
      (y (R.index k) = y (R.index l) ∧ R.index k < R.index l)) ∧
    ∀ k c, k < R.nsv → c < K → c ≠ y (R.index k) →
      let x := R.index k
      let m := if y x < c then mult (y x) c (position (y x) c x) else mult c (y x) (position c (y x) x)
      R.coef ((K - 1) * k + if c < y x then c else c - 1) =
        if epsilon < |m| then (if y x < c then m else -m) else m

/-- The classifiers after several calls of `compute`. -/
def refit {F : Type} [Field F] [LinearOrder F] (nrow K : Nat) (y : Nat → Nat) (epsilon : F)
    (as : List (Nat → Nat → F)) (cs : List (Clf F)) : List (Clf F) :=
  as.foldl (fun cs a => (compute nrow K y epsilon a cs (fun _ => 0) fun _ => 0).1) cs

/-- Full property: every call of `compute` after `set_data` gives the right results,
whatever the multipliers found by the classifiers. -/
def C78_statement (F : Type) [Field F] [LinearOrder F] : Prop :=
  ∀ (nrow K : Nat) (y : Nat → Nat) (epsilon : F) (cs : List (Clf F)) (as : List (Nat → Nat → F))
    (a : Nat → Nat → F) (mult : Nat → Nat → Nat → F) (coef0 : Nat → F) (index0 : Nat → Nat),
    2 < K → (∀ x, x < nrow → y x < K) → setData nrow K y = some cs →
    (∀ k p, (pairs K)[k]? = some p → a k = mult p.1 p.2) →
    Good nrow K y epsilon mult (compute nrow K y epsilon a (refit nrow K y epsilon as cs) coef0 index0).2

/-- The first call is right. -/
theorem C78_first_fit_partial {F : Type} [Field F] [LinearOrder F] [IsStrictOrderedRing F]
    (nrow K : Nat) (y : Nat → Nat) (epsilon : F) (cs : List (Clf F)) (a : Nat → Nat → F)
    (mult : Nat → Nat → Nat → F) (coef0 : Nat → F) (index0 : Nat → Nat)
    (hlab : ∀ x, x < nrow → y x < K) (hset : setData nrow K y = some cs)
    (ha : ∀ k p, (pairs K)[k]? = some p → a k = mult p.1 p.2) :
    Good nrow K y epsilon mult (compute nrow K y epsilon a cs coef0 index0).2 := by
  have e := setData_compute hset epsilon a mult ha
  let G : Nat → Nat → Clf F := fun i j => setSv epsilon (mult i j) (fresh F nrow y i j)
  have eG : (cs.mapIdx fun k c => setSv epsilon (a k) c) = (pairs K).map fun p => G p.1 p.2 := e
  have hmade : ∀ i j, i < j → j < K → Made nrow y i j (G i j) := fun i j _ _ =>
    setSv_made (fresh_made i j) epsilon (mult i j)
  unfold compute collect
  simp only [eG]
  obtain ⟨hcounts, hsv⟩ := gather_counts (nrow := nrow) (K := K) (y := y)
    ((pairs K).map fun p => G p.1 p.2) hlab (by
      intro c hc
      rw [List.mem_map] at hc
      obtain ⟨p, hp, rfl⟩ := hc
      exact (fresh_sup p.1 p.2 epsilon (mult p.1 p.2)).1)
  generalize hg : gather ((pairs K).map fun p => G p.1 p.2) = g at *
  have hsup : ∀ x, x < nrow → (g.isSv x = true ↔ ∃ i j, i < j ∧ j < K ∧ (y x = i ∨ y x = j) ∧
      epsilon < |mult i j (cnt (inPair y i j) x)|) := by
    intro x hx
    rw [hsv]
    constructor
    · rintro ⟨c, hc, s, hs, ex⟩
      rw [List.mem_map] at hc
      obtain ⟨p, hp, rfl⟩ := hc
      have hp' := mem_pairs.1 (show (p.1, p.2) ∈ pairs K from hp)
      have := ((fresh_sup p.1 p.2 epsilon (mult p.1 p.2)).2 x).1 ⟨s, hs, ex⟩
      exact ⟨p.1, p.2, hp'.1, hp'.2, this.2.1, this.2.2⟩
    · rintro ⟨i, j, hij, hj, hy, he⟩
      obtain ⟨s, hs, ex⟩ := ((fresh_sup (nrow := nrow) (y := y) i j epsilon (mult i j)).2 x).2 ⟨hx, hy, he⟩
      exact ⟨G i j, List.mem_map.2 ⟨(i, j), mem_pairs.2 ⟨hij, hj⟩, rfl⟩, s, hs, ex⟩
  obtain ⟨f, ef, hf⟩ := fill_all hcounts hmade coef0
  obtain ⟨ix, ei, hix⟩ := index_loop hcounts index0
  rw [ef]
  simp only [Option.bind_eq_bind, Option.bind_some]
  rw [ei]
  simp only [Option.bind_some]
  refine ⟨_, rfl, ⟨g.isSv, hsup, hcounts.nsv, hcounts.per⟩, ?_, ?_, ?_, ?_⟩
  · intro k hk
    obtain ⟨x, hx, hs, hc⟩ := hcounts.col_surj hk
    have e1 : ix.2 k = x := by rw [← hc]; exact hix x hx hs
    simp only [e1]
    exact ⟨hx, (hsup x hx).1 hs⟩
  · intro x hx hs
    have hs' := (hsup x hx).2 hs
    exact ⟨_, hcounts.col_lt hx hs', hix x hx hs'⟩
  · intro k l hkl hl
    obtain ⟨x, hx, hs, hc⟩ := hcounts.col_surj (show k < g.nsv from lt_trans hkl hl)
    obtain ⟨z, hz, hs', hc'⟩ := hcounts.col_surj (show l < g.nsv from hl)
    have e1 : ix.2 k = x := by rw [← hc]; exact hix x hx hs
    have e2 : ix.2 l = z := by rw [← hc']; exact hix z hz hs'
    show y (ix.2 k) < y (ix.2 l) ∨ (y (ix.2 k) = y (ix.2 l) ∧ ix.2 k < ix.2 l)
    rw [e1, e2]
    by_contra hno
    have hne : x ≠ z := fun h => by rw [h, hc'] at hc; omega
    have := hcounts.col_mono hz hx hs' hs (by omega)
    omega
  · intro k c hk hcK hne
    obtain ⟨x, hx, hs, hc⟩ := hcounts.col_surj hk
    have e1 : ix.2 k = x := by rw [← hc]; exact hix x hx hs
    have hyx := hlab x hx
    have hne' : c ≠ y x := by
      have : c ≠ y (ix.2 k) := hne
      rwa [e1] at this
    simp only [e1]
    rw [← hc]
    by_cases hlt : y x < c
    · have hnlt : ¬ c < y x := by omega
      simp only [if_pos hlt]
      rw [if_neg hnlt, (hf (y x) c hlt hcK x hx hs).1 rfl]
      have hp : inPair y (y x) c x = true := by simp [inPair]
      obtain ⟨_, g2⟩ := (fresh_made (F := F) (nrow := nrow) (y := y) (y x) c).get hx hp
      show (if decide (epsilon < |mult (y x) c (cnt (inPair y (y x) c) x)|) = true then
        mult (y x) c (cnt (inPair y (y x) c) x) *
          (if (fresh F nrow y (y x) c).isPos.getD (cnt (inPair y (y x) c) x) false = true then 1 else -1)
        else _) = _
      rw [g2]
      simp only [decide_true, if_true, mul_one, decide_eq_true_eq]
      rfl
    · have hlt' : c < y x := by omega
      simp only [if_neg hlt]
      rw [if_pos hlt', (hf c (y x) hlt' hyx x hx hs).2 rfl]
      have hp : inPair y c (y x) x = true := by simp [inPair]
      obtain ⟨_, g2⟩ := (fresh_made (F := F) (nrow := nrow) (y := y) c (y x)).get hx hp
      show (if decide (epsilon < |mult c (y x) (cnt (inPair y c (y x)) x)|) = true then
        mult c (y x) (cnt (inPair y c (y x)) x) *
          (if (fresh F nrow y c (y x)).isPos.getD (cnt (inPair y c (y x)) x) false = true then 1 else -1)
        else _) = _
      rw [g2]
      simp only [hne'.symm, decide_false, Bool.false_eq_true, if_false, decide_eq_true_eq,
        mul_neg, mul_one]
      rfl

/-! Five samples with three classes: the multipliers are 1, 2, 3, ... in each classifier,
multiplied by the number of the classifier plus one; sample 3 is no support vector of
the last classifier. -/
def exY : Nat → Nat := fun x => [2, 0, 1, 1, 0].getD x 0
def exA : Nat → Nat → ℚ := fun k l => if k = 2 ∧ l = 2 then 0 else (k + 1) * (l + 1)

example : ((compute 5 3 exY (1 / 1000) exA ((setData 5 3 exY).getD []) (fun _ => 0) fun _ => 0).2.map
    fun r => (r.nsv, (List.range 3).map r.per, (List.range r.nsv).map r.index,
      (List.range (2 * r.nsv)).map r.coef)) =
    some (5, [2, 2, 1], [1, 4, 2, 3, 0], [1, 4, 4, 6, -2, 6, -3, 0, -2, -3]) := by decide +kernel

/-- Fitting twice: three samples with labels 2, 0, 1.  The second fit writes beyond the
end of `support_coefficients`. -/
theorem C78_refit_violated : ¬ C78_statement ℚ := by
  intro h
  have h1 := h 3 3 (fun x => [2, 0, 1].getD x 0) (1 / 1000)
    ((setData 3 3 fun x => [2, 0, 1].getD x 0).getD []) [fun _ _ => 1] (fun _ _ => 1) (fun _ _ _ => 1)
    (fun _ => 0) (fun _ => 0) (by decide) (by decide) (by rfl) (fun _ _ _ => rfl)
  obtain ⟨R, hR, _⟩ := h1
  have : (compute 3 3 (fun x => [2, 0, 1].getD x 0) (1 / 1000 : ℚ) (fun _ _ => 1)
      (refit 3 3 (fun x => [2, 0, 1].getD x 0) (1 / 1000) [fun _ _ => 1]
        ((setData 3 3 fun x => [2, 0, 1].getD x 0).getD [])) (fun _ => 0) fun _ => 0).2.isNone = true := by
    decide +kernel
  rw [hR] at this
  cases this

/-- The counts of a classifier (`n_support_per_class`, which the handle returns as
`n_sv_per_class` of a binary problem) grow with every fit. -/
theorem C78_counts_grow {F : Type} [Field F] [LinearOrder F] (epsilon : F) (a : Nat → F) (c : Clf F) :
    (setSv epsilon a c).cntPos = c.cntPos +
      ((List.range c.idx.length).filter fun l => decide (epsilon < |a l|) && c.isPos.getD l false).length ∧
    (setSv epsilon a c).cntNeg = c.cntNeg +
      ((List.range c.idx.length).filter fun l => decide (epsilon < |a l|) && !c.isPos.getD l false).length :=
  ⟨rfl, rfl⟩

/-- Full property of the counts: they add up to the number of support vectors. -/
def C78_counts_statement (F : Type) [Field F] [LinearOrder F] : Prop :=
  ∀ (epsilon : F) (as : List (Nat → F)) (c : Clf F), as ≠ [] → c.cntPos = 0 → c.cntNeg = 0 →
    let r := as.foldl (fun c a => setSv epsilon a c) c
    r.cntPos + r.cntNeg = r.support.length

theorem C78_counts_violated : ¬ C78_counts_statement ℚ := by
  intro h
  have := h (1 / 1000) [fun _ => 1, fun _ => 1]
    { pos := 1, neg := 0, idx := [0, 1, 2], isPos := [true, false, false], alpha := fun _ => 0 }
    (by simp) rfl rfl
  revert this
  decide +kernel

theorem C78_counts_first_partial {F : Type} [Field F] [LinearOrder F] (epsilon : F) (a : Nat → F) (c : Clf F)
    (hp : c.cntPos = 0) (hn : c.cntNeg = 0) :
    (setSv epsilon a c).cntPos + (setSv epsilon a c).cntNeg = (setSv epsilon a c).support.length := by
  obtain ⟨h1, h2⟩ := C78_counts_grow epsilon a c
  rw [h1, h2, hp, hn]
  show _ = ((List.range c.idx.length).filter fun l => decide (epsilon < |a l|)).length
  have key : ∀ (q : Nat → Bool) (l : List Nat),
      (0 + (l.filter fun l => decide (epsilon < |a l|) && q l).length) +
      (0 + (l.filter fun l => decide (epsilon < |a l|) && !q l).length) =
      (l.filter fun l => decide (epsilon < |a l|)).length := by
    intro q l
    induction l with
    | nil => rfl
    | cons x l ih =>
      simp only [List.filter_cons]
      by_cases h1 : epsilon < |a x| <;> cases h2 : q x <;> simp [h1] <;> omega
  exact key _ _

/-- `support_vectors` are the rows of the data with the support indexes.  `X` is stored
column by column with leading dimension `ldx`. -/
def C78_vectors_statement (F : Type) : Prop :=
  ∀ (nrow ncol ldx nsv : Nat) (index : Nat → Nat) (X : Nat → F), nrow ≤ ldx →
    (∀ k, k < nsv → index k < nrow) → ∀ i j, i < nsv → j < ncol →
    supportVectors nrow index X i j = X (index i + j * ldx)

/-- Violated for a leading dimension larger than the number of rows. -/
theorem C78_vectors_violated : ¬ C78_vectors_statement ℚ := by
  intro h
  have := h 2 2 3 1 (fun _ => 0) (fun k => [1, 2, 0, 3, 4, 0].getD k 0) (by decide) (by decide) 0 1
    (by decide) (by decide)
  revert this
  decide +kernel

theorem C78_vectors_partial {F : Type} (nrow ldx : Nat) (index : Nat → Nat) (X : Nat → F) (i j : Nat)
    (h : ldx = nrow ∨ j = 0) : supportVectors nrow index X i j = X (index i + j * ldx) := by
  unfold supportVectors
  rcases h with h | h <;> rw [h]
  simp

end Verif.SvmMulti
