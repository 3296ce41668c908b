import Verif.KnnPredict.ProofRnn
import Mathlib.Tactic.NormNum
import Mathlib.Data.Rat.Cast.Order

/-
C153-C159: the predictions of the nearest neighbours handle.
-/
namespace Verif.KnnPredict

open Verif.Logistic (loop upd fill loop_inv loop_congr upd_same upd_ne)
open Finset (range)

set_option linter.unusedSectionVars false

variable {K : Type*} [Field K] [LinearOrder K] [IsStrictOrderedRing K]

/-! ### C153: class probabilities from the k nearest neighbours -/

/-- The probability of class `i` for query `j` is the share of that class in the weight of the neighbours; in the column-major order the
rows are queries with leading dimension n_queries, in the row-major order with leading dimension n_classes; nothing else is written. -/
theorem C153_proba (col : Bool) (wt : Weights) (eps : K) (n nq nn : Nat) (y : Nat → Int) (ind : Nat → Nat)
    (dist p : Nat → K) (hind : ∀ j < nq, ∀ k < nn, ind (k + j * nn) < n) :
    (∀ j i, j < nq → i < (availableClasses n y).length →
      predictProbaKnn col wt eps nq nn (availableClasses n y) y ind dist p
        (if col then j + i * nq else i + j * (availableClasses n y).length) =
      share nn (fun k => y (ind (k + j * nn)))
        (fun k => if wt = .uniform then (1 : K) else getWeight eps (dist (k + j * nn)))
        ((availableClasses n y).getD i 0)) ∧
    ∀ x, nq * (availableClasses n y).length ≤ x →
      predictProbaKnn col wt eps nq nn (availableClasses n y) y ind dist p x = p x := by
  obtain ⟨h1, h2⟩ := probaKnn_at wt eps nq nn (availableClasses_sorted n y) y ind dist p fun j hj k hk =>
    (mem_availableClasses n y _).mpr ⟨_, hind j hj k hk, rfl⟩
  obtain ⟨cls, hc⟩ : ∃ cls, cls = availableClasses n y := ⟨_, rfl⟩
  rw [← hc] at h1 h2 ⊢
  have hw : ∀ j, (fun k => weightOf wt eps (dist (k + j * nn))) = (fun k => if wt = .uniform then (1 : K) else getWeight eps (dist (k + j * nn))) := fun j => by
    cases wt
    · rfl
    · rfl
  unfold predictProbaKnn
  cases col
  · simp only [Bool.false_eq_true, if_false]
    refine ⟨fun j i hj hi => ?_, h2⟩
    rw [h1 j i hj hi, hw]
  · simp only [if_true]
    unfold transposeOut
    refine ⟨fun j i hj hi => ?_, fun x hx => ?_⟩
    · have hlt : j + i * nq < cls.length * nq := by
        have := row_le (nc := nq) hi
        omega
      have hnq : 0 < nq := by omega
      rw [if_pos hlt, Nat.add_mul_div_right _ _ hnq, Nat.div_eq_of_lt hj, Nat.zero_add,
        Nat.add_mul_mod_self_right, Nat.mod_eq_of_lt hj, h1 j i hj hi, hw]
    · rw [if_neg (by rw [Nat.mul_comm]; omega)]
      exact h2 x hx

/-- The classes are the labels of the training data, each once and in increasing order. -/
theorem C153_classes (n : Nat) (y : Nat → Int) :
    (availableClasses n y).Pairwise (· < ·) ∧ ∀ c, c ∈ availableClasses n y ↔ ∃ i < n, y i = c :=
  ⟨availableClasses_sorted n y, mem_availableClasses n y⟩

/-- The probabilities of each query are not negative and add up to 1. -/
theorem C153_distribution (col : Bool) (wt : Weights) (eps : K) (he : 0 ≤ eps) (n nq nn : Nat) (hnn : 0 < nn)
    (y : Nat → Int) (ind : Nat → Nat) (dist p : Nat → K)
    (hind : ∀ j < nq, ∀ k < nn, ind (k + j * nn) < n) (j : Nat) (hj : j < nq) :
    (∀ i < (availableClasses n y).length,
      0 ≤ predictProbaKnn col wt eps nq nn (availableClasses n y) y ind dist p
        (if col then j + i * nq else i + j * (availableClasses n y).length)) ∧
    ∑ i ∈ range (availableClasses n y).length,
      predictProbaKnn col wt eps nq nn (availableClasses n y) y ind dist p
        (if col then j + i * nq else i + j * (availableClasses n y).length) = 1 := by
  obtain ⟨h1, _⟩ := C153_proba col wt eps n nq nn y ind dist p hind
  have hw : ∀ k < nn, 0 < (if wt = .uniform then (1 : K) else getWeight eps (dist (k + j * nn))) := fun k _ => by
    split
    · exact one_pos
    · exact getWeight_pos he
  have hT := total_pos nn hnn _ hw
  refine ⟨fun i hi => ?_, ?_⟩
  · rw [h1 j i hj hi]
    exact div_nonneg (votes_nonneg nn _ _ hw _) hT.le
  · rw [Finset.sum_congr rfl fun i hi => h1 j i hj (Finset.mem_range.mp hi)]
    unfold share
    rw [← Finset.sum_div, votes_total (availableClasses_sorted n y) _ _ _ fun k hk =>
      (mem_availableClasses n y _).mpr ⟨_, hind j hj k hk, rfl⟩]
    exact div_self hT.ne'

/-- Two queries, three neighbours each, labels 7, 3, 7: the classes are 3 and 7. -/
example : availableClasses 3 (fun i => [7, 3, 7].getD i 0) = [3, 7] ∧
    predictProbaKnn (K := ℚ) true .uniform 0 2 3 [3, 7] (fun i => [7, 3, 7].getD i 0)
      (fun a => [0, 1, 2, 1, 1, 0].getD a 0) (fun _ => 0) (fun _ => 9) 3 = 1 / 3 := by decide +kernel

/-! ### C154: the weights of the neighbours -/

/-- A neighbour that is not farther away never has less weight. -/
def C154_statement : Prop :=
  ∀ eps d d' : ℚ, 0 ≤ eps → 0 ≤ d → d ≤ d' → getWeight eps d' ≤ getWeight eps d

theorem C154_violated : ¬ C154_statement := by
  intro h
  have := h (1 / 1000) 0 (1 / 10) (by decide +kernel) (by decide +kernel) (by decide +kernel)
  revert this
  decide +kernel

/-- Exactly when the order of the weights is the wrong way round: one neighbour within epsilon, the other between epsilon and 1. -/
theorem C154_extent (eps d d' : K) (he : 0 ≤ eps) (hdd : d ≤ d') :
    getWeight eps d < getWeight eps d' ↔ d ≤ eps ∧ eps < d' ∧ d' < 1 := by
  unfold getWeight
  by_cases h1 : d ≤ eps
  · rw [if_pos h1]
    by_cases h2 : d' ≤ eps
    · rw [if_pos h2]
      exact ⟨fun h => absurd h (lt_irrefl _), fun h => absurd h.2.1 (not_lt.mpr h2)⟩
    · have hp : 0 < d' := he.trans_lt (not_le.mp h2)
      rw [if_neg h2, lt_div_iff₀ hp, one_mul]
      exact ⟨fun h => ⟨h1, not_le.mp h2, h⟩, fun h => h.2.2⟩
  · have hd : 0 < d := he.trans_lt (not_le.mp h1)
    have h2 : ¬ d' ≤ eps := fun h => h1 (hdd.trans h)
    rw [if_neg h1, if_neg h2]
    exact ⟨fun h => absurd h (not_lt.mpr (one_div_le_one_div_of_le hd hdd)), fun h => absurd h.1 h1⟩

/-- A query that coincides with a training sample of class 0 is given class 1 because of a sample at the distance 1/10. -/
theorem C154_outvoted :
    predictKnn (K := ℚ) .distance (1 / 4503599627370496) 1 2 [0, 1] (fun i => if i = 0 then 0 else 1)
      (fun k => k) (fun k => if k = 0 then 0 else 1 / 10) (fun _ => 0) (fun _ => 9) 0 = 1 := by
  decide +kernel

/-- What holds: the order is right when no neighbour lies between epsilon and 1, or none within epsilon.  Missing: the others. -/
theorem C154_weights_partial (eps d d' : K) (he : 0 ≤ eps) (hdd : d ≤ d') (h : eps < d ∨ 1 ≤ d' ∨ d' ≤ eps) :
    getWeight eps d' ≤ getWeight eps d := by
  by_contra hc
  obtain ⟨g1, g2, g3⟩ := (C154_extent eps d d' he hdd).mp (not_le.mp hc)
  rcases h with h | h | h
  · exact absurd g1 (not_le.mpr h)
  · exact absurd g3 (not_lt.mpr h)
  · exact absurd g2 (not_lt.mpr h)

example : getWeight (1 / 1000) (3 : ℚ) ≤ getWeight (1 / 1000) (1 / 2) :=
  C154_weights_partial _ _ _ (by norm_num) (by norm_num) (Or.inl (by norm_num))

/-! ### C155: queries without neighbours -/

/-- What the row of query `j` should be with "outlier handling" = manual and the outlier label `v`: the shares of the classes, or, without
neighbours, 1 for the class `v` and 0 for the others. -/
def RowRight (cls : List Int) (v : Int) (y : Nat → Int) (cnt : Nat → Nat) (ind : Nat → Nat → Nat)
    (w : Nat → Nat → K) (q : Nat → K) (j : Nat) : Prop :=
  ∀ i < cls.length, q (i + j * cls.length) =
    if cnt j = 0 then (if cls.getD i 0 = v then 1 else 0)
    else share (cnt j) (fun k => y (ind j k)) (w j) (cls.getD i 0)

/-- The result is an array of right rows, and nothing outside of it is written. -/
def C155_statement : Prop :=
  ∀ (n nq : Nat) (y : Nat → Int) (v mf : Int) (cnt : Nat → Nat) (ind : Nat → Nat → Nat)
    (w : Nat → Nat → ℚ) (p : Nat → ℚ), 0 < n → (∀ j < nq, ∀ k < cnt j, ind j k < n) →
    ∃ q, probaRnn .manual nq (availableClasses n y) (findLabel v (availableClasses n y)) mf y cnt ind w p = .done q ∧
      ∀ j < nq, RowRight (availableClasses n y) v y cnt ind w q j

/-- The first `k` elements of an array that was returned. -/
def seen {V : Type*} (r : Result (Nat → V)) (k : Nat) : Option (List V) :=
  match r with
  | .done q => some ((List.range k).map q)
  | _ => none

/-- Labels 1 and 2, outlier label 1: the probability 1 goes to class 2. -/
theorem C155_wrong_class :
    seen (probaRnn (K := ℚ) .manual 1 (availableClasses 2 fun i => i + 1)
      (findLabel 1 (availableClasses 2 fun i => i + 1)) 0 (fun i => i + 1) (fun _ => 0) (fun _ _ => 0)
      (fun _ _ => 1) (fun _ => 9)) 2 = some [0, 1] := by decide +kernel

/-- And the predicted label of a query without neighbours is 2, although the option says 1. -/
theorem C155_wrong_label :
    seen (predictRnn (K := ℚ) .manual 1 (availableClasses 2 fun i => i + 1)
      (findLabel 1 (availableClasses 2 fun i => i + 1)) 1 0 (fun i => i + 1) (fun _ => 0) (fun _ _ => 0)
      (fun _ _ => 1) (fun _ => 9) (fun _ => 0)) 1 = some [2] := by decide +kernel

/-- Labels 5 and 7, outlier label 7: the store is outside of proba. -/
theorem C155_outside :
    (match probaRnn (K := ℚ) .manual 1 (availableClasses 2 fun i => 5 + 2 * i)
      (findLabel 7 (availableClasses 2 fun i => 5 + 2 * i)) 0 (fun i => 5 + 2 * i) (fun _ => 0) (fun _ _ => 0)
      (fun _ _ => 1) (fun _ => 9) with
    | .outside => true
    | _ => false) = true := by decide +kernel

/-- Labels -1 and 1, outlier label -1: the row of the query before, which has neighbours, is overwritten and adds up to 2. -/
theorem C155_corrupts :
    seen (probaRnn (K := ℚ) .manual 2 (availableClasses 2 fun i => 2 * i - 1)
      (findLabel (-1) (availableClasses 2 fun i => 2 * i - 1)) 0 (fun i => 2 * i - 1)
      (fun j => if j = 0 then 1 else 0) (fun _ _ => 0) (fun _ _ => 1) (fun _ => 9)) 4 =
      some [1, 1, 0, 0] := by decide +kernel

theorem C155_violated : ¬ C155_statement := by
  intro h
  obtain ⟨q, hq, hr⟩ := h 2 1 (fun i => i + 1) 1 0 (fun _ => 0) (fun _ _ => 0) (fun _ _ => 1) (fun _ => 9)
    (by omega) (fun j _ k hk => by simp at hk)
  have hs := C155_wrong_class
  rw [hq] at hs
  have e : q 0 = 0 := by
    have := congrArg (fun o : Option (List ℚ) => (o.getD []).getD 0 9) hs
    simpa [seen] using this
  have hr0 := hr 0 (by omega) 0 (by decide)
  rw [show (0 : Nat) + 0 * (availableClasses 2 fun i => (i : Int) + 1).length = 0 by omega, e] at hr0
  revert hr0
  decide +kernel

/-- With a query without neighbours and an outlier label that is class number `m`, the result is right exactly when that label is `m`. -/
theorem C155_extent (n nq : Nat) (y : Nat → Int) (v mf : Int) (cnt : Nat → Nat) (ind : Nat → Nat → Nat)
    (w : Nat → Nat → K) (p : Nat → K) (hind : ∀ j < nq, ∀ k < cnt j, ind j k < n) (hex : ∃ j < nq, cnt j = 0)
    (m : Nat) (hm : m < (availableClasses n y).length) (hv : (availableClasses n y).getD m 0 = v) :
    (∃ q, probaRnn .manual nq (availableClasses n y) (findLabel v (availableClasses n y)) mf y cnt ind w p = .done q ∧
      ∀ j < nq, RowRight (availableClasses n y) v y cnt ind w q j) ↔ v = m := by
  have hs := availableClasses_sorted n y
  have hl : ∀ j < nq, ∀ k < cnt j, y (ind j k) ∈ availableClasses n y := fun j hj k hk =>
    (mem_availableClasses n y _).mpr ⟨_, hind j hj k hk, rfl⟩
  obtain ⟨cls, hc⟩ : ∃ cls, cls = availableClasses n y := ⟨_, rfl⟩
  rw [← hc] at hs hl hm hv ⊢
  have hf : findLabel v cls = some m := by
    cases e : findLabel v cls with
    | none => exact absurd (hv ▸ getD_mem hm) ((findLabel_none v cls).mp e)
    | some m' =>
      obtain ⟨g1, g2⟩ := findLabel_some e
      rw [sorted_inj hs hm g1 (by rw [hv, g2])]
  constructor
  · rintro ⟨q, hq, hr⟩
    by_contra hne
    rw [hf] at hq
    rcases probaRnn_misses nq cls mf y cnt ind w p hm (by rw [hv]; exact hne) hex with g | ⟨q', g, j, hj, h0, e⟩
    · rw [g] at hq; exact absurd hq (by simp)
    · rw [g] at hq
      obtain rfl : q' = q := by injection hq
      have := hr j hj m hm
      rw [e, if_pos h0, if_pos hv] at this
      exact zero_ne_one this
  · intro e
    obtain ⟨q, hq, hr, _⟩ := probaRnn_done .manual nq hs (findLabel v cls) mf y cnt ind w p
      (fun i => if cls.getD i 0 = v then 1 else 0) hl fun j hj _ => rowOk_manual hs v mf hj fun m' hm' => by
        rw [hf] at hm'
        obtain rfl : m = m' := by simpa using hm'
        rw [hv, e]
    exact ⟨q, hq, fun j hj i hi => hr j i hj hi⟩

/-- What holds: when the outlier label is no class, or equals its own position among the classes, every row is right, nothing outside of
proba is written, and the label predicted for a query without neighbours is the outlier label.  Missing: other outlier labels. -/
theorem C155_manual_partial (n nq : Nat) (hn : 0 < n) (y : Nat → Int) (v mf : Int) (cnt : Nat → Nat)
    (ind : Nat → Nat → Nat) (w : Nat → Nat → K) (hw : ∀ j < nq, ∀ k < cnt j, 0 < w j k) (p : Nat → K)
    (out : Nat → Int) (hind : ∀ j < nq, ∀ k < cnt j, ind j k < n)
    (hv : ∀ m < (availableClasses n y).length, (availableClasses n y).getD m 0 = v → v = m) :
    (∃ q, probaRnn .manual nq (availableClasses n y) (findLabel v (availableClasses n y)) mf y cnt ind w p = .done q ∧
      (∀ j < nq, RowRight (availableClasses n y) v y cnt ind w q j) ∧
      ∀ x, nq * (availableClasses n y).length ≤ x → q x = p x) ∧
    ∃ o, predictRnn .manual nq (availableClasses n y) (findLabel v (availableClasses n y)) v mf y cnt ind w p out =
        .done o ∧
      ∀ j < nq, if cnt j = 0 then o j = v else Wins (cnt j) (fun k => y (ind j k)) (w j) (o j) := by
  have hs := availableClasses_sorted n y
  have hl : ∀ j < nq, ∀ k < cnt j, y (ind j k) ∈ availableClasses n y := fun j hj k hk =>
    (mem_availableClasses n y _).mpr ⟨_, hind j hj k hk, rfl⟩
  have hne : 0 < (availableClasses n y).length :=
    List.length_pos_of_mem ((mem_availableClasses n y (y 0)).mpr ⟨0, hn, rfl⟩)
  obtain ⟨cls, hc⟩ : ∃ cls, cls = availableClasses n y := ⟨_, rfl⟩
  rw [← hc] at hs hl hv hne ⊢
  obtain ⟨q, hq, hr, ho⟩ := probaRnn_done .manual nq hs (findLabel v cls) mf y cnt ind w p
    (fun i => if cls.getD i 0 = v then 1 else 0) hl fun j hj _ => rowOk_manual hs v mf hj fun m hm => by
      obtain ⟨g1, g2⟩ := findLabel_some hm
      rw [g2]; exact hv m g1 g2
  refine ⟨⟨q, hq, fun j hj i hi => hr j i hj hi, ho⟩, ?_⟩
  unfold predictRnn
  rw [hq]
  refine ⟨_, rfl, fun j hj => ?_⟩
  have hlab : labelsRnn .manual nq cls v mf q out j =
      if q (iamax cls.length (fun c => q (j * cls.length + c)) + j * cls.length) = 0 then v
      else cls.getD (iamax cls.length fun c => q (j * cls.length + c)) 0 := by
    unfold labelsRnn
    exact (each_at nq out _ (fun i => if q (iamax cls.length (fun c => q (i * cls.length + c)) + i * cls.length) = 0
      then v else cls.getD (iamax cls.length fun c => q (i * cls.length + c)) 0)
      (fun j out x _ => rfl) j).trans (if_pos hj)
  rw [hlab]
  by_cases h0 : cnt j = 0
  · rw [if_pos h0]
    obtain ⟨hm, hmax⟩ := iamax_at cls.length hne fun c => q (j * cls.length + c)
    obtain ⟨m, hmd⟩ : ∃ m, m = iamax cls.length fun c => q (j * cls.length + c) := ⟨_, rfl⟩
    rw [← hmd] at hm hmax ⊢
    have hrow : ∀ i < cls.length, q (j * cls.length + i) = if cls.getD i 0 = v then 1 else 0 := fun i hi => by
      rw [Nat.add_comm, hr j i hj hi, if_pos h0]
    split
    · rfl
    · next hnz =>
      rw [Nat.add_comm, hrow m hm] at hnz
      by_contra hcv
      exact hnz (if_neg hcv)
  · rw [if_neg h0]
    obtain ⟨_, g2, g3⟩ := iamax_wins hs (cnt j) (Nat.pos_of_ne_zero h0) (fun k => y (ind j k)) (w j) (hw j hj) (hl j hj)
      (fun c => q (j * cls.length + c)) fun i hi => by rw [Nat.add_comm, hr j i hj hi, if_neg h0]
    rw [if_neg (by rw [Nat.add_comm]; exact g3.ne')]
    exact g2

/-- Labels 0, 1, 2 and the outlier label 1: the second query has no neighbours. -/
example :
    seen (predictRnn (K := ℚ) .manual 2 (availableClasses 3 fun i => i) (findLabel 1 (availableClasses 3 fun i => i)) 1 0
      (fun i => i) (fun j => if j = 0 then 2 else 0) (fun _ k => 2 - k) (fun _ k => k + 1) (fun _ => 9)
      (fun _ => 0)) 2 = some [1, 1] := by decide +kernel

end Verif.KnnPredict
