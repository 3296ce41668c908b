import Verif.KnnPredict.Props

/-
C156-C159: what the handle keeps between calls, the predicted labels, and the predicted targets.
-/
namespace Verif.KnnPredict

open Verif.Logistic (loop upd fill loop_inv loop_congr upd_same upd_ne)
open Finset (range)

set_option linter.unusedSectionVars false

variable {K : Type*} [Field K] [LinearOrder K] [IsStrictOrderedRing K]

/-! ### C156: what is kept between calls -/

/-- The handle after the calls `ops`. -/
def run (ops : List Op) : Handle := ops.foldl Handle.step Handle.init

/-- What a prediction with the neighbours in a radius goes by agrees with the labels and options now in force. -/
def UpToDate (h : Handle) : Prop :=
  (∃ c, h.classes = some c ∧ c.Pairwise (· < ·) ∧ ∀ v, v ∈ c ↔ ∃ i < h.n, h.y i = v) ∧
  h.outlier = h.optOutlier ∧
  (h.outlier = .mostFrequent → ∃ v, h.mostFreq = some v ∧ MostCommon h.n h.y v) ∧
  (h.outlier = .manual → h.manualLabel = h.optLabel ∧ ∃ m, h.manualIdx = some m ∧
    ((m = none ∧ ∀ i < h.n, h.y i ≠ h.optLabel) ∨
      ∃ k c, m = some k ∧ h.classes = some c ∧ k < c.length ∧ c.getD k 0 = h.optLabel))

def C156_statement : Prop := ∀ ops, 0 < (run ops).n → UpToDate (run ops).startRnn

/-- New labels after a prediction: the classes are still the old ones. -/
theorem C156_stale_classes :
    ((run [.labels 1 fun _ => 0, .data, .knn, .labels 1 fun _ => 5]).startRnn).classes = some [0] := by
  decide +kernel

theorem C156_violated : ¬ C156_statement := by
  intro h
  obtain ⟨⟨c, hc, _, hm⟩, _⟩ := h [.labels 1 fun _ => 0, .data, .knn, .labels 1 fun _ => 5] (by decide)
  rw [C156_stale_classes] at hc
  obtain rfl : [0] = c := by simpa using hc
  have := (hm 5).mpr ⟨0, by decide, by decide⟩
  simp at this

/-- All training labels are 5, and the predicted label is 0. -/
theorem C156_wrong_label :
    predictKnn (K := ℚ) .uniform 0 1 1
      (((run [.labels 1 fun _ => 0, .data, .knn, .labels 1 fun _ => 5]).startKnn).classes.getD [])
      (run [.labels 1 fun _ => 0, .data, .knn, .labels 1 fun _ => 5]).y (fun _ => 0) (fun _ => 0) (fun _ => 0)
      (fun _ => 9) 0 = 0 := by
  decide +kernel

/-- A new outlier label and set_data after a prediction: the position is still that of the old outlier label. -/
theorem C156_stale_position :
    (let h := (run [.labels 2 fun i => i, .options .manual 0, .data, .rnn, .options .manual 1, .data]).startRnn
    (h.manualLabel, h.manualIdx)) = (1, some (some 0)) := by
  decide +kernel

/-- After the first prediction the classes never change, whatever is called. -/
theorem C156_extent (ops later : List Op) (c : List Int) (h : (run ops).classes = some c) :
    (run (ops ++ later)).classes = some c := by
  unfold run at h ⊢
  rw [List.foldl_append]
  generalize ops.foldl Handle.step Handle.init = g at h ⊢
  have hcheck : ∀ g : Handle, g.checkOptions.classes = g.classes := fun g => by
    unfold Handle.checkOptions
    simp only
    split
    · split <;> rfl
    · rfl
  have hneed : ∀ g : Handle, g.classes = some c → g.checkOptions.needClasses.classes = some c := fun g hg => by
    have := (hcheck g).trans hg
    unfold Handle.needClasses
    rw [this]
    exact this
  induction later generalizing g with
  | nil => exact h
  | cons o os ih =>
    refine ih (g.step o) ?_
    cases o with
    | labels n y => exact h
    | options o v => exact h
    | data => exact h
    | knn => exact hneed g h
    | rnn =>
      show g.startRnn.classes = some c
      unfold Handle.startRnn
      have := hneed g h
      generalize g.checkOptions.needClasses = k at this ⊢
      simp only
      split <;> split <;> (try split) <;> (try split) <;> simp_all

/-- A prediction. -/
def Op.predicts : Op → Prop
  | .knn => True
  | .rnn => True
  | _ => False

/-- A call that a handle with predictions behind it does not take note of. -/
def Op.resets : Op → Prop
  | .labels _ _ => True
  | .data => True
  | _ => False

/-- What holds: as long as no labels or data are set after the first prediction, every prediction goes by the labels and options in force.
Missing: handles that are used again with other labels, or with set_data after a change of the outlier label. -/
theorem C156_first_labels_partial (before after : List Op) (hb : ∀ o ∈ before, ¬ o.predicts)
    (ha : ∀ o ∈ after, ¬ o.resets) (hn : 0 < (run (before ++ after)).n) :
    UpToDate (run (before ++ after)).startRnn := by
  have h1 : (run before).classes = none ∧ (run before).mostFreq = none ∧ (run before).manualIdx = none := by
    unfold run
    have : ∀ h : Handle, h.classes = none ∧ h.mostFreq = none ∧ h.manualIdx = none →
        (before.foldl Handle.step h).classes = none ∧ (before.foldl Handle.step h).mostFreq = none ∧
          (before.foldl Handle.step h).manualIdx = none := by
      clear hn
      induction before with
      | nil => exact fun h hh => hh
      | cons o os ih =>
        intro h hh
        refine ih (fun o' ho' => hb o' (List.mem_cons_of_mem _ ho')) (h.step o) ?_
        have := hb o List.mem_cons_self
        cases o with
        | labels n y => exact hh
        | options o v => exact hh
        | data => exact hh
        | knn => exact absurd trivial this
        | rnn => exact absurd trivial this
    exact this _ ⟨rfl, rfl, rfl⟩
  have h2 : Fresh (run (before ++ after)) := by
    unfold run at h1 ⊢
    rw [List.foldl_append]
    generalize before.foldl Handle.step Handle.init = g at h1 ⊢
    have hg : Fresh g := ⟨fun c e => by rw [h1.1] at e; simp at e, fun c e => by rw [h1.2.1] at e; simp at e,
      fun c e => by rw [h1.2.2] at e; simp at e⟩
    clear h1 hn hb
    induction after generalizing g with
    | nil => exact hg
    | cons o os ih =>
      refine ih (fun o' ho' => ha o' (List.mem_cons_of_mem _ ho')) (g.step o) ?_
      have := ha o List.mem_cons_self
      cases o with
      | labels n y => exact absurd trivial this
      | options o v => exact hg
      | data => exact absurd trivial this
      | knn => exact fresh_knn hg
      | rnn => exact (start_rnn hg).1
  obtain ⟨h, hh⟩ : ∃ h, h = run (before ++ after) := ⟨_, rfl⟩
  rw [← hh] at h2 hn ⊢
  obtain ⟨_, e1, e2, e3, e4, e5, e6⟩ := start_rnn h2
  have e7 : h.startRnn.optOutlier = h.optOutlier ∧ h.startRnn.optLabel = h.optLabel := by
    have hc := check_label h
    have hk : h.checkOptions.needClasses.optOutlier = h.optOutlier ∧
        h.checkOptions.needClasses.optLabel = h.optLabel := by
      unfold Handle.needClasses
      split
      · exact ⟨hc.2.2.2.2.1, hc.2.2.2.2.2⟩
      · exact ⟨hc.2.2.2.2.1, hc.2.2.2.2.2⟩
    unfold Handle.startRnn
    generalize h.checkOptions.needClasses = k at hk ⊢
    simp only
    split <;> split <;> (try split) <;> (try split) <;> simp_all
  unfold UpToDate
  rw [e1, e2, e3, e4, e7.1, e7.2]
  refine ⟨⟨_, rfl, availableClasses_sorted _ _, mem_availableClasses _ _⟩, rfl, fun ho => ?_, fun ho => ?_⟩
  · refine ⟨_, e5 ho, ?_⟩
    obtain ⟨g1, g2⟩ := mostFrequent_max h.n hn h.y
    refine ⟨?_, fun i hi => ?_⟩
    · obtain ⟨i, hi⟩ := Finset.card_pos.mp g1
      rw [Finset.mem_filter, Finset.mem_range] at hi
      exact ⟨i, hi⟩
    · have hp : 0 < freq h.n h.y (h.y i) := Finset.card_pos.mpr ⟨i, by simp [hi]⟩
      rcases g2 (h.y i) with g | g | g
      · exact Or.inl g
      · exact Or.inr g
      · omega
  · obtain ⟨g1, g2⟩ := e6 ho
    refine ⟨g1, _, g2, ?_⟩
    cases hf : findLabel h.optLabel (availableClasses h.n h.y) with
    | none =>
      refine Or.inl ⟨rfl, fun i hi e => (findLabel_none _ _).mp hf ?_⟩
      exact (mem_availableClasses _ _ _).mpr ⟨i, hi, e⟩
    | some m =>
      obtain ⟨k1, k2⟩ := findLabel_some hf
      exact Or.inr ⟨m, _, rfl, rfl, k1, k2⟩

example : (let h := (run ([.labels 3 fun i => i % 2, .data] ++ [.knn, .options .mostFrequent 4])).startRnn
    (h.classes, h.mostFreq)) = (some [0, 1], some 0) := by decide +kernel

/-! ### C157: predicted labels -/

/-- The most frequent training label, and the smallest of them in a tie. -/
theorem C157_most_frequent (n : Nat) (hn : 0 < n) (y : Nat → Int) : MostCommon n y (mostFrequentElement n y) := by
  obtain ⟨g1, g2⟩ := mostFrequent_max n hn y
  refine ⟨?_, fun i hi => ?_⟩
  · obtain ⟨i, hi⟩ := Finset.card_pos.mp g1
    rw [Finset.mem_filter, Finset.mem_range] at hi
    exact ⟨i, hi⟩
  · have hp : 0 < freq n y (y i) := Finset.card_pos.mpr ⟨i, by simp [hi]⟩
    rcases g2 (y i) with g | g | g
    · exact Or.inl g
    · exact Or.inr g
    · omega

/-- The label predicted from the k nearest neighbours has the greatest weight among them, and is the smallest such label. -/
theorem C157_knn (wt : Weights) (eps : K) (he : 0 ≤ eps) (n nq nn : Nat) (hnn : 0 < nn) (y : Nat → Int)
    (ind : Nat → Nat) (dist p : Nat → K) (out : Nat → Int)
    (hind : ∀ j < nq, ∀ k < nn, ind (k + j * nn) < n) (j : Nat) :
    if j < nq then
      Wins nn (fun k => y (ind (k + j * nn)))
        (fun k => if wt = .uniform then (1 : K) else getWeight eps (dist (k + j * nn)))
        (predictKnn wt eps nq nn (availableClasses n y) y ind dist p out j)
    else predictKnn wt eps nq nn (availableClasses n y) y ind dist p out j = out j := by
  have hl : ∀ j < nq, ∀ k < nn, y (ind (k + j * nn)) ∈ availableClasses n y := fun j hj k hk =>
    (mem_availableClasses n y _).mpr ⟨_, hind j hj k hk, rfl⟩
  have hs := availableClasses_sorted n y
  obtain ⟨h1, _⟩ := probaKnn_at wt eps nq nn hs y ind dist p hl
  have hlab : predictKnn wt eps nq nn (availableClasses n y) y ind dist p out j = if j < nq then
      (availableClasses n y).getD (iamax (availableClasses n y).length fun c =>
        probaKnn wt eps nq nn (availableClasses n y) y ind dist p (j * (availableClasses n y).length + c)) 0
      else out j := by
    unfold predictKnn
    exact each_at nq out _ (fun i => (availableClasses n y).getD (iamax (availableClasses n y).length fun c =>
      probaKnn wt eps nq nn (availableClasses n y) y ind dist p (i * (availableClasses n y).length + c)) 0)
      (fun j out x _ => rfl) j
  rw [hlab]
  by_cases hj : j < nq
  · rw [if_pos hj, if_pos hj]
    have hw : (fun k => weightOf wt eps (dist (k + j * nn))) = (fun k => if wt = .uniform then (1 : K) else getWeight eps (dist (k + j * nn))) := by
      cases wt
      · rfl
      · rfl
    rw [← hw]
    refine (iamax_wins hs nn hnn _ (fun k => weightOf wt eps (dist (k + j * nn)))
      (fun k _ => weightOf_pos wt he) (hl j hj) _ fun i hi => ?_).2.1
    rw [Nat.add_comm]
    exact h1 j i hj hi
  · rw [if_neg hj, if_neg hj]

/-- The same for the neighbours in a radius; a query without neighbours gets the most frequent training label. -/
theorem C157_radius (n nq : Nat) (hn : 0 < n) (y : Nat → Int) (v : Int) (midx : Option Nat) (cnt : Nat → Nat)
    (ind : Nat → Nat → Nat) (w : Nat → Nat → K) (hw : ∀ j < nq, ∀ k < cnt j, 0 < w j k) (p : Nat → K)
    (out : Nat → Int) (hind : ∀ j < nq, ∀ k < cnt j, ind j k < n) :
    ∃ o, predictRnn .mostFrequent nq (availableClasses n y) midx v (mostFrequentElement n y) y cnt ind w p out =
        .done o ∧
      ∀ j, if j < nq then
        (if cnt j = 0 then MostCommon n y (o j) else Wins (cnt j) (fun k => y (ind j k)) (w j) (o j))
        else o j = out j := by
  have hs := availableClasses_sorted n y
  have hmf := C157_most_frequent n hn y
  have hmem : mostFrequentElement n y ∈ availableClasses n y := (mem_availableClasses n y _).mpr hmf.1
  have hl : ∀ j < nq, ∀ k < cnt j, y (ind j k) ∈ availableClasses n y := fun j hj k hk =>
    (mem_availableClasses n y _).mpr ⟨_, hind j hj k hk, rfl⟩
  obtain ⟨mf, hmfd⟩ : ∃ mf, mf = mostFrequentElement n y := ⟨_, rfl⟩
  obtain ⟨cls, hc⟩ : ∃ cls, cls = availableClasses n y := ⟨_, rfl⟩
  rw [← hmfd] at hmf
  rw [← hc] at hs hl hmem
  rw [← hmfd] at hmem
  rw [← hc, ← hmfd]
  obtain ⟨q, hq, hr, _⟩ := probaRnn_done .mostFrequent nq hs midx mf y cnt ind w p
    (fun i => if cls.getD i 0 = mf then 1 else 0) hl fun j hj _ => rowOk_mostFrequent cls midx mf _ _
  unfold predictRnn
  rw [hq]
  refine ⟨_, rfl, fun j => ?_⟩
  have hlab : labelsRnn .mostFrequent nq cls v mf q out j = if j < nq then
      (if q (iamax cls.length (fun c => q (j * cls.length + c)) + j * cls.length) = 0 then mf
      else cls.getD (iamax cls.length fun c => q (j * cls.length + c)) 0) else out j := by
    unfold labelsRnn
    exact each_at nq out _ (fun i => if q (iamax cls.length (fun c => q (i * cls.length + c)) + i * cls.length) = 0
      then mf else cls.getD (iamax cls.length fun c => q (i * cls.length + c)) 0)
      (fun j out x _ => rfl) j
  rw [hlab]
  by_cases hj : j < nq
  · simp only [if_pos hj]
    by_cases h0 : cnt j = 0
    · rw [if_pos h0]
      obtain ⟨i0, hi0, _⟩ := mem_getD hmem
      obtain ⟨hm, _⟩ := iamax_at cls.length (by omega) fun c => q (j * cls.length + c)
      obtain ⟨m, hmd⟩ : ∃ m, m = iamax cls.length fun c => q (j * cls.length + c) := ⟨_, rfl⟩
      rw [← hmd] at hm ⊢
      split
      · exact hmf
      · next hnz =>
        rw [hr j m hj hm, if_pos h0] at hnz
        have : cls.getD m 0 = mf := by
          by_contra hcv
          exact hnz (if_neg hcv)
        rw [this]; exact hmf
    · rw [if_neg h0]
      obtain ⟨_, g2, g3⟩ := iamax_wins hs (cnt j) (Nat.pos_of_ne_zero h0) (fun k => y (ind j k)) (w j) (hw j hj)
        (hl j hj) (fun c => q (j * cls.length + c)) fun i hi => by rw [Nat.add_comm, hr j i hj hi, if_neg h0]
      rw [if_neg (by rw [Nat.add_comm]; exact g3.ne')]
      exact g2
  · simp only [if_neg hj]

/-- With "outlier handling" = none the call fails exactly when a query has no neighbours. -/
theorem C157_none (nq : Nat) (cls : List Int) (y : Nat → Int) (mf : Int) (midx : Option Nat) (cnt : Nat → Nat)
    (ind : Nat → Nat → Nat) (w : Nat → Nat → K) (p : Nat → K) :
    (∃ j < nq, cnt j = 0) ↔ probaRnn .none nq cls midx mf y cnt ind w p = .failed := by
  have key : ((∃ j < nq, cnt j = 0) → probaRnn .none nq cls midx mf y cnt ind w p = .failed) ∧
      ((∀ j < nq, cnt j ≠ 0) → ∃ q, probaRnn .none nq cls midx mf y cnt ind w p = .done q) := by
    unfold probaRnn
    refine loop_inv (fun k (r : Result (Nat → K)) => ((∃ j < k, cnt j = 0) → r = .failed) ∧
      ((∀ j < k, cnt j ≠ 0) → ∃ q, r = .done q)) nq _ _ ⟨by rintro ⟨j, hj, _⟩; omega, fun _ => ⟨p, rfl⟩⟩ ?_
    rintro k r hk ⟨ih1, ih2⟩
    by_cases hex : ∃ j < k, cnt j = 0
    · rw [ih1 hex]
      refine ⟨fun _ => rfl, fun h => ?_⟩
      obtain ⟨j, hj, e⟩ := hex
      exact absurd e (h j (by omega))
    · obtain ⟨q, rfl⟩ := ih2 fun j hj e => hex ⟨j, hj, e⟩
      simp only
      by_cases h0 : cnt k = 0
      · rw [if_pos h0]
        exact ⟨fun _ => rfl, fun h => absurd h0 (h k (by omega))⟩
      · rw [if_neg h0]
        refine ⟨?_, fun _ => ⟨_, rfl⟩⟩
        rintro ⟨j, hj, e⟩
        rcases Nat.lt_succ_iff_lt_or_eq.mp hj with g | g
        · exact absurd ⟨j, g, e⟩ hex
        · subst g; exact absurd e h0
  refine ⟨key.1, fun h => ?_⟩
  by_contra hne
  obtain ⟨q, hq⟩ := key.2 fun j hj e => hne ⟨j, hj, e⟩
  rw [hq] at h
  exact absurd h (by simp)

/-- A tie between the labels 4 and 2 goes to 2. -/
example : predictKnn (K := ℚ) .uniform 0 1 4 (availableClasses 4 fun i => [4, 2, 4, 2].getD i 0)
    (fun i => [4, 2, 4, 2].getD i 0) (fun k => k) (fun _ => 0) (fun _ => 9) (fun _ => 0) 0 = 2 ∧
    mostFrequentElement 5 (fun i => [4, 2, 9, 4, 2].getD i 0) = 2 := by decide +kernel

/-! ### C158: predicted targets -/

/-- The target predicted from the k nearest neighbours is the weighted mean of theirs. -/
theorem C158_knn (wt : Weights) (eps : K) (nq nn : Nat) (t : Nat → K) (ind : Nat → Nat) (dist out : Nat → K) (j : Nat) :
    targetsKnn wt eps nq nn t ind dist out j = if j < nq then
      weightedMean nn (fun k => t (ind (k + j * nn)))
        (fun k => if wt = .uniform then (1 : K) else getWeight eps (dist (k + j * nn)))
      else out j := by
  cases wt
  · unfold targetsKnn
    refine (each_at nq out _ (fun j => mean nn fun i => t (ind (i + j * nn))) (fun j out x _ => rfl) j).trans ?_
    rw [mean_eq]
    rfl
  · unfold targetsKnn
    simp only
    exact each_at nq out _ (fun j => weightedMean nn (fun k => t (ind (k + j * nn)))
      fun k => getWeight eps (dist (k + j * nn)))
      (fun j out x _ => accum_at nn j (fun k => t (ind (k + j * nn))) (fun k => getWeight eps (dist (k + j * nn))) out x) j

/-- And it lies between the least and the greatest of their targets. -/
theorem C158_between (wt : Weights) (eps : K) (he : 0 ≤ eps) (nq nn : Nat) (hnn : 0 < nn) (t : Nat → K)
    (ind : Nat → Nat) (dist out : Nat → K) (j : Nat) (hj : j < nq) (lo hi : K)
    (hlo : ∀ k < nn, lo ≤ t (ind (k + j * nn))) (hhi : ∀ k < nn, t (ind (k + j * nn)) ≤ hi) :
    lo ≤ targetsKnn wt eps nq nn t ind dist out j ∧ targetsKnn wt eps nq nn t ind dist out j ≤ hi := by
  rw [C158_knn, if_pos hj]
  refine weightedMean_between nn hnn _ _ (fun k _ => ?_) lo hi hlo hhi
  split
  · exact one_pos
  · exact getWeight_pos he

/-- The neighbours in a radius, weighted by distance; a query without neighbours gets the outlier target or the mean of the training targets. -/
theorem C158_radius (h : Outlier) (manual : K) (n nq : Nat) (t : Nat → K) (cnt : Nat → Nat) (ind : Nat → Nat → Nat)
    (w : Nat → Nat → K) (out : Nat → K) (hh : h = .none → ∀ j < nq, cnt j ≠ 0) :
    ∃ q, targetsRnnDistance h manual (mean n t) nq t cnt ind w out = .done q ∧
      ∀ j, q j = if j < nq then
        (if cnt j = 0 then (if h = .mostFrequent then (∑ i ∈ range n, t i) / n else manual)
        else weightedMean (cnt j) (fun k => t (ind j k)) (w j)) else out j := by
  obtain ⟨q, h1, h2⟩ := targetsRnnDistance_at h manual (mean n t) nq t cnt ind w out hh
  refine ⟨q, h1, fun j => ?_⟩
  have hm : mean n t = (∑ i ∈ range n, t i) / n := by
    unfold mean
    rw [Verif.Logistic.loop_sum, zero_add]
  rw [h2 j]
  have : outlierValue h manual (mean n t) = if h = .mostFrequent then (∑ i ∈ range n, t i) / n else manual := by
    cases h
    · rfl
    · rfl
    · rw [if_pos rfl, ← hm]; rfl
  rw [this]

/-- Targets 10, 20, 60; neighbours 2 and 0 at the distances 1/2 and 1/4. -/
example : targetsKnn (K := ℚ) .distance 0 1 2 (fun i => [10, 20, 60].getD i 0) (fun k => [2, 0].getD k 0)
    (fun k => [1 / 2, 1 / 4].getD k 0) (fun _ => 9) 0 = 80 / 3 := by decide +kernel

/-! ### C159: the buffer for the targets of the neighbours in a radius -/

/-- With uniform weights each target is the mean over the neighbours of the query. -/
def C159_statement : Prop :=
  ∀ (nq : Nat) (t : Nat → ℚ) (cnt : Nat → Nat) (ind : Nat → Nat → Nat) (out : Nat → ℚ), 0 < nq → (∀ j < nq, cnt j ≠ 0) →
    ∃ q, targetsRnnUniform .none 0 0 nq t cnt ind out = .done q ∧
      ∀ j < nq, q j = (∑ k ∈ range (cnt j), t (ind j k)) / cnt j

/-- One neighbour of the first query and two of the second: the second neighbour is stored outside of pred_targets. -/
theorem C159_outside :
    (match targetsRnnUniform (K := ℚ) .none 0 0 2 (fun i => i) (fun j => j + 1) (fun _ k => k) (fun _ => 9) with
    | .outside => true
    | _ => false) = true := by decide +kernel

theorem C159_violated : ¬ C159_statement := by
  intro h
  obtain ⟨q, hq, _⟩ := h 2 (fun i => i) (fun j => j + 1) (fun _ k => k) (fun _ => 9) (by omega) (fun _ _ => by omega)
  have := C159_outside
  rw [hq] at this
  exact absurd this (by simp)

/-- Exactly when: two queries or more, and more neighbours of the last one than of any other. -/
theorem C159_extent (h : Outlier) (manual meanTarget : K) (nq : Nat) (hnq : 0 < nq) (t : Nat → K) (cnt : Nat → Nat)
    (ind : Nat → Nat → Nat) (out : Nat → K) (hh : h = .none → ∀ j < nq, cnt j ≠ 0) :
    targetsRnnUniform h manual meanTarget nq t cnt ind out = .outside ↔
      2 ≤ nq ∧ ∀ j < nq - 1, cnt j < cnt (nq - 1) := by
  obtain ⟨hb, hmax⟩ := maxElement_at (nq - 1) cnt
  constructor
  · intro ho
    by_contra hc
    have hsz : ∀ j < nq, cnt j ≤ cnt (maxElement (nq - 1) cnt) := by
      intro j hj
      by_cases hlast : j < nq - 1
      · exact hmax j hlast
      · obtain rfl : j = nq - 1 := by omega
        by_cases h2 : 2 ≤ nq
        · have : ∃ i < nq - 1, cnt (nq - 1) ≤ cnt i := by
            by_contra hne
            exact hc ⟨h2, fun i hi => by
              by_contra hlt
              exact hne ⟨i, hi, by omega⟩⟩
          obtain ⟨i, hi, e⟩ := this
          exact e.trans (hmax i hi)
        · have h0 : nq - 1 = 0 := by omega
          rw [h0] at hb ⊢
          have : maxElement 0 cnt = 0 := by omega
          rw [this]
    obtain ⟨q, pred, e, _⟩ := targetsUniform_loop h manual meanTarget _ nq t cnt ind out hh hsz
    unfold targetsRnnUniform at ho
    rw [e] at ho
    exact absurd ho (by simp)
  · rintro ⟨h2, hlt⟩
    obtain ⟨m, rfl⟩ : ∃ m, nq = m + 1 := ⟨nq - 1, by omega⟩
    rw [Nat.add_sub_cancel] at *
    have hsize : cnt (maxElement m cnt) < cnt m := hlt _ (by omega)
    obtain ⟨q, pred, e, _⟩ := targetsUniform_loop h manual meanTarget (cnt (maxElement m cnt)) m t cnt ind out
      (fun e j hj => hh e j (by omega)) hmax
    unfold targetsRnnUniform
    simp only [Nat.add_sub_cancel]
    unfold loop
    rw [e]
    unfold targetStep
    simp only
    rw [if_neg (by omega), (gather_at _ _ t (ind m) pred).2 hsize]

/-- What holds: in all other cases the targets are right and nothing else is written.  Missing: the last query having more neighbours
than any other. -/
theorem C159_uniform_partial (h : Outlier) (manual : K) (n nq : Nat) (hnq : 0 < nq) (t : Nat → K) (cnt : Nat → Nat)
    (ind : Nat → Nat → Nat) (out : Nat → K) (hh : h = .none → ∀ j < nq, cnt j ≠ 0)
    (hlast : nq = 1 ∨ ∃ j < nq - 1, cnt (nq - 1) ≤ cnt j) :
    ∃ q, targetsRnnUniform h manual (mean n t) nq t cnt ind out = .done q ∧
      ∀ j, q j = if j < nq then
        (if cnt j = 0 then (if h = .mostFrequent then (∑ i ∈ range n, t i) / n else manual)
        else (∑ k ∈ range (cnt j), t (ind j k)) / cnt j) else out j := by
  obtain ⟨hb, hmax⟩ := maxElement_at (nq - 1) cnt
  have hsz : ∀ j < nq, cnt j ≤ cnt (maxElement (nq - 1) cnt) := by
    intro j hj
    by_cases hl : j < nq - 1
    · exact hmax j hl
    · obtain rfl : j = nq - 1 := by omega
      rcases hlast with h1 | ⟨i, hi, e⟩
      · subst h1
        have : maxElement (1 - 1) cnt = 0 := by omega
        rw [this]
      · exact e.trans (hmax i hi)
  obtain ⟨q, pred, e, hq⟩ := targetsUniform_loop h manual (mean n t) _ nq t cnt ind out hh hsz
  unfold targetsRnnUniform
  rw [e]
  refine ⟨q, rfl, fun j => ?_⟩
  have hm : mean n t = (∑ i ∈ range n, t i) / n := by
    unfold mean
    rw [Verif.Logistic.loop_sum, zero_add]
  have : outlierValue h manual (mean n t) = if h = .mostFrequent then (∑ i ∈ range n, t i) / n else manual := by
    cases h
    · rfl
    · rfl
    · rw [if_pos rfl, ← hm]; rfl
  rw [hq j, this]
  simp [weightedMean]

/-- Two neighbours of the first query, one of the second. -/
example : seen (targetsRnnUniform (K := ℚ) .none 0 0 2 (fun i => [10, 20, 60].getD i 0) (fun j => 2 - j)
    (fun j k => j + 2 * k) (fun _ => 9)) 3 = some [35, 20, 9] := by decide +kernel

end Verif.KnnPredict
