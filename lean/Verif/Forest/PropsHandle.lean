import Verif.Forest.HandleModel
import Verif.Forest.Props

/-!
# C56: prediction with a forest is refused when the forest does not belong to the data
-/

namespace Verif.Forest

/-- A call of `predict` on a handle is as it should be: refused, or it gives the smallest class with the
most votes of trees that are all able to vote. -/
def Proper (h : Handle) : Prop :=
  ∀ (nfeat nsamp nThreads blockSize : Nat) (work : Nat → List (Nat × Nat)) (s : List (Nat × Op Nat Nat)),
    let d : Dims := { nThreads := nThreads, blockSize := blockSize, nsamp := nsamp, nClass := h.nClass,
                      nTree := h.trees.length }
    0 < blockSize → Divides d work →
    Schedules (countTask d (usableIn h.trees h.nFeat) (voteOf h.trees)) work s →
    match h.predict nfeat nsamp nThreads blockSize s with
    | .refused => True
    | .ub => False
    | .done y => (∀ t ∈ h.trees, ∃ f, t = some f ∧ f.nFeat = nfeat) ∧
      ∀ i, i < nsamp → ∃ k : Nat, y i = (k : Int) ∧ k < h.nClass ∧
        (∀ c, c < h.nClass → votes (voteOf h.trees) h.trees.length i c ≤
          votes (voteOf h.trees) h.trees.length i k) ∧
        ∀ c, c < k → votes (voteOf h.trees) h.trees.length i c < votes (voteOf h.trees) h.trees.length i k

/-- C56 in full. -/
def C56_statement : Prop := ∀ h, Reachable h → Proper h

/-- What holds: a handle whose last call was a successful fit.  Missing: a handle whose data were set
again, or whose last fit failed. -/
theorem C56_partial (h : Handle) (trees : List FTree) (hc : 1 ≤ h.nClass)
    (hf : ∀ f ∈ trees, f.nFeat = h.nFeat ∧ f.nClass = h.nClass ∧ ∀ i, f.vote i < h.nClass)
    (hi : h.initDone = true) : Proper (h.fit trees) := by
  unfold Handle.fit
  rw [if_pos hi]
  intro nfeat nsamp nThreads blockSize work s d hb hw hs
  unfold Handle.predict
  dsimp only
  by_cases e : nfeat = h.nFeat
  · rw [if_neg (by simpa using e), if_neg (by simp)]
    have hget : ∀ k, k < d.nTree → ∃ f ∈ trees, (trees.map some)[k]? = some (some f) := by
      intro k hk
      have hk : k < (trees.map some).length := hk
      rw [List.length_map] at hk
      exact ⟨trees[k], List.getElem_mem _, by simp [hk]⟩
    have hany : (trees.map some).any (fun t => t.isNone) = false := by
      simp
    rw [if_neg (by rw [hany]; simp)]
    obtain ⟨y, e1, e2⟩ := C39_vote d hb hc (usableIn (trees.map some) h.nFeat) (voteOf (trees.map some))
      (by
        intro k hk
        obtain ⟨f, hm, e⟩ := hget k hk
        unfold usableIn
        rw [e]
        simpa using (hf f hm).1)
      (by
        intro k i hk _
        obtain ⟨f, hm, e⟩ := hget k hk
        unfold voteOf
        rw [e]
        exact (hf f hm).2.2 i)
      work hw s hs fun _ => 0
    have e1 : predict ⟨nThreads, blockSize, nsamp, h.nClass, (trees.map some).length⟩ s (fun _ => 0) =
      some y := e1
    rw [e1]
    dsimp only
    refine ⟨fun t ht => ?_, e2⟩
    obtain ⟨f, hm, rfl⟩ := List.mem_map.1 ht
    exact ⟨f, rfl, (hf f hm).1.trans e.symm⟩
  · rw [if_pos (by simpa using e)]
    trivial

/-! ### Where it fails -/

/-- One tree, which always votes for class 2. -/
def two : FTree := { nFeat := 1, nClass := 3, vote := fun _ => 2 }

/-- Fitted for three classes. -/
def fitted : Handle := (Handle.new.setData 1 3).fit [two]

theorem fitted_reach : Reachable fitted :=
  .fit _ _ (.setData _ 1 3 .new (by decide)) (by
    intro f hf
    rw [List.mem_singleton.1 hf]
    exact ⟨rfl, rfl, fun _ => (by decide : 2 < 3)⟩)

/-- One sample, one thread. -/
def oneSample (h : Handle) : List (Nat × Op Nat Nat) :=
  (countTask { nThreads := 1, blockSize := 1, nsamp := 1, nClass := h.nClass, nTree := h.trees.length }
    (usableIn h.trees h.nFeat) (voteOf h.trees) 0 (0, 0)).map fun op => (0, op)

theorem one_divides (c : Nat) :
    Divides { nThreads := 1, blockSize := 1, nsamp := 1, nClass := c, nTree := 1 }
      fun t => if t = 0 then [(0, 0)] else [] := by
  refine ⟨?_, fun t ht => if_neg (by have : 1 ≤ t := ht; omega)⟩
  simp [tasks, Dims.nBlocks]

theorem one_schedules (h : Handle) :
    Schedules (countTask { nThreads := 1, blockSize := 1, nsamp := 1, nClass := h.nClass, nTree := h.trees.length }
      (usableIn h.trees h.nFeat) (voteOf h.trees)) (fun t => if t = 0 then [(0, 0)] else []) (oneSample h) := by
  intro t
  unfold oneSample proj
  by_cases c : t = 0
  · subst c
    simp [List.filter_eq_self.2]
  · dsimp only
    rw [if_neg c]
    simp [Ne.symm c]

/-- The data are set again, with two classes, and the forest is not fitted again: `predict` is not
refused, and increments a count outside the array. -/
theorem C56_class_overflow : Reachable (fitted.setData 1 2) ∧
    (fitted.setData 1 2).predict 1 1 1 1 (oneSample (fitted.setData 1 2)) = .ub := by
  refine ⟨.setData _ 1 2 fitted_reach (by decide), ?_⟩
  rfl

theorem C56_violated : ¬ C56_statement := by
  intro h
  have := h _ C56_class_overflow.1 1 1 1 1 _ (oneSample (fitted.setData 1 2)) (by decide) (one_divides 2)
    (one_schedules _)
  rw [C56_class_overflow.2] at this
  exact this

/-- The data are set again, with two features: the trees return an error that is not looked at, and the
result is class 0, for which no tree votes. -/
theorem C56_silent : Reachable (fitted.setData 2 3) ∧
    ∃ y, (fitted.setData 2 3).predict 2 1 1 1 (oneSample (fitted.setData 2 3)) = .done y ∧ y 0 = 0 :=
  ⟨.setData _ 2 3 fitted_reach (by decide), _, rfl, by decide +kernel⟩

/-- A second fit, with more trees and with histograms for fewer than four samples, fails; `predict` is
not refused, and uses a null pointer. -/
theorem C56_null_tree : Reachable (fitted.fitBins 2) ∧
    (fitted.fitBins 2).predict 1 1 1 1 (oneSample (fitted.fitBins 2)) = .ub :=
  ⟨.fitBins _ 2 fitted_reach, rfl⟩

-- after the fit the prediction is class 2
example : Proper fitted ∧ ∃ y, fitted.predict 1 1 1 1 (oneSample fitted) = .done y ∧ y 0 = 2 :=
  ⟨C56_partial (Handle.new.setData 1 3) [two] (by decide) (by
    intro f hf
    rw [List.mem_singleton.1 hf]
    exact ⟨rfl, rfl, fun _ => (by decide : 2 < 3)⟩) rfl, _, rfl, by decide +kernel⟩

end Verif.Forest
