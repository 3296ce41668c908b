import Verif.ApproxNn.Handle
import Mathlib.Data.Rat.Defs
import Mathlib.Algebra.Order.Ring.Rat
import Mathlib.Algebra.Field.Rat

/-
C125 and C128: what the index holds after a sequence of calls, and that no sequence of calls goes wrong.
-/
namespace Verif.ApproxNn

set_option linter.unusedSectionVars false

open Moments (M Fault ok_bind)

variable {K : Type} [Field K] [LinearOrder K] [IsStrictOrderedRing K]

/-- C125: when a sequence of calls on a new handle succeeds and the handle is trained, then the index holds
exactly the rows added since the training, each in the list of the first of its nearest centroids, and the rows
are numbered from zero in the order in which they were added. -/
def C125_statement : Prop :=
  ∀ (km : Bool → Nat → List (List ℚ) → List ℚ) (cs : List (Call ℚ)) (h : Handle ℚ) (L : List (Nat → ℚ))
    (base : Nat), KmOk km → ValidRun km Handle.fresh cs → runLog km cs Handle.fresh [] 0 = .ok (h, L, base) →
    h.trained = true → Holds h L 0

/-- C128: no sequence of calls reads or writes outside an array or divides by zero, whatever the calls return. -/
def C128_statement : Prop :=
  ∀ (km : Bool → Nat → List (List ℚ) → List ℚ) (cs : List (Call ℚ)), KmOk km → ValidRun km Handle.fresh cs →
    ∃ h, run km cs Handle.fresh = .ok h

/-- A clustering for the examples: all centroids are zero, except that the last has the entry one first. -/
def km0 : Bool → Nat → List (List ℚ) → List ℚ :=
  fun _ k A => (List.range (k * (A.headD []).length)).map fun i => if i + 1 = k then 1 else 0

theorem km0_ok : KmOk km0 := by
  intro row k A F hA h
  cases A with
  | nil => exact absurd rfl hA
  | cons a A => simp [km0, h a (by simp)]

theorem covers_one (b : Bool) (a : ℚ) : Covers b [a] 1 1 1 := by
  intro i hi j hj
  have e1 : i = 0 := by omega
  have e2 : j = 0 := by omega
  subst e1 e2
  cases b <;> simp [pos]

/-- The calls: data, training, one row, training again, one row. -/
def twice : List (Call ℚ) :=
  [.setData 1 1 [7] 1, .train, .add 1 1 [7] 1 1 [0] [0], .train, .add 1 1 [7] 1 1 [0] [0]]

theorem add_keeps {n F : Nat} {X : List ℚ} {ldx blk : Nat} {ob ol : List Nat} {h h' : Handle ℚ} {ok : Bool}
    (e : add n F X ldx blk ob ol h = .ok (h', ok)) : h'.nList = h.nList ∧ h'.optList = h.optList := by
  unfold add at e
  by_cases h1 : (!h.trained) = true
  · rw [if_pos h1] at e; cases e; exact ⟨rfl, rfl⟩
  rw [if_neg h1] at e
  by_cases h2 : h.optList ≠ h.nList ∨ h.optEu ≠ h.eu
  · rw [if_pos h2] at e; cases e; exact ⟨rfl, rfl⟩
  rw [if_neg h2] at e
  by_cases h3 : (!arrayOk h.row n F ldx) = true
  · rw [if_pos h3] at e; cases e; exact ⟨rfl, rfl⟩
  rw [if_neg h3] at e
  by_cases h4 : F ≠ h.F
  · rw [if_pos h4] at e; cases e; exact ⟨rfl, rfl⟩
  rw [if_neg h4] at e
  cases ea : addIvf h.row h.eu h.F h.nList h.cent h.ldc X ldx n blk ob ol h.ix with
  | error _ => rw [ea] at e; cases e
  | ok _ => rw [ea] at e; cases e; exact ⟨rfl, rfl⟩

theorem train_keeps {h h' : Handle ℚ} {ok : Bool} (hl : h.nList = h.optList) (e : train km0 h = .ok (h', ok)) :
    h'.nList = h.optList := by
  unfold train at e
  by_cases h1 : h.dataSet = true
  · simp only [if_pos h1] at e
    by_cases h2 : h.optList > h.n
    · rw [if_pos h2] at e; cases e; rfl
    · rw [if_neg h2] at e
      cases ea : readTrain h.optRow h.n h.F h.X h.ldx with
      | error _ => rw [ea] at e; cases e
      | ok _ => rw [ea] at e; cases e; rfl
  · rw [if_neg h1] at e; cases e; exact hl

theorem twice_valid : ValidRun km0 Handle.fresh twice := by
  refine ⟨fun _ => covers_one _ _, fun h' ok e => ?_⟩
  cases e
  refine ⟨trivial, fun h' ok e => ?_⟩
  cases e
  refine ⟨⟨fun _ => covers_one _ _, 1, 0, by decide, by decide, by decide⟩, fun h1 ok e => ?_⟩
  obtain ⟨e1, e2⟩ := add_keeps e
  change h1.nList = 1 at e1
  change h1.optList = 1 at e2
  refine ⟨trivial, fun h2 ok e => ?_⟩
  have e3 := train_keeps (by rw [e1, e2]) e
  rw [e2] at e3
  refine ⟨⟨fun _ => covers_one _ _, 1, 0, by decide, by decide, by rw [e3]; decide⟩, fun h' ok e => ?_⟩
  trivial

/-- The property does not hold: training again empties the lists but does not reset the counter the numbers of
the rows are taken from (approximate_neighbors.cpp:462-480, 706, 836), so that the only row of the index has the
number one. -/
theorem C125_numbering_violated : ¬ C125_statement := by
  intro H
  have hr : (runLog km0 twice Handle.fresh [] 0).map (fun r => (r.1.ix.glob, r.1.trained, r.2.1.length)) =
      .ok ([[1]], true, 1) := by decide +kernel
  cases e : runLog km0 twice Handle.fresh [] 0 with
  | error _ => rw [e] at hr; cases hr
  | ok r =>
    obtain ⟨h, L, base⟩ := r
    rw [e] at hr
    simp only [Except.map, Except.ok.injEq, Prod.mk.injEq] at hr
    obtain ⟨h1, h2, h3⟩ := hr
    obtain ⟨near, _, hs⟩ := H km0 twice h L base km0_ok twice_valid e h2
    have hg := hs.glob
    rw [h1, h3] at hg
    have hn : h.nList = 1 := by
      have := congrArg List.length hg
      simpa using this.symm
    rw [hn] at hg
    simp [members] at hg
    have : (0 : Nat) = 1 := by
      by_cases h0 : near 0 = 0 <;> simp [List.filter, h0] at hg
    omega

/-- What does hold: after a sequence of valid and careful calls (the handle is not trained again with more lists
than samples, and the storage order is the same when the data are passed and when the handle is trained), the
index holds exactly the rows added since the last training, each in the right list, numbered in their order; the
numbers start with the number of rows added before the last training and after the last call of
`set_training_data`. -/
theorem C125_index_content {km : Bool → Nat → List (List K) → List K} (hk : KmOk km) {cs : List (Call K)}
    (hv : ValidRun km Handle.fresh cs) (hc : Along (fun h _ c => Careful h c) km Handle.fresh [] cs) :
    ∃ h L base, runLog km cs Handle.fresh [] 0 = .ok (h, L, base) ∧ run km cs Handle.fresh = .ok h ∧
      (h.trained = true → Holds h L base) ∧ h.ix.nIndex = base + L.length := by
  obtain ⟨h, L, base, e, g⟩ := runLog_ok hk cs Handle.fresh [] 0 good_fresh hv hc
  refine ⟨h, L, base, e, ?_, fun ht => (g.index ht).2.2.2.1, g.count⟩
  rw [run_log cs Handle.fresh [] 0, e]
  rfl

theorem base_zero {km : Bool → Nat → List (List K) → List K} (cs : List (Call K)) :
    ∀ (h : Handle K) (L : List (Nat → K)), Along (fun _ L c => c = .train → L = []) km h L cs →
      ∀ h' L' base', runLog km cs h L 0 = .ok (h', L', base') → base' = 0 := by
  induction cs with
  | nil =>
    intro h L _ h' L' base' e
    rw [runLog] at e
    simp only [Except.ok.injEq, Prod.mk.injEq] at e
    exact e.2.2.symm
  | cons c cs ih =>
    intro h L ha h' L' base' e
    rw [runLog] at e
    cases es : step km h c with
    | error _ => rw [es] at e; cases e
    | ok r =>
      rw [es, ok_bind] at e
      have hb : logBase r.2 L 0 c = 0 := by
        cases c with
        | train =>
          rw [logBase, ha.1 rfl]
          simp
        | _ => rfl
      rw [hb] at e
      exact ih r.1 _ (ha.2 r.1 r.2 es) h' L' base' e

/-- C125 with the assumption that, besides, the handle is not trained while the index holds rows.  Missing for the
full property: the numbering of the rows added after a second training. -/
theorem C125_index_content_partial {km : Bool → Nat → List (List K) → List K} (hk : KmOk km) {cs : List (Call K)}
    (hv : ValidRun km Handle.fresh cs) (hc : Along (fun h _ c => Careful h c) km Handle.fresh [] cs)
    (hn : Along (fun _ L c => c = .train → L = []) km Handle.fresh [] cs) :
    ∃ h L, runLog km cs Handle.fresh [] 0 = .ok (h, L, 0) ∧ (h.trained = true → Holds h L 0) := by
  obtain ⟨h, L, base, e, _, hh, _⟩ := C125_index_content hk hv hc
  have hb := base_zero cs Handle.fresh [] hn h L base e
  subst hb
  exact ⟨h, L, e, hh⟩

/-- Two lists, two rows: the one near the second centroid is in the second list, with its number and norm. -/
example : (runLog km0 [.setList 2, .setRow true, .setData 2 1 [0, 1] 1, .train,
      .add 2 1 [3, -1] 1 2 [0] [1, 0], .add 1 1 [2] 1 1 [0] [0, 1]] Handle.fresh [] 0).map (fun r =>
        (r.1.ix, r.2.1.length, r.2.2)) =
    .ok (⟨[1, 2], [1, 1], [[-1], [3, 2]], [[1], [9, 4]], [[1], [0, 2]], 3, true⟩, 3, 0) := by decide +kernel

/-- Data, training with one list, then a training with two lists, which fails, then a row. -/
def failed : List (Call ℚ) :=
  [.setData 1 1 [7] 1, .train, .setList 2, .train, .add 1 1 [7] 1 1 [0] [0, 1]]

theorem failed_valid : ValidRun km0 Handle.fresh failed := by
  refine ⟨fun _ => covers_one _ _, fun h' ok e => ?_⟩
  cases e
  refine ⟨trivial, fun h' ok e => ?_⟩
  cases e
  refine ⟨trivial, fun h' ok e => ?_⟩
  cases e
  refine ⟨trivial, fun h' ok e => ?_⟩
  cases e
  refine ⟨⟨fun _ => covers_one _ _, 1, 0, by decide, by decide, by decide⟩, fun h' ok e => ?_⟩
  trivial

/-- The property does not hold: a training that fails because of `n_list > n_samples` has already changed
`n_list` (approximate_neighbors.cpp:233-274) while the handle still counts as trained, and the next `add` reads
a centroid that does not exist. -/
theorem C128_failed_training_violated : ¬ C128_statement := by
  intro H
  obtain ⟨h, e⟩ := H km0 failed km0_ok failed_valid
  have hr : (run km0 failed Handle.fresh).map (fun _ => ()) = .error .oob := by decide +kernel
  rw [e] at hr
  cases hr

/-- A row-major 1 × 2 matrix, then the storage order is changed, then training. -/
def reordered : List (Call ℚ) :=
  [.setRow true, .setData 1 2 [7, 8] 2, .setRow false, .train]

/-- Nor does it hold without a failing call: the training reads the storage order again, and reads the matrix in
that order. -/
theorem C128_storage_order_violated : ¬ C128_statement := by
  intro H
  have hv : ValidRun km0 Handle.fresh reordered := by
    refine ⟨trivial, fun h' ok e => ?_⟩
    cases e
    refine ⟨fun _ => ?_, fun h' ok e => ?_⟩
    · intro i hi j hj
      have e1 : i = 0 := by omega
      subst e1
      simp [pos]
      omega
    cases e
    refine ⟨trivial, fun h' ok e => ?_⟩
    cases e
    exact ⟨trivial, fun h' ok e => trivial⟩
  obtain ⟨h, e⟩ := H km0 reordered km0_ok hv
  have hr : (run km0 reordered Handle.fresh).map (fun _ => ()) = .error .oob := by decide +kernel
  rw [e] at hr
  cases hr

/-- C128 for careful calls.  Missing for the full property: sequences in which a trained handle is trained again
with more lists than samples, or in which the storage order changes between `set_training_data` and `train`;
with both the property fails. -/
theorem C128_no_fault_partial {km : Bool → Nat → List (List K) → List K} (hk : KmOk km) {cs : List (Call K)}
    (hv : ValidRun km Handle.fresh cs) (hc : Along (fun h _ c => Careful h c) km Handle.fresh [] cs) :
    ∃ h, run km cs Handle.fresh = .ok h := by
  obtain ⟨h, _, _, _, e, _⟩ := C125_index_content hk hv hc
  exact ⟨h, e⟩

/-- A training that fails at first is not a problem by itself. -/
example : (run km0 [.setList 2, .setData 1 1 [7] 1, .train, .setList 1, .train, .add 1 1 [7] 1 1 [0] [0]]
    Handle.fresh).map (fun h => (h.trained, h.ix.glob)) = .ok (true, [[0]]) := by decide +kernel

end Verif.ApproxNn
