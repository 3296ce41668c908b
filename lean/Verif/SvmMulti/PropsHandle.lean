import Verif.SvmMulti.Handle
import Mathlib.Data.Rat.Defs
import Mathlib.Algebra.Order.Field.Rat
import Mathlib.Tactic.Ring

/-
C80: an SVM handle over several calls.
-/
namespace Verif.SvmMulti.Handle

/-- Number of features of the last `set_data` that returned success. -/
def lastFeatures (h : List (Op × Out)) : Option Nat :=
  h.foldl (fun l e => match e with
    | (.setData _ p _ _ _, .ok) => some p
    | _ => l) none

/-- Full property: no sequence of calls leads to undefined behaviour, and a prediction is
only made with as many features as the data of the last successful `set_data`. -/
def C80_statement : Prop :=
  ∀ ops : List Op, .ub ∉ (run ops {}).2 ∧
    ∀ nfeat, (step (.predict nfeat) (run ops {}).1).2 = .ok →
      lastFeatures (ops.zip (run ops {}).2) = some nfeat

/-- Data stored by rows: a failed `set_data` releases the copy, the classifiers of the
first one still point to it, and `compute` is not refused. -/
theorem C80_released_violated :
    (run [.select 1, .option true, .setData 10 2 0 2 none, .setData 10 2 1 2 (some .store),
      .compute false none] {}).2 = [.ok, .ok, .ok, .error, .ub] := by decide

/-- The same if the new data are copied before the labels are found wrong: the
classifiers point to the first copy. -/
theorem C80_released_labels_violated :
    (run [.select 1, .option true, .setData 10 2 0 2 none, .setData 10 2 1 2 (some .labels),
      .compute false none] {}).2 = [.ok, .ok, .ok, .error, .ub] := by decide

/-- A failed `set_data` changes the number of features that `predict` expects: the
support vectors are read beyond their end. -/
theorem C80_predict_violated :
    (run [.select 1, .setData 10 2 0 2 none, .compute false none, .setData 10 3 1 2 (some .labels),
      .predict 3] {}).2 = [.ok, .ok, .ok, .error, .ub] := by decide

/-- With fewer features the prediction uses a part of the support vectors; predictions
with the right number of features are refused. -/
theorem C80_stale_violated :
    (run [.select 1, .setData 10 2 0 2 none, .compute false none, .setData 10 1 1 2 (some .store),
      .predict 1, .predict 2] {}).2 = [.ok, .ok, .ok, .error, .ok, .error] := by decide

theorem C80_violated : ¬ C80_statement := by
  intro h
  have := (h [.select 1, .setData 10 2 0 2 none, .compute false none, .setData 10 3 1 2 (some .labels),
      .predict 3]).1
  revert this
  decide

theorem C80_features_violated : ¬ ∀ ops : List Op, .ub ∉ (run ops {}).2 →
    ∀ nfeat, (step (.predict nfeat) (run ops {}).1).2 = .ok →
      lastFeatures (ops.zip (run ops {}).2) = some nfeat := by
  intro h
  have := h [.select 1, .setData 10 2 0 2 none, .compute false none, .setData 10 1 1 2 (some .store)]
    (by decide) 1 (by decide)
  revert this
  decide

/-- State of a handle whose last `set_data` succeeded, or that has no data. -/
structure Inv (st : St) : Prop where
  no : st.loaded = false → st.trained = false
  data : st.loaded = true → readable st st.X st.nrow st.ncol = true
  sv : st.loaded = true → st.isSv = st.nrow
  clf : st.loaded = true → ∀ c ∈ st.clfs, c.X = st.X ∧ c.n = st.nrow ∧ c.p = st.ncol ∧
    (st.trained = true → c.sv = some st.ncol)

theorem readable_congr {st st' : St} (h : st'.temp = st.temp) (d : Data) (n p : Nat) :
    readable st' d n p = readable st d n p := by
  unfold readable
  rw [h]

theorem setData_ok (n p k classes : Nat) (fail : Option Stage) (st : St)
    (h : (setData n p k classes fail st).2 = .ok) :
    Inv (setData n p k classes fail st).1 ∧ (setData n p k classes fail st).1.loaded = true ∧
      (setData n p k classes fail st).1.ncol = p := by
  revert h
  unfold setData
  simp only
  split_ifs <;> intro h <;> first | (cases h; done) | skip
  all_goals refine ⟨⟨fun h => absurd h (by simp), fun _ => ?_, fun _ => ?_, fun _ => ?_⟩, rfl, ?_⟩ <;>
    simp [readable, *]

theorem setData_error (n p k classes : Nat) (fail : Option Stage) (st : St)
    (h : (setData n p k classes fail st).2 ≠ .ok) :
    (setData n p k classes fail st).2 = .error ∧
    (setData n p k classes fail st).1.loaded = st.loaded ∧
      (setData n p k classes fail st).1.trained = st.trained := by
  revert h
  unfold setData
  simp only
  split_ifs <;> intro h <;> first | exact absurd rfl h | simp

theorem compute_inv {st : St} (hI : Inv st) (g : Bool) (fail : Option Nat) :
    Inv (compute g fail st).1 ∧ (compute g fail st).2 ≠ .ub ∧
    (compute g fail st).1.loaded = st.loaded ∧ (compute g fail st).1.ncol = st.ncol := by
  unfold compute
  by_cases hl : st.loaded = true
  swap
  · simp [hl, hI]
  have hr := hI.data hl
  have hc := hI.clf hl
  have h1 : ∀ c ∈ st.clfs, readable st c.X c.n c.p = true := fun c h => by
    obtain ⟨a, b, d, _⟩ := hc c h
    rw [a, b, d, hr]
  have h2 : ∀ c ∈ st.clfs, readable st st.X c.n st.ncol = true := fun c h => by
    obtain ⟨a, b, d, _⟩ := hc c h
    rw [b, hr]
  have e1 : (st.clfs.take (fail.getD st.clfs.length)).all (fun c => readable st c.X c.n c.p) = true := by
    rw [List.all_eq_true]
    exact fun c h => h1 c (List.mem_of_mem_take h)
  have e2 : st.clfs.all (fun c => readable st st.X c.n st.ncol) = true := by
    rw [List.all_eq_true]
    exact h2
  have e3 : st.clfs.all (fun c => decide (c.n ≤ st.isSv)) = true := by
    rw [List.all_eq_true]
    intro c h
    rw [(hc c h).2.1, hI.sv hl]
    simp
  simp only [hl, e1, e2, e3, hr, Bool.not_true, Bool.and_false, Bool.false_eq_true, if_false]
  split
  · refine ⟨⟨fun h => absurd h (by simp), fun _ => ?_, fun _ => hI.sv hl, fun _ => ?_⟩, by simp, rfl, rfl⟩
    · exact (readable_congr (st := st) rfl _ _ _).trans hr
    · intro c h
      simp only [List.mem_mapIdx] at h
      obtain ⟨i, hi, rfl⟩ := h
      obtain ⟨a, b, d, e⟩ := hc _ (List.getElem_mem hi)
      split
      · exact ⟨a, b, d, fun _ => by rw [d]⟩
      · exact ⟨a, b, d, e⟩
  · refine ⟨⟨fun h => absurd h (by simp), fun _ => ?_, fun _ => hI.sv hl, fun _ => ?_⟩, by simp, rfl, rfl⟩
    · exact (readable_congr (st := st) rfl _ _ _).trans hr
    · intro c h
      simp only [List.mem_map] at h
      obtain ⟨c', hc', rfl⟩ := h
      obtain ⟨a, b, d, e⟩ := hc _ hc'
      exact ⟨a, b, d, fun _ => by rw [d]⟩

theorem predict_inv {st : St} (hI : Inv st) (nfeat : Nat) :
    (predict nfeat st).1 = st ∧ (predict nfeat st).2 ≠ .ub ∧
    ((predict nfeat st).2 = .ok → st.loaded = true ∧ st.ncol = nfeat) := by
  unfold predict
  by_cases h1 : nfeat = st.ncol
  swap
  · simp [h1]
  by_cases h2 : st.trained = true
  swap
  · simp [h1, h2]
  have hl : st.loaded = true := by
    by_contra h
    have := hI.no (by simpa using h)
    rw [h2] at this
    cases this
  have e : st.clfs.all (fun c => decide (nfeat ≤ c.sv.getD 0)) = true := by
    rw [List.all_eq_true]
    intro c h
    rw [((hI.clf hl) c h).2.2.2 h2, h1]
    simp
  simp only [h2, e, hl, Bool.not_true, Bool.false_eq_true, if_false]
  rw [if_neg (by simp [h1])]
  exact ⟨rfl, by simp, fun _ => ⟨trivial, h1.symm⟩⟩

/-- No `set_data` fails while the handle holds data; with `loaded` the state of the
handle before. -/
def NoLateFailure (ops : List Op) (st : St) : Prop :=
  ∀ l r n p k classes fail, ops = l ++ Op.setData n p k classes fail :: r →
    (run l st).1.loaded = true → (setData n p k classes fail (run l st).1).2 = .ok

/-- What is left of the history matters only through the last features. -/
def lastFrom (l : Option Nat) (h : List (Op × Out)) : Option Nat :=
  h.foldl (fun l e => match e with
    | (.setData _ p _ _ _, .ok) => some p
    | _ => l) l

theorem run_inv (ops : List Op) : ∀ (st : St) (l : Option Nat), Inv st →
    (st.loaded = true → l = some st.ncol) → NoLateFailure ops st →
    .ub ∉ (run ops st).2 ∧ Inv (run ops st).1 ∧
      ((run ops st).1.loaded = true → lastFrom l (ops.zip (run ops st).2) = some (run ops st).1.ncol) := by
  induction ops with
  | nil => intro st l hI hl _; exact ⟨by simp [run], hI, hl⟩
  | cons op ops ih =>
    intro st l hI hl hno
    have main : (step op st).2 ≠ .ub ∧ Inv (step op st).1 ∧
        ((step op st).1.loaded = true → lastFrom l [(op, (step op st).2)] = some (step op st).1.ncol) := by
      cases op with
      | select m =>
        show (select m st).2 ≠ .ub ∧ Inv (select m st).1 ∧ ((select m st).1.loaded = true → l = some (select m st).1.ncol)
        unfold select
        split
        · exact ⟨by simp, hI, hl⟩
        · split
          · exact ⟨by simp, ⟨fun _ => rfl, by simp, by simp, by simp⟩, by simp⟩
          · exact ⟨by simp, hI, hl⟩
      | option r =>
        refine ⟨by simp [step], ⟨fun _ => rfl, ?_, hI.sv, ?_⟩, hl⟩
        · intro h
          exact (readable_congr (st := st) rfl _ _ _).trans (hI.data h)
        · intro h c hc
          obtain ⟨a, b, d, _⟩ := hI.clf h c hc
          exact ⟨a, b, d, fun h => by cases h⟩
      | setData n p k classes fail =>
        by_cases h : (setData n p k classes fail st).2 = .ok
        · obtain ⟨h1, h2, h3⟩ := setData_ok _ _ _ _ _ _ h
          refine ⟨fun hu => ?_, h1, fun _ => ?_⟩
          · have : (setData n p k classes fail st).2 = .ub := hu
            rw [h] at this; cases this
          · show lastFrom l [(_, (setData n p k classes fail st).2)] = some (setData n p k classes fail st).1.ncol
            rw [h, h3]
            rfl
        · obtain ⟨h1, h2, h3⟩ := setData_error _ _ _ _ _ _ h
          have hf : st.loaded = false := by
            by_contra hc
            exact h (hno [] ops n p k classes fail rfl (by simpa [run] using hc))
          have hs : (step (.setData n p k classes fail) st) = setData n p k classes fail st := rfl
          rw [hs]
          refine ⟨by rw [h1]; simp, ⟨fun _ => h3.trans (hI.no hf), ?_, ?_, ?_⟩, ?_⟩ <;>
            (intro hc; rw [h2, hf] at hc; cases hc)
      | compute g fail =>
        obtain ⟨h1, h2, h3, h4⟩ := compute_inv hI g fail
        refine ⟨h2, h1, fun h => ?_⟩
        show l = some (compute g fail st).1.ncol
        rw [h4]
        exact hl (h3 ▸ h)
      | predict nfeat =>
        obtain ⟨h1, h2, _⟩ := predict_inv hI nfeat
        refine ⟨h2, ?_, ?_⟩
        · show Inv (predict nfeat st).1
          rw [h1]; exact hI
        · show (predict nfeat st).1.loaded = true → l = some (predict nfeat st).1.ncol
          rw [h1]; exact hl
    obtain ⟨m1, m2, m3⟩ := main
    rcases es : step op st with ⟨st', o⟩
    rw [es] at m1 m2 m3
    have erun : run (op :: ops) st = ((run ops st').1, o :: (run ops st').2) := by
      rw [run]
      simp only [es]
      rw [if_neg m1]
    obtain ⟨r1, r2, r3⟩ := ih st' (lastFrom l [(op, o)]) m2 m3 (by
      intro a b n p k classes fail e hld
      have := hno (op :: a) b n p k classes fail (by rw [e]; rfl)
      rw [run] at this
      simp only [es] at this
      rw [if_neg m1] at this
      exact this hld)
    rw [erun]
    refine ⟨by simpa using ⟨fun h => m1 h.symm, r1⟩, r2, r3⟩

/-- The property holds for all sequences in which no `set_data` fails on a handle that
already holds data. -/
theorem C80_partial (ops : List Op) (hno : NoLateFailure ops {}) :
    .ub ∉ (run ops {}).2 ∧
    ∀ nfeat, (step (.predict nfeat) (run ops {}).1).2 = .ok →
      lastFeatures (ops.zip (run ops {}).2) = some nfeat := by
  obtain ⟨h1, h2, h3⟩ := run_inv ops {} none
    ⟨fun _ => rfl, (fun h => by cases h), (fun h => by cases h), (fun h => by cases h)⟩ (fun h => by cases h) hno
  refine ⟨h1, fun nfeat h => ?_⟩
  obtain ⟨_, _, e⟩ := predict_inv h2 nfeat
  obtain ⟨a, b⟩ := e h
  rw [← b]
  exact h3 a

/-- A successful `set_data` repairs the handle, whatever happened before. -/
theorem C80_repaired (st : St) (n p k classes : Nat) (fail : Option Stage) (ops : List Op)
    (hok : (setData n p k classes fail st).2 = .ok)
    (hno : NoLateFailure ops (setData n p k classes fail st).1) :
    .ub ∉ (run (.setData n p k classes fail :: ops) st).2 := by
  obtain ⟨h1, h2, h3⟩ := setData_ok _ _ _ _ _ _ hok
  have := (run_inv ops _ (some p) h1 (fun _ => by rw [h3]) hno).1
  rcases es : setData n p k classes fail st with ⟨st', o⟩
  rw [es] at this hok
  simp only at hok
  subst hok
  rw [run]
  simp only [step, es]
  simpa using this

/-- Data that were accepted can be used for training and prediction. -/
theorem C80_usable (st : St) (n p k classes : Nat) (gamma : Bool) (hmod : st.mod ≠ 0)
    (hcl : 2 ≤ classes ∨ st.mod = 3 ∨ st.mod = 4) :
    (run [.setData n p k classes none, .compute gamma none, .predict p] st).2 = [.ok, .ok, .ok] := by
  have h1 : (setData n p k classes none st).2 = .ok := by
    unfold setData
    have h2 : ¬ (if st.mod = 3 ∨ st.mod = 4 then 2 else classes) < 2 := by split <;> omega
    by_cases ht : st.temp.isSome = true <;> by_cases hr : st.rowMajor = true <;> simp [ht, hr, h2, hmod]
  obtain ⟨hI, hl, hp⟩ := setData_ok _ _ _ _ _ _ h1
  rcases es : setData n p k classes none st with ⟨s1, o1⟩
  rw [es] at h1 hI hl hp
  simp only at h1 hI hl hp
  subst h1
  have h2 : (compute gamma none s1).2 = .ok ∧ (compute gamma none s1).1.trained = true := by
    have hu := (compute_inv hI gamma none).2.1
    revert hu
    unfold compute
    simp only [hl, Bool.not_true, Bool.false_eq_true, if_false, Option.isSome_none, Bool.false_and]
    split_ifs <;> intro hu <;> first | exact absurd rfl hu | exact ⟨rfl, rfl⟩
  obtain ⟨hI2, _, hl2, hp2⟩ := compute_inv hI gamma none
  rcases ec : compute gamma none s1 with ⟨s2, o2⟩
  rw [ec] at h2 hI2 hl2 hp2
  simp only at h2 hI2 hl2 hp2
  obtain ⟨e2, ht⟩ := h2
  subst e2
  have h3 : (predict p s2).2 = .ok := by
    have hu := (predict_inv hI2 p).2.1
    revert hu
    unfold predict
    rw [hp2, hp]
    simp only [ht, ne_eq, not_true_eq_false, if_false, Bool.not_true, Bool.false_eq_true]
    split_ifs <;> intro hu <;> first | exact absurd rfl hu | rfl
  simp only [run, step, es, ec]
  simp [h3]

/-- Calls that are fine: the failed call comes before the first data. -/
example : (run [.select 1, .setData 10 3 0 3 (some .empty), .setData 6 2 1 3 none, .compute true none,
    .predict 3, .predict 2] {}).2 = [.ok, .error, .ok, .ok, .error, .ok] := by decide

/-! ### Fitting twice with the RBF kernel -/

variable {F : Type} [Field F]

/-- The stored norms after `k` fits are `k` times the squared norms. -/
theorem C80_norms (p : Nat) (X : Nat → Nat → F) (k j : Nat) :
    norms p X k j = k * ((List.range p).map fun i => X j i * X j i).sum := by
  have key : ∀ (l : List Nat) (s : F), l.foldl (fun s i => s + X j i * X j i) s =
      s + (l.map fun i => X j i * X j i).sum := by
    intro l
    induction l with
    | nil => intro s; simp
    | cons a l ih => intro s; rw [List.foldl_cons, ih, List.map_cons, List.sum_cons]; ring
  induction k with
  | zero => simp [norms]
  | succ k ih =>
    rw [norms, fitNorms, key, ih]
    push_cast
    ring

/-- Full property: the kernel values of every fit are those of the squared distance. -/
def C80_rbf_statement (F : Type) [Field F] : Prop :=
  ∀ (p : Nat) (X : Nat → Nat → F) (gamma : F) (k i j : Nat), 0 < k →
    rbfArgument p X gamma k i j =
      -gamma * ((List.range p).map fun l => (X i l - X j l) * (X i l - X j l)).sum

theorem C80_rbf_violated : ¬ C80_rbf_statement ℚ := by
  intro h
  have := h 1 (fun _ _ => 1) 1 2 0 0 (by decide)
  revert this
  decide +kernel

/-- The first fit is right; fit `k` has the squared norm of the training sample `k - 1`
times too much. -/
theorem C80_rbf_partial (p : Nat) (X : Nat → Nat → F) (gamma : F) (k i j : Nat) :
    rbfArgument p X gamma k i j =
      -gamma * ((List.range p).map fun l => (X i l - X j l) * (X i l - X j l)).sum -
        gamma * (k - 1) * ((List.range p).map fun l => X i l * X i l).sum := by
  rw [rbfArgument, C80_norms]
  have key : ∀ l : List Nat, (l.map fun l => (X i l - X j l) * (X i l - X j l)).sum =
      (l.map fun l => X i l * X i l).sum + (l.map fun l => X j l * X j l).sum -
        2 * (l.map fun l => X i l * X j l).sum := by
    intro l
    induction l with
    | nil => simp
    | cons a l ih => simp only [List.map_cons, List.sum_cons, ih]; ring
  rw [key]
  ring

example : (rbfArgument 2 (fun i l => ((i + l : Nat) : ℚ)) (1 / 2) 1 0 1,
    rbfArgument 2 (fun i l => ((i + l : Nat) : ℚ)) (1 / 2) 2 0 1) = (-1, -3 / 2) := by decide +kernel

end Verif.SvmMulti.Handle
