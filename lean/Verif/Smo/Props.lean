import Verif.Smo.Train
import Mathlib.Data.List.Sort
import Mathlib.Data.Rat.Defs
import Mathlib.Algebra.Order.Field.Rat

/-
C69 to C72: the training loop of the support vector machines.
-/
namespace Verif.Smo

/-! ### A sorting function for the examples -/

/-- A sorting function that satisfies the contract. -/
def isort {F : Type} [LinearOrder F] (size : Nat) (g : Nat → F) : Nat → Nat := fun i =>
  ((List.range size).insertionSort (fun a b => g a ≤ g b)).getD i 0

theorem getD_lt (l : List Nat) (q : Nat) (h : q < l.length) : l.getD q 0 = l[q] := by
  simp [List.getD, h]

theorem isort_ok {F : Type} [LinearOrder F] (size : Nat) (g : Nat → F) :
    IsPerm (isort size g) size ∧ Sorted g (isort size g) size := by
  have hlen : ((List.range size).insertionSort (fun a b => g a ≤ g b)).length = size := by
    rw [List.length_insertionSort, List.length_range]
  have hmem : ∀ x, x ∈ (List.range size).insertionSort (fun a b => g a ≤ g b) ↔ x < size := by
    intro x
    rw [List.mem_insertionSort, List.mem_range]
  have hsrt := List.pairwise_insertionSort (fun a b => g a ≤ g b) (List.range size)
  unfold isort
  generalize (List.range size).insertionSort (fun a b => g a ≤ g b) = l at *
  refine ⟨⟨?_, ?_⟩, ?_⟩
  · intro q hq
    rw [getD_lt l _ (by omega)]
    exact (hmem _).1 (List.getElem_mem _)
  · intro x hx
    obtain ⟨q, hq, rfl⟩ := List.getElem_of_mem ((hmem x).2 hx)
    exact ⟨q, by omega, getD_lt l _ hq⟩
  · intro a b hab hb
    show g (l.getD a 0) ≤ g (l.getD b 0)
    rw [getD_lt l _ (by omega), getD_lt l _ (by omega)]
    rcases Nat.lt_or_eq_of_le hab with h | h
    · exact List.pairwise_iff_getElem.1 hsrt a b (by omega) (by omega) h
    · subst h; exact le_refl _

/-! ### C69 -/

/-- Size of the working set: the largest power of two that is at most the number of
entries, or the user's maximum. -/
theorem C69_size (size maxWs : Nat) (h : 0 < size) :
    wsSize size maxWs ≤ size ∧ wsSize size maxWs ≤ maxWs ∧
      (wsSize size maxWs < maxWs → ∃ e, wsSize size maxWs = 2 ^ e ∧ size < 2 * 2 ^ e) := by
  obtain ⟨a, b, c⟩ := maxpowtwoLoop_spec size size 1 (by omega) h (by omega)
  obtain ⟨e, he⟩ := c ⟨0, rfl⟩
  unfold wsSize
  refine ⟨by omega, by omega, fun hlt => ⟨e, by omega, by omega⟩⟩

example : wsSize 1000 1024 = 512 ∧ wsSize 3 1024 = 2 ∧ wsSize 5000 1024 = 1024 := by decide +kernel

/-- The working sets of all iterations consist of distinct entries. -/
def C69_statement (v : Variant) : Prop :=
  ∀ (F : Type) [Field F] [LinearOrder F] [IsStrictOrderedRing F] (p : Par F) (n size ws : Nat)
    (kcol : Nat → Nat → F) (y : Nat → F) (sort : (Nat → F) → Nat → Nat) (s : State F),
    0 < p.tau → 0 < p.C → Signs y → (∀ g, IsPerm (sort g) size ∧ Sorted g (sort g) size) →
    ws ≤ size → InBox p.C size s.alpha → (∀ i, i < ws → s.ws i < size) →
    ∀ k, Distinct size ws (train v p n size ws kcol y sort (k + 1) s).ws

/-- SVC and SVR select `ws_size` distinct entries in every iteration. -/
theorem C69_working_set_c : C69_statement .c := by
  intro F _ _ _ p n size ws kcol y sort s htau hC hy hsort hws hbox _ k
  exact (train_full (v := .c) htau hC hy (fun g => (hsort g).1) hws s hbox (k + 1)).1 (by omega)

/-- nu-SVC and nu-SVR do so if each class has at least `ws_size` entries. -/
theorem C69_working_set_nu_partial {F : Type} [Field F] [LinearOrder F] [IsStrictOrderedRing F]
    (p : Par F) (n size ws : Nat) (kcol : Nat → Nat → F) (y : Nat → F)
    (sort : (Nat → F) → Nat → Nat) (s : State F) (htau : 0 < p.tau) (hC : 0 < p.C) (hy : Signs y)
    (hsort : ∀ g, IsPerm (sort g) size) (h1 : ws ≤ classSize size y 1)
    (h2 : ws ≤ classSize size y (-1)) (hbox : InBox p.C size s.alpha) (k : Nat) :
    Distinct size ws (train .nu p n size ws kcol y sort (k + 1) s).ws :=
  (train_full (v := .nu) htau hC hy hsort ⟨h1, h2⟩ s hbox (k + 1)).1 (by omega)

/-- Entries of the working set are always valid positions, also when some of them are
left over from earlier iterations. -/
theorem C69_valid_entries {F : Type} [Field F] [LinearOrder F] [IsStrictOrderedRing F]
    (v : Variant) (p : Par F) (n size ws : Nat) (kcol : Nat → Nat → F) (y : Nat → F)
    (sort : (Nat → F) → Nat → Nat) (s : State F)
    (hsort : ∀ g, IsPerm (sort g) size)
    (hw : ∀ i, i < ws → s.ws i < size) (k : Nat) :
    ∀ i, i < ws → (train v p n size ws kcol y sort k s).ws i < size := by
  induction k with
  | zero => exact hw
  | succ k ih =>
    exact outer_pres v p.C y _ (· < size) (hsort _).lt _
      (startSel_pres (· < size) (k == 0) ws _ ih)

/-- One-dimensional data with a linear kernel. -/
def linK (xs : List ℚ) : Nat → Nat → ℚ := fun s r => xs.getD s 0 * xs.getD r 0

/-- Eight samples; samples 1 and 6 are in the positive class. -/
def exXs : List ℚ := [0, 5, 1, 2, 4, 3, 6, 7]
def exY : Nat → ℚ := fun i => if i = 1 ∨ i = 6 then 1 else -1
def exPar : Par ℚ := { C := 1, tau := 1 / 1000, tol := 1 / 1000, big := 1000000, inner := 800 }
/-- Start of nu-SVC with nu = 1/4: the first sample of each class has `alpha` 1. -/
def exStart : State ℚ :=
  { alpha := fun i => if i = 0 ∨ i = 1 then 1 else 0
    grad := fun x => [0, 25, 5, 10, 20, 15, 30, 35].getD x 0
    ws := fun _ => 0, firstDiff := 0 }

theorem exY_signs : Signs exY := by
  intro k
  unfold exY
  split
  · exact Or.inl rfl
  · exact Or.inr rfl

theorem exStart_box : InBox exPar.C 8 exStart.alpha := by
  intro x _
  show 0 ≤ (if x = 0 ∨ x = 1 then (1 : ℚ) else 0) ∧ (if x = 0 ∨ x = 1 then (1 : ℚ) else 0) ≤ 1
  split <;> decide

/-- The first working set of nu-SVC for these data has sample 0 four times: the
selection stops as soon as the positive class is used up, and the rest of
`ws_indexes` keeps its old contents. -/
theorem C69_working_set_nu_violated : ¬ C69_statement .nu := by
  intro h
  have h1 := h ℚ exPar 8 8 8 (linK exXs) exY (isort 8) exStart (by decide +kernel)
    (by decide +kernel) exY_signs (isort_ok 8) (le_refl _) exStart_box
    (fun i _ => by show (0 : Nat) < 8; omega) 0
  have h2 : (train .nu exPar 8 8 8 (linK exXs) exY (isort 8) (0 + 1) exStart).ws 5 =
      (train .nu exPar 8 8 8 (linK exXs) exY (isort 8) (0 + 1) exStart).ws 6 := by decide +kernel
  exact absurd (h1.2 5 6 (by omega) (by omega) h2) (by omega)

example : (List.range 8).map (train .nu exPar 8 8 8 (linK exXs) exY (isort 8) 1 exStart).ws =
    [6, 0, 1, 7, 4, 0, 0, 0] := by decide +kernel

/-- Start of SVC on the same samples. -/
def exStartC : State ℚ :=
  { alpha := fun _ => 0, grad := fun x => -exY x, ws := fun _ => 0, firstDiff := 0 }

/-- Three iterations of SVC with working sets of size 4; the last two samples of a
working set are the first two of the next one. -/
example : (List.range 3).map (fun k => (List.range 4).map
    (train .c exPar 8 8 4 (linK exXs) exY (isort 8) (k + 1) exStartC).ws) =
    [[1, 7, 6, 5], [6, 5, 7, 4], [7, 4, 5, 3]] := by decide +kernel

/-- nu-SVR with eight samples, hence sixteen entries, eight in each class. -/
def exY5 : Nat → ℚ := fun i => if i < 8 then 1 else -1
def exStart5 : State ℚ :=
  { alpha := fun i => if i % 8 < 2 then 1 else 0
    grad := fun x => -[1, 3, -2, 0, 2, 5, 4, -1].getD (x % 8) 0
    ws := fun _ => 0, firstDiff := 0 }

example : classSize 16 exY5 1 = 8 ∧ classSize 16 exY5 (-1) = 8 ∧
    (List.range 8).map (train .nu exPar 8 16 8 (linK exXs) exY5 (isort 16) 1 exStart5).ws =
      [5, 9, 0, 10, 6, 8, 1, 15] := by decide +kernel

/-! ### C70 -/

/-- After any number of iterations the box constraints hold and the gradient kept by
the solver is the gradient of the dual objective.  All variants, and also for the
working sets with repetitions. -/
theorem C70_box_and_gradient {F : Type} [Field F] [LinearOrder F] [IsStrictOrderedRing F]
    (v : Variant) (p : Par F) (n size ws : Nat) (kcol : Nat → Nat → F) (y : Nat → F)
    (sort : (Nat → F) → Nat → Nat) (s : State F) (c : Nat → F) (htau : 0 < p.tau) (hy : Signs y)
    (hsort : ∀ g, IsPerm (sort g) size) (hw : ∀ i, i < ws → s.ws i < size)
    (hbox : InBox p.C size s.alpha)
    (hg : ∀ x, x < size → s.grad x = exactGrad n size kcol y c s.alpha x) (k : Nat) :
    InBox p.C size (train v p n size ws kcol y sort k s).alpha ∧
    ∀ x, x < size → (train v p n size ws kcol y sort k s).grad x =
      exactGrad n size kcol y c (train v p n size ws kcol y sort k s).alpha x :=
  (train_box_grad v htau hy hsort s c hw hbox hg k).2

example : ∀ x, x < 8 → exStart.grad x = exactGrad 8 8 (linK exXs) exY (fun _ => 0) exStart.alpha x := by
  decide +kernel

/-- The equality constraint of the dual problem is preserved: the sum of
`y * alpha`, for the nu variants also the sum of `alpha` over each class. -/
def C70_equality_statement (v : Variant) : Prop :=
  ∀ (F : Type) [Field F] [LinearOrder F] [IsStrictOrderedRing F] (p : Par F) (n size ws : Nat)
    (kcol : Nat → Nat → F) (y : Nat → F) (sort : (Nat → F) → Nat → Nat) (s : State F),
    0 < p.tau → 0 < p.C → Signs y → (∀ g, IsPerm (sort g) size ∧ Sorted g (sort g) size) →
    ws ≤ size → InBox p.C size s.alpha → (∀ i, i < ws → s.ws i < size) → ∀ k,
    (∑ x ∈ Finset.range size, y x * (train v p n size ws kcol y sort k s).alpha x =
      ∑ x ∈ Finset.range size, y x * s.alpha x) ∧
    (v = .nu → ∀ l, ∑ x ∈ Finset.range size with y x = l,
        (train v p n size ws kcol y sort k s).alpha x =
      ∑ x ∈ Finset.range size with y x = l, s.alpha x)

theorem C70_equality_c : C70_equality_statement .c := by
  intro F _ _ _ p n size ws kcol y sort s htau hC hy hsort hws hbox _ k
  refine ⟨?_, fun h => by cases h⟩
  have := (train_full (v := .c) (n := n) (kcol := kcol) htau hC hy (fun g => (hsort g).1) hws s
    hbox k).2.2 (fun _ => 1) (fun _ _ => rfl)
  have e : ∀ a : Nat → F, ∑ x ∈ Finset.range size, a x * y x * 1 =
      ∑ x ∈ Finset.range size, y x * a x :=
    fun a => Finset.sum_congr rfl fun x _ => by ring
  rw [e, e] at this
  exact this

theorem C70_equality_nu_partial {F : Type} [Field F] [LinearOrder F] [IsStrictOrderedRing F]
    (p : Par F) (n size ws : Nat) (kcol : Nat → Nat → F) (y : Nat → F)
    (sort : (Nat → F) → Nat → Nat) (s : State F) (htau : 0 < p.tau) (hC : 0 < p.C) (hy : Signs y)
    (hsort : ∀ g, IsPerm (sort g) size) (h1 : ws ≤ classSize size y 1)
    (h2 : ws ≤ classSize size y (-1)) (hbox : InBox p.C size s.alpha) (k : Nat) :
    (∑ x ∈ Finset.range size, y x * (train .nu p n size ws kcol y sort k s).alpha x =
      ∑ x ∈ Finset.range size, y x * s.alpha x) ∧
    ∀ l, ∑ x ∈ Finset.range size with y x = l, (train .nu p n size ws kcol y sort k s).alpha x =
      ∑ x ∈ Finset.range size with y x = l, s.alpha x := by
  have key := (train_full (v := .nu) (n := n) (kcol := kcol) htau hC hy hsort ⟨h1, h2⟩ s hbox k).2.2
  refine ⟨?_, ?_⟩
  · have := key (fun _ => 1) (fun _ _ _ => rfl)
    have e : ∀ a : Nat → F, ∑ x ∈ Finset.range size, a x * y x * 1 =
        ∑ x ∈ Finset.range size, y x * a x :=
      fun a => Finset.sum_congr rfl fun x _ => by ring
    rw [e, e] at this
    exact this
  · intro l
    have h := key (fun x => if y x = l then y x else 0) (by intro i j hij; simp only [hij])
    have e : ∀ a : Nat → F, ∑ x ∈ Finset.range size, a x * y x * (if y x = l then y x else 0) =
        ∑ x ∈ Finset.range size with y x = l, a x := by
      intro a
      rw [Finset.sum_filter]
      refine Finset.sum_congr rfl fun x _ => ?_
      split
      · rcases hy x with hx | hx <;> rw [hx] <;> ring
      · ring
    rw [e, e] at h
    exact h

example : ∑ x ∈ Finset.range 16 with exY5 x = 1, exStart5.alpha x = 2 ∧
    ∑ x ∈ Finset.range 16 with exY5 x = 1,
      (train .nu exPar 8 16 8 (linK exXs) exY5 (isort 16) 2 exStart5).alpha x = 2 ∧
    (train .nu exPar 8 16 8 (linK exXs) exY5 (isort 16) 2 exStart5).alpha 5 ≠ exStart5.alpha 5 := by
  decide +kernel

/-- With a working set that contains repetitions one iteration of nu-SVC breaks the
equality constraint: here the sum of `y * alpha` goes from 0 to -5/7. -/
theorem C70_equality_nu_violated : ¬ C70_equality_statement .nu := by
  intro h
  have h1 := (h ℚ exPar 8 8 8 (linK exXs) exY (isort 8) exStart (by decide +kernel)
    (by decide +kernel) exY_signs (isort_ok 8) (le_refl _) exStart_box
    (fun i _ => by show (0 : Nat) < 8; omega) 1).1
  revert h1
  decide +kernel

example : (List.range 8).map (train .nu exPar 8 8 8 (linK exXs) exY (isort 8) 1 exStart).alpha =
    [1, 1, 0, 0, 0, 0, 0, 5 / 7] := by decide +kernel

/-! ### C71 -/

/-- The dual objective never increases from one iteration to the next, whatever the
(symmetric) kernel. -/
def C71_statement (v : Variant) : Prop :=
  ∀ (F : Type) [Field F] [LinearOrder F] [IsStrictOrderedRing F] (p : Par F) (n size ws : Nat)
    (kcol : Nat → Nat → F) (y : Nat → F) (sort : (Nat → F) → Nat → Nat) (s : State F) (c : Nat → F),
    0 < p.tau → 0 < p.C → Signs y → (∀ g, IsPerm (sort g) size ∧ Sorted g (sort g) size) →
    ws ≤ size → InBox p.C size s.alpha → (∀ i, i < ws → s.ws i < size) →
    (∀ x, x < size → s.grad x = exactGrad n size kcol y c s.alpha x) → 0 < n →
    (∀ a b, a < n → b < n → kcol a b = kcol b a) → ∀ k,
    objective n size kcol y c (train v p n size ws kcol y sort (k + 1) s).alpha ≤
      objective n size kcol y c (train v p n size ws kcol y sort k s).alpha

theorem C71_objective_c : C71_statement .c := by
  intro F _ _ _ p n size ws kcol y sort s c htau hC hy hsort hws hbox hw hg hn hK k
  exact train_obj (v := .c) htau hC hy (fun g => (hsort g).1) hws s c hbox hw hg hn hK k

theorem C71_objective_nu_partial {F : Type} [Field F] [LinearOrder F] [IsStrictOrderedRing F]
    (p : Par F) (n size ws : Nat) (kcol : Nat → Nat → F) (y : Nat → F)
    (sort : (Nat → F) → Nat → Nat) (s : State F) (c : Nat → F) (htau : 0 < p.tau) (hC : 0 < p.C)
    (hy : Signs y) (hsort : ∀ g, IsPerm (sort g) size) (h1 : ws ≤ classSize size y 1)
    (h2 : ws ≤ classSize size y (-1)) (hbox : InBox p.C size s.alpha)
    (hw : ∀ i, i < ws → s.ws i < size)
    (hg : ∀ x, x < size → s.grad x = exactGrad n size kcol y c s.alpha x) (hn : 0 < n)
    (hK : ∀ a b, a < n → b < n → kcol a b = kcol b a) (k : Nat) :
    objective n size kcol y c (train .nu p n size ws kcol y sort (k + 1) s).alpha ≤
      objective n size kcol y c (train .nu p n size ws kcol y sort k s).alpha :=
  train_obj (v := .nu) htau hC hy hsort ⟨h1, h2⟩ s c hbox hw hg hn hK k

/-- SVC on the eight samples: the objective after 0, 1 and 2 iterations. -/
example : (List.range 3).map (fun k => objective 8 8 (linK exXs) exY (fun x => -exY x)
    (train .c exPar 8 8 4 (linK exXs) exY (isort 8) k exStartC).alpha) = [0, -32 / 9, -4] := by
  decide +kernel

/-- Eight samples for which nu-SVC (nu = 1/4) begins with repetitions in the working
set. -/
def exXs2 : List ℚ := [4, 1, -3, -1, 1, -1, 3, 4]
def exY2 : Nat → ℚ := fun i => if i = 0 ∨ i = 6 ∨ i = 7 then 1 else -1
def exStart2 : State ℚ :=
  { alpha := fun i => if i = 0 ∨ i = 1 then 1 else 0
    grad := fun x => 3 * exXs2.getD x 0
    ws := fun _ => 0, firstDiff := 0 }

/-- The first iteration raises the objective from 9/2 to 18. -/
theorem C71_objective_nu_violated : ¬ C71_statement .nu := by
  intro h
  have h1 := h ℚ exPar 8 8 8 (linK exXs2) exY2 (isort 8) exStart2 (fun _ => 0) (by decide +kernel)
    (by decide +kernel) (by intro k; unfold exY2; split; exacts [Or.inl rfl, Or.inr rfl])
    (isort_ok 8) (le_refl _) exStart_box (fun i _ => by show (0 : Nat) < 8; omega)
    (by decide +kernel) (by omega) (by intro a b _ _; unfold linK; ring) 0
  revert h1
  decide +kernel

example : objective 8 8 (linK exXs2) exY2 (fun _ => 0) exStart2.alpha = 9 / 2 ∧
    objective 8 8 (linK exXs2) exY2 (fun _ => 0)
      (train .nu exPar 8 8 8 (linK exXs2) exY2 (isort 8) 1 exStart2).alpha = 18 := by
  decide +kernel

/-! ### C72 -/

/-- If an iteration after the first reports a first difference below the tolerance
(the normal end of training), the optimality conditions hold up to the tolerance for
the result: no pair that may be changed (for the nu variants: within one class)
differs in the gradient by the tolerance or more. -/
def C72_statement (v : Variant) : Prop :=
  ∀ (F : Type) [Field F] [LinearOrder F] [IsStrictOrderedRing F] (p : Par F) (n size ws : Nat)
    (kcol : Nat → Nat → F) (y : Nat → F) (sort : (Nat → F) → Nat → Nat) (s : State F),
    0 < p.tau → 0 < p.C → 0 < p.inner → Signs y →
    (∀ g, IsPerm (sort g) size ∧ Sorted g (sort g) size) → 2 ≤ ws →
    ws ≤ size → InBox p.C size s.alpha → (∀ i, i < ws → s.ws i < size) → ∀ k,
    let t := train v p n size ws kcol y sort (k + 2) s
    (∀ x, x < size → t.grad x < p.big) → t.firstDiff < p.tol →
    ∀ x z, x < size → z < size → CanGrow p.C y t.alpha x → CanShrink p.C y t.alpha z →
      (v = .nu → y x = y z) → t.grad z - t.grad x < p.tol

/-- SVC and SVR with at least three entries in the working set.  The last iteration has
changed nothing. -/
theorem C72_optimal_c_partial {F : Type} [Field F] [LinearOrder F] [IsStrictOrderedRing F]
    (p : Par F) (n size ws : Nat) (kcol : Nat → Nat → F) (y : Nat → F)
    (sort : (Nat → F) → Nat → Nat) (s : State F) (htau : 0 < p.tau) (hC : 0 < p.C)
    (hin : 0 < p.inner) (hy : Signs y)
    (hsort : ∀ g, IsPerm (sort g) size ∧ Sorted g (sort g) size) (hws : 3 ≤ ws)
    (hsz : ws ≤ size) (hbox : InBox p.C size s.alpha) (k : Nat)
    (hbig : ∀ x, x < size → (train .c p n size ws kcol y sort (k + 1) s).grad x < p.big)
    (hstop : (train .c p n size ws kcol y sort (k + 2) s).firstDiff < p.tol) :
    let t := train .c p n size ws kcol y sort (k + 2) s
    t.alpha = (train .c p n size ws kcol y sort (k + 1) s).alpha ∧
    ∀ x z, x < size → z < size → CanGrow p.C y t.alpha x → CanShrink p.C y t.alpha z →
      t.grad z - t.grad x < p.tol := by
  intro t
  have hd := (train_full (v := .c) (n := n) (kcol := kcol) htau hC hy (fun g => (hsort g).1) hsz s
    hbox (k + 1)).1 (by omega)
  obtain ⟨a, b, c⟩ := iteration_stop (v := .c) hin hsort (train .c p n size ws kcol y sort (k + 1) s)
    hd hsz hC hws hbig hstop
  have a' : t.alpha = _ := a
  have b' : t.grad = _ := b
  rw [a', b']
  exact ⟨rfl, fun x z hx hz h1 h2 => c x z hx hz h1 h2 trivial⟩

/-- nu-SVC and nu-SVR with at least seven entries in the working set and in each
class. -/
theorem C72_optimal_nu_partial {F : Type} [Field F] [LinearOrder F] [IsStrictOrderedRing F]
    (p : Par F) (n size ws : Nat) (kcol : Nat → Nat → F) (y : Nat → F)
    (sort : (Nat → F) → Nat → Nat) (s : State F) (htau : 0 < p.tau) (hC : 0 < p.C)
    (hin : 0 < p.inner) (hy : Signs y)
    (hsort : ∀ g, IsPerm (sort g) size ∧ Sorted g (sort g) size) (hws : 7 ≤ ws)
    (h1 : ws ≤ classSize size y 1) (h2 : ws ≤ classSize size y (-1))
    (hbox : InBox p.C size s.alpha) (k : Nat)
    (hbig : ∀ x, x < size → (train .nu p n size ws kcol y sort (k + 1) s).grad x < p.big)
    (hstop : (train .nu p n size ws kcol y sort (k + 2) s).firstDiff < p.tol) :
    let t := train .nu p n size ws kcol y sort (k + 2) s
    t.alpha = (train .nu p n size ws kcol y sort (k + 1) s).alpha ∧
    ∀ x z, x < size → z < size → CanGrow p.C y t.alpha x → CanShrink p.C y t.alpha z →
      y x = y z → t.grad z - t.grad x < p.tol := by
  intro t
  have hd := (train_full (v := .nu) (n := n) (kcol := kcol) htau hC hy (fun g => (hsort g).1)
    ⟨h1, h2⟩ s hbox (k + 1)).1 (by omega)
  obtain ⟨a, b, c⟩ := iteration_stop (v := .nu) hin hsort
    (train .nu p n size ws kcol y sort (k + 1) s) hd ⟨h1, h2⟩ hC hws hbig hstop
  have a' : t.alpha = _ := a
  have b' : t.grad = _ := b
  rw [a', b']
  exact ⟨rfl, fun x z hx hz h1 h2 h3 => c x z hx hz h1 h2 h3⟩

/-- SVC on the eight samples stops in its third iteration. -/
example : (train .c exPar 8 8 4 (linK exXs) exY (isort 8) 3 exStartC).firstDiff = 0 ∧
    (List.range 8).map (train .c exPar 8 8 4 (linK exXs) exY (isort 8) 3 exStartC).alpha =
      [0, 1, 0, 0, 1, 0, 1, 1] := by decide +kernel

/-- Three samples, for which the working set has two. -/
def exXs3 : List ℚ := [-3, 1, 2]
def exY3 : Nat → ℚ := fun i => if i = 1 then 1 else -1
def exPar3 : Par ℚ := { exPar with C := 10 }
def exStart3 : State ℚ :=
  { alpha := fun _ => 0, grad := fun x => -exY3 x, ws := fun _ => 0, firstDiff := 0 }

/-- SVC with a working set of two: from the second iteration on half of the working
set is kept, the other place goes to the worst entry of the growing kind, and the worst
entry of the other kind is never looked at.  Training ends after the sixth iteration
with a pair that violates the optimality condition by 10. -/
theorem C72_optimal_c_violated : ¬ C72_statement .c := by
  intro h
  have h1 := h ℚ exPar3 3 3 2 (linK exXs3) exY3 (isort 3) exStart3 (by decide +kernel)
    (by decide +kernel) (by decide +kernel)
    (by intro k; unfold exY3; split; exacts [Or.inl rfl, Or.inr rfl])
    (isort_ok 3) (le_refl _) (by omega)
    (by intro x _; exact ⟨le_refl _, by show (0 : ℚ) ≤ 10; decide +kernel⟩)
    (fun i _ => by show (0 : Nat) < 3; omega) 4 (by decide +kernel) (by decide +kernel)
    2 0 (by omega) (by omega) (Or.inr (by decide +kernel)) (Or.inr (by decide +kernel))
    (by intro h; cases h)
  revert h1
  decide +kernel

example : wsSize 3 1024 = 2 ∧
    (train .c exPar3 3 3 2 (linK exXs3) exY3 (isort 3) 6 exStart3).firstDiff = 0 ∧
    (train .c exPar3 3 3 2 (linK exXs3) exY3 (isort 3) 6 exStart3).grad 0 -
      (train .c exPar3 3 3 2 (linK exXs3) exY3 (isort 3) 6 exStart3).grad 2 = 10 := by
  decide +kernel

/-- Five samples, for which the working set has four. -/
def exXs4 : List ℚ := [-4, -4, 4, 0, 4]
def exY4 : Nat → ℚ := fun i => if i < 3 then 1 else -1
def exStart4 : State ℚ :=
  { alpha := fun i => [1, 1 / 4, 0, 1, 1 / 4].getD i 0
    grad := fun x => [24, 24, -24, 0, -24].getD x 0
    ws := fun _ => 0, firstDiff := 0 }

/-- The same for nu-SVC (nu = 1/2) with a working set of four. -/
theorem C72_optimal_nu_violated : ¬ C72_statement .nu := by
  intro h
  have h1 := h ℚ exPar 5 5 4 (linK exXs4) exY4 (isort 5) exStart4 (by decide +kernel)
    (by decide +kernel) (by decide +kernel)
    (by intro k; unfold exY4; split; exacts [Or.inl rfl, Or.inr rfl])
    (isort_ok 5) (by omega) (by omega)
    (by unfold InBox; decide +kernel)
    (fun i _ => by show (0 : Nat) < 5; omega) 4 (by decide +kernel) (by decide +kernel)
    2 0 (by omega) (by omega) (Or.inl (by decide +kernel)) (Or.inl (by decide +kernel))
    (by intro _; rfl)
  revert h1
  decide +kernel

end Verif.Smo
