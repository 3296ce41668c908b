import Mathlib.Algebra.BigOperators.Group.Finset.Basic
import Mathlib.Algebra.BigOperators.Group.List.Basic

/-!
# Threads with private buffers that add to shared cells

The shape of the parallel loops of `decision_forest_inference.hpp`: each thread writes to a buffer,
reads it again, and adds to shared cells under `#pragma omp atomic update`.  The threads run in any
interleaving.
-/

namespace Verif.Forest

/-- One access to shared memory by a thread; `load` keeps the value in a register of the thread. -/
inductive Op (V M : Type) where
  | put (pos : Nat) (v : V)
  | load (pos : Nat)
  | add (f : V → Nat × M)

structure Mem (V M : Type) where
  buf : Nat → V
  cells : Nat → M
  reg : Nat → V

variable {V M : Type}

/-- One access by thread `t`; `none`: outside the `nBuf` entries of the buffer or the `nCells` cells. -/
def step [Add M] (nBuf nCells : Nat) (t : Nat) (m : Mem V M) : Op V M → Option (Mem V M)
  | .put p v => if p < nBuf then some { m with buf := fun q => if q = p then v else m.buf q } else none
  | .load p => if p < nBuf then some { m with reg := fun u => if u = t then m.buf p else m.reg u } else none
  | .add f =>
    let (a, x) := f (m.reg t)
    if a < nCells then some { m with cells := fun b => if b = a then m.cells b + x else m.cells b } else none

def run [Add M] (nBuf nCells : Nat) : List (Nat × Op V M) → Mem V M → Option (Mem V M)
  | [], m => some m
  | (t, op) :: s, m =>
    match step nBuf nCells t m op with
    | none => none
    | some m' => run nBuf nCells s m'

/-- The accesses of thread `t` in a schedule. -/
def proj (t : Nat) (s : List (Nat × Op V M)) : List (Op V M) :=
  (s.filter fun p => p.1 == t).map fun p => p.2

/-! ### One thread alone -/

/-- What a thread adds to the cells if nobody else writes to its buffer. -/
def adds : List (Op V M) → (Nat → V) → V → List (Nat × M)
  | [], _, _ => []
  | .put p v :: ops, b, r => adds ops (fun q => if q = p then v else b q) r
  | .load p :: ops, b, _ => adds ops b (b p)
  | .add f :: ops, b, r => f r :: adds ops b r

/-- A thread keeps to its part of the buffer and to the cells. -/
def Safe (own : Nat → Prop) (nCells : Nat) : List (Op V M) → (Nat → V) → V → Prop
  | [], _, _ => True
  | .put p v :: ops, b, r => own p ∧ Safe own nCells ops (fun q => if q = p then v else b q) r
  | .load p :: ops, b, _ => own p ∧ Safe own nCells ops b (b p)
  | .add f :: ops, b, r => (f r).1 < nCells ∧ Safe own nCells ops b r

theorem safe_congr (own : Nat → Prop) (nCells : Nat) : ∀ (ops : List (Op V M)) (b b' : Nat → V) (r : V),
    (∀ p, own p → b p = b' p) → Safe own nCells ops b r →
    Safe own nCells ops b' r ∧ adds ops b r = adds ops b' r
  | [], _, _, _, _, _ => ⟨trivial, rfl⟩
  | .put p v :: ops, b, b', r, h, hs => by
    obtain ⟨h1, h2⟩ := safe_congr own nCells ops (fun q => if q = p then v else b q)
      (fun q => if q = p then v else b' q) r
      (fun q hq => by by_cases c : q = p <;> simp [c, h q hq]) hs.2
    exact ⟨⟨hs.1, h1⟩, h2⟩
  | .load p :: ops, b, b', r, h, hs => by
    have e := h p hs.1
    obtain ⟨h1, h2⟩ := safe_congr own nCells ops b b' (b p) h hs.2
    refine ⟨⟨hs.1, ?_⟩, ?_⟩
    · rw [← e]; exact h1
    · rw [adds, adds, ← e]; exact h2
  | .add f :: ops, b, b', r, h, hs => by
    obtain ⟨h1, h2⟩ := safe_congr own nCells ops b b' r h hs.2
    exact ⟨⟨hs.1, h1⟩, by rw [adds, adds, h2]⟩

/-! ### All threads -/

/-- The sum of the amounts added to cell `a`. -/
def amount [AddCommMonoid M] (l : List (Nat × M)) (a : Nat) : M :=
  (l.map fun p => if p.1 = a then p.2 else 0).sum

theorem proj_cons (t u : Nat) (op : Op V M) (s : List (Nat × Op V M)) :
    proj t ((u, op) :: s) = if u = t then op :: proj t s else proj t s := by
  unfold proj
  by_cases c : u = t <;> simp [c]

theorem run_adds [AddCommMonoid M] (own : Nat → Nat → Prop) (nBuf nCells T : Nat)
    (hd : ∀ t u p, own t p → own u p → t = u) (hb : ∀ t p, own t p → p < nBuf) :
    ∀ (s : List (Nat × Op V M)) (m : Mem V M), (∀ p ∈ s, p.1 < T) →
      (∀ t, Safe (own t) nCells (proj t s) m.buf (m.reg t)) →
      ∃ m', run nBuf nCells s m = some m' ∧
        ∀ a, m'.cells a = m.cells a +
          ∑ t ∈ Finset.range T, amount (adds (proj t s) m.buf (m.reg t)) a
  | [], m, _, _ => ⟨m, rfl, fun a => by simp [proj, adds, amount]⟩
  | (u, op) :: s, m, hT, hs => by
    have hu : u ∈ Finset.range T := Finset.mem_range.2 (hT _ List.mem_cons_self)
    have hsu := hs u
    rw [proj_cons, if_pos rfl] at hsu
    have hso : ∀ t, t ≠ u → Safe (own t) nCells (proj t s) m.buf (m.reg t) := fun t ht => by
      have := hs t
      rw [proj_cons, if_neg (Ne.symm ht)] at this
      exact this
    -- the rest of the schedule from the next memory
    have next : ∀ m1 : Mem V M, step nBuf nCells u m op = some m1 → ∀ d : Nat → M,
        (∀ a, m1.cells a = m.cells a + d a) →
        (∀ t, t ≠ u → m1.reg t = m.reg t) → (∀ t p, t ≠ u → own t p → m.buf p = m1.buf p) →
        Safe (own u) nCells (proj u s) m1.buf (m1.reg u) →
        (∀ a, amount (adds (proj u ((u, op) :: s)) m.buf (m.reg u)) a =
          d a + amount (adds (proj u s) m1.buf (m1.reg u)) a) →
        ∃ m', run nBuf nCells ((u, op) :: s) m = some m' ∧
        ∀ a, m'.cells a = m.cells a +
          ∑ t ∈ Finset.range T, amount (adds (proj t ((u, op) :: s)) m.buf (m.reg t)) a := by
      intro m1 e1 d e2 e3 e4 e5 e6
      have other : ∀ t, t ≠ u → Safe (own t) nCells (proj t s) m1.buf (m1.reg t) ∧
          adds (proj t s) m.buf (m.reg t) = adds (proj t s) m1.buf (m1.reg t) := by
        intro t ht
        rw [e3 t ht]
        exact safe_congr (own t) nCells _ _ _ _ (fun p hp => e4 t p ht hp) (hso t ht)
      obtain ⟨m', r1, r2⟩ := run_adds own nBuf nCells T hd hb s m1
        (fun p hp => hT p (List.mem_cons_of_mem _ hp)) (fun t => by
          by_cases ht : t = u
          · subst ht; exact e5
          · exact (other t ht).1)
      refine ⟨m', ?_, fun a => ?_⟩
      · rw [run, e1]; exact r1
      · rw [r2 a, e2 a, add_assoc]
        congr 1
        rw [← Finset.add_sum_erase _ _ hu, ← Finset.add_sum_erase _ _ hu, e6 a, add_assoc]
        congr 2
        apply Finset.sum_congr rfl
        intro t ht
        have ht : t ≠ u := (Finset.mem_erase.1 ht).1
        rw [proj_cons, if_neg (Ne.symm ht), (other t ht).2]
    cases op with
    | put p v =>
      obtain ⟨h1, h2⟩ := hsu
      refine next _ (if_pos (hb u p h1)) (fun _ => 0) (fun a => (add_zero _).symm) (fun _ _ => rfl) ?_ h2
        (fun a => ?_)
      · intro t q ht hq
        have : q ≠ p := fun e => ht (hd t u p (e ▸ hq) h1)
        simp [this]
      · rw [proj_cons, if_pos rfl, zero_add]; rfl
    | load p =>
      obtain ⟨h1, h2⟩ := hsu
      refine next { m with reg := fun w => if w = u then m.buf p else m.reg w } (if_pos (hb u p h1))
        (fun _ => 0) (fun a => (add_zero _).symm) (fun t ht => if_neg ht) (fun _ _ _ _ => rfl) ?_
        (fun a => ?_)
      · simp only [if_true]; exact h2
      · rw [proj_cons, if_pos rfl, zero_add]; simp only [if_true]; rfl
    | add f =>
      obtain ⟨h1, h2⟩ := hsu
      refine next _ (if_pos h1)
        (fun a => if (f (m.reg u)).1 = a then (f (m.reg u)).2 else 0) (fun a => ?_)
        (fun _ _ => rfl) (fun _ _ _ _ => rfl) h2 (fun a => ?_)
      · by_cases c : a = (f (m.reg u)).1
        · simp [c]
        · simp [c, Ne.symm c]
      · rw [proj_cons, if_pos rfl, adds, amount, List.map_cons, List.sum_cons]; rfl

theorem amount_perm [AddCommMonoid M] {l l' : List (Nat × M)} (h : l.Perm l') (a : Nat) :
    amount l a = amount l' a := (h.map _).sum_eq

theorem amount_append [AddCommMonoid M] (l l' : List (Nat × M)) (a : Nat) :
    amount (l ++ l') a = amount l a + amount l' a := by
  unfold amount; rw [List.map_append, List.sum_append]

theorem amount_flatMap_range [AddCommMonoid M] (g : Nat → List (Nat × M)) (T a : Nat) :
    ∑ t ∈ Finset.range T, amount (g t) a = amount ((List.range T).flatMap g) a := by
  induction T with
  | zero => simp [amount]
  | succ T ih =>
    rw [Finset.sum_range_succ, ih, List.range_succ, List.flatMap_append, amount_append]
    simp

end Verif.Forest
