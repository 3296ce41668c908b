import Verif.Forest.Model
import Verif.Blocking.Props
import Mathlib.Algebra.BigOperators.Intervals
import Mathlib.Tactic.Ring

/-!
# Prediction with a forest: what the threads add
-/

namespace Verif.Forest

variable {V M ι : Type}

/-! ### Write a buffer, then read it -/

def fill (pos : ι → Nat) (val : ι → V) (l : List ι) : List (Op V M) := l.map fun x => .put (pos x) (val x)

def drain (pos : ι → Nat) (g : ι → V → Nat × M) (l : List ι) : List (Op V M) :=
  l.flatMap fun x => [.load (pos x), .add (g x)]

theorem drain_adds (own : Nat → Prop) (nCells : Nat) (pos : ι → Nat) (val : ι → V) (g : ι → V → Nat × M)
    (rest : List (Op V M)) (R : List (Nat × M))
    (hrest : ∀ b r, Safe own nCells rest b r ∧ adds rest b r = R) :
    ∀ (l : List ι) (b : Nat → V) (r : V), (∀ x ∈ l, b (pos x) = val x) → (∀ x ∈ l, own (pos x)) →
      (∀ x ∈ l, (g x (val x)).1 < nCells) →
      Safe own nCells (drain pos g l ++ rest) b r ∧
      adds (drain pos g l ++ rest) b r = (l.map fun x => g x (val x)) ++ R
  | [], b, r, _, _, _ => hrest b r
  | x :: l, b, r, h1, h2, h3 => by
    have e := h1 x List.mem_cons_self
    obtain ⟨a1, a2⟩ := drain_adds own nCells pos val g rest R hrest l b (b (pos x))
      (fun y hy => h1 y (List.mem_cons_of_mem _ hy)) (fun y hy => h2 y (List.mem_cons_of_mem _ hy))
      (fun y hy => h3 y (List.mem_cons_of_mem _ hy))
    refine ⟨⟨h2 x List.mem_cons_self, ?_, a1⟩, ?_⟩
    · rw [e]; exact h3 x List.mem_cons_self
    · show g x (b (pos x)) :: adds (drain pos g l ++ rest) b (b (pos x)) = _
      rw [a2, e]; rfl

theorem fill_adds (own : Nat → Prop) (nCells : Nat) (pos : ι → Nat) (val : ι → V) (r : V)
    (rest : List (Op V M)) (R : List (Nat × M)) :
    ∀ (l : List ι) (b : Nat → V), (∀ x ∈ l, own (pos x)) →
      (∀ x ∈ l, ∀ y ∈ l, pos x = pos y → x = y) →
      (∀ b' : Nat → V, (∀ x ∈ l, b' (pos x) = val x) →
        (∀ p, (∀ x ∈ l, pos x ≠ p) → b' p = b p) → Safe own nCells rest b' r ∧ adds rest b' r = R) →
      Safe own nCells (fill pos val l ++ rest) b r ∧ adds (fill pos val l ++ rest) b r = R
  | [], b, _, _, h => h b (by simp) (by simp)
  | x :: l, b, h1, h2, h => by
    obtain ⟨a1, a2⟩ := fill_adds own nCells pos val r rest R l
      (fun q => if q = pos x then val x else b q)
      (fun y hy => h1 y (List.mem_cons_of_mem _ hy))
      (fun y hy z hz => h2 y (List.mem_cons_of_mem _ hy) z (List.mem_cons_of_mem _ hz)) (by
        intro b' e1 e2
        apply h b'
        · intro y hy
          rcases List.mem_cons.1 hy with rfl | hy
          · by_cases c : ∃ z ∈ l, pos z = pos y
            · obtain ⟨z, z1, z2⟩ := c
              have := h2 z (List.mem_cons_of_mem _ z1) y List.mem_cons_self z2
              exact this ▸ e1 z z1
            · rw [e2 (pos y) (fun z hz e => c ⟨z, hz, e⟩)]; simp
          · exact e1 y hy
        · intro p hp
          rw [e2 p fun z hz => hp z (List.mem_cons_of_mem _ hz)]
          have := hp x List.mem_cons_self
          simp [Ne.symm this])
    exact ⟨⟨h1 x List.mem_cons_self, a1⟩, a2⟩

theorem task_adds (own : Nat → Prop) (nCells : Nat) (pos : ι → Nat) (val : ι → V) (g : ι → V → Nat × M)
    (l : List ι) (h1 : ∀ x ∈ l, own (pos x)) (h2 : ∀ x ∈ l, ∀ y ∈ l, pos x = pos y → x = y)
    (h3 : ∀ x ∈ l, (g x (val x)).1 < nCells) (rest : List (Op V M)) (R : List (Nat × M))
    (hrest : ∀ b r, Safe own nCells rest b r ∧ adds rest b r = R) (b : Nat → V) (r : V) :
    Safe own nCells ((fill pos val l ++ drain pos g l) ++ rest) b r ∧
    adds ((fill pos val l ++ drain pos g l) ++ rest) b r = (l.map fun x => g x (val x)) ++ R := by
  rw [List.append_assoc]
  exact fill_adds own nCells pos val r _ _ l b h1 h2 fun b' e _ =>
    drain_adds own nCells pos val g rest R hrest l b' r e h1 h3

/-- The program of a thread. -/
theorem work_adds (own : Nat → Prop) (nCells : Nat) (task : Nat × Nat → List (Op V M))
    (out : Nat × Nat → List (Nat × M)) : ∀ (w : List (Nat × Nat)),
    (∀ x ∈ w, ∀ (rest : List (Op V M)) (R : List (Nat × M)),
      (∀ b r, Safe own nCells rest b r ∧ adds rest b r = R) → ∀ b r,
      Safe own nCells (task x ++ rest) b r ∧ adds (task x ++ rest) b r = out x ++ R) →
    ∀ b r, Safe own nCells (w.flatMap task) b r ∧ adds (w.flatMap task) b r = w.flatMap out
  | [], _, _, _ => ⟨trivial, rfl⟩
  | x :: w, h, b, r => by
    rw [List.flatMap_cons, List.flatMap_cons]
    exact h x List.mem_cons_self _ _
      (work_adds own nCells task out w fun y hy => h y (List.mem_cons_of_mem _ hy)) b r

/-- All threads: what is added to a cell is what all the tasks add to it. -/
theorem run_tasks [AddCommMonoid M] (d : Dims) (own : Nat → Nat → Prop) (nBuf nCells : Nat)
    (hd : ∀ t u p, own t p → own u p → t = u) (hb : ∀ t p, own t p → p < nBuf)
    (task : Nat → Nat × Nat → List (Op V M)) (out : Nat × Nat → List (Nat × M))
    (htask : ∀ t, t < d.nThreads → ∀ x ∈ tasks d, ∀ (rest : List (Op V M)) (R : List (Nat × M)),
      (∀ b r, Safe (own t) nCells rest b r ∧ adds rest b r = R) → ∀ b r,
      Safe (own t) nCells (task t x ++ rest) b r ∧ adds (task t x ++ rest) b r = out x ++ R)
    (work : Nat → List (Nat × Nat)) (hw : Divides d work) (s : List (Nat × Op V M))
    (hs : Schedules task work s) (m : Mem V M) :
    ∃ m', run nBuf nCells s m = some m' ∧
      ∀ a, m'.cells a = m.cells a + amount ((tasks d).flatMap out) a := by
  have hmem : ∀ t, t < d.nThreads → ∀ x ∈ work t, x ∈ tasks d := fun t ht x hx =>
    hw.1.mem_iff.1 (List.mem_flatMap.2 ⟨t, List.mem_range.2 ht, hx⟩)
  have local_ : ∀ t b r, Safe (own t) nCells (proj t s) b r ∧ adds (proj t s) b r = (work t).flatMap out := by
    intro t b r
    rw [hs t]
    by_cases ht : t < d.nThreads
    · exact work_adds (own t) nCells (task t) out (work t)
        (fun x hx rest R => htask t ht x (hmem t ht x hx) rest R) b r
    · rw [hw.2 t (by omega)]
      exact ⟨trivial, rfl⟩
  have hT : ∀ p ∈ s, p.1 < d.nThreads := by
    intro p hp
    by_contra c
    have e : proj p.1 s = [] := by rw [hs, hw.2 _ (by omega)]; rfl
    have : p.2 ∈ proj p.1 s := List.mem_map.2 ⟨p, List.mem_filter.2 ⟨hp, by simp⟩, rfl⟩
    rw [e] at this
    cases this
  obtain ⟨m', e1, e2⟩ := run_adds own nBuf nCells d.nThreads hd hb s m hT fun t => (local_ t _ _).1
  refine ⟨m', e1, fun a => ?_⟩
  rw [e2 a]
  congr 1
  rw [Finset.sum_congr rfl fun t _ => by rw [(local_ t _ _).2]]
  rw [amount_flatMap_range fun t => (work t).flatMap out]
  apply amount_perm
  rw [← List.flatMap_assoc]
  exact hw.1.flatMap_right _

/-! ### The blocks -/

theorem blocks_tile (d : Dims) (hb : 0 < d.blockSize) :
    ((List.range d.nBlocks).flatMap fun b => (List.range (d.nElem b)).map fun i => b * d.blockSize + i) =
      List.range d.nsamp := by
  have hdm : d.nsamp / d.blockSize * d.blockSize + d.nsamp % d.blockSize = d.nsamp := by
    rw [Nat.mul_comm]; exact Nat.div_add_mod _ _
  have e : ∀ b n, (List.range n).map (fun i => b * d.blockSize + i) = List.range' (b * d.blockSize) n := by
    intro b n
    rw [List.range_eq_range', List.map_add_range']
    simp
  simp only [e]
  unfold Dims.nElem Dims.nBlocks
  by_cases hr : d.nsamp % d.blockSize > 0
  · simp only [hr, if_true, and_true, Nat.add_sub_cancel]
    have := (Blocking.tiles_last d.blockSize (d.nsamp % d.blockSize) (d.nsamp / d.blockSize) d.nsamp
      (Or.inl hb) hr hdm).1
    rw [List.flatMap_map] at this
    exact this
  · simp only [hr, if_false, and_false]
    have := Blocking.flatMap_uniform d.blockSize (d.nsamp / d.blockSize)
    rw [List.flatMap_map] at this
    rw [this]
    congr 1
    omega

theorem block_mem (d : Dims) (hb : 0 < d.blockSize) (b i : Nat) (h1 : b < d.nBlocks) (h2 : i < d.nElem b) :
    b * d.blockSize + i < d.nsamp := by
  rw [← List.mem_range, ← blocks_tile d hb]
  exact List.mem_flatMap.2 ⟨b, List.mem_range.2 h1, List.mem_map.2 ⟨i, List.mem_range.2 h2, rfl⟩⟩

theorem nElem_le (d : Dims) (hb : 0 < d.blockSize) (b : Nat) : d.nElem b ≤ d.blockSize := by
  unfold Dims.nElem
  split
  · exact Nat.le_of_lt (Nat.mod_lt _ hb)
  · exact Nat.le_refl _

/-- What all the tasks add, by tree and sample. -/
theorem tasks_amount [AddCommMonoid M] (d : Dims) (hb : 0 < d.blockSize) (f : Nat → Nat → List (Nat × M))
    (a : Nat) :
    amount ((tasks d).flatMap fun x =>
      (List.range (d.nElem x.1)).flatMap fun i => f x.2 (x.1 * d.blockSize + i)) a =
    ∑ k ∈ Finset.range d.nTree, ∑ s ∈ Finset.range d.nsamp, amount (f k s) a := by
  have e1 : ∀ k, ∑ s ∈ Finset.range d.nsamp, amount (f k s) a =
      ∑ b ∈ Finset.range d.nBlocks,
        amount ((List.range (d.nElem b)).flatMap fun i => f k (b * d.blockSize + i)) a := by
    intro k
    rw [amount_flatMap_range, amount_flatMap_range, ← blocks_tile d hb, List.flatMap_assoc]
    congr 1
    congr 1
    funext b
    rw [List.flatMap_map]
  simp only [e1]
  rw [Finset.sum_comm]
  unfold tasks
  rw [List.flatMap_assoc, ← amount_flatMap_range]
  apply Finset.sum_congr rfl
  intro b _
  rw [List.flatMap_map, ← amount_flatMap_range]

end Verif.Forest
