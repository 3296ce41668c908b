import Verif.PairDist.Model
import Verif.Logistic.Rsc

/-
Loops that write blocks of a matrix.
-/
namespace Verif.PairDist

open Verif.Logistic (loop upd loop_inv upd_same upd_ne cell_inj)

set_option linter.unusedSectionVars false

section
variable {K : Type*} {S : Type*}

theorem loop_foldl (n : Nat) (s : S) (f : Nat → S → S) :
    loop n s f = (List.range n).foldl (fun s i => f i s) s := by
  induction n with
  | zero => rfl
  | succ n ih => rw [List.range_succ, List.foldl_append, ← ih]; rfl

theorem lt_steps {m B t : Nat} (hB : 0 < B) : t < (m + B - 1) / B ↔ t * B < m := by
  rw [← Nat.succ_le_iff, Nat.le_div_iff_mul_le hB, Nat.succ_mul]
  omega

theorem fold_none {ι : Type*} (L : List ι) (f : ι → (Nat → K) → Nat → K) (C : Nat → K) (c : Nat)
    (h : ∀ t, t ∈ L → ∀ C, f t C c = C c) : L.foldl (fun C t => f t C) C c = C c := by
  induction L generalizing C with
  | nil => rfl
  | cons a L ih =>
    rw [List.foldl_cons, ih _ fun t ht => h t (List.mem_cons_of_mem _ ht), h a List.mem_cons_self]

theorem fold_one {ι : Type*} (L : List ι) (hL : L.Nodup) (f : ι → (Nat → K) → Nat → K)
    (C : Nat → K) (c : Nat) (t0 : ι) (ht : t0 ∈ L) (g : K → K) (h0 : ∀ C, f t0 C c = g (C c))
    (h : ∀ t, t ∈ L → t ≠ t0 → ∀ C, f t C c = C c) :
    L.foldl (fun C t => f t C) C c = g (C c) := by
  induction L generalizing C with
  | nil => cases ht
  | cons a L ih =>
    rw [List.foldl_cons]
    rw [List.nodup_cons] at hL
    rcases List.mem_cons.1 ht with e | e
    · subst e
      rw [fold_none L f _ c fun t ht' => h t (List.mem_cons_of_mem _ ht') fun e => hL.1 (e ▸ ht'), h0]
    · rw [ih hL.2 _ e fun t ht' => h t (List.mem_cons_of_mem _ ht'),
        h a List.mem_cons_self fun e' => hL.1 (e' ▸ e)]

/-- `f` replaces the entries `idx i j` of the domain by `G i j` of their value and nothing else. -/
def Wr (f : (Nat → K) → Nat → K) (idx : Nat → Nat → Nat) (Dom : Nat → Nat → Prop)
    (G : Nat → Nat → K → K) : Prop :=
  ∀ C, (∀ i j, Dom i j → f C (idx i j) = G i j (C (idx i j))) ∧
    ∀ c, (∀ i j, Dom i j → c ≠ idx i j) → f C c = C c

/-- Entries of the domain have cells of their own. -/
def Inj (idx : Nat → Nat → Nat) (Dom : Nat → Nat → Prop) : Prop :=
  ∀ i j i' j', Dom i j → Dom i' j' → idx i j = idx i' j' → i = i' ∧ j = j'

theorem inj_cols {co ld m n : Nat} (h : m ≤ ld) :
    Inj (fun i j => co + j * ld + i) fun i j => i < m ∧ j < n := by
  intro i j i' j' hd hd' e
  have e' : j * ld + i = j' * ld + i' := by simp only at e; omega
  have := cell_inj (by omega) (by omega) e'
  exact ⟨this.2, this.1⟩

theorem Inj.mono {idx : Nat → Nat → Nat} {Dom Dom' : Nat → Nat → Prop} (h : Inj idx Dom)
    (hd : ∀ i j, Dom' i j → Dom i j) : Inj idx Dom' :=
  fun i j i' j' a b => h i j i' j' (hd _ _ a) (hd _ _ b)

theorem Wr.comp {f f' : (Nat → K) → Nat → K} {idx : Nat → Nat → Nat} {Dom : Nat → Nat → Prop}
    {G G' : Nat → Nat → K → K} (h : Wr f idx Dom G) (h' : Wr f' idx Dom G') :
    Wr (fun C => f' (f C)) idx Dom fun i j x => G' i j (G i j x) := by
  intro C
  refine ⟨fun i j hd => ?_, fun c hc => ?_⟩
  · show f' (f C) _ = _
    rw [(h' (f C)).1 i j hd, (h C).1 i j hd]
  · show f' (f C) _ = _
    rw [(h' (f C)).2 c hc, (h C).2 c hc]

theorem Wr.congr {f f' : (Nat → K) → Nat → K} {idx idx' : Nat → Nat → Nat}
    {Dom Dom' : Nat → Nat → Prop} {G G' : Nat → Nat → K → K} (h : Wr f idx Dom G)
    (hf : ∀ C, f' C = f C) (hi : ∀ i j, Dom' i j → idx i j = idx' i j)
    (hd : ∀ i j, Dom i j ↔ Dom' i j)
    (hg : ∀ i j x, Dom' i j → G i j x = G' i j x) : Wr f' idx' Dom' G' := by
  intro C
  rw [hf]
  refine ⟨fun i j d => ?_, fun c hc => ?_⟩
  · rw [← hi i j d, (h C).1 i j ((hd i j).2 d), hg i j _ d]
  · exact (h C).2 c fun i j d => by rw [hi i j ((hd i j).1 d)]; exact hc i j ((hd i j).1 d)

/-- A block of a larger matrix. -/
theorem Wr.shift {f : (Nat → K) → Nat → K} {idx idx' : Nat → Nat → Nat} {Dom : Nat → Nat → Prop}
    {G' : Nat → Nat → K → K} (i0 j0 : Nat) (G : Nat → Nat → K → K)
    (h : Wr f idx' Dom G')
    (hi : ∀ r s, Dom r s → idx' r s = idx (i0 + r) (j0 + s))
    (hg : ∀ r s x, Dom r s → G' r s x = G (i0 + r) (j0 + s) x) :
    Wr f idx (fun i j => i0 ≤ i ∧ j0 ≤ j ∧ Dom (i - i0) (j - j0)) G := by
  intro C
  refine ⟨fun i j d => ?_, fun c hc => ?_⟩
  · obtain ⟨h1, h2, h3⟩ := d
    have e1 := hi _ _ h3
    have e2 : i0 + (i - i0) = i := by omega
    have e3 : j0 + (j - j0) = j := by omega
    rw [e2, e3] at e1
    have := (h C).1 _ _ h3
    rw [e1, hg _ _ _ h3, e2, e3] at this
    exact this
  · refine (h C).2 c fun r s d => ?_
    rw [hi r s d]
    refine hc _ _ ⟨by omega, by omega, ?_⟩
    rw [show i0 + r - i0 = r by omega, show j0 + s - j0 = s by omega]
    exact d

/-- Blocks one after the other, in any order. -/
theorem Wr.fold {ι : Type*} {L : List ι} (hL : L.Nodup) {f : ι → (Nat → K) → Nat → K}
    {idx : Nat → Nat → Nat} {Dom : Nat → Nat → Prop} {DT : ι → Nat → Nat → Prop}
    {G : Nat → Nat → K → K} (hi : Inj idx Dom) (h : ∀ t, t ∈ L → Wr (f t) idx (DT t) G)
    (hd : ∀ i j, Dom i j ↔ ∃ t, t ∈ L ∧ DT t i j)
    (hu : ∀ t t' i j, t ∈ L → t' ∈ L → DT t i j → DT t' i j → t = t') :
    Wr (fun C => L.foldl (fun C t => f t C) C) idx Dom G := by
  intro C
  refine ⟨fun i j d => ?_, fun c hc => ?_⟩
  · obtain ⟨t0, ht0, d0⟩ := (hd i j).1 d
    refine fold_one L hL f C _ t0 ht0 (G i j) (fun C => (h t0 ht0 C).1 i j d0) fun t ht hne C => ?_
    refine (h t ht C).2 _ fun i' j' d' e => hne ?_
    obtain ⟨e1, e2⟩ := hi i j i' j' d ((hd _ _).2 ⟨t, ht, d'⟩) e
    subst e1; subst e2
    exact hu t t0 i j ht ht0 d' d0
  · exact fold_none L f C c fun t ht C => (h t ht C).2 c fun i j d => hc i j ((hd i j).2 ⟨t, ht, d⟩)

/-- A loop nest over the entries. -/
theorem Wr.nest {n : Nat} {b : Nat → Nat} {h : Nat → Nat → (Nat → K) → Nat → K}
    {idx : Nat → Nat → Nat} {G : Nat → Nat → K → K}
    (hi : Inj idx fun i j => j < n ∧ i < b j)
    (h1 : ∀ i j C, j < n → i < b j → h i j C (idx i j) = G i j (C (idx i j)))
    (h2 : ∀ i j C c, j < n → i < b j → c ≠ idx i j → h i j C c = C c) :
    Wr (fun C => loop n C fun j C => loop (b j) C fun i C => h i j C) idx
      (fun i j => j < n ∧ i < b j) G := by
  have inner : ∀ j, j < n → Wr (fun C => loop (b j) C fun i C => h i j C) idx
      (fun i j' => j' = j ∧ i < b j) G := by
    intro j hj
    have := Wr.fold (L := List.range (b j)) List.nodup_range (f := fun i C => h i j C) (idx := idx)
      (Dom := fun i j' => j' = j ∧ i < b j) (DT := fun t i j' => i = t ∧ j' = j) (G := G)
      (hi.mono fun i j' d => by rw [d.1]; exact ⟨hj, d.2⟩) (fun t ht C => by
        rw [List.mem_range] at ht
        refine ⟨fun i j' d => ?_, fun c hc => h2 t j C c hj ht (hc t j ⟨rfl, rfl⟩)⟩
        rw [d.1, d.2]
        exact h1 t j C hj ht) (fun i j' => by
        simp only [List.mem_range]
        constructor
        · exact fun d => ⟨i, d.2, rfl, d.1⟩
        · rintro ⟨t, ht, e1, e2⟩
          exact ⟨e2, e1 ▸ ht⟩) (fun t t' i j' _ _ d d' => d.1.symm.trans d'.1)
    exact this.congr (fun C => loop_foldl _ _ _) (fun _ _ _ => rfl) (fun _ _ => Iff.rfl)
      fun _ _ _ _ => rfl
  have := Wr.fold (L := List.range n) List.nodup_range
    (f := fun j C => loop (b j) C fun i C => h i j C) (idx := idx)
    (Dom := fun i j => j < n ∧ i < b j) (DT := fun t i j => j = t ∧ i < b t) (G := G) hi
    (fun t ht => inner t (List.mem_range.1 ht)) (fun i j => by
      simp only [List.mem_range]
      constructor
      · exact fun d => ⟨j, d.1, rfl, d.2⟩
      · rintro ⟨t, ht, e1, e2⟩
        exact ⟨e1 ▸ ht, e1 ▸ e2⟩) (fun t t' i j _ _ d d' => d.1.symm.trans d'.1)
  exact this.congr (fun C => loop_foldl _ _ _) (fun _ _ _ => rfl) (fun _ _ => Iff.rfl)
    fun _ _ _ _ => rfl

/-- A loop nest over a rectangle that changes an entry in each step. -/
theorem Wr.rect {m n : Nat} {idx : Nat → Nat → Nat} {G : Nat → Nat → K → K}
    (hi : Inj idx fun i j => i < m ∧ j < n) :
    Wr (fun C => loop n C fun j C => loop m C fun i C => upd C (idx i j) (G i j (C (idx i j)))) idx
      (fun i j => i < m ∧ j < n) G := by
  refine (Wr.nest (b := fun _ => m) (h := fun i j C => upd C (idx i j) (G i j (C (idx i j))))
    (G := G) (hi.mono fun i j d => ⟨d.2, d.1⟩) (fun i j C _ _ => upd_same _ _ _)
    fun i j C c _ _ hc => upd_ne _ _ hc).congr (fun _ => rfl) (fun _ _ _ => rfl)
    (fun i j => and_comm) fun _ _ _ _ => rfl

/-- Blocks of rows. -/
theorem Wr.rows {B m n : Nat} (hB : 0 < B) {idx : Nat → Nat → Nat} {G : Nat → Nat → K → K}
    {L : List Nat} (hL : L.Perm (List.range ((m + B - 1) / B))) {f : Nat → (Nat → K) → Nat → K}
    (hi : Inj idx fun i j => i < m ∧ j < n)
    (h : ∀ t, t * B < m → Wr (f t) (fun r s => idx (t * B + r) s)
      (fun r s => r < min B (m - t * B) ∧ s < n) fun r s => G (t * B + r) s) :
    Wr (fun C => L.foldl (fun C t => f t C) C) idx (fun i j => i < m ∧ j < n) G := by
  have hm : ∀ t, t ∈ L ↔ t * B < m := fun t => by
    rw [hL.mem_iff, List.mem_range, lt_steps hB]
  refine Wr.fold (hL.nodup_iff.2 List.nodup_range)
    (DT := fun t i j => t * B ≤ i ∧ 0 ≤ j ∧ (i - t * B < min B (m - t * B) ∧ j - 0 < n)) hi
    (fun t ht => (h t ((hm t).1 ht)).shift (idx := idx) (t * B) 0 G (fun r s _ => by simp)
      fun r s x _ => by simp) ?_ ?_
  · intro i j
    constructor
    · intro d
      have e := Nat.div_add_mod i B
      rw [Nat.mul_comm] at e
      have e' := Nat.mod_lt i hB
      refine ⟨i / B, (hm _).2 (by omega), by omega, by omega, by omega, by omega⟩
    · rintro ⟨t, ht, d⟩
      omega
  · intro t t' i j _ _ d d'
    have a1 : t = i / B := (Nat.div_eq_of_lt_le (by omega) (by rw [Nat.succ_mul]; omega)).symm
    have a2 : t' = i / B := (Nat.div_eq_of_lt_le (by omega) (by rw [Nat.succ_mul]; omega)).symm
    rw [a1, a2]

/-- Blocks of columns. -/
theorem Wr.cols {B m n : Nat} (hB : 0 < B) {idx : Nat → Nat → Nat} {G : Nat → Nat → K → K}
    {f : Nat → (Nat → K) → Nat → K} (hi : Inj idx fun i j => i < m ∧ j < n)
    (h : ∀ t, t * B < n → Wr (f (t * B)) (fun r s => idx r (t * B + s))
      (fun r s => r < m ∧ s < min B (n - t * B)) fun r s => G r (t * B + s)) :
    Wr (fun C => stepFrom 0 n B C f) idx (fun i j => i < m ∧ j < n) G := by
  have := Wr.rows (m := n) (n := m) hB (idx := fun i j => idx j i) (G := fun i j => G j i)
    (List.Perm.refl _) (f := fun t => f (t * B))
    (fun i j i' j' d d' e => (hi j i j' i' d.symm d'.symm e).symm) (fun t ht C => by
      have := h t ht C
      exact ⟨fun i j d => this.1 j i d.symm, fun c hc => this.2 c fun i j d => hc j i d.symm⟩)
  intro C
  have := this C
  have e : stepFrom 0 n B C f =
      (List.range ((n + B - 1) / B)).foldl (fun C t => f (t * B) C) C := by
    unfold stepFrom
    rw [loop_foldl]
    simp
  show (∀ i j, _ → stepFrom 0 n B C f (idx i j) = _) ∧ ∀ c, _ → stepFrom 0 n B C f c = _
  rw [e]
  exact ⟨fun i j d => this.1 j i d.symm, fun c hc => this.2 c fun i j d => hc j i d.symm⟩

/-- Blocks of rows in order. -/
theorem Wr.rowSteps {B m n : Nat} (hB : 0 < B) {idx : Nat → Nat → Nat} {G : Nat → Nat → K → K}
    {f : Nat → (Nat → K) → Nat → K} (hi : Inj idx fun i j => i < m ∧ j < n)
    (h : ∀ t, t * B < m → Wr (f (t * B)) (fun r s => idx (t * B + r) s)
      (fun r s => r < min B (m - t * B) ∧ s < n) fun r s => G (t * B + r) s) :
    Wr (fun C => stepFrom 0 m B C f) idx (fun i j => i < m ∧ j < n) G := by
  refine (Wr.rows hB (List.Perm.refl _) (f := fun t => f (t * B)) hi h).congr (fun C => ?_)
    (fun _ _ _ => rfl) (fun _ _ => Iff.rfl) fun _ _ _ _ => rfl
  unfold stepFrom
  rw [loop_foldl]
  simp

end

end Verif.PairDist
