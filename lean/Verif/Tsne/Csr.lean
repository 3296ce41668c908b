import Verif.Tsne.Lists
import Mathlib.Algebra.BigOperators.Field
import Mathlib.Algebra.Order.BigOperators.Group.Finset
import Mathlib.Tactic.Ring
import Mathlib.Tactic.FieldSimp
import Mathlib.Tactic.Linarith

/-
The joint probabilities in compressed rows.
-/
namespace Verif.Tsne

set_option linter.unusedSectionVars false

open Moments (M Fault rd wr forUp divM ok_bind rd_ok wr_ok forUp_zero forUp_succ)
open Finset (range)

variable {K : Type} [Field K] [LinearOrder K] [IsStrictOrderedRing K]

/-- The sum of the entries of a row in column `j`. -/
def colSum (row : List (Nat × K)) (j : Nat) : K := (row.map fun e => if e.1 = j then e.2 else 0).sum

theorem colSum_nil (j : Nat) : colSum ([] : List (Nat × K)) j = 0 := rfl

theorem colSum_cons (e : Nat × K) (l : List (Nat × K)) (j : Nat) :
    colSum (e :: l) j = (if e.1 = j then e.2 else 0) + colSum l j := by
  unfold colSum; rw [List.map_cons, List.sum_cons]

theorem colSum_snoc (e : Nat × K) (l : List (Nat × K)) (j : Nat) :
    colSum (l ++ [e]) j = colSum l j + (if e.1 = j then e.2 else 0) := by
  unfold colSum; rw [List.map_append, List.sum_append]; simp

theorem colSum_perm {l l' : List (Nat × K)} (h : l.Perm l') (j : Nat) : colSum l j = colSum l' j :=
  (h.map _).sum_eq

theorem colSum_absent {l : List (Nat × K)} {j : Nat} (h : ∀ e ∈ l, e.1 ≠ j) : colSum l j = 0 := by
  induction l with
  | nil => rfl
  | cons e l ih =>
    rw [colSum_cons, if_neg (h e (by simp)), ih fun e he => h e (by simp [he]), add_zero]

/-- What `(i, t)` adds to entry `(a, b)`. -/
def term (J : Nat → Nat → Nat) (c : Nat → Nat → K) (i t a b : Nat) : K :=
  (if i = a ∧ J i t = b then c i t else 0) + if J i t = a ∧ i = b then c i t else 0

theorem divM_ok {a b : K} (h : b ≠ 0) : divM a b = .ok (a / b) := by unfold divM; rw [if_neg h]

theorem contributions_ok {n k : Nat} (hn : 0 < n) {ind : List Nat} {prob : List K}
    {J : Nat → Nat → Nat} {P : Nat → Nat → K}
    (hJ : ∀ i < n, ∀ t < k, ind[i * k + t]? = some (J i t))
    (hlt : ∀ i < n, ∀ t < k, J i t < n)
    (hP : ∀ i < n, ∀ t < k, prob[i * k + t]? = some (P i t)) :
    ∃ rows, contributions n k ind prob = .ok rows ∧ rows.length = n ∧ ∀ a < n, ∃ row,
      rows[a]? = some row ∧ (∀ e ∈ row, e.1 < n) ∧ ∀ b,
        colSum row b = ∑ i ∈ range n, ∑ t ∈ range k,
          term J (fun i t => P i t / ((2 * n : Nat) : K)) i t a b := by
  unfold contributions
  have h2n : ((2 * n : Nat) : K) ≠ 0 := by exact_mod_cast (show 2 * n ≠ 0 by omega)
  obtain ⟨c, hc⟩ : ∃ c : Nat → Nat → K, c = fun i t => P i t / ((2 * n : Nat) : K) := ⟨_, rfl⟩
  rw [← hc]
  have key := forUp_inv n (fun i rows => forUp k (fun t rows => do
    let j ← rd ind (i * k + t)
    let p ← rd prob (i * k + t)
    let c ← divM p ((2 * n : Nat) : K)
    let row ← rd rows i
    let rows ← wr rows i (row ++ [(j, c)])
    let row ← rd rows j
    wr rows j (row ++ [(i, c)])) rows) (List.replicate n []) (fun m rows => rows.length = n ∧
      ∀ a < n, ∃ row, rows[a]? = some row ∧ (∀ e ∈ row, e.1 < n) ∧ ∀ b,
        colSum row b = ∑ i ∈ range m, ∑ t ∈ range k, term J c i t a b)
    ⟨List.length_replicate, fun a ha => ⟨[], by rw [List.getElem?_replicate, if_pos ha], by simp,
      fun b => by rw [Finset.range_zero, Finset.sum_empty, colSum_nil]⟩⟩ ?_
  · exact key
  · intro i hi rows hrows
    have key := forUp_inv k (fun t rows => do
      let j ← rd ind (i * k + t)
      let p ← rd prob (i * k + t)
      let c ← divM p ((2 * n : Nat) : K)
      let row ← rd rows i
      let rows ← wr rows i (row ++ [(j, c)])
      let row ← rd rows j
      wr rows j (row ++ [(i, c)])) rows (fun u rows => rows.length = n ∧
        ∀ a < n, ∃ row, rows[a]? = some row ∧ (∀ e ∈ row, e.1 < n) ∧ ∀ b,
          colSum row b = (∑ i ∈ range i, ∑ t ∈ range k, term J c i t a b) +
            ∑ t ∈ range u, term J c i t a b) ?_ ?_
    · obtain ⟨r, h1, h2, h3⟩ := key
      refine ⟨r, h1, h2, fun a ha => ?_⟩
      obtain ⟨row, g1, g2, g3⟩ := h3 a ha
      exact ⟨row, g1, g2, fun b => by rw [g3, Finset.sum_range_succ]⟩
    · refine ⟨hrows.1, fun a ha => ?_⟩
      obtain ⟨row, g1, g2, g3⟩ := hrows.2 a ha
      exact ⟨row, g1, g2, fun b => by rw [g3, Finset.range_zero, Finset.sum_empty, add_zero]⟩
    · intro t ht rows hI
      have hj := hlt i hi t ht
      obtain ⟨row, g1, g2, g3⟩ := hI.2 i hi
      have hi' : i < rows.length := by rw [hI.1]; exact hi
      have hj' : J i t < (rows.set i (row ++ [(J i t, c i t)])).length := by
        rw [List.length_set, hI.1]; exact hj
      obtain ⟨row', k1, k2, k3⟩ : ∃ row', (rows.set i (row ++ [(J i t, c i t)]))[J i t]? = some row' ∧
          (∀ e ∈ row', e.1 < n) ∧ ∀ b, colSum row' b = (∑ i' ∈ range i, ∑ u ∈ range k,
            term J c i' u (J i t) b) + (∑ u ∈ range t, term J c i u (J i t) b) +
              if i = J i t ∧ J i t = b then c i t else 0 := by
        rw [get_set hi']
        by_cases he : J i t = i
        · rw [if_pos he]
          refine ⟨_, rfl, ?_, fun b => ?_⟩
          · intro e hm
            rw [List.mem_append, List.mem_singleton] at hm
            rcases hm with hm | hm
            · exact g2 e hm
            · rw [hm]; exact hj
          · rw [colSum_snoc, g3 b, he]
            simp
        · rw [if_neg he]
          obtain ⟨row', q1, q2, q3⟩ := hI.2 _ hj
          refine ⟨row', q1, q2, fun b => ?_⟩
          rw [q3 b, if_neg (fun h => he h.1.symm), add_zero]
      refine ⟨(rows.set i (row ++ [(J i t, c i t)])).set (J i t) (row' ++ [(i, c i t)]), ?_, ?_, ?_⟩
      · rw [rd_ok (hJ i hi t ht), ok_bind, rd_ok (hP i hi t ht), ok_bind, divM_ok h2n, ok_bind,
          show P i t / ((2 * n : Nat) : K) = c i t by rw [hc], rd_ok g1, ok_bind, wr_ok _ hi', ok_bind,
          rd_ok k1, ok_bind, wr_ok _ hj']
      · rw [List.length_set, List.length_set, hI.1]
      · intro a ha
        rw [get_set hj']
        by_cases h1 : a = J i t
        · rw [if_pos h1]
          refine ⟨_, rfl, ?_, fun b => ?_⟩
          · intro e hm
            rw [List.mem_append, List.mem_singleton] at hm
            rcases hm with hm | hm
            · exact k2 e hm
            · rw [hm]; exact hi
          · rw [colSum_snoc, k3 b, Finset.sum_range_succ, ← h1]
            unfold term
            rw [← h1]
            simp only [true_and]
            ring
        · rw [if_neg h1, get_set hi']
          by_cases h2 : a = i
          · rw [if_pos h2]
            refine ⟨_, rfl, ?_, fun b => ?_⟩
            · intro e hm
              rw [List.mem_append, List.mem_singleton] at hm
              rcases hm with hm | hm
              · exact g2 e hm
              · rw [hm]; exact hj
            · rw [colSum_snoc, g3 b, Finset.sum_range_succ, h2]
              unfold term
              rw [if_neg (fun h : J i t = i ∧ i = b => h1 (h2.trans h.1.symm))]
              simp only [true_and]
              ring
          · rw [if_neg h2]
            obtain ⟨row0, q1, q2, q3⟩ := hI.2 a ha
            refine ⟨row0, q1, q2, fun b => ?_⟩
            rw [q3 b, Finset.sum_range_succ]
            unfold term
            rw [if_neg (fun h : i = a ∧ J i t = b => h2 h.1.symm),
              if_neg (fun h : J i t = a ∧ i = b => h1 h.1.symm)]
            ring

/-- The sum of what the rows `a` and `b` have for each other. -/
theorem term_sum {n k a b : Nat} (ha : a < n) (hb : b < n) (J : Nat → Nat → Nat)
    (c : Nat → Nat → K) :
    ∑ i ∈ range n, ∑ t ∈ range k, term J c i t a b =
      (∑ t ∈ range k, if J a t = b then c a t else 0) +
        ∑ t ∈ range k, if J b t = a then c b t else 0 := by
  unfold term
  simp only [Finset.sum_add_distrib]
  congr 1
  · rw [Finset.sum_eq_single a]
    · simp only [true_and]
    · intro i _ h
      refine Finset.sum_eq_zero fun t _ => if_neg fun h' => h h'.1
    · intro h; exact absurd (Finset.mem_range.2 ha) h
  · rw [Finset.sum_eq_single b]
    · simp only [and_true]
    · intro i _ h
      refine Finset.sum_eq_zero fun t _ => if_neg fun h' => h h'.2
    · intro h; exact absurd (Finset.mem_range.2 hb) h

theorem sumRun_ok (col : Nat) : ∀ (L : List (Nat × K)) (v : K),
    L.Pairwise (fun a b => a.1 ≤ b.1) → (∀ e ∈ L, col ≤ e.1) →
    (sumRun col L v).1 = v + colSum L col ∧ (sumRun col L v).2.Pairwise (fun a b => a.1 ≤ b.1) ∧
      (∀ e ∈ (sumRun col L v).2, col < e.1) ∧ (∀ e ∈ (sumRun col L v).2, e ∈ L) ∧
      (∀ j ≠ col, colSum (sumRun col L v).2 j = colSum L j) ∧ (sumRun col L v).2.length ≤ L.length := by
  intro L
  induction L with
  | nil => intro v _ _; simp [sumRun, colSum_nil]
  | cons e l ih =>
    intro v hs hc
    unfold sumRun
    rw [List.pairwise_cons] at hs
    by_cases he : e.1 = col
    · rw [if_pos he]
      obtain ⟨h1, h2, h3, h4, h5, h6⟩ := ih (v + e.2) hs.2 fun e he => hc e (by simp [he])
      refine ⟨?_, h2, h3, fun e he => by simp [h4 e he], fun j hj => ?_, ?_⟩
      · rw [h1, colSum_cons, if_pos he, add_assoc]
      · rw [h5 j hj, colSum_cons, if_neg (fun h => hj (h.symm.trans he)), zero_add]
      · rw [List.length_cons]; omega
    · rw [if_neg he]
      have hlt : col < e.1 := lt_of_le_of_ne (hc e (by simp)) (fun h => he h.symm)
      have hall : ∀ x ∈ e :: l, col < x.1 := by
        intro x hx
        rw [List.mem_cons] at hx
        rcases hx with rfl | hx
        · exact hlt
        · exact lt_of_lt_of_le hlt (hs.1 x hx)
      refine ⟨?_, List.pairwise_cons.2 hs, hall, fun x hx => hx, fun j hj => rfl, Nat.le_refl _⟩
      simp only
      rw [colSum_absent fun x hx => (hall x hx).ne', add_zero]

theorem mergeRow_ok : ∀ (m : Nat) (L : List (Nat × K)) (s : Out K),
    L.Pairwise (fun a b => a.1 ≤ b.1) → L.length ≤ m →
    ∃ C : List Nat, mergeRow m L s = .ok ⟨s.col ++ C, s.val ++ C.map (colSum L),
        s.total + (C.map (colSum L)).sum⟩ ∧ C.Pairwise (· < ·) ∧
      (∀ j ∈ C, ∃ e ∈ L, e.1 = j) ∧ ∀ j, j ∈ C ↔ 0 < colSum L j := by
  intro m
  induction m with
  | zero =>
    intro L s _ hl
    have : L = [] := List.eq_nil_of_length_eq_zero (by omega)
    subst this
    refine ⟨[], ?_, List.Pairwise.nil, by simp, fun j => by simp [colSum_nil]⟩
    simp [mergeRow]
  | succ m ih =>
    intro L s hs hl
    match L, hs, hl with
    | [], _, _ =>
      refine ⟨[], ?_, List.Pairwise.nil, by simp, fun j => by simp [colSum_nil]⟩
      simp [mergeRow]
    | e :: l, hs, hl =>
      have hge : ∀ x ∈ e :: l, e.1 ≤ x.1 := by
        intro x hx
        rw [List.mem_cons] at hx
        rcases hx with rfl | hx
        · exact le_refl _
        · exact (List.pairwise_cons.1 hs).1 x hx
      obtain ⟨h1, h2, h3, h4, h5, h6⟩ := sumRun_ok e.1 (e :: l) (0 : K) hs hge
      have hlen : (sumRun e.1 (e :: l) (0 : K)).2.length ≤ m := by
        have := (sumRun_ok e.1 l (0 + e.2) (List.pairwise_cons.1 hs).2
          (List.pairwise_cons.1 hs).1).2.2.2.2.2
        have e' : sumRun e.1 (e :: l) (0 : K) = sumRun e.1 l (0 + e.2) := by
          rw [sumRun, if_pos rfl]
        rw [e']
        rw [List.length_cons] at hl
        omega
      unfold mergeRow
      simp only
      rw [zero_add] at h1
      obtain ⟨rest, hrest⟩ : ∃ r, r = (sumRun e.1 (e :: l) (0 : K)).2 := ⟨_, rfl⟩
      rw [← hrest] at h2 h3 h4 h5 hlen ⊢
      rw [h1]
      have hno : colSum rest e.1 = 0 := colSum_absent fun x hx => (h3 x hx).ne'
      have hmap : ∀ C : List Nat, (∀ j ∈ C, ∃ x ∈ rest, x.1 = j) →
          C.map (colSum rest) = C.map (colSum (e :: l)) := by
        intro C hC
        refine List.map_congr_left fun j hj => ?_
        obtain ⟨x, hx, rfl⟩ := hC j hj
        exact h5 _ (h3 x hx).ne'
      by_cases hp : 0 < colSum (e :: l) e.1
      · rw [if_pos hp]
        obtain ⟨C, c1, c2, c3, c4⟩ := ih rest ⟨s.col ++ [e.1], s.val ++ [colSum (e :: l) e.1],
          s.total + colSum (e :: l) e.1⟩ h2 hlen
        refine ⟨e.1 :: C, ?_, ?_, ?_, ?_⟩
        · rw [c1, hmap C c3]
          simp only [List.map_cons, List.sum_cons, List.append_assoc, List.singleton_append, add_assoc]
        · rw [List.pairwise_cons]
          refine ⟨fun j hj => ?_, c2⟩
          obtain ⟨x, hx, rfl⟩ := c3 j hj
          exact h3 x hx
        · intro j hj
          rw [List.mem_cons] at hj
          rcases hj with rfl | hj
          · exact ⟨e, by simp, rfl⟩
          · obtain ⟨x, hx, h⟩ := c3 j hj
            exact ⟨x, h4 x hx, h⟩
        · intro j
          rw [List.mem_cons]
          by_cases hj : j = e.1
          · rw [hj]; exact ⟨fun _ => hp, fun _ => Or.inl rfl⟩
          · rw [c4 j, h5 j hj]
            exact ⟨fun h => h.resolve_left hj, fun h => Or.inr h⟩
      · rw [if_neg hp]
        obtain ⟨C, c1, c2, c3, c4⟩ := ih rest s h2 hlen
        refine ⟨C, ?_, c2, ?_, ?_⟩
        · rw [c1, hmap C c3]
        · intro j hj
          obtain ⟨x, hx, h⟩ := c3 j hj
          exact ⟨x, h4 x hx, h⟩
        · intro j
          by_cases hj : j = e.1
          · rw [c4 j, hj, hno]
            exact ⟨fun h => absurd h (lt_irrefl _), fun h => absurd h hp⟩
          · rw [c4 j, h5 j hj]

/-- Row `a` of a matrix `Q` with `n` columns is stored between `s` and `e`. -/
structure RowAt (n : Nat) (Q : Nat → K) (col : List Nat) (val : List K) (s e : Nat) : Prop where
  le : s ≤ e
  inside : e ≤ col.length
  /-- the columns ascend -/
  up : ∀ p q j j', s ≤ p → p < q → q < e → col[p]? = some j → col[q]? = some j' → j < j'
  /-- what is stored is an entry that is not 0 -/
  entry : ∀ p, s ≤ p → p < e → ∃ j < n, col[p]? = some j ∧ Q j ≠ 0 ∧ val[p]? = some (Q j)
  /-- every entry that is not 0 is stored -/
  all : ∀ j < n, Q j ≠ 0 → ∃ p, s ≤ p ∧ p < e ∧ col[p]? = some j

/-- The `n` by `n` matrix `Q` in compressed rows, with its entries that are not 0 only. -/
structure Csr (n : Nat) (Q : Nat → Nat → K) (ptr : List Nat) (col : List Nat) (val : List K) : Prop where
  size : ptr.length = n + 1
  first : ptr[0]? = some 0
  last : ptr[n]? = some col.length
  same : val.length = col.length
  rows : ∀ a < n, ∃ s e, ptr[a]? = some s ∧ ptr[a + 1]? = some e ∧ RowAt n (Q a) col val s e

theorem RowAt.append {n : Nat} {Q : Nat → K} {col : List Nat} {val : List K} {s e : Nat}
    (h : RowAt n Q col val s e) (hv : val.length = col.length) (C : List Nat) (V : List K) :
    RowAt n Q (col ++ C) (val ++ V) s e := by
  have hi := h.inside
  refine ⟨h.le, by rw [List.length_append]; omega, ?_, ?_, ?_⟩
  · intro p q j j' h1 h2 h3
    rw [List.getElem?_append_left (by omega), List.getElem?_append_left (by omega)]
    exact h.up p q j j' h1 h2 h3
  · intro p h1 h2
    rw [List.getElem?_append_left (by omega), List.getElem?_append_left (by omega)]
    exact h.entry p h1 h2
  · intro j hj hq
    obtain ⟨p, h1, h2, h3⟩ := h.all j hj hq
    exact ⟨p, h1, h2, by rw [List.getElem?_append_left (by omega)]; exact h3⟩

theorem RowAt.new {n : Nat} {Q : Nat → K} (hQ : ∀ j < n, 0 ≤ Q j) {col : List Nat} {val : List K}
    (hv : val.length = col.length) {C : List Nat} (hs : C.Pairwise (· < ·)) (hn : ∀ j ∈ C, j < n)
    (hm : ∀ j < n, j ∈ C ↔ 0 < Q j) :
    RowAt n Q (col ++ C) (val ++ C.map Q) col.length (col ++ C).length := by
  refine ⟨by rw [List.length_append]; omega, Nat.le_refl _, ?_, ?_, ?_⟩
  · intro p q j j' h1 h2 h3 h4 h5
    rw [List.getElem?_append_right (by omega)] at h4 h5
    obtain ⟨b1, c1⟩ := List.getElem?_eq_some_iff.1 h4
    obtain ⟨b2, c2⟩ := List.getElem?_eq_some_iff.1 h5
    rw [← c1, ← c2]
    exact List.pairwise_iff_getElem.1 hs _ _ b1 b2 (by omega)
  · intro p h1 h2
    rw [List.length_append] at h2
    rw [List.getElem?_append_right h1, List.getElem?_append_right (by omega), hv, List.getElem?_map,
      List.getElem?_eq_getElem (by omega)]
    have hmem : C[p - col.length]'(by omega) ∈ C := List.getElem_mem _
    refine ⟨_, hn _ hmem, rfl, ?_, rfl⟩
    exact ((hm _ (hn _ hmem)).1 hmem).ne'
  · intro j hj hq
    obtain ⟨p, hp, h⟩ := List.getElem_of_mem ((hm j hj).2 (lt_of_le_of_ne (hQ j hj) (Ne.symm hq)))
    refine ⟨col.length + p, by omega, by rw [List.length_append]; omega, ?_⟩
    rw [List.getElem?_append_right (by omega), Nat.add_sub_cancel_left, List.getElem?_eq_getElem hp, h]

theorem RowAt.scale {n : Nat} {Q : Nat → K} {col : List Nat} {val : List K} {s e : Nat}
    (h : RowAt n Q col val s e) {c : K} (hc : c ≠ 0) :
    RowAt n (fun j => Q j * c) col (val.map fun v => v * c) s e := by
  refine ⟨h.le, h.inside, h.up, ?_, ?_⟩
  · intro p h1 h2
    obtain ⟨j, a1, a2, a3, a4⟩ := h.entry p h1 h2
    exact ⟨j, a1, a2, mul_ne_zero a3 hc, by rw [List.getElem?_map, a4]; rfl⟩
  · intro j hj hq
    exact h.all j hj fun h0 => hq (by rw [h0, zero_mul])

/-- The columns of a row are those with a positive entry, so the sum is that of all entries. -/
theorem sum_row {n : Nat} {Q : Nat → K} (hQ : ∀ j < n, 0 ≤ Q j) {C : List Nat}
    (hs : C.Pairwise (· < ·)) (hn : ∀ j ∈ C, j < n) (hm : ∀ j < n, j ∈ C ↔ 0 < Q j) :
    (C.map Q).sum = ∑ j ∈ range n, Q j := by
  have hnd : C.Nodup := hs.imp fun h => Nat.ne_of_lt h
  rw [← List.sum_toFinset Q hnd]
  refine Finset.sum_subset ?_ ?_
  · intro j hj
    rw [List.mem_toFinset] at hj
    exact Finset.mem_range.2 (hn j hj)
  · intro j hj hc
    rw [Finset.mem_range] at hj
    rw [List.mem_toFinset, hm j hj] at hc
    exact le_antisymm (not_lt.1 hc) (hQ j hj)

/-- What std::sort promises, as far as it is needed. -/
def Sorts (sort : List (Nat × K) → List (Nat × K)) : Prop :=
  ∀ l, (sort l).Perm l ∧ (sort l).Pairwise fun a b => a.1 ≤ b.1

/-- Entry `(a, b)` before the normalisation. -/
def joint (n k : Nat) (J : Nat → Nat → Nat) (P : Nat → Nat → K) (a b : Nat) : K :=
  ((∑ t ∈ range k, if J a t = b then P a t else 0) + ∑ t ∈ range k, if J b t = a then P b t else 0) /
    ((2 * n : Nat) : K)

theorem joint_term {n k a b : Nat} (ha : a < n) (hb : b < n) (J : Nat → Nat → Nat) (P : Nat → Nat → K) :
    ∑ i ∈ range n, ∑ t ∈ range k, term J (fun i t => P i t / ((2 * n : Nat) : K)) i t a b =
      joint n k J P a b := by
  rw [term_sum ha hb]
  unfold joint
  rw [add_div, Finset.sum_div, Finset.sum_div]
  congr 1
  · exact Finset.sum_congr rfl fun t _ => by split <;> simp
  · exact Finset.sum_congr rfl fun t _ => by split <;> simp

theorem joint_nonneg {n k a b : Nat} {J : Nat → Nat → Nat} {P : Nat → Nat → K}
    (hP : ∀ i < n, ∀ t < k, 0 ≤ P i t) (ha : a < n) (hb : b < n) : 0 ≤ joint n k J P a b := by
  unfold joint
  refine div_nonneg (add_nonneg ?_ ?_) (Nat.cast_nonneg _)
  · refine Finset.sum_nonneg fun t ht => ?_
    split
    · exact hP a ha t (Finset.mem_range.1 ht)
    · exact le_refl _
  · refine Finset.sum_nonneg fun t ht => ?_
    split
    · exact hP b hb t (Finset.mem_range.1 ht)
    · exact le_refl _

/-- The sum of all entries before the normalisation. -/
theorem joint_total {n k : Nat} {J : Nat → Nat → Nat} (hlt : ∀ i < n, ∀ t < k, J i t < n)
    (P : Nat → Nat → K) :
    ∑ a ∈ range n, ∑ b ∈ range n, joint n k J P a b =
      2 * (∑ i ∈ range n, ∑ t ∈ range k, P i t) / ((2 * n : Nat) : K) := by
  have h1 : ∑ a ∈ range n, ∑ b ∈ range n, (∑ t ∈ range k, if J a t = b then P a t else 0) =
      ∑ i ∈ range n, ∑ t ∈ range k, P i t := by
    refine Finset.sum_congr rfl fun a ha => ?_
    rw [Finset.sum_comm]
    refine Finset.sum_congr rfl fun t ht => ?_
    rw [Finset.sum_ite_eq, if_pos]
    exact Finset.mem_range.2 (hlt a (Finset.mem_range.1 ha) t (Finset.mem_range.1 ht))
  have h2 : ∑ a ∈ range n, ∑ b ∈ range n, (∑ t ∈ range k, if J b t = a then P b t else 0) =
      ∑ i ∈ range n, ∑ t ∈ range k, P i t := by
    rw [Finset.sum_comm]; exact h1
  unfold joint
  simp only [add_div, Finset.sum_add_distrib]
  simp only [← Finset.sum_div]
  rw [h1, h2, ← add_div, ← two_mul]

theorem symmetrize_ok {sort : List (Nat × K) → List (Nat × K)} (hsort : Sorts sort) {n k : Nat}
    (hn : 0 < n) {ind : List Nat} {prob : List K} {J : Nat → Nat → Nat} {P : Nat → Nat → K}
    (hJ : ∀ i < n, ∀ t < k, ind[i * k + t]? = some (J i t))
    (hlt : ∀ i < n, ∀ t < k, J i t < n)
    (hP : ∀ i < n, ∀ t < k, prob[i * k + t]? = some (P i t))
    (h0 : ∀ i < n, ∀ t < k, 0 ≤ P i t) {ptr0 : List Nat} (hptr : ptr0.length = n + 1) {T : K}
    (hT : T = ∑ a ∈ range n, ∑ b ∈ range n, joint n k J P a b) :
    ∃ ptr col val, symmetrize sort n k ind prob ptr0 = .ok (ptr, col, val) ∧
      Csr n (fun a b => joint n k J P a b * (if 0 < T then 1 / T else 1)) ptr col val := by
  unfold symmetrize
  obtain ⟨rows, r1, r2, r3⟩ := contributions_ok hn hJ hlt hP
  rw [r1, ok_bind, wr_ok _ (by omega), ok_bind]
  have key := forUp_inv n (fun i (r : List Nat × Out K) => do
    let row ← rd rows i
    let out ← mergeRow row.length (sort row) r.2
    let ptr ← wr r.1 (i + 1) out.col.length
    .ok (ptr, out)) (ptr0.set 0 0, ⟨[], [], 0⟩) (fun i r => r.1.length = n + 1 ∧ r.1[0]? = some 0 ∧
      r.1[i]? = some r.2.col.length ∧ r.2.val.length = r.2.col.length ∧
      r.2.total = ∑ a ∈ range i, ∑ b ∈ range n, joint n k J P a b ∧
      ∀ a < i, ∃ s e, r.1[a]? = some s ∧ r.1[a + 1]? = some e ∧
        RowAt n (joint n k J P a) r.2.col r.2.val s e)
    ⟨by rw [List.length_set, hptr], by rw [get_set (by omega), if_pos rfl],
      by rw [get_set (by omega), if_pos rfl]; rfl, rfl, by simp, by simp⟩ ?_
  · obtain ⟨r, h1, i1, i2, i3, i4, i5, i6⟩ := key
    rw [h1, ok_bind, i5, ← hT]
    by_cases hp : 0 < T
    · rw [if_pos hp, divM_ok hp.ne', ok_bind]
      refine ⟨_, _, _, rfl, i1, i2, i3, by rw [List.length_map]; exact i4, fun a ha => ?_⟩
      obtain ⟨s, e, a1, a2, a3⟩ := i6 a ha
      refine ⟨s, e, a1, a2, ?_⟩
      rw [if_pos hp]
      exact a3.scale (one_div_ne_zero hp.ne')
    · rw [if_neg hp]
      refine ⟨_, _, _, rfl, i1, i2, i3, i4, fun a ha => ?_⟩
      obtain ⟨s, e, a1, a2, a3⟩ := i6 a ha
      refine ⟨s, e, a1, a2, ?_⟩
      rw [if_neg hp]
      simp only [mul_one]
      exact a3
  · intro i hi r hI
    obtain ⟨i1, i2, i3, i4, i5, i6⟩ := hI
    obtain ⟨row, q1, q2, q3⟩ := r3 i hi
    obtain ⟨sp, ss⟩ := hsort row
    have hcs : ∀ b < n, colSum (sort row) b = joint n k J P i b := fun b hb => by
      rw [colSum_perm sp, q3 b, joint_term hi hb]
    obtain ⟨C, c1, c2, c3, c4⟩ := mergeRow_ok row.length (sort row) r.2 ss (by rw [sp.length_eq])
    have hn' : ∀ j ∈ C, j < n := by
      intro j hj
      obtain ⟨x, hx, rfl⟩ := c3 j hj
      exact q2 x (sp.mem_iff.1 hx)
    have hmap : C.map (colSum (sort row)) = C.map (joint n k J P i) :=
      List.map_congr_left fun j hj => hcs j (hn' j hj)
    have hmem : ∀ j < n, j ∈ C ↔ 0 < joint n k J P i j := fun j hj => by rw [c4 j, hcs j hj]
    have hnn : ∀ j < n, 0 ≤ joint n k J P i j := fun j hj => joint_nonneg h0 hi hj
    rw [hmap] at c1
    rw [rd_ok q1, ok_bind, c1, ok_bind, wr_ok _ (by omega), ok_bind]
    refine ⟨_, rfl, by rw [List.length_set, i1], ?_, ?_, ?_, ?_, ?_⟩
    · rw [get_set (by omega), if_neg (by omega)]; exact i2
    · rw [get_set (by omega), if_pos rfl]
    · simp only [List.length_append, List.length_map, i4]
    · simp only
      rw [i5, Finset.sum_range_succ, sum_row hnn c2 hn' hmem]
    · intro a ha
      simp only
      rw [get_set (by omega), get_set (by omega), if_neg (by omega)]
      by_cases he : a = i
      · subst he
        rw [if_pos rfl]
        exact ⟨_, _, i3, rfl, RowAt.new hnn i4 c2 hn' hmem⟩
      · rw [if_neg (by omega)]
        obtain ⟨s, e, a1, a2, a3⟩ := i6 a (by omega)
        exact ⟨s, e, a1, a2, a3.append i4 _ _⟩

end Verif.Tsne
