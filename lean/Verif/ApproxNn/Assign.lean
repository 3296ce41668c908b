import Verif.ApproxNn.Spec
import Verif.Tsne.Lists
import Verif.BarnesHut.Build
import Mathlib.Tactic.Ring

/-
The assignment of the new rows to the centroids.
-/
namespace Verif.ApproxNn

set_option linter.unusedSectionVars false

open Moments (M Fault rd wr forUp ok_bind rd_ok wr_ok forUp_zero forUp_succ)
open Tsne (forUp_inv cell_eq cell_lt get_set)

variable {K : Type} [Field K] [LinearOrder K] [IsStrictOrderedRing K]

theorem dotM_ok {F : Nat} {a b : Nat → M K} {x y : Nat → K} (ha : ∀ l < F, a l = .ok (x l))
    (hb : ∀ l < F, b l = .ok (y l)) : dotM F a b = .ok (∑ l ∈ Finset.range F, x l * y l) := by
  have key := forUp_inv F (fun l s => do
    let x ← a l
    let y ← b l
    .ok (s + x * y)) (0 : K) (fun k s => s = ∑ l ∈ Finset.range k, x l * y l) (by simp) ?_
  · obtain ⟨s, h1, h2⟩ := key
    rw [dotM, h1, h2]
  · intro i hi s hs
    refine ⟨_, by rw [ha i hi, ok_bind, hb i hi, ok_bind], ?_⟩
    rw [Finset.sum_range_succ, hs]

theorem entry_ok {eu : Bool} {F : Nat} {a b : Nat → M K} {x y : Nat → K} {yn : Option (M K)}
    (ha : ∀ l < F, a l = .ok (x l)) (hb : ∀ l < F, b l = .ok (y l))
    (hn : eu = true → ∀ n, yn = some n → n = .ok (∑ l ∈ Finset.range F, y l * y l)) :
    entry eu F a b yn = .ok (dist eu F x y) := by
  rw [entry, dotM_ok ha hb, ok_bind]
  cases eu
  · simp [dist]
  · have h1 : yn.getD (dotM F b b) = .ok (∑ l ∈ Finset.range F, y l * y l) := by
      cases h : yn with
      | none => simp [dotM_ok hb hb]
      | some n => simp [hn rfl n h]
    rw [if_pos rfl, dotM_ok ha ha, ok_bind, h1, ok_bind]
    congr 1
    simp only [dist, if_true]
    rw [← Finset.sum_add_distrib, Finset.mul_sum, ← Finset.sum_add_distrib]
    exact Finset.sum_congr rfl fun l _ => by ring

/-- Two nested loops that fill a matrix. -/
theorem grid_ok {A : Type} {m n : Nat} {e : Nat → Nat → M A} {v : Nat → Nat → A} (D : List A)
    (he : ∀ i < m, ∀ j < n, e i j = .ok (v i j)) (hl : m * n ≤ D.length) :
    ∃ D', forUp m (fun i D => forUp n (fun j D => do
        let v ← e i j
        wr D (i * n + j) v) D) D = .ok D' ∧ D'.length = D.length ∧
      ∀ i < m, ∀ j < n, D'[i * n + j]? = some (v i j) := by
  have key := forUp_inv m (fun i D => forUp n (fun j D => do
        let v ← e i j
        wr D (i * n + j) v) D) D (fun r D' => D'.length = D.length ∧
          ∀ i < r, ∀ j < n, D'[i * n + j]? = some (v i j)) ⟨rfl, by simp⟩ ?_
  · exact key
  · intro r hr D1 ⟨h1, h2⟩
    have key := forUp_inv n (fun j D => do
        let v ← e r j
        wr D (r * n + j) v) D1 (fun q D' => D'.length = D.length ∧
          (∀ i < r, ∀ j < n, D'[i * n + j]? = some (v i j)) ∧ ∀ j < q, D'[r * n + j]? = some (v r j))
        ⟨h1, h2, by simp⟩ ?_
    · obtain ⟨D', h3, h4, h5, h6⟩ := key
      refine ⟨D', h3, h4, fun i hi j hj => ?_⟩
      rcases Nat.lt_succ_iff_lt_or_eq.1 hi with h | h
      · exact h5 i h j hj
      · rw [h]; exact h6 j hj
    · intro q hq D2 ⟨h3, h4, h5⟩
      have hb : r * n + q < D2.length := by
        have := cell_lt hr hq
        omega
      refine ⟨D2.set (r * n + q) (v r q), ?_, by simp [h3], ?_, ?_⟩
      · rw [he r hr q hq, ok_bind, wr_ok _ hb]
      · intro i hi j hj
        rw [get_set hb, if_neg, h4 i hi j hj]
        intro h
        have := cell_eq hj hq h
        omega
      · intro j hj
        rw [get_set hb]
        by_cases h : r * n + j = r * n + q
        · rw [if_pos h]
          have : j = q := by omega
          rw [this]
        · rw [if_neg h, h5 j (by omega)]

theorem distBlock_ok {eu : Bool} {F m n : Nat} {x y : Nat → Nat → M K} {yn : Option (Nat → M K)}
    {a b : Nat → Nat → K} (D : List K) (hx : ∀ i < m, ∀ l < F, x i l = .ok (a i l))
    (hy : ∀ j < n, ∀ l < F, y j l = .ok (b j l))
    (hn : eu = true → ∀ f, yn = some f → ∀ j < n, f j = .ok (∑ l ∈ Finset.range F, b j l * b j l))
    (hl : m * n ≤ D.length) :
    ∃ D', distBlock eu F m n x y yn D = .ok D' ∧ D'.length = D.length ∧
      ∀ i < m, ∀ j < n, D'[i * n + j]? = some (dist eu F (a i) (b j)) := by
  refine grid_ok (e := fun i j => entry eu F (x i) (y j) (yn.map fun f => f j)) D ?_ hl
  intro i hi j hj
  refine entry_ok (hx i hi) (hy j hj) ?_
  intro he n hn'
  cases h : yn with
  | none => simp [h] at hn'
  | some f =>
    simp [h] at hn'
    rw [← hn']
    exact hn he f h j hj

theorem argmin_ok {n : Nat} {D : List K} {o : Nat} {d : Nat → K} (hn : 0 < n)
    (hd : ∀ c < n, D[o + c]? = some (d c)) :
    ∃ c, argmin n D o = .ok c ∧ c < n ∧ (∀ c' < n, d c ≤ d c') ∧ ∀ c' < c, d c < d c' := by
  have key := forUp_inv n (fun c best => do
    let a ← rd D (o + c)
    let b ← rd D (o + best)
    if a < b then .ok c else .ok best) 0
    (fun r c => c < n ∧ (∀ c' < r, d c ≤ d c') ∧ ∀ c' < c, d c < d c') ⟨hn, by simp, by simp⟩ ?_
  · exact key
  · intro r hr c ⟨h1, h2, h3⟩
    rw [rd_ok (hd r hr), ok_bind, rd_ok (hd c h1), ok_bind]
    by_cases h : d r < d c
    · rw [if_pos h]
      refine ⟨r, rfl, hr, ?_, ?_⟩
      · intro c' hc'
        rcases Nat.lt_succ_iff_lt_or_eq.1 hc' with h' | h'
        · exact le_trans (le_of_lt h) (h2 c' h')
        · rw [h']
      · intro c' hc'
        exact lt_of_lt_of_le h (h2 c' hc')
    · rw [if_neg h]
      refine ⟨c, rfl, h1, ?_, h3⟩
      intro c' hc'
      rcases Nat.lt_succ_iff_lt_or_eq.1 hc' with h' | h'
      · exact h2 c' h'
      · rw [h']; exact not_lt.1 h

theorem rd_row {row : Bool} {X : List K} {ld n F i j : Nat} (h : Covers row X ld n F) (hi : i < n)
    (hj : j < F) : rd X (pos row ld i j) = .ok (rowOf row X ld i j) := by
  have := h i hi j hj
  exact rd_ok (by simp [rowOf, this])

theorem assignBlock_ok {row eu : Bool} {F nlist : Nat} {cent : List K} {ldc : Nat} {X : List K}
    {ldx n start size : Nat} {D : List K} {near : List Nat} (hc : Covers row cent ldc nlist F)
    (hx : Covers row X ldx n F) (hs : start + size ≤ n) (hD : size * nlist ≤ D.length) (hne : near.length = n)
    (hl : 0 < nlist) :
    ∃ D' near', assignBlock row eu F nlist cent ldc X ldx start size D near = .ok (D', near') ∧
      D'.length = D.length ∧ near'.length = n ∧
      ∀ i < n, if start ≤ i ∧ i < start + size then
          ∃ c, near'[i]? = some c ∧ IsNear eu F nlist (rowOf row cent ldc) (rowOf row X ldx i) c
        else near'[i]? = near[i]? := by
  obtain ⟨D', h1, h2, h3⟩ := distBlock_ok (eu := eu) (F := F) (m := size) (n := nlist)
    (x := fun i l => rd X (pos row ldx (start + i) l)) (y := fun c l => rd cent (pos row ldc c l)) (yn := none)
    (a := fun i => rowOf row X ldx (start + i)) (b := fun c => rowOf row cent ldc c) D
    (fun i hi l hl => rd_row hx (by omega) hl) (fun c hc' l hl => rd_row hc hc' hl) (by simp) hD
  have key := forUp_inv size (fun i near => do
    let c ← argmin nlist D' (i * nlist)
    wr near (start + i) c) near (fun r near' => near'.length = n ∧
      ∀ i < n, if start ≤ i ∧ i < start + r then
          ∃ c, near'[i]? = some c ∧ IsNear eu F nlist (rowOf row cent ldc) (rowOf row X ldx i) c
        else near'[i]? = near[i]?) ⟨hne, ?_⟩ ?_
  · obtain ⟨near', h4, h5, h6⟩ := key
    exact ⟨D', near', by rw [assignBlock, h1, ok_bind, h4, ok_bind], h2, h5, h6⟩
  · intro i hi
    rw [if_neg (by omega)]
  · intro r hr near' ⟨h4, h5⟩
    obtain ⟨c, h6, h7⟩ := argmin_ok (d := fun c => dist eu F (rowOf row X ldx (start + r)) (rowOf row cent ldc c))
      hl (fun c hc => h3 r hr c hc)
    have hb : start + r < near'.length := by omega
    refine ⟨near'.set (start + r) c, by rw [h6, ok_bind, wr_ok _ hb], by simp [h4], ?_⟩
    intro i hi
    rw [get_set hb]
    by_cases he : i = start + r
    · rw [if_pos (by omega), if_pos he, he]
      exact ⟨c, rfl, h7⟩
    · rw [if_neg he]
      have := h5 i hi
      by_cases h : start ≤ i ∧ i < start + r
      · rw [if_pos h] at this
        rw [if_pos (by omega)]
        exact this
      · rw [if_neg h] at this
        rw [if_neg (by omega)]
        exact this

/-- The blocks of `blocking_scheme`. -/
theorem scheme_block {n blk nb rem : Nat} (h : Blocking.blockingScheme n blk = some (nb, rem)) :
    0 < blk ∧ (∀ b < nb, b * blk + (if b = nb - 1 ∧ rem > 0 then rem else blk) ≤ n ∧
      (if b = nb - 1 ∧ rem > 0 then rem else blk) ≤ blk) ∧
    ∀ i < n, i / blk < nb ∧ i / blk * blk ≤ i ∧
      i < i / blk * blk + (if i / blk = nb - 1 ∧ rem > 0 then rem else blk) := by
  unfold Blocking.blockingScheme at h
  by_cases h0 : blk = 0
  · simp [h0] at h
  have hb : 0 < blk := Nat.pos_of_ne_zero h0
  have hm := Nat.div_add_mod n blk
  have hlt := Nat.mod_lt n hb
  have hc : n / blk * blk = blk * (n / blk) := Nat.mul_comm _ _
  simp only [if_neg h0, Option.some.injEq, Prod.mk.injEq] at h
  obtain ⟨h1, h2⟩ := h
  refine ⟨hb, ?_, ?_⟩
  · intro b hbn
    by_cases hr : n % blk > 0
    · rw [if_pos hr] at h1
      by_cases hl : b = nb - 1
      · have : b = n / blk := by omega
        rw [if_pos ⟨hl, by omega⟩, this]
        omega
      · rw [if_neg (by omega)]
        have : (b + 1) * blk ≤ n / blk * blk := Nat.mul_le_mul_right _ (by omega)
        rw [Nat.add_mul, Nat.one_mul] at this
        omega
    · rw [if_neg hr] at h1
      rw [if_neg (by omega)]
      have : (b + 1) * blk ≤ n / blk * blk := Nat.mul_le_mul_right _ (by omega)
      rw [Nat.add_mul, Nat.one_mul] at this
      omega
  · intro i hi
    have hdm := Nat.div_add_mod i blk
    have hml := Nat.mod_lt i hb
    have hcc : i / blk * blk = blk * (i / blk) := Nat.mul_comm _ _
    have hle : i / blk ≤ n / blk := Nat.div_le_div_right (by omega)
    by_cases hr : n % blk > 0
    · rw [if_pos hr] at h1
      refine ⟨by omega, by omega, ?_⟩
      by_cases hl : i / blk = nb - 1
      · rw [if_pos ⟨hl, by omega⟩]
        have : i / blk = n / blk := by omega
        rw [this] at hcc ⊢
        omega
      · rw [if_neg (by omega)]
        omega
    · rw [if_neg hr] at h1
      have : i / blk < n / blk := by
        rcases Nat.lt_or_ge (i / blk) (n / blk) with h | h
        · exact h
        · have he : i / blk = n / blk := by omega
          rw [he] at hdm
          omega
      refine ⟨by omega, by omega, ?_⟩
      rw [if_neg (by omega)]
      omega

/-- Phase 1: every new row is assigned to the first of its nearest centroids, whatever the block size and the
order of the blocks. -/
theorem assignAll_ok {row eu : Bool} {F nlist : Nat} {cent : List K} {ldc : Nat} {X : List K}
    {ldx n blk nb rem : Nat} {ob : List Nat} (hc : Covers row cent ldc nlist F)
    (hx : Covers row X ldx n F) (hl : 0 < nlist) (hb : Blocking.blockingScheme n blk = some (nb, rem))
    (ho : ob.Perm (List.range nb)) :
    ∃ near, assignAll row eu F nlist cent ldc X ldx n blk ob = .ok near ∧ near.length = n ∧
      ∀ i < n, ∃ c, near[i]? = some c ∧ IsNear eu F nlist (rowOf row cent ldc) (rowOf row X ldx i) c := by
  obtain ⟨hpos, hblk, hcov⟩ := scheme_block hb
  have key := BarnesHut.foldlM_prefix (fun (r : List K × List Nat) b =>
      let size := if b = nb - 1 ∧ rem > 0 then rem else blk
      assignBlock row eu F nlist cent ldc X ldx (b * blk) size r.1 r.2)
    (fun pre r => r.1.length = nlist * blk ∧ r.2.length = n ∧ ∀ i < n, i / blk ∈ pre →
      ∃ c, r.2[i]? = some c ∧ IsNear eu F nlist (rowOf row cent ldc) (rowOf row X ldx i) c)
    ob (List.replicate (nlist * blk) 0, List.replicate n 0) (by simp) ?_
  · obtain ⟨r, h1, h2, h3, h4⟩ := key
    refine ⟨r.2, ?_, h3, ?_⟩
    · rw [assignAll, hb]
      simp only
      rw [h1, ok_bind]
    · intro i hi
      exact h4 i hi (ho.mem_iff.2 (List.mem_range.2 (hcov i hi).1))
  · intro pre b post r he ⟨h1, h2, h3⟩
    have hbn : b < nb := by
      have : b ∈ ob := by rw [he]; simp
      exact List.mem_range.1 (ho.mem_iff.1 this)
    obtain ⟨h4, h5⟩ := hblk b hbn
    obtain ⟨D', near', h6, h7, h8, h9⟩ := assignBlock_ok (eu := eu) (D := r.1) (near := r.2) hc hx h4
      (by
        rw [h1, Nat.mul_comm]
        exact Nat.mul_le_mul_left _ h5) h2 hl
    refine ⟨(D', near'), h6, by rw [← h1]; exact h7, h8, ?_⟩
    intro i hi hm
    have h10 := h9 i hi
    by_cases hh : b * blk ≤ i ∧ i < b * blk + (if b = nb - 1 ∧ rem > 0 then rem else blk)
    · rw [if_pos hh] at h10
      exact h10
    · rw [if_neg hh] at h10
      rw [List.mem_append, List.mem_singleton] at hm
      rcases hm with hm | hm
      · obtain ⟨c, h11, h12⟩ := h3 i hi hm
        exact ⟨c, by rw [h10]; exact h11, h12⟩
      · exact absurd ⟨by rw [← hm]; exact (hcov i hi).2.1, by
          have := (hcov i hi).2.2
          rw [hm] at this
          exact this⟩ hh

end Verif.ApproxNn
