import Verif.ApproxNn.Scan

/-
Which queries probe which list.
-/
namespace Verif.ApproxNn

set_option linter.unusedSectionVars false

open Moments (M Fault rd wr forUp ok_bind rd_ok wr_ok forUp_zero forUp_succ)
open Tsne (forUp_inv cell_eq cell_lt get_set)
open Heap (MaxHeap create getMaxDist insert Best cells)

variable {K : Type} [Field K] [LinearOrder K] [IsStrictOrderedRing K]

/-- The table holds the queries `T c` of every centroid `c`. -/
structure Tab (nlist qb : Nat) (T : Nat → List Nat) (qpc cnt : List Nat) : Prop where
  len : qpc.length = nlist * qb
  cnt : cnt = (List.range nlist).map fun c => (T c).length
  cell : ∀ c < nlist, ∀ t q, (T c)[t]? = some q → qpc[c * qb + t]? = some q

theorem Tab.congr {nlist qb : Nat} {T T' : Nat → List Nat} {qpc cnt : List Nat} (h : Tab nlist qb T qpc cnt)
    (e : ∀ c < nlist, T c = T' c) : Tab nlist qb T' qpc cnt :=
  ⟨h.len, by
    rw [h.cnt]
    apply map_congr'
    intro c hc
    rw [e c hc], fun c hc t q hq => h.cell c hc t q (by rw [e c hc]; exact hq)⟩

theorem tab_push {nlist qb : Nat} {T : Nat → List Nat} {qpc cnt : List Nat} {c q : Nat}
    (h : Tab nlist qb T qpc cnt) (hl : ∀ c < nlist, (T c).length ≤ qb) (hc : c < nlist) (hq : (T c).length < qb) :
    ∃ qpc' cnt', (do
        let n ← rd cnt c
        let qpc ← wr qpc (c * qb + n) q
        let cnt ← wr cnt c (n + 1)
        .ok (qpc, cnt) : M (List Nat × List Nat)) = .ok (qpc', cnt') ∧
      Tab nlist qb (fun c' => T c' ++ if c' = c then [q] else []) qpc' cnt' := by
  have hb : c * qb + (T c).length < qpc.length := by
    rw [h.len]; exact cell_lt hc hq
  refine ⟨qpc.set (c * qb + (T c).length) q, (List.range nlist).map fun i => if i = c then (T c).length + 1 else (T i).length, ?_, ?_⟩
  · rw [h.cnt, rd_map _ hc, ok_bind, wr_ok _ hb, ok_bind, wr_map _ _ hc, ok_bind]
  · refine ⟨by simp [h.len], ?_, ?_⟩
    · apply map_congr'
      intro c' _
      by_cases e : c' = c
      · simp [e]
      · simp [e]
    · intro c' hc' t q' ht
      rw [get_set hb]
      by_cases e : c' = c
      · subst e
        simp only [if_true] at ht
        by_cases h1 : t < (T c').length
        · rw [List.getElem?_append_left h1] at ht
          rw [if_neg (by omega)]
          exact h.cell c' hc' t q' ht
        · rw [List.getElem?_append_right (by omega)] at ht
          have h2 : t - (T c').length = 0 := by
            by_contra h3
            rw [List.getElem?_eq_none (by simp; omega)] at ht
            simp at ht
          rw [h2] at ht
          simp only [List.getElem?_cons_zero, Option.some.injEq] at ht
          rw [if_pos (by omega), ht]
      · simp only [if_neg e, List.append_nil] at ht
        have h1 : t < (T c').length := (List.getElem?_eq_some_iff.1 ht).1
        have h2 := hl c' hc'
        rw [if_neg, h.cell c' hc' t q' ht]
        intro h3
        have := cell_eq (by omega) hq h3
        exact e this.1

theorem record_ok {nlist qb nprobe q : Nat} {cent : Nat → Nat} {T : Nat → List Nat} {qpc cnt : List Nat}
    (h : Tab nlist qb T qpc cnt) (hl : ∀ c < nlist, (T c).length < qb)
    (hn : ((List.range nprobe).map cent).Nodup) (hc : ∀ c ∈ (List.range nprobe).map cent, c < nlist) :
    ∃ qpc' cnt', record qb nprobe q cent qpc cnt = .ok (qpc', cnt') ∧
      Tab nlist qb (fun c => T c ++ if c ∈ (List.range nprobe).map cent then [q] else []) qpc' cnt' := by
  have key := forUp_inv nprobe (fun p (r : List Nat × List Nat) => do
    let n ← rd r.2 (cent p)
    let qpc ← wr r.1 (cent p * qb + n) q
    let cnt ← wr r.2 (cent p) (n + 1)
    .ok (qpc, cnt)) (qpc, cnt)
    (fun p r => Tab nlist qb (fun c => T c ++ if c ∈ (List.range p).map cent then [q] else []) r.1 r.2)
    (by simpa using h) ?_
  · obtain ⟨r, h1, h2⟩ := key
    exact ⟨r.1, r.2, by rw [record, h1], h2⟩
  · intro p hp r ht
    have hpc : cent p < nlist := hc _ (List.mem_map.2 ⟨p, List.mem_range.2 hp, rfl⟩)
    have hnew : cent p ∉ (List.range p).map cent := by
      intro hm
      obtain ⟨p', hp', he⟩ := List.mem_map.1 hm
      have hinj := List.inj_on_of_nodup_map hn (List.mem_range.2 (Nat.lt_trans (List.mem_range.1 hp') hp))
        (List.mem_range.2 hp) he
      have := List.mem_range.1 hp'
      omega
    obtain ⟨qpc', cnt', h1, h2⟩ := tab_push (q := q) ht (by
      intro c hc'
      have := hl c hc'
      rw [List.length_append]
      split <;> simp <;> omega) hpc (by
      rw [if_neg hnew]
      simpa using hl _ hpc)
    refine ⟨(qpc', cnt'), h1, h2.congr ?_⟩
    intro c _
    rw [List.append_assoc]
    congr 1
    rw [List.range_succ, List.map_append]
    by_cases e : c = cent p
    · rw [e, if_neg hnew]
      simp
    · have : (c ∈ (List.range p).map cent ++ [p].map cent) ↔ c ∈ (List.range p).map cent := by simp [e]
      simp only [this, if_neg e, List.append_nil]

/-- The queries of a block (relative to its start) that probe `c`, when `Ps` are the probes. -/
def askers (Ps : List (List Nat)) (c : Nat) : List Nat :=
  (List.range Ps.length).filter fun q => c ∈ Ps.getD q []

theorem askers_append (Ps : List (List Nat)) (S : List Nat) (c : Nat) :
    askers (Ps ++ [S]) c = askers Ps c ++ if c ∈ S then [Ps.length] else [] := by
  unfold askers
  rw [List.length_append, List.length_singleton, List.range_succ, List.filter_append]
  congr 1
  · apply List.filter_congr
    intro q hq
    have := List.mem_range.1 hq
    have e : (Ps ++ [S]).getD q [] = Ps.getD q [] := by simp only [List.getD, List.getElem?_append_left this]
    simp only [e]
  · rw [List.filter_singleton]
    have e : (Ps ++ [S]).getD Ps.length [] = S := by
      simp [List.getD]
    rw [e]
    by_cases h : c ∈ S <;> simp [h]

theorem askers_length (Ps : List (List Nat)) (c : Nat) : (askers Ps c).length ≤ Ps.length := by
  have := List.length_filter_le (fun q => decide (c ∈ Ps.getD q [])) (List.range Ps.length)
  rw [List.length_range] at this
  exact this

/-- The table after the probes of a block. -/
theorem probes_ok {top : K} {nlist nprobe qb start size : Nat} {b : Bufs K} {d : Nat → Nat → K}
    (hp : 0 < nprobe) (hn : nprobe ≤ nlist) (hs : size ≤ qb) (hq : b.qpc.length = nlist * qb)
    (hd : ∀ q < size, ∀ c < nlist, b.coarse[q * nlist + c]? = some (d q c))
    (ht : ∀ q < size, ∀ c < nlist, d q c < top) :
    ∃ b' cnt Ps, probes top nlist nprobe qb start size b = .ok (b', cnt) ∧ b'.coarse = b.coarse ∧
      b'.fine = b.fine ∧ b'.queries = b.queries ∧ Ps.length = size ∧
      (∀ q S, Ps[q]? = some S → IsProbes nlist nprobe (d q) S) ∧
      Tab nlist qb (fun c => (askers Ps c).map (start + ·)) b'.qpc cnt := by
  have key := forUp_inv size (fun q (r : Bufs K × List Nat) => do
    let h ← scan top nlist (fun c => .ok c) (fun c => rd b.coarse (q * nlist + c))
      (create nprobe r.1.cent fun _ => top)
    let w ← record qb nprobe (start + q) h.indices r.1.qpc r.2
    .ok ({ r.1 with qpc := w.1, cent := h.indices }, w.2)) (b, List.replicate nlist 0)
    (fun q r => ∃ Ps, r.1.coarse = b.coarse ∧ r.1.fine = b.fine ∧ r.1.queries = b.queries ∧ Ps.length = q ∧
      (∀ q S, Ps[q]? = some S → IsProbes nlist nprobe (d q) S) ∧
      Tab nlist qb (fun c => (askers Ps c).map (start + ·)) r.1.qpc r.2) ?_ ?_
  · obtain ⟨r, h1, Ps, h2⟩ := key
    exact ⟨r.1, r.2, Ps, h1, h2⟩
  · refine ⟨[], rfl, rfl, rfl, rfl, by simp, hq, ?_, by simp [askers]⟩
    apply List.ext_getElem?
    intro i
    by_cases h : i < nlist <;> simp [h, askers]
  · intro q hq r ⟨Ps, h1, h2, h3, h4, h5, h6⟩
    have hscan := scan_ok (top := top) (n := nlist) (ix := fun c => .ok c)
      (d := fun c => rd b.coarse (q * nlist + c)) (i := fun c => c) (x := d q)
      (create nprobe r.1.cent fun _ => top) (fun c hc => rd_ok (hd q hq c hc)) (fun _ _ => rfl)
    have hprobe := isProbes (ind := r.1.cent) (dst := fun _ => top) hp hn (ht q hq)
    obtain ⟨h, hh⟩ : ∃ h, h = scanL top (create nprobe r.1.cent fun _ => top)
      ((List.range nlist).map fun c => (c, d q c)) := ⟨_, rfl⟩
    rw [← hh] at hscan hprobe
    obtain ⟨qpc', cnt', h7, h8⟩ := record_ok (q := start + q) h6 (by
      intro c _
      have := askers_length Ps c
      rw [List.length_map]
      omega) hprobe.1 hprobe.2.2.1
    refine ⟨({ r.1 with qpc := qpc', cent := h.indices }, cnt'), ?_, Ps ++ [(List.range nprobe).map h.indices],
      h1, h2, h3, by simp [h4], ?_, ?_⟩
    · rw [hscan, ok_bind, h7, ok_bind]
    · intro q' S hS
      by_cases hlt : q' < Ps.length
      · rw [List.getElem?_append_left hlt] at hS
        exact h5 q' S hS
      · rw [List.getElem?_append_right (by omega)] at hS
        have h9 : q' - Ps.length = 0 := by
          by_contra h9
          rw [List.getElem?_eq_none (by simp; omega)] at hS
          simp at hS
        rw [h9] at hS
        simp only [List.getElem?_cons_zero, Option.some.injEq] at hS
        have : q' = q := by omega
        rw [this, ← hS]
        exact hprobe
    · refine h8.congr ?_
      intro c _
      rw [askers_append, List.map_append, h4]
      congr 1
      by_cases e : c ∈ (List.range nprobe).map h.indices
      · rw [if_pos e, if_pos e]; rfl
      · rw [if_neg e, if_neg e]; rfl

end Verif.ApproxNn
