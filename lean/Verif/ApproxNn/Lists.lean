import Verif.ApproxNn.Probe

/-
The loop over the lists.
-/
namespace Verif.ApproxNn

set_option linter.unusedSectionVars false

open Moments (M Fault rd wr forUp ok_bind rd_ok wr_ok forUp_zero forUp_succ)
open Tsne (forUp_inv cell_eq cell_lt get_set)
open Heap (MaxHeap create getMaxDist insert Best cells)

variable {K : Type} [Field K] [LinearOrder K] [IsStrictOrderedRing K]

theorem forUp_congr {A : Type} {n : Nat} {f g : Nat → A → M A} (h : ∀ i < n, ∀ s, f i s = g i s) (s : A) :
    forUp n f s = forUp n g s := by
  induction n with
  | zero => rfl
  | succ n ih =>
    rw [forUp_succ, forUp_succ, ih fun i hi => h i (by omega)]
    congr 1
    funext s
    exact h n (by omega) s

theorem gather_ok {F qcount : Nat} {qof : Nat → M Nat} {q : Nat → Nat} {X : List K} {ldx : Nat}
    {queries : List K} {x : Nat → Nat → K} (hq : ∀ k < qcount, qof k = .ok (q k))
    (hx : ∀ k < qcount, ∀ l < F, X[q k * ldx + l]? = some (x k l)) (hl : qcount * F ≤ queries.length) :
    ∃ w, gather F qcount qof X ldx queries = .ok w ∧ w.length = queries.length ∧
      ∀ k < qcount, ∀ l < F, w[k * F + l]? = some (x k l) := by
  have h := grid_ok (e := fun k l => rd X (q k * ldx + l)) queries (fun k hk l hl => rd_ok (hx k hk l hl)) hl
  obtain ⟨w, h1, h2⟩ := h
  refine ⟨w, ?_, h2⟩
  rw [gather, ← h1]
  apply forUp_congr
  intro k hk s
  rw [hq k hk, ok_bind]

theorem updateHeaps_ok {top : K} {size qb start : Nat} {gidx : Nat → M Nat} {fine : List K} {qof : Nat → M Nat}
    {Q : List Nat} {gi : Nat → Nat} {D : Nat → Nat → K} {H : Nat → MaxHeap K} (hnd : Q.Nodup)
    (hlt : ∀ q ∈ Q, q < qb) (hq : ∀ k q, Q[k]? = some q → qof k = .ok (start + q))
    (hg : ∀ v < size, gidx v = .ok (gi v))
    (hf : ∀ k q, Q[k]? = some q → ∀ v < size, fine[k * size + v]? = some (D q v)) :
    updateHeaps top size Q.length gidx fine start qof ((List.range qb).map H) =
      .ok ((List.range qb).map fun ii => if ii ∈ Q then
        scanL top (H ii) ((List.range size).map fun v => (gi v, D ii v)) else H ii) := by
  have key := forUp_inv Q.length (fun q hs => do
    let i ← qof q
    let h ← rd hs (i - start)
    let h ← scan top size gidx (fun v => rd fine (q * size + v)) h
    wr hs (i - start) h) ((List.range qb).map H)
    (fun k hs => hs = (List.range qb).map fun ii => if ii ∈ Q.take k then
        scanL top (H ii) ((List.range size).map fun v => (gi v, D ii v)) else H ii) (by simp) ?_
  · obtain ⟨hs, h1, h2⟩ := key
    rw [updateHeaps, h1, h2, List.take_length]
  · intro k hk hs hhs
    subst hhs
    have hget : Q[k]? = some Q[k] := by simp [hk]
    obtain ⟨q, hqq⟩ : ∃ q, q = Q[k] := ⟨_, rfl⟩
    rw [← hqq] at hget
    have hqm : q ∈ Q := List.mem_of_getElem? hget
    have htake : Q.take (k + 1) = Q.take k ++ [q] := by rw [List.take_add_one, hget]; rfl
    have hnew : q ∉ Q.take k := by
      intro hm
      obtain ⟨k', h1, h2⟩ := List.mem_take_iff_getElem.1 hm
      have := (List.nodup_iff_getElem?_ne_getElem?.1 hnd) k' k (by omega) hk
      apply this
      rw [hget, ← h2]
      simp [List.getElem?_eq_getElem (show k' < Q.length by omega)]
    have e : start + q - start = q := by omega
    refine ⟨_, by
      rw [hq k q hget, ok_bind, e, rd_map _ (hlt q hqm), ok_bind, if_neg hnew, scan_ok (x := D q) (i := gi) (H q)
        (fun v hv => rd_ok (hf k q hget v hv)) hg, ok_bind, wr_map _ _ (hlt q hqm)], ?_⟩
    apply map_congr'
    intro ii _
    rw [htake]
    by_cases h : ii = q
    · simp [h]
    · simp [h]

theorem flat_get (P : List (Nat × (Nat → K))) (F a l : Nat) (ha : a < P.length) (hl : l < F) :
    (P.flatMap fun p => (List.range F).map p.2)[a * F + l]? = some ((P.getD a (0, 0)).2 l) := by
  induction P generalizing a with
  | nil => simp at ha
  | cons p P ih =>
    rw [List.flatMap_cons]
    cases a with
    | zero =>
      rw [List.getElem?_append_left (by simpa using hl)]
      simp [hl]
    | succ a =>
      have e : (a + 1) * F + l = F + (a * F + l) := by rw [Nat.add_mul]; omega
      rw [e, List.getElem?_append_right (by simp)]
      have := ih a (by simpa using ha)
      simpa using this

/-- What a list of the index looks like to the search. -/
def cand (eu : Bool) (F : Nat) (P : List (Nat × (Nat → K))) (x : Nat → K) : List (Nat × K) :=
  P.map fun p => (p.1 + 1, dist eu F x p.2)

theorem cand_range (eu : Bool) (F : Nat) (P : List (Nat × (Nat → K))) (x : Nat → K) :
    cand eu F P x = (List.range P.length).map fun v =>
      ((P.getD v (0, 0)).1 + 1, dist eu F x (P.getD v (0, 0)).2) := by
  unfold cand
  apply List.ext_getElem?
  intro i
  by_cases h : i < P.length
  · simp [h]
  · simp [h]

theorem listBlocks_ok {eu : Bool} {top : K} {F lb qb start : Nat} {P : List (Nat × (Nat → K))} {norm : List K}
    {qof : Nat → M Nat} {queries fine : List K} {Q : List Nat} {H : Nat → MaxHeap K} {x : Nat → Nat → K}
    (hlb : 0 < lb) (hnd : Q.Nodup) (hlt : ∀ q ∈ Q, q < qb) (hQ : Q.length ≤ qb)
    (hnorm : eu = true → norm = P.map fun p => ∑ l ∈ Finset.range F, p.2 l ^ 2)
    (hq : ∀ k q, Q[k]? = some q → qof k = .ok (start + q))
    (hqs : ∀ k q, Q[k]? = some q → ∀ l < F, queries[k * F + l]? = some (x q l))
    (hfl : qb * lb ≤ fine.length) :
    ∃ fine', listBlocks eu top F lb P.length Q.length start (P.flatMap fun p => (List.range F).map p.2) norm
        (P.map fun p => p.1) qof queries fine ((List.range qb).map H) =
      .ok (fine', (List.range qb).map fun ii => if ii ∈ Q then scanL top (H ii) (cand eu F P (x ii)) else H ii) ∧
      fine'.length = fine.length := by
  have key := forUp_inv ((P.length + lb - 1) / lb) (fun r (s : List K × List (MaxHeap K)) => do
    let t := r * lb
    let this := min lb (P.length - t)
    let fine ← distBlock eu F Q.length this (fun k l => rd queries (k * F + l))
      (fun v l => rd (P.flatMap fun p => (List.range F).map p.2) (t * F + (v * F + l)))
      (some fun v => rd norm (t + v)) s.1
    let hs ← updateHeaps top this Q.length (fun v => do
      let g ← rd (P.map fun p => p.1) (t + v)
      .ok (g + 1)) fine start qof s.2
    .ok (fine, hs)) (fine, (List.range qb).map H)
    (fun r s => s.1.length = fine.length ∧ s.2 = (List.range qb).map fun ii => if ii ∈ Q then
      scanL top (H ii) ((List.range (min (r * lb) P.length)).map fun v =>
        ((P.getD v (0, 0)).1 + 1, dist eu F (x ii) (P.getD v (0, 0)).2)) else H ii) ?_ ?_
  · obtain ⟨s, h1, h2, h3⟩ := key
    refine ⟨s.1, ?_, h2⟩
    rw [listBlocks, if_neg (by omega), h1]
    congr 1
    ext1
    · rfl
    · rw [h3]
      apply map_congr'
      intro ii _
      rw [cand_range]
      have hm := Nat.div_add_mod (P.length + lb - 1) lb
      have hl := Nat.mod_lt (P.length + lb - 1) hlb
      have hc : (P.length + lb - 1) / lb * lb = lb * ((P.length + lb - 1) / lb) := Nat.mul_comm _ _
      rw [Nat.min_eq_right (by omega)]
  · refine ⟨rfl, ?_⟩
    apply map_congr'
    intro ii _
    simp [scanL]
  · intro r hr s ⟨h1, h2⟩
    obtain ⟨f, hs⟩ := s
    simp only at h1 h2
    subst h2
    obtain ⟨t, ht⟩ : ∃ t, t = r * lb := ⟨_, rfl⟩
    obtain ⟨m, hm⟩ : ∃ m, m = min lb (P.length - t) := ⟨_, rfl⟩
    have htl : t < P.length := by
      have h3 : (r + 1) * lb ≤ (P.length + lb - 1) / lb * lb := Nat.mul_le_mul_right _ hr
      have h4 := Nat.div_mul_le_self (P.length + lb - 1) lb
      rw [Nat.add_mul, Nat.one_mul] at h3
      omega
    have hmin : min t P.length = t := by omega
    have hmin2 : min ((r + 1) * lb) P.length = t + m := by
      rw [Nat.add_mul, Nat.one_mul]; omega
    simp only [← ht, ← hm, hmin]
    obtain ⟨f', h3, h4, h5⟩ := distBlock_ok (eu := eu) (F := F) (m := Q.length) (n := m)
      (x := fun k l => rd queries (k * F + l))
      (y := fun v l => rd (P.flatMap fun p => (List.range F).map p.2) (t * F + (v * F + l)))
      (yn := some fun v => rd norm (t + v)) (a := fun k => x (Q.getD k 0))
      (b := fun v => (P.getD (t + v) (0, 0)).2) f
      (by
        intro k hk l hl
        have hg : Q[k]? = some (Q.getD k 0) := by simp [hk]
        exact rd_ok (hqs k _ hg l hl))
      (by
        intro v hv l hl
        have e : t * F + (v * F + l) = (t + v) * F + l := by rw [Nat.add_mul]; omega
        rw [e]
        exact rd_ok (flat_get P F (t + v) l (by omega) hl))
      (by
        intro he g hg v hv
        simp only [Option.some.injEq] at hg
        rw [← hg, hnorm he]
        have hb : t + v < P.length := by omega
        refine rd_ok ?_
        simp [hb, pow_two])
      (by
        have : Q.length * m ≤ qb * lb := Nat.mul_le_mul hQ (by omega)
        omega)
    rw [h3, ok_bind]
    have hup := updateHeaps_ok (top := top) (size := m) (qb := qb) (start := start)
      (gidx := fun v => do
        let g ← rd (P.map fun p => p.1) (t + v)
        .ok (g + 1)) (fine := f') (qof := qof) (Q := Q) (gi := fun v => (P.getD (t + v) (0, 0)).1 + 1)
      (D := fun q v => dist eu F (x q) (P.getD (t + v) (0, 0)).2)
      (H := fun ii => if ii ∈ Q then scanL top (H ii) ((List.range t).map fun v =>
        ((P.getD v (0, 0)).1 + 1, dist eu F (x ii) (P.getD v (0, 0)).2)) else H ii) hnd hlt hq
      (by
        intro v hv
        have hb : t + v < P.length := by omega
        rw [rd_ok (a := (P.getD (t + v) (0, 0)).1) (by simp [hb]), ok_bind])
      (by
        intro k q hkq v hv
        have hk : k < Q.length := (List.getElem?_eq_some_iff.1 hkq).1
        have := h5 k hk v hv
        have e : Q.getD k 0 = q := by simp [List.getD, hkq]
        rw [e] at this
        exact this)
    rw [hup, ok_bind]
    refine ⟨_, rfl, by rw [h4, h1], ?_⟩
    apply map_congr'
    intro ii _
    rw [hmin2]
    by_cases hi : ii ∈ Q
    · simp only [if_pos hi]
      rw [← scanL_append, List.range_add, List.map_append, List.map_map]
      rfl
    · simp only [if_neg hi]

/-- The index as the search uses it: list `c` holds the points `pts c`. -/
structure Points (eu : Bool) (F nlist : Nat) (pts : Nat → List (Nat × (Nat → K))) (s : Index K) : Prop where
  sizes : s.sizes = (List.range nlist).map fun c => (pts c).length
  vecs : s.vecs = (List.range nlist).map fun c => (pts c).flatMap fun p => (List.range F).map p.2
  glob : s.glob = (List.range nlist).map fun c => (pts c).map fun p => p.1
  norms : ∃ nm : Nat → List K, s.norms = (List.range nlist).map nm ∧
    (eu = true → ∀ c < nlist, nm c = (pts c).map fun p => ∑ l ∈ Finset.range F, p.2 l ^ 2)

/-- The candidates of a query that probes the lists `S`. -/
def cands (eu : Bool) (F n : Nat) (pts : Nat → List (Nat × (Nat → K))) (S : List Nat) (x : Nat → K) :
    List (Nat × K) :=
  (List.range n).flatMap fun c => if c ∈ S then cand eu F (pts c) x else []

theorem searchLists_ok {eu : Bool} {top : K} {F nlist qb lb start : Nat} {X : List K} {ldx : Nat} {s : Index K}
    {cnt : List Nat} {b : Bufs K} {pts : Nat → List (Nat × (Nat → K))} {Ps : List (List Nat)}
    {x : Nat → Nat → K} (h0 : MaxHeap K) (hs : Points eu F nlist pts s)
    (hlb : 0 < lb ∨ ∀ c < nlist, pts c = []) (hPs : Ps.length ≤ qb)
    (htab : Tab nlist qb (fun c => (askers Ps c).map (start + ·)) b.qpc cnt)
    (hx : ∀ q < Ps.length, ∀ l < F, X[(start + q) * ldx + l]? = some (x q l))
    (hql : b.queries.length = qb * F) (hfl : b.fine.length = qb * lb) :
    ∃ b', searchLists eu top F nlist qb lb start X ldx s cnt b (List.replicate qb h0) =
      .ok (b', (List.range qb).map fun ii => scanL top h0 (cands eu F nlist pts (Ps.getD ii []) (x ii))) ∧
      b'.coarse = b.coarse ∧ b'.qpc = b.qpc ∧ b'.queries.length = qb * F ∧ b'.fine.length = qb * lb := by
  obtain ⟨nm, hnm1, hnm2⟩ := hs.norms
  have key := forUp_inv nlist (fun j (r : Bufs K × List (MaxHeap K)) => do
    let size ← rd s.sizes j
    let vec ← rd s.vecs j
    let norm ← rd s.norms j
    let glob ← rd s.glob j
    let qcount ← rd cnt j
    let qof := fun k => rd r.1.qpc (j * qb + k)
    if size > 0 ∧ qcount > 0 then do
      let queries ← gather F qcount qof X ldx r.1.queries
      let w ← listBlocks eu top F lb size qcount start vec norm glob qof queries r.1.fine r.2
      .ok ({ r.1 with queries := queries, fine := w.1 }, w.2)
    else .ok r) (b, List.replicate qb h0)
    (fun j r => r.2 = ((List.range qb).map fun ii =>
        scanL top h0 (cands eu F j pts (Ps.getD ii []) (x ii))) ∧
      r.1.coarse = b.coarse ∧ r.1.qpc = b.qpc ∧ r.1.queries.length = qb * F ∧ r.1.fine.length = qb * lb) ?_ ?_
  · obtain ⟨r, h1, h2, h3⟩ := key
    exact ⟨r.1, by rw [searchLists, h1, ← h2], h3⟩
  · refine ⟨?_, rfl, rfl, hql, hfl⟩
    apply List.ext_getElem?
    intro i
    by_cases h : i < qb <;> simp [h, cands, scanL]
  · intro j hj r ⟨h1, h2, h3, h4, h5⟩
    obtain ⟨bb, hh⟩ := r
    simp only at h1 h2 h3 h4 h5
    subst h1
    have hnext : ∀ ii, cands eu F (j + 1) pts (Ps.getD ii []) (x ii) =
        cands eu F j pts (Ps.getD ii []) (x ii) ++
          if j ∈ Ps.getD ii [] then cand eu F (pts j) (x ii) else [] := by
      intro ii
      unfold cands
      rw [List.range_succ, List.flatMap_append]
      simp
    have hmem : ∀ ii, ii ∈ askers Ps j ↔ j ∈ Ps.getD ii [] := by
      intro ii
      unfold askers
      rw [List.mem_filter, List.mem_range]
      simp only [decide_eq_true_eq]
      constructor
      · exact fun h => h.2
      · intro h
        refine ⟨?_, h⟩
        by_contra hn
        rw [List.getD, List.getElem?_eq_none (by omega)] at h
        simp at h
    rw [hs.sizes, rd_map _ hj, ok_bind, hs.vecs, rd_map _ hj, ok_bind, hnm1, rd_map _ hj, ok_bind, hs.glob,
      rd_map _ hj, ok_bind, htab.cnt, rd_map _ hj, ok_bind]
    simp only [List.length_map]
    by_cases hgo : (pts j).length > 0 ∧ (askers Ps j).length > 0
    · rw [if_pos hgo]
      have hlb' : 0 < lb := by
        rcases hlb with h | h
        · exact h
        · rw [h j hj] at hgo
          simp at hgo
      obtain ⟨Q, hQ⟩ : ∃ Q, Q = askers Ps j := ⟨_, rfl⟩
      rw [← hQ] at hmem hgo ⊢
      have hQlt : ∀ q ∈ Q, q < Ps.length := by
        intro q hq
        rw [hQ] at hq
        exact List.mem_range.1 (List.mem_of_mem_filter hq)
      have hQlen : Q.length ≤ Ps.length := by rw [hQ]; exact askers_length Ps j
      have hqof : ∀ k q, Q[k]? = some q → rd bb.qpc (j * qb + k) = .ok (start + q) := by
        intro k q hkq
        rw [h3]
        refine rd_ok (htab.cell j hj k (start + q) ?_)
        rw [← hQ, List.getElem?_map, hkq]
        rfl
      obtain ⟨w, g1, g2, g3⟩ := gather_ok (F := F) (qcount := Q.length) (qof := fun k => rd bb.qpc (j * qb + k))
        (q := fun k => start + Q.getD k 0) (X := X) (ldx := ldx) (queries := bb.queries)
        (x := fun k l => x (Q.getD k 0) l)
        (by
          intro k hk
          exact hqof k _ (by simp [hk]))
        (by
          intro k hk l hl
          refine hx _ (hQlt _ ?_) l hl
          have : Q[k]? = some (Q.getD k 0) := by simp [hk]
          exact List.mem_of_getElem? this)
        (by
          rw [h4]
          exact Nat.mul_le_mul_right _ (by omega))
      obtain ⟨f', g4, g5⟩ := listBlocks_ok (eu := eu) (top := top) (F := F) (lb := lb) (qb := qb) (start := start)
        (P := pts j) (norm := nm j) (qof := fun k => rd bb.qpc (j * qb + k)) (queries := w) (fine := bb.fine)
        (Q := Q) (H := fun ii => scanL top h0 (cands eu F j pts (Ps.getD ii []) (x ii))) (x := x) hlb'
        (by rw [hQ]; exact List.nodup_range.filter _) (fun q hq => by have := hQlt q hq; omega) (by omega)
        (fun he => hnm2 he j hj) hqof
        (by
          intro k q hkq l hl
          have hk : k < Q.length := (List.getElem?_eq_some_iff.1 hkq).1
          have := g3 k hk l hl
          have e : Q.getD k 0 = q := by simp [List.getD, hkq]
          rw [e] at this
          exact this)
        (by omega)
      rw [g1, ok_bind, g4, ok_bind]
      refine ⟨_, rfl, ?_, h2, h3, by simp only; omega, by simp only; omega⟩
      apply map_congr'
      intro ii _
      rw [hnext]
      by_cases hi : ii ∈ Q
      · rw [if_pos hi, if_pos ((hmem ii).1 hi), scanL_append]
      · rw [if_neg hi, if_neg (fun h => hi ((hmem ii).2 h)), List.append_nil]
    · rw [if_neg hgo]
      refine ⟨_, rfl, ?_, h2, h3, h4, h5⟩
      apply map_congr'
      intro ii _
      rw [hnext]
      by_cases hi : j ∈ Ps.getD ii []
      · rw [if_pos hi]
        have h6 := (hmem ii).2 hi
        have h7 : 0 < (askers Ps j).length := List.length_pos_of_mem h6
        have h8 : pts j = [] := List.eq_nil_of_length_eq_zero (by omega)
        rw [h8]
        simp [cand]
      · rw [if_neg hi, List.append_nil]

end Verif.ApproxNn
