import Verif.ApproxNn.Lists

/-
A whole search.
-/
namespace Verif.ApproxNn

set_option linter.unusedSectionVars false

open Moments (M Fault rd wr forUp ok_bind rd_ok wr_ok forUp_zero forUp_succ)
open Tsne (forUp_inv cell_eq cell_lt get_set)
open Heap (MaxHeap create getMaxDist insert Best cells)

variable {K : Type} [Field K] [LinearOrder K] [IsStrictOrderedRing K]

/-- Row `q` of the results reads `row`. -/
def RowIs (k q : Nat) (row : List (Nat × K)) (ind : List Nat) (dst : List K) : Prop :=
  row.length = k ∧ ∀ a p, row[a]? = some p → ind[q * k + a]? = some p.1 ∧ dst[q * k + a]? = some p.2

theorem writeSorted_ok {k q nq : Nat} {h : MaxHeap K} {ind : List Nat} {dst : List K} (hq : q < nq)
    (hi : nq * k ≤ ind.length) (hd : nq * k ≤ dst.length) :
    ∃ ind' dst', writeSorted k h (q * k) ind dst = .ok (ind', dst') ∧ ind'.length = ind.length ∧
      dst'.length = dst.length ∧
      RowIs k q (((List.range k).insertionSort fun i j => h.distances i ≤ h.distances j).map
        fun p => (h.indices p, h.distances p)) ind' dst' ∧
      ∀ i, (∀ a < k, i ≠ q * k + a) → ind'[i]? = ind[i]? ∧ dst'[i]? = dst[i]? := by
  obtain ⟨perm, hp⟩ : ∃ perm, perm = (List.range k).insertionSort fun i j => h.distances i ≤ h.distances j := ⟨_, rfl⟩
  have hpl : perm.length = k := by rw [hp]; simp
  have key := forUp_inv k (fun i (r : List Nat × List K) => do
    let p ← rd perm i
    let ind ← wr r.1 (q * k + i) (h.indices p)
    let dst ← wr r.2 (q * k + i) (h.distances p)
    .ok (ind, dst)) (ind, dst)
    (fun i r => r.1.length = ind.length ∧ r.2.length = dst.length ∧
      (∀ a < i, ∀ p, perm[a]? = some p →
        r.1[q * k + a]? = some (h.indices p) ∧ r.2[q * k + a]? = some (h.distances p)) ∧
      ∀ j, (∀ a < i, j ≠ q * k + a) → r.1[j]? = ind[j]? ∧ r.2[j]? = dst[j]?)
    ⟨rfl, rfl, by simp, fun _ _ => ⟨rfl, rfl⟩⟩ ?_
  · obtain ⟨r, h1, h2, h3, h4, h5⟩ := key
    refine ⟨r.1, r.2, ?_, h2, h3, ⟨by rw [← hp]; simp [hpl], ?_⟩, h5⟩
    · rw [writeSorted, ← hp]
      exact h1
    · intro a p ha
      rw [← hp, List.getElem?_map] at ha
      cases e : perm[a]? with
      | none => rw [e] at ha; simp at ha
      | some w =>
        rw [e] at ha
        simp only [Option.map_some, Option.some.injEq] at ha
        have hak : a < k := by
          have := (List.getElem?_eq_some_iff.1 e).1
          omega
        rw [← ha]
        exact h4 a hak w e
  · intro i hi' r ⟨h1, h2, h3, h4⟩
    have hlt := cell_lt hq hi'
    have hb1 : q * k + i < r.1.length := by omega
    have hb2 : q * k + i < r.2.length := by omega
    have hpi : perm[i]? = some (perm.getD i 0) := by simp [hpl, hi']
    refine ⟨(r.1.set (q * k + i) (h.indices (perm.getD i 0)), r.2.set (q * k + i) (h.distances (perm.getD i 0))),
      by rw [rd_ok hpi, ok_bind, wr_ok _ hb1, ok_bind, wr_ok _ hb2, ok_bind], by simp [h1], by simp [h2], ?_, ?_⟩
    · intro a ha p hpa
      simp only
      rw [get_set hb1, get_set hb2]
      by_cases e : a = i
      · subst e
        rw [if_pos rfl, if_pos rfl]
        rw [hpi] at hpa
        simp only [Option.some.injEq] at hpa
        rw [hpa]
        exact ⟨rfl, rfl⟩
      · rw [if_neg (by omega), if_neg (by omega)]
        exact h3 a (by omega) p hpa
    · intro j hj
      simp only
      have := hj i (by omega)
      rw [get_set hb1, get_set hb2, if_neg this, if_neg this]
      exact h4 j fun a ha => hj a (by omega)

theorem rowIs_congr {k q : Nat} {row : List (Nat × K)} {ind ind' : List Nat} {dst dst' : List K}
    (h : RowIs k q row ind dst) (e : ∀ a < k, ind'[q * k + a]? = ind[q * k + a]? ∧ dst'[q * k + a]? = dst[q * k + a]?) :
    RowIs k q row ind' dst' := by
  refine ⟨h.1, ?_⟩
  intro a p ha
  have hak : a < k := by
    have := (List.getElem?_eq_some_iff.1 ha).1
    have := h.1
    omega
  rw [(e a hak).1, (e a hak).2]
  exact h.2 a p ha

/-- The result of query `q` is right: there are `nprobe` nearest centroids `S` such that row `q` of the results
lists the nearest of the points of their lists. -/
def QueryOk (eu : Bool) (top inf : K) (F k nlist nprobe : Nat) (C : Nat → Nat → K)
    (pts : Nat → List (Nat × (Nat → K))) (x : Nat → K) (q : Nat) (ind : List Nat) (dst : List K) : Prop :=
  ∃ S row, IsProbes nlist nprobe (fun c => dist eu F x (C c)) S ∧
    Answer k inf ((cands eu F nlist pts S x).filter fun p => p.2 < top) row ∧ RowIs k q row ind dst

/-- The work arrays have the sizes they are allocated with. -/
structure BufOk (F nlist qb lb : Nat) (b : Bufs K) : Prop where
  coarse : b.coarse.length = qb * nlist
  fine : b.fine.length = qb * lb
  queries : b.queries.length = qb * F
  qpc : b.qpc.length = nlist * qb

theorem searchBlock_ok {eu : Bool} {top inf : K} {F k nlist nprobe qb lb : Nat} {cent : List K} {ldc : Nat}
    {cnorm : List K} {X : List K} {ldx nq : Nat} {s : Index K} {start size : Nat} {b : Bufs K} {ind : List Nat}
    {dst : List K} {pts : Nat → List (Nat × (Nat → K))} (hk : 0 < k) (hp : 0 < nprobe) (hn : nprobe ≤ nlist)
    (hti : top ≤ inf) (hs : Points eu F nlist pts s) (hlb : 0 < lb ∨ ∀ c < nlist, pts c = [])
    (hc : Covers true cent ldc nlist F) (hx : Covers true X ldx nq F)
    (hcn : eu = true → ∀ c < nlist, cnorm[c]? = some (∑ l ∈ Finset.range F, rowOf true cent ldc c l ^ 2))
    (ht : ∀ q < nq, ∀ c < nlist, dist eu F (rowOf true X ldx q) (rowOf true cent ldc c) < top)
    (hsz : size ≤ qb) (hst : start + size ≤ nq) (hb : BufOk F nlist qb lb b)
    (hi : nq * k ≤ ind.length) (hd : nq * k ≤ dst.length) :
    ∃ b' ind' dst', searchBlock eu top inf F k nlist nprobe qb lb cent ldc cnorm X ldx s start size (b, ind, dst) =
        .ok (b', ind', dst') ∧ BufOk F nlist qb lb b' ∧ ind'.length = ind.length ∧ dst'.length = dst.length ∧
      ∀ q < nq, if start ≤ q ∧ q < start + size then
          QueryOk eu top inf F k nlist nprobe (rowOf true cent ldc) pts (rowOf true X ldx q) q ind' dst'
        else ∀ a < k, ind'[q * k + a]? = ind[q * k + a]? ∧ dst'[q * k + a]? = dst[q * k + a]? := by
  obtain ⟨co, h1, h2, h3⟩ := distBlock_ok (eu := eu) (F := F) (m := size) (n := nlist)
    (x := fun i l => rd X ((start + i) * ldx + l)) (y := fun c l => rd cent (c * ldc + l))
    (yn := some fun c => rd cnorm c) (a := fun i => rowOf true X ldx (start + i))
    (b := fun c => rowOf true cent ldc c) b.coarse
    (fun i hi l hl => by
      have := rd_row hx (show start + i < nq by omega) hl
      simpa [pos] using this)
    (fun c hc' l hl => by
      have := rd_row hc hc' hl
      simpa [pos] using this)
    (by
      intro he f hf c hc'
      simp only [Option.some.injEq] at hf
      rw [← hf]
      refine rd_ok ?_
      rw [hcn he c hc']
      simp only [pow_two])
    (by rw [hb.coarse]; exact Nat.mul_le_mul_right _ hsz)
  obtain ⟨b1, cnt, Ps, g1, g2, g3, g4, g5, g6, g7⟩ := probes_ok (top := top) (nlist := nlist) (nprobe := nprobe)
    (qb := qb) (start := start) (size := size) (b := { b with coarse := co })
    (d := fun q c => dist eu F (rowOf true X ldx (start + q)) (rowOf true cent ldc c)) hp hn hsz hb.qpc
    (fun q hq c hc' => h3 q hq c hc') (fun q hq c hc' => ht (start + q) (by omega) c hc')
  obtain ⟨b2, f1, f2, f3, f4, f5⟩ := searchLists_ok (eu := eu) (top := top) (F := F) (nlist := nlist) (qb := qb)
    (lb := lb) (start := start) (X := X) (ldx := ldx) (s := s) (cnt := cnt) (b := b1) (pts := pts) (Ps := Ps)
    (x := fun q => rowOf true X ldx (start + q)) (create k (fun _ => 0) fun _ => inf) hs hlb (by omega) g7
    (by
      intro q hq l hl
      have hlt : pos true ldx (start + q) l < X.length := hx (start + q) (by omega) l hl
      simp only [pos, if_true] at hlt
      simp [rowOf, pos, hlt])
    (by rw [g4]; exact hb.queries) (by rw [g3]; exact hb.fine)
  obtain ⟨hps, hhps⟩ : ∃ hps : Nat → MaxHeap K, hps = fun ii => scanL top (create k (fun _ => 0) fun _ => inf)
    (cands eu F nlist pts (Ps.getD ii []) (rowOf true X ldx (start + ii))) := ⟨_, rfl⟩
  have f1' : searchLists eu top F nlist qb lb start X ldx s cnt b1
      (List.replicate qb (create k (fun _ => 0) fun _ => inf)) = .ok (b2, (List.range qb).map hps) := by
    rw [f1, hhps]
  have hans : ∀ ii < size, ∃ S row, IsProbes nlist nprobe
      (fun c => dist eu F (rowOf true X ldx (start + ii)) (rowOf true cent ldc c)) S ∧
      Answer k inf ((cands eu F nlist pts S (rowOf true X ldx (start + ii))).filter fun p => p.2 < top) row ∧
      row = (((List.range k).insertionSort fun i j => (hps ii).distances i ≤ (hps ii).distances j).map
        fun p => ((hps ii).indices p, (hps ii).distances p)) := by
    intro ii hii
    have hS : Ps[ii]? = some (Ps.getD ii []) := by simp [g5, hii]
    refine ⟨Ps.getD ii [], _, g6 ii _ hS, ?_, rfl⟩
    have hkept := kept_scan (top := top) hk (cands eu F nlist pts (Ps.getD ii []) (rowOf true X ldx (start + ii))) [] _
      (kept_create top k (fun _ => 0) fun _ => inf)
    rw [List.nil_append] at hkept
    have := sorted_answer hti hkept
    rw [hhps]
    exact this
  have key := forUp_inv size (fun ii (o : List Nat × List K) => do
    let h ← rd ((List.range qb).map hps) ii
    writeSorted k h ((start + ii) * k) o.1 o.2) (ind, dst)
    (fun r o => o.1.length = ind.length ∧ o.2.length = dst.length ∧ ∀ q < nq, if start ≤ q ∧ q < start + r then
        RowIs k q (((List.range k).insertionSort fun i j =>
          (hps (q - start)).distances i ≤ (hps (q - start)).distances j).map
          fun p => ((hps (q - start)).indices p, (hps (q - start)).distances p)) o.1 o.2
      else ∀ a < k, o.1[q * k + a]? = ind[q * k + a]? ∧ o.2[q * k + a]? = dst[q * k + a]?)
    ⟨rfl, rfl, fun q _ => by rw [if_neg (by omega)]; exact fun _ _ => ⟨rfl, rfl⟩⟩ ?_
  · obtain ⟨o, k1, k2, k3, k4⟩ := key
    refine ⟨b2, o.1, o.2, ?_, ⟨?_, f5, f4, ?_⟩, k2, k3, ?_⟩
    · simp only [searchBlock]
      rw [h1, ok_bind, g1, ok_bind]
      simp only
      rw [f1', ok_bind]
      simp only
      rw [k1, ok_bind]
    · rw [f2, g2]
      simp only
      rw [h2, hb.coarse]
    · rw [f3]
      exact g7.len
    · intro q hq
      have := k4 q hq
      by_cases hin : start ≤ q ∧ q < start + size
      · rw [if_pos hin] at this ⊢
        obtain ⟨S, row, e1, e2, e3⟩ := hans (q - start) (by omega)
        have e : start + (q - start) = q := by omega
        rw [e] at e1 e2
        exact ⟨S, row, e1, e2, by rw [e3]; exact this⟩
      · rw [if_neg hin] at this ⊢
        exact this
  · intro r hr o ⟨k1, k2, k3⟩
    obtain ⟨ind', dst', m1, m2, m3, m4, m5⟩ := writeSorted_ok (k := k) (q := start + r) (nq := nq) (h := hps r)
      (ind := o.1) (dst := o.2) (by omega) (by omega) (by omega)
    refine ⟨(ind', dst'), by rw [rd_map _ (by omega), ok_bind, m1], by rw [m2, k1], by rw [m3, k2], ?_⟩
    intro q hq
    have hold : q ≠ start + r → ∀ a < k, ind'[q * k + a]? = o.1[q * k + a]? ∧ dst'[q * k + a]? = o.2[q * k + a]? := by
      intro hne a ha
      refine m5 _ ?_
      intro a' ha' he
      exact hne (cell_eq ha ha' he).1
    have := k3 q hq
    by_cases he : q = start + r
    · rw [if_pos (by omega)]
      have e : q - start = r := by omega
      rw [e, he]
      exact m4
    · by_cases hin : start ≤ q ∧ q < start + r
      · rw [if_pos hin] at this
        rw [if_pos (by omega)]
        exact rowIs_congr this (hold he)
      · rw [if_neg hin] at this
        rw [if_neg (by omega)]
        intro a ha
        rw [(hold he a ha).1, (hold he a ha).2]
        exact this a ha

theorem search_ok {eu : Bool} {top inf : K} {F k nlist nprobe qb lb nb rem : Nat} {cent : List K} {ldc : Nat}
    {cnorm : List K} {X : List K} {ldx nq : Nat} {s : Index K} {ob : List Nat} {b : Bufs K} {ind : List Nat}
    {dst : List K} {pts : Nat → List (Nat × (Nat → K))} (hk : 0 < k) (hp : 0 < nprobe) (hn : nprobe ≤ nlist)
    (hti : top ≤ inf) (hs : Points eu F nlist pts s) (hlb : 0 < lb ∨ ∀ c < nlist, pts c = [])
    (hc : Covers true cent ldc nlist F) (hx : Covers true X ldx nq F)
    (hcn : eu = true → ∀ c < nlist, cnorm[c]? = some (∑ l ∈ Finset.range F, rowOf true cent ldc c l ^ 2))
    (ht : ∀ q < nq, ∀ c < nlist, dist eu F (rowOf true X ldx q) (rowOf true cent ldc c) < top)
    (hsch : Blocking.blockingScheme nq qb = some (nb, rem)) (hob : ob.Perm (List.range nb))
    (hb : BufOk F nlist qb lb b) (hi : nq * k ≤ ind.length) (hd : nq * k ≤ dst.length) :
    ∃ ind' dst', search eu top inf F k nlist nprobe qb lb cent ldc cnorm X ldx nq s ob b ind dst =
        .ok (ind', dst') ∧ ind'.length = ind.length ∧ dst'.length = dst.length ∧
      ∀ q < nq, QueryOk eu top inf F k nlist nprobe (rowOf true cent ldc) pts (rowOf true X ldx q) q ind' dst' := by
  obtain ⟨hpos, hblk, hcov⟩ := scheme_block hsch
  have key := BarnesHut.foldlM_prefix (fun (r : Bufs K × List Nat × List K) i =>
      let size := if i = nb - 1 ∧ rem > 0 then rem else qb
      searchBlock eu top inf F k nlist nprobe qb lb cent ldc cnorm X ldx s (i * qb) size r)
    (fun pre r => BufOk F nlist qb lb r.1 ∧ r.2.1.length = ind.length ∧ r.2.2.length = dst.length ∧
      ∀ q < nq, q / qb ∈ pre →
        QueryOk eu top inf F k nlist nprobe (rowOf true cent ldc) pts (rowOf true X ldx q) q r.2.1 r.2.2)
    ob (b, ind, dst) ⟨hb, rfl, rfl, by simp⟩ ?_
  · obtain ⟨r, h1, h2, h3, h4, h5⟩ := key
    refine ⟨r.2.1, r.2.2, ?_, h3, h4, ?_⟩
    · rw [search, hsch]
      simp only
      rw [h1, ok_bind]
    · intro q hq
      exact h5 q hq (hob.mem_iff.2 (List.mem_range.2 (hcov q hq).1))
  · intro pre i post r he ⟨h1, h2, h3, h4⟩
    have hin : i < nb := by
      have : i ∈ ob := by rw [he]; simp
      exact List.mem_range.1 (hob.mem_iff.1 this)
    obtain ⟨h5, h6⟩ := hblk i hin
    obtain ⟨b', ind', dst', g1, g2, g3, g4, g5⟩ := searchBlock_ok (eu := eu) (k := k) (b := r.1) (ind := r.2.1)
      (dst := r.2.2) hk hp hn hti hs hlb hc hx hcn ht h6 h5 h1 (by omega) (by omega)
    refine ⟨(b', ind', dst'), g1, g2, by rw [← h2]; exact g3, by rw [← h3]; exact g4, ?_⟩
    intro q hq hm
    have h10 := g5 q hq
    by_cases hh : i * qb ≤ q ∧ q < i * qb + (if i = nb - 1 ∧ rem > 0 then rem else qb)
    · rw [if_pos hh] at h10
      exact h10
    · rw [if_neg hh] at h10
      rw [List.mem_append, List.mem_singleton] at hm
      rcases hm with hm | hm
      · obtain ⟨S, row, e1, e2, e3⟩ := h4 q hq hm
        exact ⟨S, row, e1, e2, rowIs_congr e3 h10⟩
      · exact absurd ⟨by rw [← hm]; exact (hcov q hq).2.1, by
          have := (hcov q hq).2.2
          rw [hm] at this
          exact this⟩ hh

end Verif.ApproxNn
