import Verif.BarnesHut.RunProof

/-
`compute_repulsive_batch4` and `compute_repulsive_forces`.
-/
set_option linter.unusedSectionVars false

namespace Verif.BarnesHut

open Moments (M Fault rd wr forUp divM ok_bind rd_ok wr_ok forUp_zero forUp_succ)

variable {K : Type} [Field K] [LinearOrder K] [IsStrictOrderedRing K]

variable {D thr n : Nat} {full : Prop} {X : Nat → Nat → K} {t : Tree K} {H eps : K}
  {th : Nat → Option K} {pts : List K}

/-- Reading values into a list. -/
theorem collect_ok {β : Type} (m : Nat) (v : Nat → β) (g : Nat → M β)
    (hg : ∀ b < m, g b = .ok (v b)) :
    forUp m (fun b l => do
      let p ← g b
      .ok (l ++ [p])) [] = .ok ((List.range m).map v) := by
  induction m with
  | zero => rfl
  | succ m ih =>
    rw [forUp_succ, ih (fun b hb => hg b (by omega)), ok_bind, hg m (by omega), ok_bind, List.range_succ,
      List.map_append]
    rfl

theorem batch4_ok (heps : 0 < eps) (hpts : ∀ p < n, ∀ d < D, pts[p * D + d]? = some (X p d))
    (ht : TreeOk D thr n full X H th t) {pidx : List Nat} {P : Nat → Nat}
    (hp : ∀ b < 4, pidx[b]? = some (P b)) (hP : ∀ b < 4, P b < n) :
    ∃ l out, batch4 D n eps t pts pidx = .ok out ∧ Covers l 0 n ∧
      (∀ β ∈ l, β.Allowed D X (fun i => t.idx.getD i 0) H th ((List.range 4).map P)) ∧
      ∀ b < 4, out.1[b]? = some (l.map (Body.share D eps X (fun i => t.idx.getD i 0) (P b))).sum ∧
        ∃ row, out.2[b]? = some row ∧
          ∀ d < D, row[d]? = some (l.map (Body.force D eps X (fun i => t.idx.getD i 0) (P b) d)).sum := by
  obtain ⟨q1, q2, q3, q4⟩ := perm_range ht.perm
  have hpos : ∀ b < 4, ∃ k < n, t.idx.getD k 0 = P b ∧ t.pos[P b]? = some k := by
    intro b hb
    obtain ⟨k, hk, he⟩ := q4 (P b) (hP b hb)
    exact ⟨k, hk, he, by rw [← he]; exact ht.pos k hk⟩
  choose! Q hQ using hpos
  have hnum : t.num ≠ 0 := by
    obtain ⟨_, h, _, _⟩ := ht.root.ok
    omega
  have hrow : ∀ b < 4, forUp D (fun d x => do
      let v ← rd pts (P b * D + d)
      .ok (x ++ [v])) [] = .ok ((List.range D).map (X (P b))) := by
    intro b hb
    exact collect_ok D (X (P b)) (fun d => rd pts (P b * D + d))
      (fun d hd => rd_ok (hpts _ (hP b hb) d hd))
  have hpt : forUp 4 (fun b l => do
      let p ← rd pidx b
      let x ← forUp D (fun d x => do
        let v ← rd pts (p * D + d)
        .ok (x ++ [v])) []
      .ok (l ++ [x])) [] = .ok ((List.range 4).map fun b => (List.range D).map (X (P b))) := by
    have := collect_ok 4 (fun b => (List.range D).map (X (P b))) (fun b => do
      let p ← rd pidx b
      forUp D (fun d x => do
        let v ← rd pts (p * D + d)
        .ok (x ++ [v])) []) (by
        intro b hb
        rw [rd_ok (hp b hb), ok_bind, hrow b hb])
    simpa only [bind_assoc] using this
  have hqp : forUp 4 (fun b l => do
      let p ← rd pidx b
      let k ← rd t.pos p
      .ok (l ++ [k])) [] = .ok ((List.range 4).map Q) := by
    have := collect_ok 4 Q (fun b => do
      let p ← rd pidx b
      rd t.pos p) (by
        intro b hb
        rw [rd_ok (hp b hb), ok_bind, rd_ok (hQ b hb).2.2])
    simpa only [bind_assoc] using this
  have hstack : Stack D thr full X t n H [(0, 0)] 0 ((maxDepth + 1) * (n - 0) + 0) := by
    refine .cons ?_ rfl (by simp) .nil
    rw [pow_zero, div_one]
    exact ht.root
  have hget : ∀ b < 4, pidx.getD b 0 = P b := by
    intro b hb
    unfold List.getD
    rw [hp b hb]
    rfl
  obtain ⟨l, a, w1, w2, w3, w4⟩ := walk_ok (eps := eps) (t := t) (th := th) (H := H) (X := X) (D := D)
    (thr := thr) (full := full) (pidx := fun b => pidx.getD b 0)
    (qpos := fun b => ((List.range 4).map Q).getD b 0)
    (q := fun d b => (((List.range 4).map fun b => (List.range D).map (X (P b))).getD b []).getD d 0)
    heps (by
      intro b hb d hd
      rw [hget b hb]
      simp [hb, hd]) q1 q3 ht.sorted ht.thrs (by
      intro b hb
      rw [hget b hb]
      have : ((List.range 4).map Q).getD b 0 = Q b := by simp [hb]
      rw [this]
      exact ⟨(hQ b hb).1, (hQ b hb).2.1⟩)
    ((maxDepth + 1) * n + 1) [(0, 0)] 0 _ ⟨fun _ => 0, fun _ _ => 0⟩ hstack (by simp)
  refine ⟨l, ((List.range 4).map a.sq, (List.range 4).map fun b => (List.range D).map fun d => a.f d b),
    ?_, w2, ?_, ?_⟩
  · unfold batch4
    rw [if_neg hnum, hpt, ok_bind, hqp, ok_bind, w1, ok_bind]
  · intro β hβ
    have := w3 β hβ
    have he : (List.range 4).map (fun b => pidx.getD b 0) = (List.range 4).map P := by
      apply List.map_congr_left
      intro b hb
      exact hget b (List.mem_range.1 hb)
    rwa [he] at this
  · intro b hb
    obtain ⟨g1, g2⟩ := w4 b hb
    simp only [hget b hb] at g1 g2
    refine ⟨?_, (List.range D).map fun d => a.f d b, ?_, ?_⟩
    · simp only [List.getElem?_map, List.getElem?_range hb, Option.map_some, g1, zero_add]
    · simp only [List.getElem?_map, List.getElem?_range hb, Option.map_some]
    · intro d hd
      simp only [List.getElem?_map, List.getElem?_range hd, Option.map_some, g2 d hd, zero_add]

theorem lanesOf_ok {idx : List Nat} (hidx : idx.length = n) {batch : Nat} (hb : batch * 4 < n) :
    ∃ pidx, lanesOf n idx batch = .ok pidx ∧
      ∀ b < 4, pidx[b]? = some (idx.getD (if batch * 4 + b < n then batch * 4 + b else batch * 4) 0) := by
  unfold lanesOf
  simp only
  rw [collect_ok (min 4 (n - batch * 4)) (fun b => idx.getD (batch * 4 + b) 0)
    (fun b => rd idx (batch * 4 + b)) (fun b hb' => rd_ok (getElem?_getD (by omega))), ok_bind]
  refine ⟨_, rfl, ?_⟩
  intro b hb4
  by_cases h : batch * 4 + b < n
  · rw [if_pos h, List.getElem?_append_left (by simp; omega)]
    simp only [List.getElem?_map]
    rw [List.getElem?_range (by omega), Option.map_some]
  · rw [if_neg h, List.getElem?_append_right (by simp; omega), List.getElem?_replicate, if_pos (by simp; omega)]
    congr 1
    rw [List.getD, List.getElem?_map, List.getElem?_range (by omega)]
    simp

/-- The sums over the batches are the sum over the points. -/
theorem batches_sum (g : Nat → K) (n : Nat) : ∀ m, ∑ a ∈ Finset.range m,
    ∑ b ∈ Finset.range (min 4 (n - a * 4)), g (a * 4 + b) = ∑ k ∈ Finset.range (min n (m * 4)), g k := by
  intro m
  induction m with
  | zero => simp
  | succ m ih =>
    rw [Finset.sum_range_succ, ih]
    have h : min n ((m + 1) * 4) = min n (m * 4) + min 4 (n - m * 4) := by omega
    rw [h, Finset.sum_range_add]
    congr 1
    apply Finset.sum_congr rfl
    intro b hb
    rw [Finset.mem_range] at hb
    congr 1
    omega

theorem repulsiveForces_ok (heps : 0 < eps) (hpts : ∀ p < n, ∀ d < D, pts[p * D + d]? = some (X p d))
    (ht : TreeOk D thr n full X H th t) {rep sums : List K} (hrep : rep.length = n * D)
    {sched : List Nat} (hsched : sched.Perm (List.range ((n + 3) / 4))) :
    ∃ (L : Nat → List Body) (rep' : List K) (total : K) (sums' : List K),
      repulsiveForces D n eps t pts rep sums sched = .ok (rep', total, sums') ∧ rep'.length = n * D ∧
      (∀ k < n, Covers (L k) 0 n ∧
        (∀ β ∈ L k, β.Allowed D X (fun i => t.idx.getD i 0) H th [t.idx.getD k 0]) ∧
        ∀ d < D, rep'[t.idx.getD k 0 * D + d]? =
          some ((L k).map (Body.force D eps X (fun i => t.idx.getD i 0) (t.idx.getD k 0) d)).sum) ∧
      ∃ s, s = ∑ k ∈ Finset.range n,
          ((L k).map (Body.share D eps X (fun i => t.idx.getD i 0) (t.idx.getD k 0))).sum ∧
        total = if s = 0 then 1 else s := by
  obtain ⟨q1, q2, q3, q4⟩ := perm_range ht.perm
  obtain ⟨nb, hnb⟩ : ∃ nb, nb = (n + 3) / 4 := ⟨_, rfl⟩
  rw [← hnb] at hsched
  obtain ⟨ord, hord⟩ : ∃ ord : Nat → Nat, ord = fun i => t.idx.getD i 0 := ⟨_, rfl⟩
  have hordk : ∀ k, t.idx.getD k 0 = ord k := by intro k; rw [hord]
  have hbatch : ∀ a < nb, ∃ (l : List Body) (pidx : List Nat) (out : List K × List (List K)),
      lanesOf n t.idx a = .ok pidx ∧ batch4 D n eps t pts pidx = .ok out ∧ Covers l 0 n ∧
      ∀ b < 4, a * 4 + b < n → pidx[b]? = some (ord (a * 4 + b)) ∧
        (∀ β ∈ l, β.Allowed D X ord H th [ord (a * 4 + b)]) ∧
        out.1[b]? = some (l.map (Body.share D eps X ord (ord (a * 4 + b)))).sum ∧
        ∃ row, out.2[b]? = some row ∧
          ∀ d < D, row[d]? = some (l.map (Body.force D eps X ord (ord (a * 4 + b)) d)).sum := by
    intro a ha
    have ha4 : a * 4 < n := by omega
    obtain ⟨pidx, p1, p2⟩ := lanesOf_ok q1 ha4
    obtain ⟨l, out, o1, o2, o3, o4⟩ := batch4_ok heps hpts ht p2 (by
      intro b hb
      by_cases h : a * 4 + b < n
      · rw [if_pos h]; exact q2 _ h
      · rw [if_neg h]; exact q2 _ ha4)
    refine ⟨l, pidx, out, p1, o1, o2, ?_⟩
    intro b hb h
    have e := p2 b hb
    rw [if_pos h, hordk] at e
    obtain ⟨g1, g2⟩ := o4 b hb
    rw [if_pos h, hordk, ← hord] at g1 g2
    refine ⟨e, ?_, g1, g2⟩
    intro β hβ
    have hal := o3 β hβ
    rw [← hord] at hal
    rcases hal with hal | ⟨h1, h2, v, h3, h4⟩
    · exact Or.inl hal
    · have hmem : ord (a * 4 + b) ∈ (List.range 4).map fun b =>
          t.idx.getD (if a * 4 + b < n then a * 4 + b else a * 4) 0 := by
        rw [List.mem_map]
        exact ⟨b, List.mem_range.2 hb, by rw [if_pos h, hordk]⟩
      refine Or.inr ⟨?_, h2, v, h3, ?_⟩
      · intro i i1 i2 hi
        rw [List.mem_singleton] at hi
        exact h1 i i1 i2 (hi ▸ hmem)
      · intro p hp
        rw [List.mem_singleton] at hp
        exact h4 p (hp ▸ hmem)
  choose! L pidx out hL using hbatch
  obtain ⟨sums0, hs0⟩ : ∃ s, s = if sums.length < nb then resize sums nb 0 else sums := ⟨_, rfl⟩
  have hs0len : nb ≤ sums0.length := by
    rw [hs0]
    by_cases h : sums.length < nb
    · rw [if_pos h, resize_length]
    · rw [if_neg h]; omega
  have hordlt : ∀ k < n, ord k < n := by intro k hk; rw [← hordk]; exact q2 k hk
  have hordinj : ∀ i < n, ∀ j < n, ord i = ord j → i = j := by
    intro i hi j hj h
    rw [← hordk, ← hordk] at h
    exact q3 i hi j hj h
  have hstep : ∀ a < nb, ∀ (rep s : List K), rep.length = n * D → nb ≤ s.length →
      ∃ rep', batchStep D n eps t pts a (rep, s) = .ok (rep', s.set a (∑ b ∈ Finset.range (min 4 (n - a * 4)),
          ((L a).map (Body.share D eps X ord (ord (a * 4 + b)))).sum)) ∧ rep'.length = n * D ∧
        (∀ b < min 4 (n - a * 4), ∀ d < D, rep'[ord (a * 4 + b) * D + d]? =
          some ((L a).map (Body.force D eps X ord (ord (a * 4 + b)) d)).sum) ∧
        ∀ k < n, (∀ b < min 4 (n - a * 4), k ≠ a * 4 + b) → ∀ d < D,
          rep'[ord k * D + d]? = rep[ord k * D + d]? := by
    intro a ha rep s hrep hs
    obtain ⟨l1, l2, _, l4⟩ := hL a ha
    have hlane : ∀ m ≤ min 4 (n - a * 4), ∃ rep', forUp m (fun b (w : List K × K) => do
        let i ← rd (pidx a) b
        let force ← rd (out a).2 b
        let rep ← forUp D (fun d rep => do
          let v ← rd force d
          wr rep (i * D + d) v) w.1
        let s ← rd (out a).1 b
        .ok (rep, w.2 + s)) (rep, 0) = .ok (rep', ∑ b ∈ Finset.range m,
          ((L a).map (Body.share D eps X ord (ord (a * 4 + b)))).sum) ∧ rep'.length = n * D ∧
        (∀ b < m, ∀ d < D, rep'[ord (a * 4 + b) * D + d]? =
          some ((L a).map (Body.force D eps X ord (ord (a * 4 + b)) d)).sum) ∧
        ∀ k < n, (∀ b < m, k ≠ a * 4 + b) → ∀ d < D,
          rep'[ord k * D + d]? = rep[ord k * D + d]? := by
      intro m
      induction m with
      | zero => intro _; exact ⟨rep, rfl, hrep, by simp, fun _ _ _ _ _ => rfl⟩
      | succ m ih =>
        intro hm
        obtain ⟨rep1, i1, i2, i3, i4⟩ := ih (by omega)
        obtain ⟨e1, _, e3, row, e4, e5⟩ := l4 m (by omega) (by omega)
        have hk := hordlt (a * 4 + m) (by omega)
        obtain ⟨rep2, r1, r2, r3, r4⟩ := row_ok (D := D) hk
          (fun d => ((L a).map (Body.force D eps X ord (ord (a * 4 + m)) d)).sum)
          (fun d rep => do
            let v ← rd row d
            wr rep (ord (a * 4 + m) * D + d) v) i2 (by
            intro d hd l hl
            have : ord (a * 4 + m) * D + d < n * D := by
              have : (ord (a * 4 + m) + 1) * D ≤ n * D := Nat.mul_le_mul_right _ hk
              rw [Nat.add_mul, Nat.one_mul] at this
              omega
            rw [rd_ok (e5 d hd), ok_bind, wr_ok _ (by omega)])
        refine ⟨rep2, ?_, r2, ?_, ?_⟩
        · rw [forUp_succ, i1, ok_bind, rd_ok e1, ok_bind, rd_ok e4, ok_bind, r1, ok_bind, rd_ok e3, ok_bind,
            Finset.sum_range_succ]
        · intro b hb d hd
          by_cases he : b = m
          · subst he; exact r3 d hd
          · rw [r4 _ (fun d' hd' => cell_index_ne hd hd' (fun h => he (by
              have := hordinj _ (by omega) _ (by omega) h
              omega)))]
            exact i3 b (by omega) d hd
        · intro k hk' hne d hd
          rw [r4 _ (fun d' hd' => cell_index_ne hd hd' (fun h => hne m (by omega)
            (hordinj _ hk' _ (by omega) h)))]
          exact i4 k hk' (fun b hb => hne b (by omega)) d hd
    obtain ⟨rep', g1, g2, g3, g4⟩ := hlane _ (Nat.le_refl _)
    refine ⟨rep', ?_, g2, g3, g4⟩
    unfold batchStep
    rw [l1, ok_bind, l2, ok_bind, g1, ok_bind, wr_ok _ (show a < s.length by omega), ok_bind]
  obtain ⟨r, r1, r2, r3, r4⟩ := foldlM_prefix (fun r a => batchStep D n eps t pts a r)
    (fun pre (r : List K × List K) => r.1.length = n * D ∧ nb ≤ r.2.length ∧
      ∀ a ∈ pre, (∀ b < min 4 (n - a * 4), ∀ d < D, r.1[ord (a * 4 + b) * D + d]? =
          some ((L a).map (Body.force D eps X ord (ord (a * 4 + b)) d)).sum) ∧
        r.2[a]? = some (∑ b ∈ Finset.range (min 4 (n - a * 4)),
          ((L a).map (Body.share D eps X ord (ord (a * 4 + b)))).sum))
    sched (rep, sums0) ⟨hrep, hs0len, by simp⟩ (by
      intro pre a post r hl ⟨i1, i2, i3⟩
      have hmem : ∀ x ∈ pre ++ a :: post, x < nb := by
        intro x hx
        rw [← hl] at hx
        exact List.mem_range.1 (hsched.mem_iff.1 hx)
      have hnd : (pre ++ a :: post).Nodup := by
        rw [← hl]; exact hsched.nodup_iff.2 List.nodup_range
      have hne : ∀ a' ∈ pre, a' ≠ a := fun a' h' he =>
        (List.nodup_append.1 hnd).2.2 a' h' a (by simp) he
      have ha := hmem a (by simp)
      obtain ⟨rep', g1, g2, g3, g4⟩ := hstep a ha r.1 r.2 i1 i2
      refine ⟨_, g1, g2, by rw [List.length_set]; exact i2, ?_⟩
      intro a' ha'
      rw [List.mem_append, List.mem_singleton] at ha'
      rcases ha' with ha' | rfl
      · obtain ⟨k1, k2⟩ := i3 a' ha'
        have h1 := hmem a' (by simp [ha'])
        have h2 := hne a' ha'
        refine ⟨?_, ?_⟩
        · intro b hb d hd
          rw [g4 _ (by omega) (fun b' hb' => by omega) d hd]
          exact k1 b hb d hd
        · rw [List.getElem?_set_ne (fun h => h2 h.symm)]
          exact k2
      · exact ⟨g3, List.getElem?_set_self (by omega)⟩)
  have hall : ∀ a < nb, a ∈ sched := fun a ha => hsched.mem_iff.2 (List.mem_range.2 ha)
  have htotal : ∀ m ≤ nb, forUp m (fun b s => do
      let v ← rd r.2 b
      .ok (s + v)) 0 = .ok (∑ a ∈ Finset.range m, ∑ b ∈ Finset.range (min 4 (n - a * 4)),
        ((L a).map (Body.share D eps X ord (ord (a * 4 + b)))).sum) := by
    intro m
    induction m with
    | zero => intro _; rfl
    | succ m ih =>
      intro hm
      rw [forUp_succ, ih (by omega), ok_bind, rd_ok (r4 m (hall m (by omega))).2, ok_bind,
        Finset.sum_range_succ]
  obtain ⟨tot, htot⟩ : ∃ tot, tot = ∑ k ∈ Finset.range n,
      ((L (k / 4)).map (Body.share D eps X ord (ord k))).sum := ⟨_, rfl⟩
  have hsum : ∑ a ∈ Finset.range nb, ∑ b ∈ Finset.range (min 4 (n - a * 4)),
        ((L a).map (Body.share D eps X ord (ord (a * 4 + b)))).sum = tot := by
    have := batches_sum (fun k => ((L (k / 4)).map (Body.share D eps X ord (ord k))).sum) n nb
    rw [show min n (nb * 4) = n by omega] at this
    rw [htot, ← this]
    apply Finset.sum_congr rfl
    intro a _
    apply Finset.sum_congr rfl
    intro b hb
    rw [Finset.mem_range] at hb
    rw [show (a * 4 + b) / 4 = a by omega]
  refine ⟨fun k => L (k / 4), r.1, if tot = 0 then 1 else tot, r.2, ?_, r2, ?_, tot, ?_, rfl⟩
  · unfold repulsiveForces
    simp only
    rw [← hnb, ← hs0, r1, ok_bind, htotal nb (Nat.le_refl _), ok_bind, hsum]
  · intro k hk
    have ha : k / 4 < nb := by omega
    obtain ⟨_, _, c, l4⟩ := hL (k / 4) ha
    have e : k / 4 * 4 + k % 4 = k := by omega
    refine ⟨c, ?_, ?_⟩
    · have := (l4 (k % 4) (by omega) (by omega)).2.1
      rw [e] at this
      rw [hordk, ← hord]
      exact this
    · intro d hd
      have := (r4 (k / 4) (hall _ ha)).1 (k % 4) (by omega) d hd
      rw [e] at this
      rw [hordk, ← hord]
      exact this
  · rw [htot]
    apply Finset.sum_congr rfl
    intro k _
    rw [hordk, ← hord]

end Verif.BarnesHut
