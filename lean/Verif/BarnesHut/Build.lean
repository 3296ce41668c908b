import Verif.BarnesHut.Tree

/-
`build_subtree` stores a subtree and touches nothing else.
-/
set_option linter.unusedSectionVars false

namespace Verif.BarnesHut

open Moments (M Fault rd wr forUp divM ok_bind rd_ok wr_ok forUp_zero forUp_succ)
open Finset (range sum_range_succ)

variable {K : Type} [Field K] [LinearOrder K] [IsStrictOrderedRing K] {σ : Type}

/-- A loop with an invariant that depends on the iterations that have run. -/
theorem foldlM_prefix {S ι : Type} (f : S → ι → M S) (I : List ι → S → Prop) (l : List ι) (s0 : S)
    (h0 : I [] s0)
    (hstep : ∀ pre x post s, l = pre ++ x :: post → I pre s → ∃ s', f s x = .ok s' ∧ I (pre ++ [x]) s') :
    ∃ s', l.foldlM f s0 = .ok s' ∧ I l s' := by
  suffices h : ∀ post pre s, l = pre ++ post → I pre s → ∃ s', post.foldlM f s = .ok s' ∧ I l s' from
    h l [] s0 rfl h0
  intro post
  induction post with
  | nil => intro pre s he hi; rw [List.append_nil] at he; exact ⟨s, rfl, he ▸ hi⟩
  | cons x post ih =>
    intro pre s he hi
    obtain ⟨s', h1, h2⟩ := hstep pre x post s he hi
    obtain ⟨s'', h3, h4⟩ := ih (pre ++ [x]) s' (by rw [he]; simp) h2
    refine ⟨s'', ?_, h4⟩
    rw [List.foldlM_cons, h1, ok_bind, h3]

/-- The octants that are not empty, one after the other: where each begins. -/
theorem blocks (B : Nat → Nat) (N : Nat) (hmono : ∀ i j, i ≤ j → j ≤ N → B i ≤ B j) :
    ∀ m ≤ N, (∀ j, (hj : j < ((List.range m).filter fun c => decide (B c < B (c + 1))).length) →
        B (((List.range m).filter fun c => decide (B c < B (c + 1)))[j]) =
          B 0 + ((((List.range m).filter fun c => decide (B c < B (c + 1))).take j).map
            fun c => B (c + 1) - B c).sum) ∧
      B m = B 0 + (((List.range m).filter fun c => decide (B c < B (c + 1))).map
            fun c => B (c + 1) - B c).sum := by
  intro m
  induction m with
  | zero => intro _; exact ⟨fun j hj => absurd hj (by simp), by simp⟩
  | succ m ih =>
    intro hm
    obtain ⟨h1, h2⟩ := ih (by omega)
    have h3 := hmono m (m + 1) (by omega) hm
    obtain ⟨l, hl⟩ : ∃ l, l = (List.range m).filter fun c => decide (B c < B (c + 1)) := ⟨_, rfl⟩
    rw [← hl] at h1 h2
    by_cases hlt : B m < B (m + 1)
    · have he : (List.range (m + 1)).filter (fun c => decide (B c < B (c + 1))) = l ++ [m] := by
        rw [List.range_succ, List.filter_append, ← hl]
        simp [hlt]
      rw [he]
      refine ⟨?_, ?_⟩
      · intro j hj
        by_cases hjl : j < l.length
        · rw [List.getElem_append_left hjl, List.take_append_of_le_length (by omega), h1 j hjl]
        · have hj' : j = l.length := by
            rw [List.length_append, List.length_singleton] at hj
            omega
          subst hj'
          rw [List.getElem_append_right (by omega)]
          simp only [Nat.sub_self, List.getElem_cons_zero]
          rw [List.take_append_of_le_length (Nat.le_refl _), List.take_length]
          exact h2
      · rw [List.map_append, List.sum_append, List.map_singleton, List.sum_singleton]
        omega
    · have he : (List.range (m + 1)).filter (fun c => decide (B c < B (c + 1))) = l := by
        rw [List.range_succ, List.filter_append, ← hl]
        simp [hlt]
      rw [he]
      exact ⟨h1, by omega⟩

/-- What a reservation has to do: the slots it gives are inside the arena and not in use.  `used`
and `size` are the slots in use and their number. -/
structure Arena.Ok (A : Arena σ) (cap : Nat) (used : σ → Nat → Prop) (size : σ → Nat) : Prop where
  seq : ∀ path ne, (A.seq path ne).Perm (List.range ne)
  some : ∀ s path ne f s', A.take s path ne = (some f, s') → f + ne ≤ cap ∧
    (∀ k, f ≤ k → k < f + ne → ¬ used s k) ∧
    (∀ k, used s' k ↔ used s k ∨ (f ≤ k ∧ k < f + ne)) ∧ size s' = size s + ne
  none : ∀ s path ne s', A.take s path ne = (none, s') → (∀ k, used s' k ↔ used s k) ∧ size s' = size s
  init : (∀ k, used A.init k ↔ k = 0) ∧ size A.init = 1
  num : ∀ s k, used s k → k < A.num s

variable {D n thr : Nat} {pts : List K} {X : Nat → Nat → K}

/-- What `build_subtree` does. -/
structure Built (A : Arena σ) (D thr : Nat) (full : Prop) (X : Nat → Nat → K) (used : σ → Nat → Prop)
    (size : σ → Nat) (u : Nat) (dem : Nat → Nat → Nat) (left slot start stop : Nat) (hw : K)
    (s s' : St K σ) : Prop where
  perm : s'.idx.Perm s.idx
  out : ∀ i, i < start ∨ stop ≤ i → s'.idx[i]? = s.idx[i]?
  len : s'.nodes.length = s.nodes.length
  grow : ∀ k, used s.arena k → used s'.arena k
  frame : ∀ k, k ≠ slot → ¬ (used s'.arena k ∧ ¬ used s.arena k) → s'.nodes[k]? = s.nodes[k]?
  cell : Cell D thr full X s'.nodes s'.idx (fun k => k = slot ∨ (used s'.arena k ∧ ¬ used s.arena k))
    left slot start stop hw
  room : full ∨ u * size s'.arena ≤ u * size s.arena + dem left (stop - start)

theorem perm_val {idx idx' : List Nat} {start stop : Nat} {Q : Nat → Prop} (hp : idx'.Perm idx)
    (hout : ∀ i, i < start ∨ stop ≤ i → idx'[i]? = idx[i]?) (hlen : stop ≤ idx.length)
    (hQ : ∀ i, start ≤ i → i < stop → Q (idx.getD i 0)) :
    ∀ i, start ≤ i → i < stop → Q (idx'.getD i 0) := by
  have hl := hp.length_eq
  by_cases hss : start ≤ stop
  swap
  · intro i h1 h2; omega
  have key : ∀ l : List Nat, stop ≤ l.length →
      l = l.take start ++ ((l.drop start).take (stop - start) ++ l.drop stop) := by
    intro l hl
    conv_lhs => rw [← List.take_append_drop start l, ← List.take_append_drop (stop - start) (l.drop start)]
    rw [List.drop_drop, show start + (stop - start) = stop by omega]
  have e1 : idx'.take start = idx.take start := by
    apply List.ext_getElem?
    intro i
    rw [List.getElem?_take, List.getElem?_take]
    by_cases hi : i < start
    · rw [if_pos hi, if_pos hi, hout i (Or.inl hi)]
    · rw [if_neg hi, if_neg hi]
  have e2 : idx'.drop stop = idx.drop stop := by
    apply List.ext_getElem?
    intro i
    rw [List.getElem?_drop, List.getElem?_drop]
    exact hout _ (Or.inr (by omega))
  have hperm : ((idx'.drop start).take (stop - start)).Perm ((idx.drop start).take (stop - start)) := by
    rw [key idx (by omega), key idx' (by omega), e1, e2] at hp
    rw [← List.perm_append_right_iff (idx.drop stop), ← List.perm_append_left_iff (idx.take start)]
    exact hp
  intro i h1 h2
  have hmem : idx'.getD i 0 ∈ (idx'.drop start).take (stop - start) := by
    rw [List.mem_iff_getElem?]
    refine ⟨i - start, ?_⟩
    rw [List.getElem?_take, if_pos (by omega), List.getElem?_drop, show start + (i - start) = i by omega]
    exact getElem?_getD (by omega)
  have hmem' := hperm.mem_iff.1 hmem
  rw [List.mem_iff_getElem?] at hmem'
  obtain ⟨j, hj⟩ := hmem'
  rw [List.getElem?_take] at hj
  by_cases hjl : j < stop - start
  · rw [if_pos hjl, List.getElem?_drop, getElem?_getD (by omega)] at hj
    have := hQ (start + j) (by omega) (by omega)
    rw [Option.some.inj hj] at this
    exact this
  · rw [if_neg hjl] at hj; cases hj

/-- The half of a cell that an octant is. -/
theorem halve {x c h : K} (hx : |x - c| ≤ h) :
    |x - (c + if c ≤ x then h / 2 else -(h / 2))| ≤ h / 2 := by
  rw [abs_le] at hx ⊢
  by_cases hc : c ≤ x
  · rw [if_pos hc]; constructor <;> linarith
  · rw [if_neg hc]; rw [not_le] at hc; constructor <;> linarith

theorem build_ok (A : Arena σ) {cap : Nat} {used : σ → Nat → Prop} {size : σ → Nat} {full : Prop}
    {u : Nat} {dem : Nat → Nat → Nat} {cap' : Nat}
    (hpts : ∀ p < n, ∀ d < D, pts[p * D + d]? = some (X p d)) (hA : A.Ok cap used size)
    (hfail : ∀ s path ne s', A.take s path ne = (none, s') → full ∨ u * cap' < u * (size s + ne))
    (hdem : full ∨ ∀ (l : Nat) (ws : List Nat), ws.length ≤ 2 ^ D → (∀ x ∈ ws, 0 < x) → thr < ws.sum →
      u * ws.length + (ws.map (dem l)).sum ≤ dem (l + 1) ws.sum) :
    ∀ (left : Nat) (path : List Nat) (slot start stop : Nat) (center : List K) (hw : K) (s : St K σ)
      (C : Nat → K), start < stop → stop ≤ s.idx.length →
      (∀ i, start ≤ i → i < stop → s.idx.getD i 0 < n) → (∀ d < D, center[d]? = some (C d)) →
      s.nodes.length = cap → slot < cap → used s.arena slot →
      (∀ i, start ≤ i → i < stop → ∀ d < D, |X (s.idx.getD i 0) d - C d| ≤ hw) →
      (full ∨ u * size s.arena + dem left (stop - start) ≤ u * cap') →
      ∃ s', build A D thr pts left path slot start stop center hw s = .ok s' ∧
        Built A D thr full X used size u dem left slot start stop hw s s' := by
  have leafCase : ∀ (left slot start stop : Nat) (hw : K) (s : St K σ) (idx1 : List Nat) (a1 : σ)
      (C : Nat → K), start < stop → stop ≤ idx1.length → (∀ i, start ≤ i → i < stop → idx1.getD i 0 < n) →
      s.nodes.length = cap → slot < cap →
      (∀ i, start ≤ i → i < stop → ∀ d < D, |X (idx1.getD i 0) d - C d| ≤ hw) →
      idx1.Perm s.idx → (∀ i, i < start ∨ stop ≤ i → idx1[i]? = s.idx[i]?) →
      (∀ k, used a1 k ↔ used s.arena k) → size a1 = size s.arena →
      (stop - start ≤ thr ∨ left = 0 ∨ full) →
      ∃ nodes, makeLeaf D pts idx1 s.nodes slot start stop = .ok nodes ∧
        Built A D thr full X used size u dem left slot start stop hw s ⟨idx1, nodes, a1⟩ := by
    intro left slot start stop hw s idx1 a1 C hss hlen hval hn hslot hcube hperm hout hused hsize hwhy
    obtain ⟨nd, h1, h2, h3⟩ := makeLeaf_ok hpts (nodes := s.nodes) (slot := slot) hss hlen hval ⟨C, hcube⟩
      (by omega)
    refine ⟨s.nodes.set slot nd, h1, ⟨hperm, hout, List.length_set, fun k hk => (hused k).2 hk, ?_, ?_, ?_⟩⟩
    · intro k hk _
      exact List.getElem?_set_ne (fun h => hk h.symm)
    · refine .leaf nd (Or.inl rfl) ?_ h2 h3 hwhy
      exact List.getElem?_set_self (by omega)
    · right
      show u * size a1 ≤ _
      rw [hsize]
      omega
  intro left
  induction left with
  | zero =>
    intro path slot start stop center hw s C hss hlen hval hcen hn hslot hus hcube hroom
    obtain ⟨nodes, h1, h2⟩ := leafCase 0 slot start stop hw s s.idx s.arena C hss hlen hval hn hslot hcube
      (List.Perm.refl _) (fun _ _ => rfl) (fun _ => Iff.rfl) rfl (Or.inr (Or.inl rfl))
    refine ⟨⟨s.idx, nodes, s.arena⟩, ?_, h2⟩
    unfold build
    rw [if_neg (by omega), h1, ok_bind]
  | succ left ih =>
    intro path slot start stop center hw s C hss hlen hval hcen hn hslot hus hcube hroom
    by_cases hsmall : stop - start ≤ thr
    · obtain ⟨nodes, h1, h2⟩ := leafCase (left + 1) slot start stop hw s s.idx s.arena C hss hlen hval hn
        hslot hcube (List.Perm.refl _) (fun _ _ => rfl) (fun _ => Iff.rfl) rfl (Or.inl hsmall)
      refine ⟨⟨s.idx, nodes, s.arena⟩, ?_, h2⟩
      unfold build
      rw [if_neg (by omega), if_pos hsmall, h1, ok_bind]
    · obtain ⟨b, idx1, B, d1, d2, d3, d4, d5, d6, d7, d8, d9⟩ := divide_ok hpts hcen (Nat.le_of_lt hss)
        hlen hval
      obtain ⟨mp, hmp⟩ : ∃ mp, mp = (List.range (2 ^ D)).filter (fun c => decide (B c < B (c + 1))) :=
        ⟨_, rfl⟩
      rw [← hmp] at d1
      have hcube1 := perm_val (Q := fun p => ∀ d < D, |X p d - C d| ≤ hw) d6 d7 hlen hcube
      have hlen1 : stop ≤ idx1.length := by rw [d6.length_eq]; exact hlen
      obtain ⟨bl1, bl2⟩ := blocks B (2 ^ D) d5 (2 ^ D) (Nat.le_refl _)
      rw [← hmp, d3] at bl1 bl2
      rw [d4] at bl2
      have hmpc : ∀ j, (hj : j < mp.length) → mp[j] < 2 ^ D ∧ B mp[j] < B (mp[j] + 1) := by
        intro j hj
        have key : ∀ c ∈ mp, c < 2 ^ D ∧ B c < B (c + 1) := by
          intro c hc
          rw [hmp, List.mem_filter, List.mem_range] at hc
          exact ⟨hc.1, of_decide_eq_true hc.2⟩
        exact key _ (List.getElem_mem hj)
      have hmplen : mp.length ≤ 2 ^ D := by
        rw [hmp]
        have := List.length_filter_le (fun c => decide (B c < B (c + 1))) (List.range (2 ^ D))
        rwa [List.length_range] at this
      obtain ⟨ws, hws⟩ : ∃ ws, ws = mp.map fun c => B (c + 1) - B c := ⟨_, rfl⟩
      have hwsum : ws.sum = stop - start := by rw [hws]; omega
      have hwslen : ws.length = mp.length := by rw [hws, List.length_map]
      obtain ⟨bb, hbb⟩ : ∃ bb : Nat → Nat, bb = fun j => start + ((mp.take j).map
        fun c => B (c + 1) - B c).sum := ⟨_, rfl⟩
      have hbb0 : bb 0 = start := by rw [hbb]; simp
      have hbbm : bb mp.length = stop := by rw [hbb]; simp only; rw [List.take_length]; exact bl2.symm
      have hbbj : ∀ j, (hj : j < mp.length) → bb j = B mp[j] := by
        intro j hj; rw [hbb, bl1 j hj]
      have hbbs : ∀ j, (hj : j < mp.length) → bb (j + 1) = B (mp[j] + 1) := by
        intro j hj
        have h1 := (hmpc j hj).2
        have h2 := hbbj j hj
        rw [hbb] at h2 ⊢
        simp only at h2 ⊢
        rw [List.take_add_one, List.getElem?_eq_getElem hj, List.map_append, List.sum_append]
        simp only [Option.toList_some, List.map_singleton, List.sum_singleton]
        omega
      have hbblt : ∀ j < mp.length, bb j < bb (j + 1) := by
        intro j hj
        rw [hbbj j hj, hbbs j hj]
        exact (hmpc j hj).2
      have hbblo : ∀ j < mp.length, start ≤ bb j := by
        intro j hj
        have := steps_mono hbblt (i := 0) (j := j) (by omega) (by omega)
        omega
      have hbbhi : ∀ j < mp.length, bb (j + 1) ≤ stop := by
        intro j hj
        have := steps_mono hbblt (i := j + 1) (j := mp.length) (by omega) (by omega)
        omega
      have hnepos : 0 < mp.length := by
        rcases Nat.eq_zero_or_pos mp.length with h | h
        · rw [h] at hbbm; omega
        · exact h
      obtain ⟨t, ht⟩ : ∃ t, t = A.take s.arena path mp.length := ⟨_, rfl⟩
      obtain ⟨t1, a1⟩ := t
      have hhead : ∀ r, build A D thr pts (left + 1) path slot start stop center hw s = r ↔
          (match (t1, a1) with
            | (none, a) => (do
              let nodes ← makeLeaf D pts idx1 s.nodes slot start stop
              .ok ⟨idx1, nodes, a⟩ : M (St K σ))
            | (some first, a) => do
              let s ← (A.seq path mp.length).foldlM (fun s j => do
                let c ← rd mp j
                let cc ← childCenter D center (hw / 2) c
                let b0 ← rd b c
                let b1 ← rd b (c + 1)
                build A D thr pts left (path ++ [j]) (first + j) b0 b1 cc (hw / 2) s) ⟨idx1, s.nodes, a⟩
              let nodes ← combine D s.nodes slot start first mp.length
              .ok ⟨s.idx, nodes, s.arena⟩) = r := by
        intro r
        conv_lhs => unfold build
        rw [if_neg (by omega), if_neg hsmall, d1, ok_bind]
        simp only
        rw [← ht]
        cases t1 <;> exact Iff.rfl
      cases t1 with
      | none =>
        obtain ⟨n1, n2⟩ := hA.none _ _ _ _ ht.symm
        have hful : full := by
          rcases hfail _ _ _ _ ht.symm with h | h
          · exact h
          · rcases hroom with h' | h'
            · exact h'
            · rcases hdem with h'' | h''
              · exact h''
              · exfalso
                have := h'' left ws (by omega) (by
                  intro x hx
                  rw [hws, List.mem_map] at hx
                  obtain ⟨c, hc, rfl⟩ := hx
                  rw [hmp, List.mem_filter] at hc
                  have := of_decide_eq_true hc.2
                  omega) (by omega)
                rw [hwsum, hwslen] at this
                rw [Nat.mul_add] at h
                omega
        obtain ⟨nodes, h1, h2⟩ := leafCase (left + 1) slot start stop hw s idx1 a1 C hss hlen1 d8 hn
          hslot hcube1 d6 d7 n1 n2 (Or.inr (Or.inr hful))
        refine ⟨⟨idx1, nodes, a1⟩, ?_, h2⟩
        rw [hhead]
        simp only
        rw [h1, ok_bind]
      | some first =>
        obtain ⟨m1, m2, m3, m4⟩ := hA.some _ _ _ _ _ ht.symm
        have hslotne : ∀ j < mp.length, first + j ≠ slot := by
          intro j hj he
          exact m2 (first + j) (by omega) (by omega) (he ▸ hus)
        have hused1 : ∀ j < mp.length, used a1 (first + j) := by
          intro j hj
          rw [m3]; right; omega
        have hws_dem : full ∨ u * mp.length + (ws.map (dem left)).sum ≤ dem (left + 1) (stop - start) := by
          rcases hdem with h | h
          · exact Or.inl h
          · right
            have := h left ws (by omega) (by
                  intro x hx
                  rw [hws, List.mem_map] at hx
                  obtain ⟨c, hc, rfl⟩ := hx
                  rw [hmp, List.mem_filter] at hc
                  have := of_decide_eq_true hc.2
                  omega) (by omega)
            rw [hwsum, hwslen] at this
            exact this
        obtain ⟨g, hg⟩ : ∃ g : Nat → Nat, g = fun j => dem left (bb (j + 1) - bb j) := ⟨_, rfl⟩
        have hgsum : ((A.seq path mp.length).map g).sum = (ws.map (dem left)).sum := by
          rw [((hA.seq path mp.length).map g).sum_eq]
          congr 1
          apply List.ext_getElem
          · simp [hwslen]
          · intro j h1 h2
            have hj : j < mp.length := by simpa using h1
            simp only [List.getElem_map, List.getElem_range, hg, hws]
            rw [hbbs j hj, hbbj j hj]
        obtain ⟨s2, l1, l2⟩ := foldlM_prefix (fun s j => do
            let c ← rd mp j
            let cc ← childCenter D center (hw / 2) c
            let b0 ← rd b c
            let b1 ← rd b (c + 1)
            build A D thr pts left (path ++ [j]) (first + j) b0 b1 cc (hw / 2) s)
          (fun pre (t : St K σ) => t.idx.Perm s.idx ∧
            (∀ i, i < start ∨ stop ≤ i → t.idx[i]? = s.idx[i]?) ∧
            (∀ j < mp.length, j ∉ pre → ∀ i, bb j ≤ i → i < bb (j + 1) →
              t.idx.getD i 0 = idx1.getD i 0) ∧
            t.nodes.length = cap ∧ (∀ k, used a1 k → used t.arena k) ∧
            (∀ k, (∀ j ∈ pre, k ≠ first + j) → ¬ (used t.arena k ∧ ¬ used a1 k) →
              t.nodes[k]? = s.nodes[k]?) ∧
            (∀ j ∈ pre, Cell D thr full X t.nodes t.idx
              (fun k => k = first + j ∨ (used t.arena k ∧ ¬ used a1 k)) left (first + j) (bb j)
              (bb (j + 1)) (hw / 2)) ∧
            (full ∨ u * size t.arena ≤ u * size a1 + (pre.map g).sum))
          (A.seq path mp.length) ⟨idx1, s.nodes, a1⟩
          ⟨d6, d7, fun _ _ _ _ _ _ => rfl, hn, fun _ h => h, fun _ _ _ => rfl, by simp, by right; simp⟩ (by
            intro pre j post t hl ⟨i1, i2, i3, i4, i5, i6, i7, i8⟩
            have hnd : (pre ++ j :: post).Nodup := by
              rw [← hl]
              exact (hA.seq path mp.length).nodup_iff.2 List.nodup_range
            have hmem : ∀ x ∈ pre ++ j :: post, x < mp.length := by
              intro x hx
              rw [← hl] at hx
              exact List.mem_range.1 ((hA.seq path mp.length).mem_iff.1 hx)
            have hj : j < mp.length := hmem j (by simp)
            have hjpre : j ∉ pre := by
              intro hj'
              exact (List.nodup_append.1 hnd).2.2 j hj' j (by simp) rfl
            obtain ⟨cc, c1, c2⟩ := childCenter_ok hcen (hw / 2) mp[j]
            have b1 := hbblo j hj
            have b2 := hbbhi j hj
            have b3 := hbblt j hj
            have hval' : ∀ i, bb j ≤ i → i < bb (j + 1) → t.idx.getD i 0 = idx1.getD i 0 := i3 j hj hjpre
            obtain ⟨t', r1, r2⟩ := ih (path ++ [j]) (first + j) (bb j) (bb (j + 1)) cc (hw / 2) t _ b3
              (by rw [i1.length_eq]; omega)
              (by intro i h1 h2; rw [hval' i h1 h2]; exact d8 i (by omega) (by omega)) c2 i4 (by omega)
              (i5 _ (hused1 j hj)) (by
                intro i h1 h2 d hd
                rw [hval' i h1 h2]
                have hoct := d9 mp[j] (hmpc j hj).1 i (by rw [← hbbj j hj]; exact h1)
                  (by rw [← hbbs j hj]; exact h2)
                rw [← hoct, octOf_testBit D C _ d hd]
                have := halve (hcube1 i (by omega) (by omega) d hd)
                simpa using this) (by
                rcases i8 with h | h
                · exact Or.inl h
                · rcases hws_dem with h' | h'
                  · exact Or.inl h'
                  · rcases hroom with h'' | h''
                    · exact Or.inl h''
                    · right
                      have hsum : (pre.map g).sum + g j ≤ (ws.map (dem left)).sum := by
                        rw [← hgsum, hl, List.map_append, List.map_cons, List.sum_append, List.sum_cons]
                        omega
                      have hgj : g j = dem left (bb (j + 1) - bb j) := by rw [hg]
                      rw [m4, Nat.mul_add] at h
                      omega)
            refine ⟨t', ?_, ?_⟩
            · rw [rd_ok (List.getElem?_eq_getElem hj), ok_bind, c1, ok_bind,
                rd_ok (d2 mp[j] (Nat.le_of_lt (hmpc j hj).1)), ok_bind,
                rd_ok (d2 (mp[j] + 1) (hmpc j hj).1), ok_bind, ← hbbj j hj, ← hbbs j hj]
              exact r1
            · refine ⟨r2.perm.trans i1, ?_, ?_, r2.len.trans i4, fun k hk => r2.grow k (i5 k hk), ?_, ?_, ?_⟩
              · intro i hi
                rw [r2.out i (by omega)]
                exact i2 i hi
              · intro j' hj' hnot i h1 h2
                rw [List.mem_append, List.mem_singleton, not_or] at hnot
                have hdis : i < bb j ∨ bb (j + 1) ≤ i := by
                  rcases Nat.lt_trichotomy j' j with h | h | h
                  · have := steps_mono hbblt (i := j' + 1) (j := j) (by omega) (by omega); omega
                  · exact absurd h hnot.2
                  · have := steps_mono hbblt (i := j + 1) (j := j') (by omega) (by omega); omega
                have := r2.out i hdis
                simp only [List.getD, this]
                exact i3 j' hj' hnot.1 i h1 h2
              · intro k hk hnew
                rw [r2.frame k (hk j (by simp)) (fun h => hnew ⟨h.1, fun h' => h.2 (i5 k h')⟩)]
                exact i6 k (fun j' hj' => hk j' (by simp [hj']))
                  (fun h => hnew ⟨r2.grow k h.1, h.2⟩)
              · intro j' hj'
                rw [List.mem_append, List.mem_singleton] at hj'
                rcases hj' with hj' | hj'
                · have hj'lt : j' < mp.length := hmem j' (by simp [hj'])
                  have hne : j' ≠ j := fun h => hjpre (h ▸ hj')
                  apply (i7 j' hj').mono
                  · intro k hk
                    apply r2.frame
                    · rcases hk with rfl | hk
                      · omega
                      · intro h
                        exact hk.2 (h ▸ hused1 j hj)
                    · intro h
                      rcases hk with rfl | hk
                      · exact h.2 (i5 _ (hused1 j' hj'lt))
                      · exact h.2 hk.1
                  · intro k hk
                    rcases hk with hk | hk
                    · exact Or.inl hk
                    · exact Or.inr ⟨r2.grow k hk.1, hk.2⟩
                  · intro i h1 h2
                    have hdis : i < bb j ∨ bb (j + 1) ≤ i := by
                      rcases Nat.lt_trichotomy j' j with h | h | h
                      · have := steps_mono hbblt (i := j' + 1) (j := j) (by omega) (by omega); omega
                      · exact absurd h hne
                      · have := steps_mono hbblt (i := j + 1) (j := j') (by omega) (by omega); omega
                    have := r2.out i hdis
                    simp only [List.getD, this]
                · subst hj'
                  apply r2.cell.mono (fun _ _ => rfl) _ (fun _ _ _ => rfl)
                  intro k hk
                  rcases hk with hk | hk
                  · exact Or.inl hk
                  · exact Or.inr ⟨hk.1, fun h => hk.2 (i5 k h)⟩
              · rcases i8 with h | h
                · exact Or.inl h
                · rcases r2.room with h' | h'
                  · exact Or.inl h'
                  · right
                    have hgj : g j = dem left (bb (j + 1) - bb j) := by rw [hg]
                    rw [List.map_append, List.sum_append, List.map_singleton, List.sum_singleton]
                    omega)
        obtain ⟨i1, i2, i3, i4, i5, i6, i7, i8⟩ := l2
        have hall : ∀ j < mp.length, j ∈ A.seq path mp.length := by
          intro j hj
          exact (hA.seq path mp.length).mem_iff.2 (List.mem_range.2 hj)
        have hkids : ∀ j < mp.length, ∃ nd, s2.nodes[first + j]? = some nd ∧
            NodeOk D X s2.idx nd (bb j) (bb (j + 1)) (hw / 2) := by
          intro j hj
          obtain ⟨nd, _, h2, h3⟩ := (i7 j (hall j hj)).ok
          exact ⟨nd, h2, h3⟩
        have : Nonempty (Node K) := ⟨⟨[], 0, 0, 0, 0⟩⟩
        choose! kid hkid using hkids
        obtain ⟨nd, e1, e2, e3, e4⟩ := combine_ok (hw := hw) (slot := slot) bb kid (fun _ => hw / 2) hnepos
          hbb0 hbbm hkid (by omega) ⟨C, perm_val (Q := fun p => ∀ d < D, |X p d - C d| ≤ hw) i1 i2 hlen
            hcube⟩
        have hslotP : ∀ j < mp.length, ¬ (slot = first + j ∨ (used s2.arena slot ∧ ¬ used a1 slot)) := by
          intro j hj h
          rcases h with h | h
          · exact hslotne j hj h.symm
          · exact h.2 ((m3 slot).2 (Or.inl hus))
        refine ⟨⟨s2.idx, s2.nodes.set slot nd, s2.arena⟩, ?_, ⟨i1, i2, ?_, ?_, ?_, ?_, ?_⟩⟩
        · rw [hhead]
          simp only
          rw [l1, ok_bind, e1, ok_bind]
        · show (s2.nodes.set slot nd).length = _
          rw [List.length_set, i4, hn]
        · intro k hk
          exact i5 k ((m3 k).2 (Or.inl hk))
        · intro k hk hnew
          show (s2.nodes.set slot nd)[k]? = _
          rw [List.getElem?_set_ne (fun h => hk h.symm)]
          apply i6 k
          · intro j hj he
            have hj' : j < mp.length := List.mem_range.1 ((hA.seq path mp.length).mem_iff.1 hj)
            exact hnew ⟨i5 k (he ▸ hused1 j hj'), he ▸ m2 (first + j) (by omega) (by omega)⟩
          · intro h
            exact hnew ⟨h.1, fun h' => h.2 ((m3 k).2 (Or.inl h'))⟩
        · refine .split nd (Or.inl rfl) (List.getElem?_set_self (by omega)) e2 (by omega) (by omega)
            (by omega) bb hbb0 (by rw [e4]; exact hbbm) (by rw [e4]; exact hbblt) ?_
          intro j hj
          rw [e4] at hj
          rw [e3]
          apply (i7 j (hall j hj)).mono
          · intro k hk
            apply List.getElem?_set_ne
            intro h
            exact hslotP j hj (h ▸ hk)
          · intro k hk
            right
            rcases hk with rfl | hk
            · exact ⟨i5 _ (hused1 j hj), m2 _ (by omega) (by omega)⟩
            · exact ⟨hk.1, fun h => hk.2 ((m3 k).2 (Or.inl h))⟩
          · intro _ _ _; rfl
        · rcases i8 with h | h
          · exact Or.inl h
          · rcases hws_dem with h' | h'
            · exact Or.inl h'
            · right
              rw [hgsum, m4, Nat.mul_add] at h
              show u * size s2.arena ≤ _
              omega

end Verif.BarnesHut
