import Verif.ApproxNn.Assign

/-
Adding rows to the index.
-/
namespace Verif.ApproxNn

set_option linter.unusedSectionVars false

open Moments (M Fault rd wr forUp ok_bind rd_ok wr_ok forUp_zero forUp_succ)
open Tsne (forUp_inv cell_eq cell_lt get_set)

variable {K : Type} [Field K] [LinearOrder K] [IsStrictOrderedRing K]

theorem rd_map {A : Type} {n c : Nat} (f : Nat → A) (h : c < n) : rd ((List.range n).map f) c = .ok (f c) :=
  rd_ok (by simp [h])

theorem set_map {A : Type} {n c : Nat} (f : Nat → A) (v : A) (h : c < n) :
    ((List.range n).map f).set c v = (List.range n).map fun i => if i = c then v else f i := by
  apply List.ext_getElem?
  intro i
  rw [get_set (by simpa using h)]
  by_cases hi : i < n
  · by_cases he : i = c
    · simp [he, h]
    · simp [he, hi]
  · have : i ≠ c := by omega
    rw [if_neg this]
    simp [hi]

theorem wr_map {A : Type} {n c : Nat} (f : Nat → A) (v : A) (h : c < n) :
    wr ((List.range n).map f) c v = .ok ((List.range n).map fun i => if i = c then v else f i) := by
  rw [wr_ok _ (by simpa using h), set_map f v h]

theorem members_succ (near : Nat → Nat) (N c : Nat) :
    members near (N + 1) c = members near N c ++ (if near N = c then [N] else []) := by
  unfold members
  rw [List.range_succ, List.filter_append]
  by_cases h : near N = c <;> simp [h]

theorem map_congr' {A : Type} {n : Nat} {f g : Nat → A} (h : ∀ c < n, f c = g c) :
    (List.range n).map f = (List.range n).map g :=
  List.map_congr_left fun c hc => h c (List.mem_range.1 hc)

/-- Phase 2. -/
theorem collect_ok {n nlist N base : Nat} {near : List Nat} {nr nr0 : Nat → Nat} {s : Index K}
    (hn : ∀ i < n, near[i]? = some (nr i)) (hr : ∀ i < n, nr i < nlist) (hnx : s.nIndex = base)
    (hz : s.sizes = (List.range nlist).map fun c => (members nr0 N c).length)
    (hg : s.glob = (List.range nlist).map fun c => (members nr0 N c).map (fun i => base - N + i)) :
    collect n near (List.replicate nlist []) s = .ok ((List.range nlist).map (members nr n), { s with
      sizes := (List.range nlist).map fun c => (members nr0 N c).length + (members nr n c).length
      glob := (List.range nlist).map fun c => (members nr0 N c).map (fun i => base - N + i) ++
        (members nr n c).map (fun i => i + base) }) := by
  have key := forUp_inv n (fun i (r : List (List Nat) × Index K) => do
    let c ← rd near i
    let loc ← pushAt r.1 c i
    let glob ← pushAt r.2.glob c (i + r.2.nIndex)
    let z ← rd r.2.sizes c
    let sizes ← wr r.2.sizes c (z + 1)
    .ok (loc, { r.2 with glob := glob, sizes := sizes })) (List.replicate nlist [], s)
    (fun i r => r = ((List.range nlist).map (members nr i), { s with
      sizes := (List.range nlist).map fun c => (members nr0 N c).length + (members nr i c).length
      glob := (List.range nlist).map fun c => (members nr0 N c).map (fun i => base - N + i) ++
        (members nr i c).map (fun i => i + base) })) ?_ ?_
  · obtain ⟨r, h1, h2⟩ := key
    rw [collect, h1, h2]
  · ext1
    · apply List.ext_getElem? 
      intro i
      have e : members nr 0 = fun _ => [] := by funext c; simp [members]
      rw [e]
      simp [List.getElem?_replicate]
    · have e : members nr 0 = fun _ => [] := by funext c; simp [members]
      rw [e]
      simp [← hz, ← hg]
  · intro i hi r hrr
    subst hrr
    simp only [pushAt]
    rw [rd_ok (hn i hi), ok_bind, rd_map _ (hr i hi), ok_bind, wr_map _ _ (hr i hi), ok_bind, rd_map _ (hr i hi),
      ok_bind, wr_map _ _ (hr i hi), ok_bind, rd_map _ (hr i hi), ok_bind, wr_map _ _ (hr i hi), ok_bind]
    refine ⟨_, rfl, ?_⟩
    ext1
    · apply map_congr'
      intro c _
      rw [members_succ]
      by_cases h : c = nr i
      · simp [h]
      · simp [h, Ne.symm h]
    · simp only [Index.mk.injEq, true_and, and_true]
      constructor
      · apply map_congr'
        intro c _
        rw [members_succ]
        by_cases h : c = nr i
        · simp [h]; omega
        · simp [h, Ne.symm h]
      · apply map_congr'
        intro c _
        rw [members_succ]
        by_cases h : c = nr i
        · simp [h, hnx]
        · simp [h, Ne.symm h]

/-- The lists grow by cells that hold zero. -/
theorem makeRoom_ok {eu : Bool} {F nlist : Nat} {s : Index K} {z o : Nat → Nat} {v w : Nat → List K}
    (hz : s.sizes = (List.range nlist).map fun c => o c + z c) (hv : s.vecs = (List.range nlist).map v)
    (hw : s.norms = (List.range nlist).map w) (hvl : ∀ c < nlist, (v c).length = o c * F)
    (hwl : eu = true → ∀ c < nlist, (w c).length = o c) :
    makeRoom eu F nlist s = .ok { s with
      vecs := (List.range nlist).map fun c => v c ++ List.replicate (z c * F) 0
      norms := (List.range nlist).map fun c => if eu then w c ++ List.replicate (z c) 0 else w c } := by
  have key := forUp_inv nlist (fun i (s : Index K) => do
    let z ← rd s.sizes i
    let v ← rd s.vecs i
    let vecs ← wr s.vecs i (resize v (z * F))
    if eu then do
      let w ← rd s.norms i
      let norms ← wr s.norms i (resize w z)
      .ok { s with vecs := vecs, norms := norms }
    else .ok { s with vecs := vecs }) s
    (fun i r => r = { s with
      vecs := (List.range nlist).map fun c => if c < i then v c ++ List.replicate (z c * F) 0 else v c
      norms := (List.range nlist).map fun c => if eu ∧ c < i then w c ++ List.replicate (z c) 0 else w c }) ?_ ?_
  · obtain ⟨r, h1, h2⟩ := key
    rw [makeRoom, h1, h2]
    congr 2
    · apply map_congr'
      intro c hc
      simp [hc]
    · apply map_congr'
      intro c hc
      simp [hc]
  · simp [← hv, ← hw]
  · intro i hi r hr
    subst hr
    have e1 : resize (v i) ((o i + z i) * F) = v i ++ List.replicate (z i * F) 0 := by
      have := hvl i hi
      have h2 : (o i + z i) * F = o i * F + z i * F := Nat.add_mul _ _ _
      rw [resize, this, h2, Nat.add_sub_cancel_left, List.take_of_length_le (by omega)]
    simp only [hz]
    rw [rd_map _ hi, ok_bind, rd_map _ hi, ok_bind, wr_map _ _ hi, ok_bind]
    simp only [Nat.lt_irrefl, if_false]
    rw [e1]
    by_cases he : eu = true
    · have e2 : resize (w i) (o i + z i) = w i ++ List.replicate (z i) 0 := by
        have := hwl he i hi
        rw [resize, this, Nat.add_sub_cancel_left, List.take_of_length_le (by omega)]
      rw [if_pos he, rd_map _ hi, ok_bind, wr_map _ _ hi, ok_bind]
      refine ⟨_, rfl, ?_⟩
      simp only [Nat.lt_irrefl, and_false, if_false]
      rw [e2]
      simp only [Index.mk.injEq, true_and, and_true]
      constructor
      · apply map_congr'
        intro c _
        by_cases h : c = i
        · simp [h]
        · simp only [h, if_false]
          by_cases h2 : c < i
          · rw [if_pos h2, if_pos (by omega)]
          · rw [if_neg h2, if_neg (by omega)]
      · apply map_congr'
        intro c _
        by_cases h : c = i
        · simp [h, he]
        · simp only [h, if_false, he, true_and]
          by_cases h2 : c < i
          · rw [if_pos h2, if_pos (by omega)]
          · rw [if_neg h2, if_neg (by omega)]
    · rw [if_neg he]
      refine ⟨_, rfl, ?_⟩
      simp only [he, Index.mk.injEq, true_and, and_true, false_and, if_false, Bool.false_eq_true]
      apply map_congr'
      intro c _
      by_cases h : c = i
      · simp [h]
      · simp only [h, if_false]
        by_cases h2 : c < i
        · rw [if_pos h2, if_pos (by omega)]
        · rw [if_neg h2, if_neg (by omega)]

/-- A write at the end of what is already there. -/
theorem wr_app {A : Type} (a : List A) (z v : A) (b : List A) {i : Nat} (h : i = a.length) :
    wr (a ++ z :: b) i v = .ok ((a ++ [v]) ++ b) := by
  subst h
  rw [wr_ok _ (by simp)]
  simp

theorem copyRow_ok {row : Bool} {F : Nat} {X : List K} {ldx n src dst : Nat} {a b : List K}
    (hx : Covers row X ldx n F) (hs : src < n) (ha : a.length = dst * F) :
    copyRow row F X ldx src dst (a ++ (List.replicate F 0 ++ b)) =
      .ok (a ++ ((List.range F).map (rowOf row X ldx src) ++ b), ∑ j ∈ Finset.range F, rowOf row X ldx src j ^ 2) := by
  have key := forUp_inv F (fun j (r : List K × K) => do
    let a ← rd X (pos row ldx src j)
    let v ← wr r.1 (dst * F + j) a
    .ok (v, r.2 + a * a)) (a ++ (List.replicate F 0 ++ b), 0)
    (fun j r => r = ((a ++ (List.range j).map (rowOf row X ldx src)) ++ (List.replicate (F - j) 0 ++ b),
      ∑ l ∈ Finset.range j, rowOf row X ldx src l ^ 2)) (by simp) ?_
  · obtain ⟨r, h1, h2⟩ := key
    rw [copyRow, h1, h2]
    simp
  · intro j hj r hr
    subst hr
    have e : List.replicate (F - j) (0 : K) ++ b = 0 :: (List.replicate (F - (j + 1)) 0 ++ b) := by
      have : F - j = (F - (j + 1)) + 1 := by omega
      rw [this, List.replicate_succ, List.cons_append]
    simp only
    rw [rd_row hx hs hj, ok_bind, e, wr_app _ _ _ _ (by simp [ha]), ok_bind]
    refine ⟨_, rfl, ?_⟩
    rw [Finset.sum_range_succ, List.range_succ, List.map_append, pow_two]
    simp

theorem copyList_ok {row eu : Bool} {F : Nat} {X : List K} {ldx n old : Nat} {loc : List Nat} {v w : List K}
    (hx : Covers row X ldx n F) (hloc : ∀ g ∈ loc, g < n) (hv : v.length = old * F)
    (hw : eu = true → w.length = old) :
    copyList row eu F X ldx old (old + loc.length) loc (v ++ List.replicate (loc.length * F) 0)
        (if eu then w ++ List.replicate loc.length 0 else w) =
      .ok (v ++ loc.flatMap (fun g => (List.range F).map (rowOf row X ldx g)),
        if eu then w ++ loc.map (fun g => ∑ j ∈ Finset.range F, rowOf row X ldx g j ^ 2) else w) := by
  have key := forUp_inv (old + loc.length - old) (fun t (r : List K × List K) => do
    let src ← rd loc t
    let q ← copyRow row F X ldx src (old + t) r.1
    if eu then do
      let w ← wr r.2 (old + t) q.2
      .ok (q.1, w)
    else .ok (q.1, r.2)) (v ++ List.replicate (loc.length * F) 0, if eu then w ++ List.replicate loc.length 0 else w)
    (fun t r => r = ((v ++ (loc.take t).flatMap (fun g => (List.range F).map (rowOf row X ldx g))) ++
        List.replicate ((loc.length - t) * F) 0,
      if eu then (w ++ (loc.take t).map (fun g => ∑ j ∈ Finset.range F, rowOf row X ldx g j ^ 2)) ++
        List.replicate (loc.length - t) 0 else w)) (by simp) ?_
  · obtain ⟨r, h1, h2⟩ := key
    rw [copyList, h1, h2]
    have e : old + loc.length - old = loc.length := by omega
    rw [e]
    simp
  · intro t ht r hr
    subst hr
    have ht' : t < loc.length := by omega
    have hg : loc[t]? = some loc[t] := by simp [ht']
    have htake : loc.take (t + 1) = loc.take t ++ [loc[t]] := by
      rw [List.take_add_one, hg]; rfl
    have e : (loc.length - t) * F = F + (loc.length - (t + 1)) * F := by
      have : loc.length - t = (loc.length - (t + 1)) + 1 := by omega
      rw [this, Nat.add_mul]; omega
    have hl : ∀ l : List Nat, (l.flatMap fun g => (List.range F).map (rowOf row X ldx g)).length = l.length * F := by
      intro l
      induction l with
      | nil => simp
      | cons a l ih => simp [Nat.add_mul]; omega
    simp only
    rw [rd_ok hg, ok_bind, e, ← List.replicate_append_replicate, copyRow_ok hx (hloc _ (by simp)) (by
      rw [List.length_append, hl, hv, List.length_take, Nat.add_mul]
      congr 2
      omega), ok_bind]
    by_cases he : eu = true
    · simp only [if_pos he]
      have e2 : List.replicate (loc.length - t) (0 : K) = 0 :: List.replicate (loc.length - (t + 1)) 0 := by
        have : loc.length - t = (loc.length - (t + 1)) + 1 := by omega
        rw [this, List.replicate_succ]
      rw [e2, wr_app _ _ _ _ (by simp [hw he]; omega), ok_bind]
      refine ⟨_, rfl, ?_⟩
      rw [htake]
      simp only [List.map_append, List.flatMap_append, List.append_assoc, List.flatMap_cons, List.flatMap_nil,
        List.map_cons, List.map_nil, List.append_nil]
    · simp only [if_neg he]
      refine ⟨_, rfl, ?_⟩
      rw [htake]
      simp only [List.map_append, List.flatMap_append, List.append_assoc, List.flatMap_cons, List.flatMap_nil,
        List.map_cons, List.map_nil, List.append_nil]

theorem copyAll_ok {row eu : Bool} {F : Nat} {X : List K} {ldx n nlist : Nat} {ol : List Nat} {o : Nat → Nat}
    {loc : Nat → List Nat} {v w : Nat → List K} {s : Index K} (hx : Covers row X ldx n F)
    (ho : ol.Perm (List.range nlist)) (hloc : ∀ c, ∀ g ∈ loc c, g < n)
    (hvl : ∀ c < nlist, (v c).length = o c * F) (hwl : eu = true → ∀ c < nlist, (w c).length = o c)
    (hold : s.old = (List.range nlist).map o)
    (hz : s.sizes = (List.range nlist).map fun c => o c + (loc c).length)
    (hv : s.vecs = (List.range nlist).map fun c => v c ++ List.replicate ((loc c).length * F) 0)
    (hw : s.norms = (List.range nlist).map fun c => if eu then w c ++ List.replicate (loc c).length 0 else w c) :
    copyAll row eu F X ldx ol ((List.range nlist).map loc) s = .ok { s with
      vecs := (List.range nlist).map fun c =>
        v c ++ (loc c).flatMap (fun g => (List.range F).map (rowOf row X ldx g))
      norms := (List.range nlist).map fun c =>
        if eu then w c ++ (loc c).map (fun g => ∑ j ∈ Finset.range F, rowOf row X ldx g j ^ 2) else w c } := by
  have key := BarnesHut.foldlM_prefix (fun (s : Index K) c => do
    let o ← rd s.old c
    let z ← rd s.sizes c
    let l ← rd ((List.range nlist).map loc) c
    let v ← rd s.vecs c
    let w ← rd s.norms c
    let q ← copyList row eu F X ldx o z l v w
    let vecs ← wr s.vecs c q.1
    let norms ← wr s.norms c q.2
    .ok { s with vecs := vecs, norms := norms })
    (fun pre r => r = { s with
      vecs := (List.range nlist).map fun c => if c ∈ pre then
        v c ++ (loc c).flatMap (fun g => (List.range F).map (rowOf row X ldx g))
        else v c ++ List.replicate ((loc c).length * F) 0
      norms := (List.range nlist).map fun c => if c ∈ pre then
        (if eu then w c ++ (loc c).map (fun g => ∑ j ∈ Finset.range F, rowOf row X ldx g j ^ 2) else w c)
        else (if eu then w c ++ List.replicate (loc c).length 0 else w c) }) ol s
    (by simp [← hv, ← hw]) ?_
  · obtain ⟨r, h1, h2⟩ := key
    rw [copyAll, h1, h2]
    congr 2
    · apply map_congr'
      intro c hc
      rw [if_pos (ho.mem_iff.2 (List.mem_range.2 hc))]
    · apply map_congr'
      intro c hc
      rw [if_pos (ho.mem_iff.2 (List.mem_range.2 hc))]
  · intro pre c post r he hr
    subst hr
    have hc : c < nlist := by
      have : c ∈ ol := by rw [he]; simp
      exact List.mem_range.1 (ho.mem_iff.1 this)
    have hnp : c ∉ pre := by
      have hnd : ol.Nodup := ho.nodup_iff.2 List.nodup_range
      rw [he, List.nodup_append] at hnd
      intro hm
      exact hnd.2.2 c hm c (by simp) rfl
    simp only [hold, hz]
    rw [rd_map _ hc, ok_bind, rd_map _ hc, ok_bind, rd_map _ hc, ok_bind, rd_map _ hc, ok_bind, rd_map _ hc,
      ok_bind, if_neg hnp, if_neg hnp, copyList_ok hx (hloc c) (hvl c hc) (fun e => hwl e c hc), ok_bind,
      wr_map _ _ hc, ok_bind, wr_map _ _ hc, ok_bind]
    refine ⟨_, rfl, ?_⟩
    simp only [Index.mk.injEq, true_and, and_true]
    constructor
    · apply map_congr'
      intro c' _
      by_cases h : c' = c
      · simp [h]
      · simp [h]
    · apply map_congr'
      intro c' _
      by_cases h : c' = c
      · simp [h]
      · simp [h]

theorem members_append (nr0 nr : Nat → Nat) (N n c : Nat) :
    members (fun g => if g < N then nr0 g else nr (g - N)) (N + n) c =
      members nr0 N c ++ (members nr n c).map (N + ·) := by
  unfold members
  rw [List.range_add, List.filter_append]
  congr 1
  · apply List.filter_congr
    intro g hg
    simp [List.mem_range.1 hg]
  · rw [List.filter_map]
    congr 1
    apply List.filter_congr
    intro g _
    simp

theorem members_lt {nr : Nat → Nat} {n c g : Nat} (h : g ∈ members nr n c) : g < n := by
  unfold members at h
  exact List.mem_range.1 (List.mem_of_mem_filter h)

theorem flatMap_length (rows : Nat → Nat → K) (F : Nat) (l : List Nat) :
    (l.flatMap fun g => (List.range F).map (rows g)).length = l.length * F := by
  induction l with
  | nil => simp
  | cons a l ih => simp [Nat.add_mul]; omega

/-- The old sizes are those before the call (they are zero until something is added). -/
def OldOk (nlist : Nat) (s : Index K) : Prop :=
  s.old.length = nlist ∧ (s.added = false → s.old = s.sizes)

/-- One call of `add_ivfflat`. -/
theorem addIvf_ok {row eu : Bool} {F nlist : Nat} {cent : List K} {ldc : Nat} {X : List K}
    {ldx n blk nb rem : Nat} {ob ol : List Nat} {rows : Nat → Nat → K} {nr0 : Nat → Nat} {base N : Nat}
    {s : Index K} (hc : Covers row cent ldc nlist F) (hx : Covers row X ldx n F) (hl : 0 < nlist)
    (hb : Blocking.blockingScheme n blk = some (nb, rem)) (hob : ob.Perm (List.range nb))
    (hol : ol.Perm (List.range nlist)) (hs : Stores eu F nlist rows nr0 base N s) (ho : OldOk nlist s) :
    ∃ (s' : Index K) (nr : Nat → Nat), addIvf row eu F nlist cent ldc X ldx n blk ob ol s = .ok s' ∧
      (∀ i < n, IsNear eu F nlist (rowOf row cent ldc) (rowOf row X ldx i) (nr i)) ∧
      Stores eu F nlist (fun g => if g < N then rows g else rowOf row X ldx (g - N))
        (fun g => if g < N then nr0 g else nr (g - N)) base (N + n) s' ∧ OldOk nlist s' ∧ s'.added = true := by
  obtain ⟨near, h1, h2, h3⟩ := assignAll_ok (eu := eu) hc hx hl hb hob
  obtain ⟨nr, hnr⟩ : ∃ nr : Nat → Nat, nr = fun i => near.getD i 0 := ⟨_, rfl⟩
  have hn : ∀ i < n, near[i]? = some (nr i) ∧
      IsNear eu F nlist (rowOf row cent ldc) (rowOf row X ldx i) (nr i) := by
    intro i hi
    obtain ⟨c, h4, h5⟩ := h3 i hi
    have : nr i = c := by rw [hnr]; simp [List.getD, h4]
    rw [this]
    exact ⟨h4, h5⟩
  obtain ⟨s1, hs1⟩ : ∃ s1, s1 = if s.added then { s with old := s.sizes } else s := ⟨_, rfl⟩
  have f1 : s1.old = s.sizes ∧ s1.sizes = s.sizes ∧ s1.vecs = s.vecs ∧ s1.norms = s.norms ∧ s1.glob = s.glob ∧
      s1.nIndex = s.nIndex := by
    rw [hs1]
    by_cases ha : s.added = true
    · rw [if_pos ha]; exact ⟨rfl, rfl, rfl, rfl, rfl, rfl⟩
    · rw [if_neg ha]
      exact ⟨ho.2 (by simpa using ha), rfl, rfl, rfl, rfl, rfl⟩
  obtain ⟨e1, e2, e3, e4, e5, e6⟩ := f1
  have hcol := collect_ok (nlist := nlist) (N := N) (base := base + N) (nr0 := nr0) (s := s1)
    (fun i hi => (hn i hi).1) (fun i hi => (hn i hi).2.1) (by rw [e6, hs.nIndex]) (by rw [e2, hs.sizes])
    (by
      rw [e5, hs.glob]
      apply map_congr'
      intro c _
      congr 1
      funext i
      omega)
  obtain ⟨s2, hs2⟩ : ∃ s2 : Index K, s2 = { s1 with
      sizes := (List.range nlist).map fun c => (members nr0 N c).length + (members nr n c).length
      glob := (List.range nlist).map fun c => (members nr0 N c).map (fun i => base + N - N + i) ++
        (members nr n c).map (fun i => i + (base + N)) } := ⟨_, rfl⟩
  rw [← hs2] at hcol
  have hv2 : s2.vecs = s.vecs := by rw [hs2, ← e3]
  have hw2 : s2.norms = s.norms := by rw [hs2, ← e4]
  have hroom := makeRoom_ok (eu := eu) (F := F) (nlist := nlist) (s := s2)
    (z := fun c => (members nr n c).length) (o := fun c => (members nr0 N c).length)
    (by rw [hs2]) (by rw [hv2]; exact hs.vecs) (by rw [hw2]; exact hs.norms)
    (fun c _ => flatMap_length _ _ _) (fun he c _ => by simp [he])
  have hcopy := copyAll_ok (row := row) (eu := eu) (F := F) (X := X) (ldx := ldx) (n := n) (nlist := nlist)
    (ol := ol) (o := fun c => (members nr0 N c).length) (loc := members nr n)
    (v := fun c => (members nr0 N c).flatMap fun g => (List.range F).map (rows g))
    (w := fun c => if eu then (members nr0 N c).map fun g => ∑ j ∈ Finset.range F, rows g j ^ 2 else [])
    (s := { s2 with
      vecs := (List.range nlist).map fun c => ((members nr0 N c).flatMap fun g => (List.range F).map (rows g)) ++
        List.replicate ((members nr n c).length * F) 0
      norms := (List.range nlist).map fun c => if eu then
        (if eu then (members nr0 N c).map fun g => ∑ j ∈ Finset.range F, rows g j ^ 2 else []) ++
          List.replicate (members nr n c).length 0 else
        (if eu then (members nr0 N c).map fun g => ∑ j ∈ Finset.range F, rows g j ^ 2 else []) })
    hx hol (fun c g hg => members_lt hg) (fun c _ => flatMap_length _ _ _) (fun he c _ => by simp [he])
    (by
      rw [hs2]
      simp only
      rw [e1, hs.sizes]) (by rw [hs2]) rfl rfl
  refine ⟨{ s2 with
      vecs := (List.range nlist).map fun c => ((members nr0 N c).flatMap fun g => (List.range F).map (rows g)) ++
        (members nr n c).flatMap (fun g => (List.range F).map (rowOf row X ldx g))
      norms := (List.range nlist).map fun c => if eu then
        (if eu then (members nr0 N c).map fun g => ∑ j ∈ Finset.range F, rows g j ^ 2 else []) ++
          (members nr n c).map (fun g => ∑ j ∈ Finset.range F, rowOf row X ldx g j ^ 2) else
        (if eu then (members nr0 N c).map fun g => ∑ j ∈ Finset.range F, rows g j ^ 2 else [])
      nIndex := s2.nIndex + n, added := true }, nr, ?_, fun i hi => (hn i hi).2, ?_, ?_, rfl⟩
  · rw [addIvf, if_neg (by omega)]
    simp only
    rw [← hs1, h1, ok_bind, hcol, ok_bind]
    simp only
    rw [hroom, ok_bind, hcopy, ok_bind]
  · refine ⟨?_, ?_, ?_, ?_, ?_⟩
    · rw [hs2]
      simp only
      rw [e6, hs.nIndex]
      omega
    · rw [hs2]
      apply map_congr'
      intro c _
      rw [members_append]
      simp
    · rw [hs2]
      apply map_congr'
      intro c _
      rw [members_append, List.map_append, List.map_map]
      congr 1
      · congr 1
        funext i
        omega
      · congr 1
        funext i
        simp only [Function.comp]
        omega
    · apply map_congr'
      intro c _
      rw [members_append, List.flatMap_append, List.flatMap_map]
      congr 1
      · apply List.flatMap_congr
        intro g hg
        rw [if_pos (members_lt hg)]
      · apply List.flatMap_congr
        intro g hg
        rw [if_neg (by omega), Nat.add_sub_cancel_left]
    · apply map_congr'
      intro c _
      by_cases he : eu = true
      · simp only [if_pos he]
        rw [members_append, List.map_append, List.map_map]
        congr 1
        · apply List.map_congr_left
          intro g hg
          rw [if_pos (members_lt hg)]
        · apply List.map_congr_left
          intro g hg
          simp only [Function.comp]
          rw [if_neg (by omega), Nat.add_sub_cancel_left]
      · simp only [if_neg he]
  · refine ⟨?_, by simp⟩
    rw [hs2]
    simp only
    rw [e1, hs.sizes]
    simp

end Verif.ApproxNn
