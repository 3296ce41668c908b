import Verif.ApproxNn.Add

/-
Sequences of calls of the handle.
-/
namespace Verif.ApproxNn

set_option linter.unusedSectionVars false

open Moments (M Fault rd wr forUp ok_bind rd_ok wr_ok forUp_zero forUp_succ)

variable {K : Type} [Field K] [LinearOrder K] [IsStrictOrderedRing K]

theorem Stores.congr {eu : Bool} {F nlist : Nat} {rows rows' : Nat → Nat → K} {near near' : Nat → Nat}
    {base N : Nat} {s : Index K} (h : Stores eu F nlist rows near base N s) (hr : ∀ g < N, rows g = rows' g)
    (hn : ∀ g < N, near g = near' g) : Stores eu F nlist rows' near' base N s := by
  have hm : ∀ c, members near N c = members near' N c := by
    intro c
    unfold members
    apply List.filter_congr
    intro g hg
    rw [hn g (List.mem_range.1 hg)]
  refine ⟨h.nIndex, ?_, ?_, ?_, ?_⟩
  · rw [h.sizes]
    apply map_congr'
    intro c _
    rw [hm]
  · rw [h.glob]
    apply map_congr'
    intro c _
    rw [hm]
  · rw [h.vecs]
    apply map_congr'
    intro c _
    rw [hm]
    apply List.flatMap_congr
    intro g hg
    rw [hr g (members_lt hg)]
  · rw [h.norms]
    apply map_congr'
    intro c _
    rw [hm]
    by_cases he : eu = true
    · rw [if_pos he, if_pos he]
      apply List.map_congr_left
      intro g hg
      rw [hr g (members_lt hg)]
    · rw [if_neg he, if_neg he]

theorem stores_empty {eu : Bool} {F nlist base : Nat} {s : Index K} (rows : Nat → Nat → K) (near : Nat → Nat)
    (h1 : s.nIndex = base) (h2 : s.sizes = List.replicate nlist 0) (h3 : s.glob = List.replicate nlist [])
    (h4 : s.vecs = List.replicate nlist []) (h5 : s.norms = List.replicate nlist []) :
    Stores eu F nlist rows near base 0 s := by
  have e : ∀ {A : Type} (v : A), List.replicate nlist v = (List.range nlist).map fun _ => v := by
    intro A v
    apply List.ext_getElem?
    intro i
    by_cases h : i < nlist <;> simp [h, List.getElem?_replicate]
  have hm : ∀ c, members near 0 c = [] := by intro c; simp [members]
  refine ⟨h1, ?_, ?_, ?_, ?_⟩
  · rw [h2, e]; simp [hm]
  · rw [h3, e]; simp [hm]
  · rw [h4, e]; simp [hm]
  · rw [h5, e]; simp [hm]

theorem mapM_ok {A : Type} {n : Nat} {f : Nat → M A} {v : Nat → A} (h : ∀ i < n, f i = .ok (v i)) :
    (List.range n).mapM f = .ok ((List.range n).map v) := by
  have key : ∀ l : List Nat, (∀ i ∈ l, i < n) → l.mapM f = .ok (l.map v) := by
    intro l
    induction l with
    | nil => intro _; rfl
    | cons a l ih =>
      intro hl
      rw [List.mapM_cons, h a (hl a (by simp)), ok_bind, ih fun i hi => hl i (by simp [hi]), ok_bind]
      rfl
  exact key _ fun i hi => List.mem_range.1 hi

theorem readTrain_ok {row : Bool} {n F : Nat} {X : List K} {ldx : Nat} (h : Covers row X ldx n F) :
    readTrain row n F X ldx = .ok ((List.range n).map fun i => (List.range F).map (rowOf row X ldx i)) :=
  mapM_ok fun _ hi => mapM_ok fun _ hj => rd_row h hi hj

theorem covers_cent {row : Bool} {cent : List K} {k F : Nat} (h : cent.length = k * F) :
    Covers row cent (if row then F else k) k F := by
  intro c hc j hj
  rw [h]
  cases row
  · simp only [pos]
    have := Tsne.cell_lt hj hc
    rw [Nat.mul_comm k F]
    simp
    omega
  · simp only [pos]
    exact Tsne.cell_lt hc hj

/-- What holds between calls. -/
structure Good (h : Handle K) (L : List (Nat → K)) (base : Nat) : Prop where
  opt : 1 ≤ h.optList
  data : h.dataSet = true → 1 ≤ h.n ∧ Covers h.row h.X h.ldx h.n h.F
  count : h.ix.nIndex = base + L.length
  index : h.trained = true → h.dataSet = true ∧ 0 < h.nList ∧ Covers h.row h.cent h.ldc h.nList h.F ∧
    Holds h L base ∧ OldOk h.nList h.ix

/-- The calls that are made with care: while an index exists, the handle is not trained again with more lists
than there are samples; and the storage order is not changed between passing the data and training. -/
def Careful (h : Handle K) (c : Call K) : Prop :=
  c = .train → h.dataSet = true → (h.trained = true → h.optList ≤ h.n) ∧ h.optRow = h.row

theorem good_fresh : Good (Handle.fresh : Handle K) [] 0 :=
  ⟨by simp [Handle.fresh], by simp [Handle.fresh], rfl, by simp [Handle.fresh]⟩

theorem good_train {km : Bool → Nat → List (List K) → List K} {h : Handle K} {L : List (Nat → K)} {base : Nat}
    (hk : KmOk km) (g : Good h L base) (hc : Careful h .train) :
    ∃ h' ok, train km h = .ok (h', ok) ∧ Good h' (logRows h.row ok L .train) (logBase ok L base .train) := by
  by_cases hd : h.dataSet = true
  · obtain ⟨hc1, hc2⟩ := hc rfl hd
    by_cases hn : h.optList > h.n
    · refine ⟨{ h with nList := h.optList }, false, ?_, ?_⟩
      · simp only [train, if_pos hd]
        rw [if_pos hn]
      · refine ⟨g.opt, g.data, g.count, ?_⟩
        intro ht
        have := hc1 ht
        omega
    · obtain ⟨hn1, hcov⟩ := g.data hd
      have hread := readTrain_ok hcov
      rw [← hc2] at hread hcov
      refine ⟨{ h with
          nList := h.optList, row := h.optRow, eu := h.optEu, trained := true
          ldc := if h.optRow then h.F else h.optList
          cent := km h.optRow h.optList
            ((List.range h.n).map fun i => (List.range h.F).map (rowOf h.optRow h.X h.ldx i))
          ix := { h.ix with
            sizes := List.replicate h.optList 0, old := List.replicate h.optList 0
            vecs := List.replicate h.optList [], norms := List.replicate h.optList []
            glob := List.replicate h.optList [] } }, true, ?_, ?_⟩
      · simp only [train, if_pos hd]
        rw [if_neg hn, hread, ok_bind]
      · have hlen := hk h.optRow h.optList
          ((List.range h.n).map fun i => (List.range h.F).map (rowOf h.optRow h.X h.ldx i)) h.F (by
            intro h0
            rw [List.map_eq_nil_iff, List.range_eq_nil] at h0
            omega) (by
            intro r hr
            obtain ⟨i, _, rfl⟩ := List.mem_map.1 hr
            simp)
        refine ⟨g.opt, fun _ => ⟨hn1, hcov⟩, ?_, ?_⟩
        · simp only [logRows, logBase, if_true]
          rw [g.count]
          simp
        · intro _
          refine ⟨hd, g.opt, covers_cent hlen, ?_, by simp, by simp⟩
          refine ⟨fun _ => 0, by simp [logRows], ?_⟩
          simp only [logRows, logBase, if_true]
          exact stores_empty _ _ g.count rfl rfl rfl rfl
  · refine ⟨h, false, ?_, ?_⟩
    · simp only [train, if_neg hd]
    · exact ⟨g.opt, g.data, g.count, g.index⟩

theorem good_add {h : Handle K} {L : List (Nat → K)} {base n F : Nat} {X : List K} {ldx blk : Nat}
    {ob ol : List Nat} (g : Good h L base) (hv : (Call.add n F X ldx blk ob ol).Valid h) :
    ∃ h' ok, add n F X ldx blk ob ol h = .ok (h', ok) ∧
      Good h' (logRows h.row ok L (.add n F X ldx blk ob ol)) (logBase ok L base (.add n F X ldx blk ob ol)) := by
  have triv : Good h (logRows h.row false L (.add n F X ldx blk ob ol))
      (logBase false L base (.add n F X ldx blk ob ol)) := ⟨g.opt, g.data, g.count, g.index⟩
  unfold add
  by_cases h1 : h.trained = true
  swap
  · rw [if_pos (by simpa using h1)]
    exact ⟨h, false, rfl, triv⟩
  rw [if_neg (by simpa using h1)]
  by_cases h2 : h.optList ≠ h.nList ∨ h.optEu ≠ h.eu
  · rw [if_pos h2]
    exact ⟨h, false, rfl, triv⟩
  rw [if_neg h2]
  by_cases h3 : arrayOk h.row n F ldx = true
  swap
  · rw [if_pos (by simpa using h3)]
    exact ⟨h, false, rfl, triv⟩
  rw [if_neg (by simpa using h3)]
  by_cases h4 : F ≠ h.F
  · rw [if_pos h4]
    exact ⟨h, false, rfl, triv⟩
  rw [if_neg h4]
  have h5 : F = h.F := not_not.1 h4
  obtain ⟨hcov, nb, rem, hb, hob, hol⟩ := hv
  have hcov := hcov h3
  rw [h5] at hcov
  obtain ⟨hds, hl, hcc, ⟨near, hn1, hn2⟩, hold⟩ := g.index h1
  obtain ⟨s', nr, e1, e2, e3, e4, e5⟩ := addIvf_ok hcc hcov hl hb hob hol hn2 hold
  refine ⟨{ h with ix := s' }, true, by rw [e1, ok_bind], g.opt, g.data, ?_, ?_⟩
  · have := e3.nIndex
    simp only [logRows, logBase, if_true, List.length_append, List.length_map, List.length_range]
    omega
  · intro _
    refine ⟨hds, hl, hcc, ?_, e4⟩
    refine ⟨fun g => if g < L.length then near g else nr (g - L.length), ?_, ?_⟩
    · intro q x hq
      simp only [logRows, if_true] at hq
      by_cases hlt : q < L.length
      · rw [List.getElem?_append_left hlt] at hq
        simp only [if_pos hlt]
        exact hn1 q x hq
      · rw [List.getElem?_append_right (by omega), List.getElem?_map] at hq
        simp only [if_neg hlt]
        by_cases hr : q - L.length < n
        · rw [List.getElem?_range hr] at hq
          simp only [Option.map_some, Option.some.injEq] at hq
          rw [← hq]
          exact e2 _ hr
        · rw [List.getElem?_eq_none (by simp; omega)] at hq
          simp at hq
    · simp only [logRows, logBase, if_true, List.length_append, List.length_map, List.length_range]
      refine e3.congr ?_ (fun _ _ => rfl)
      intro q hq
      by_cases hlt : q < L.length
      · rw [if_pos hlt]
        simp [List.getD, List.getElem?_append_left hlt]
      · rw [if_neg hlt]
        have hr : q - L.length < n := by omega
        simp [List.getD, List.getElem?_append_right (Nat.le_of_not_lt hlt), hr]

theorem good_step {km : Bool → Nat → List (List K) → List K} {h : Handle K} {L : List (Nat → K)} {base : Nat}
    {c : Call K} (hk : KmOk km) (g : Good h L base) (hv : c.Valid h) (hc : Careful h c) :
    ∃ h' ok, step km h c = .ok (h', ok) ∧ Good h' (logRows h.row ok L c) (logBase ok L base c) := by
  cases c with
  | setList k =>
    by_cases hk : 1 ≤ k
    · simp only [step, if_pos hk]
      exact ⟨{ h with optList := k }, true, rfl, hk, g.data, g.count, g.index⟩
    · simp only [step, if_neg hk]
      exact ⟨h, false, rfl, g.opt, g.data, g.count, g.index⟩
  | setRow b => exact ⟨{ h with optRow := b }, true, rfl, g.opt, g.data, g.count, g.index⟩
  | setMetric b => exact ⟨{ h with optEu := b }, true, rfl, g.opt, g.data, g.count, g.index⟩
  | setData n F X ldx =>
    simp only [step, setData]
    by_cases ha : arrayOk h.optRow n F ldx = true
    · rw [if_pos ha]
      refine ⟨{ h with
          dataSet := true, trained := false, row := h.optRow, X := X, ldx := ldx, F := F, n := n
          ix := { h.ix with added := false, nIndex := 0 } }, true, rfl, g.opt, ?_, by simp [logRows, logBase], by simp⟩
      intro _
      refine ⟨?_, hv ha⟩
      simp only [arrayOk, Bool.and_eq_true, decide_eq_true_eq] at ha
      exact ha.1.1
    · rw [if_neg ha]
      exact ⟨{ h with
          dataSet := false, trained := false, row := h.optRow
          ix := { h.ix with added := false, nIndex := 0 } }, false, rfl, g.opt, by simp, by simp [logRows, logBase],
        by simp⟩
  | train => exact good_train hk g hc
  | add n F X ldx blk ob ol => exact good_add g hv

/-- A condition on the calls of a sequence, each in the state in which it is made. -/
def Along (P : Handle K → List (Nat → K) → Call K → Prop) (km : Bool → Nat → List (List K) → List K) :
    Handle K → List (Nat → K) → List (Call K) → Prop
  | _, _, [] => True
  | h, L, c :: cs => P h L c ∧ ∀ h' ok, step km h c = .ok (h', ok) → Along P km h' (logRows h.row ok L c) cs

theorem runLog_ok {km : Bool → Nat → List (List K) → List K} (hk : KmOk km) (cs : List (Call K)) :
    ∀ (h : Handle K) (L : List (Nat → K)) (base : Nat), Good h L base → ValidRun km h cs →
      Along (fun h _ c => Careful h c) km h L cs →
      ∃ h' L' base', runLog km cs h L base = .ok (h', L', base') ∧ Good h' L' base' := by
  induction cs with
  | nil => intro h L base g _ _; exact ⟨h, L, base, rfl, g⟩
  | cons c cs ih =>
    intro h L base g hv ha
    obtain ⟨h', ok, e, g'⟩ := good_step hk g hv.1 ha.1
    obtain ⟨h2, L2, b2, e2, g2⟩ := ih h' _ _ g' (hv.2 h' ok e) (ha.2 h' ok e)
    exact ⟨h2, L2, b2, by rw [runLog, e, ok_bind]; exact e2, g2⟩

theorem run_log {km : Bool → Nat → List (List K) → List K} (cs : List (Call K)) :
    ∀ (h : Handle K) (L : List (Nat → K)) (base : Nat),
      run km cs h = (runLog km cs h L base).map fun r => r.1 := by
  induction cs with
  | nil => intro h L base; rfl
  | cons c cs ih =>
    intro h L base
    rw [run, List.foldlM_cons, runLog]
    cases e : step km h c with
    | error e => rfl
    | ok r =>
      rw [ok_bind, ok_bind]
      exact ih r.1 _ _

end Verif.ApproxNn
