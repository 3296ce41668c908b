/-
`concatenate_rows` keeps the invariant.
-/
import Verif.DataStore.Attach

namespace Verif.DataStore
variable {V : Type}

theorem tiles_map {F : Iv → Iv} (hF : ∀ x, (F x).lo = x.lo ∧ (F x).hi = x.hi) {L : List Iv} : ∀ {a b : Int}, Tiles a L b →
    Tiles a (L.map F) b := by
  induction L with
  | nil => intro a b h; exact h
  | cons x L ih =>
    intro a b h
    refine ⟨by rw [(hF x).1]; exact h.1, by rw [(hF x).1, (hF x).2]; exact h.2.1, ?_⟩
    rw [(hF x).2]
    exact ih h.2.2

theorem tiles_split {L : List Iv} : ∀ {a b : Int}, Tiles a L b → ∀ {x : Iv}, x ∈ L → ∃ A R, L = A ++ R ∧ Tiles x.lo R b ∧
    ∀ y ∈ A, y.hi < x.lo := by
  induction L with
  | nil => intro a b _ x hx; cases hx
  | cons z L ih =>
    intro a b h x hx
    rcases List.mem_cons.mp hx with ex | hx'
    · rw [ex]
      exact ⟨[], z :: L, rfl, by rw [h.1]; exact h, by simp⟩
    · obtain ⟨A, R, h1, h2, h3⟩ := ih h.2.2 hx'
      refine ⟨z :: A, R, by rw [h1]; rfl, h2, ?_⟩
      intro y hy
      rcases List.mem_cons.mp hy with ey | hy'
      · have := tiles_mem h.2.2 x hx'; rw [ey]; omega
      · exact h3 y hy'

theorem pairwise_mem {α : Type} {R : α → α → Prop} (hsym : ∀ a b, R a b → R b a) {L : List α} (h : L.Pairwise R) :
    ∀ {a b : α}, a ∈ L → b ∈ L → a ≠ b → R a b := by
  induction L with
  | nil => intro a b ha; cases ha
  | cons x L ih =>
    intro a b ha hb hne
    obtain ⟨h1, h2⟩ := List.pairwise_cons.mp h
    rcases List.mem_cons.mp ha with ea | ha
    · rcases List.mem_cons.mp hb with eb | hb
      · rw [ea, eb] at hne; exact absurd rfl hne
      · rw [ea]; exact h1 b hb
    · rcases List.mem_cons.mp hb with eb | hb
      · rw [eb]; exact hsym _ _ (h1 a ha)
      · exact ih h2 ha hb hne

theorem apart_symm (x y : Iv) (h : Apart x y) : Apart y x := fun id h1 h2 =>
  let ⟨a, b, c, d, e, f⟩ := h id h2 h1
  ⟨b, a, d, c, f, e⟩

theorem Inv.disjoint {s : Store V} {g : Mat V} {L : List Iv} (h : Inv s g L) {x y : Iv} (hx : x ∈ L) (hy : y ∈ L) (hne : x ≠ y)
    (hsh : x.shared = false) : ∀ id, id ∈ x.path → id ∉ y.path := by
  intro id h1 h2
  have := (pairwise_mem apart_symm h.apart hx hy hne id h1 h2).1
  rw [hsh] at this
  cases this

theorem span_meets (x : Iv) (a b : Int) : x.span.meets a b = true ↔ x.lo < b ∧ a ≤ x.hi := by
  show (decide (x.lo < b) && decide (a ≤ x.hi)) = true ↔ _
  simp only [Bool.and_eq_true, decide_eq_true_eq]

/-- What has to be shown after the attaching loop. -/
theorem Inv.attached {s : Store V} {g : Mat V} {L : List Iv} (h : Inv s g L) (p : Piece V) (hn : g.n ≠ 0)
    (hm0 : 0 < p.m) (hn0 : 0 < p.n) (hst : 0 ≤ g.start) (hfit : g.start + p.n ≤ g.n) (hadd : g.start ≠ 0 → p.m = g.add)
    (hall : ∀ x ∈ g.spans, x.meets g.start (g.start + p.n) → x.hi < g.start + p.n ∧ g.ty x.lo = p.ty)
    (hsh : ∀ x ∈ g.spans, x.meets g.start (g.start + p.n) → x.shared = false)
    {A C D : List Iv} (hL : L = A ++ (C ++ D)) (hC : Tiles g.start C (g.start + p.n)) (hD : Tiles (g.start + p.n) D g.n)
    (hA : Tiles 0 A g.start)
    {hh : List (Node V)}
    (hl : Linked (s.heap ++ [⟨⟨p.m, p.n, p.ty, p.order, p.data⟩, g.start, none, none⟩]) s.heap.length (C.map Iv.tail)
      (C.map Iv.tail).head? hh) :
    ∃ g', g.addRows p = some g' ∧ ∃ L', Inv { s with
      m := if s.missing then s.m else s.m + p.m
      heap := hh
      missing := decide (g.start + p.n < g.n)
      startMissing := if g.start + p.n < g.n then g.start + p.n else 0 } g' L' := by
  have hmiss : s.missing = false ↔ g.start = 0 := by
    have := h.missing
    cases hs : s.missing with
    | false => rw [hs] at this; simp at this; simp [this]
    | true => rw [hs] at this; simp at this; simp [this]
  generalize hstop : g.start + p.n = stop at *
  generalize hnode : (⟨⟨p.m, p.n, p.ty, p.order, p.data⟩, g.start, none, none⟩ : Node V) = node at *
  generalize hnew : s.heap.length = new at *
  have hacc : 0 < p.m ∧ 0 < p.n ∧ g.start + p.n ≤ g.n ∧ (g.start ≠ 0 → p.m = g.add) ∧
      (∀ x ∈ g.spans, x.meets g.start (g.start + p.n) → x.hi < g.start + p.n ∧ g.ty x.lo = p.ty) :=
    ⟨hm0, hn0, by rw [hstop]; exact hfit, hadd, by rw [hstop]; exact hall⟩
  unfold Mat.addRows
  rw [if_neg hn, if_pos hacc]
  refine ⟨_, rfl, ?_⟩
  rw [hstop]
  generalize hone : (g.spans.any fun x => decide (x.lo = g.start) && decide (x.hi = stop - 1)) = one
  -- the ranges that are met
  have hmemC : ∀ x ∈ L, (x ∈ C ↔ (x.lo < stop ∧ g.start ≤ x.hi)) := by
    intro x hx
    constructor
    · intro hxC
      have := tiles_mem hC x hxC
      omega
    · rintro ⟨h1, h2⟩
      rw [hL] at hx
      rcases List.mem_append.mp hx with hx | hx
      · have := tiles_mem hA x hx; omega
      · rcases List.mem_append.mp hx with hx | hx
        · exact hx
        · have := tiles_mem hD x hx; omega
  have hCL : ∀ x ∈ C, x ∈ L := by intro x hx; rw [hL]; simp [hx]
  have hCm : ∀ x ∈ C, x.span.meets g.start stop = true := fun x hx => (span_meets x _ _).mpr ((hmemC x (hCL x hx)).mp hx)
  have hspan : ∀ x ∈ L, x.span ∈ g.spans := by intro x hx; rw [h.spans]; exact List.mem_map_of_mem hx
  have hCsh : ∀ x ∈ C, x.shared = false := fun x hx => hsh x.span (hspan x (hCL x hx)) (hCm x hx)
  have hClt : ∀ x ∈ C, x.hi < stop ∧ g.ty x.lo = p.ty := fun x hx => hall x.span (hspan x (hCL x hx)) (hCm x hx)
  -- one range only
  have hone1 : one = true → ∀ x ∈ C, x.lo = g.start ∧ x.hi = stop - 1 := by
    intro h1 x hx
    rw [h1, List.any_eq_true] at hone
    obtain ⟨sp, h2, h3⟩ := hone
    rw [h.spans] at h2
    obtain ⟨z, hz, rfl⟩ := List.mem_map.mp h2
    change (decide (z.lo = g.start) && decide (z.hi = stop - 1)) = true at h3
    simp only [Bool.and_eq_true, decide_eq_true_eq] at h3
    have hxb := (hmemC x (hCL x hx)).mp hx
    have hxz : x = z := by
      have hxm := tiles_mem h.tiles x (hCL x hx)
      have hxC := tiles_mem hC x hx
      refine tiles_unique h.tiles (hCL x hx) hz (j := x.lo) (Int.le_refl _) hxm.2.1 (by omega) (by omega)
    rw [hxz]
    exact h3
  have hlt : ∀ x ∈ L, ∀ id ∈ x.path, id < new := by rw [← hnew]; exact h.path_lt
  have hnotnew : ∀ x ∈ L, new ∉ x.path := fun x hx w => Nat.lt_irrefl _ (hlt x hx _ w)
  have h0new : (s.heap ++ [node])[new]? = some node := by rw [← hnew]; exact get_new
  have hfields : ∀ {id : Nat}, id < new → nx (s.heap ++ [node]) id = nx s.heap id ∧ off (s.heap ++ [node]) id = off s.heap id ∧
      lp (s.heap ++ [node]) id = lp s.heap id ∧ DataStore.blk (s.heap ++ [node]) id = DataStore.blk s.heap id := by
    intro id hid; rw [← hnew] at hid; exact append_fields hid
  -- objects that are not last objects of ranges met
  have hnotT : ∀ x ∈ L, x ∉ C → ∀ id ∈ x.path, id ∉ C.map Iv.tail := by
    intro x hx hxC id hid w
    obtain ⟨y, hy, rfl⟩ := List.mem_map.mp w
    exact h.disjoint (hCL y hy) hx (by rintro rfl; exact hxC hy) (hCsh y hy) _ (Iv.tail_mem (h.ok y (hCL y hy)).ne) hid
  have hnewT : new ∉ C.map Iv.tail := by
    intro w
    obtain ⟨y, hy, hyt⟩ := List.mem_map.mp w
    exact hnotnew y (hCL y hy) (by rw [← hyt]; exact Iv.tail_mem (h.ok y (hCL y hy)).ne)
  have hblk : ∀ {id : Nat}, id < new → DataStore.blk hh id = DataStore.blk s.heap id ∧ off hh id = off s.heap id := by
    intro id hid
    exact ⟨((hl.blk id).1).trans (hfields hid).2.2.2, ((hl.blk id).2).trans (hfields hid).2.1⟩
  have hbnew : DataStore.blk hh new = some ⟨p.m, p.n, p.ty, p.order, p.data⟩ ∧ off hh new = some g.start := by
    rw [(hl.blk new).1, (hl.blk new).2]
    unfold DataStore.blk off
    rw [h0new, ← hnode]
    exact ⟨rfl, rfl⟩
  have hlpold : ∀ {id : Nat}, id < new → lp hh id = lp s.heap id := by
    intro id hid
    rw [hl.lp, (hfields hid).2.2.1]
    have : id ≠ new := by omega
    cases lp s.heap id <;> simp [this]
  have hlpnew : lp hh new = some (C.map Iv.tail).head? := by
    rw [hl.lp]
    unfold lp
    rw [h0new]
    simp
  -- the new ranges
  let F : Iv → Iv := fun x => if x.lo < stop ∧ g.start ≤ x.hi then { x with shared := x.shared || !one, path := x.path ++ [new] } else x
  have hFC : ∀ x ∈ L, x ∈ C → F x = { x with shared := x.shared || !one, path := x.path ++ [new] } := by
    intro x hx hxC; exact if_pos ((hmemC x hx).mp hxC)
  have hFN : ∀ x ∈ L, x ∉ C → F x = x := by
    intro x hx hxC; exact if_neg (fun w => hxC ((hmemC x hx).mpr w))
  have hFb : ∀ x, (F x).lo = x.lo ∧ (F x).hi = x.hi := by
    intro x; simp only [F]; split <;> exact ⟨rfl, rfl⟩
  have hFsub : ∀ x ∈ L, ∀ id ∈ x.path, id ∈ (F x).path := by
    intro x hx id hid
    simp only [F]; split
    · exact List.mem_append_left _ hid
    · exact hid
  refine ⟨L.map F, ?_⟩
  constructor
  · exact tiles_map hFb h.tiles
  · exact h.n
  · -- m
    show (if s.missing then s.m else s.m + p.m) = _
    unfold Mat.m
    dsimp only
    rw [if_neg hn, h.m]
    unfold Mat.m
    rw [if_neg hn]
    by_cases c : g.start = 0
    · rw [hmiss.mpr c, c]
      have e : (decide ((0:Int) ≤ 0) && decide (0 < stop)) = true := by
        simp only [Bool.and_eq_true, decide_eq_true_eq]; omega
      simp only [e, if_true]
      rfl
    · have hs : s.missing = true := by
        cases hs : s.missing with
        | true => rfl
        | false => exact absurd (hmiss.mp hs) c
      have e : ¬ ((decide (g.start ≤ 0) && decide (0 < stop)) = true) := by
        simp only [Bool.and_eq_true, decide_eq_true_eq]; omega
      rw [hs, if_pos rfl, if_neg e]
  · -- cmap
    show s.cmap = _
    rw [h.cmap, List.map_map]
    refine List.map_congr_left fun x hx => ?_
    have hne := (h.ok x hx).ne
    simp only [Function.comp, F]
    split
    · unfold Iv.entry
      cases hp : x.path with
      | nil => exact absurd hp hne
      | cons a b => rfl
    · rfl
  · -- spans
    show List.map _ g.spans = _
    rw [h.spans, List.map_map, List.map_map]
    refine List.map_congr_left fun x hx => ?_
    simp only [Function.comp, F]
    by_cases c : x.lo < stop ∧ g.start ≤ x.hi
    · rw [if_pos c, if_pos ((span_meets x _ _).mpr c)]
      rfl
    · rw [if_neg c, if_neg (fun w => c ((span_meets x _ _).mp w))]
  · -- chains
    intro y hy
    obtain ⟨x, hx, rfl⟩ := List.mem_map.mp hy
    have hok := h.ok x hx
    have hb := tiles_mem h.tiles x hx
    by_cases hxC : x ∈ C
    · have hmeet := (hmemC x hx).mp hxC
      have hxC' := tiles_mem hC x hxC
      rw [hFC x hx hxC]
      have hin : ∀ j, x.lo ≤ j → j ≤ x.hi → (decide (g.start ≤ j) && decide (j < stop)) = true := by
        intro j a b; simp only [Bool.and_eq_true, decide_eq_true_eq]; omega
      have hpf : ∀ id ∈ x.path, DataStore.blk hh id = DataStore.blk s.heap id ∧ off hh id = off s.heap id :=
        fun id hid => hblk (hlt x hx id hid)
      have hpos' : Pos hh x.path := by
        intro id hid
        rw [(hpf id hid).1]
        exact hok.pos id hid
      have hposn : Pos hh [new] := by
        intro id hid
        rw [List.mem_singleton] at hid
        subst hid
        exact ⟨_, hbnew.1, hm0⟩
      have hrows : pathRows hh x.path = pathRows s.heap x.path := pathRows_frame fun i hi => by rw [(hpf i hi).1]
      refine ⟨by simp, ?_, ?_, hok.ty, ?_, ?_, ?_⟩
      · have hhead : (x.path ++ [new]).head? = x.path.head? := by
          cases hp : x.path with
          | nil => exact absurd hp hok.ne
          | cons a b => rfl
        show Path hh (x.path ++ [new]).head? (x.path ++ [new])
        rw [hhead]
        have hp0 := hok.path
        have hdl := Iv.tail_eq hok.ne
        have hp1 : Path s.heap x.path.head? (x.path.dropLast ++ [x.tail]) := by rw [← hdl]; exact hp0
        rw [hdl]
        rw [← hdl]
        have : x.path ++ [new] = x.path.dropLast ++ [x.tail] ++ [new] := by rw [← hdl]
        rw [this]
        refine path_snoc hp1 ?_ ?_ ?_
        · intro i hi
          have hix : i ∈ x.path := by rw [hdl]; simp [hi]
          rw [hl.nx_out, (hfields (hlt x hx i hix)).1]
          intro w
          obtain ⟨z, hz, hzt⟩ := List.mem_map.mp w
          by_cases c : z = x
          · subst c
            have hnd := path_nodup hp1
            rw [List.nodup_append] at hnd
            exact hnd.2.2 i hi z.tail (by simp) hzt.symm
          · refine h.disjoint (hCL z hz) hx c (hCsh z hz) i ?_ hix
            rw [← hzt]; exact Iv.tail_mem (h.ok z (hCL z hz)).ne
        · rw [hl.nx, (hfields (hlt x hx _ (Iv.tail_mem hok.ne))).1, path_last hp1]
          have : x.tail ∈ C.map Iv.tail := List.mem_map_of_mem hxC
          simp [this]
        · rw [hl.nx_out hnewT]
          unfold nx
          rw [h0new, ← hnode]
          rfl
      · intro id hid
        rcases List.mem_append.mp hid with hid | hid
        · obtain ⟨nd, g1, g2, g3, g4, g5⟩ := hok.nodes id hid
          obtain ⟨f1, f2⟩ := hpf id hid
          unfold DataStore.blk at f1
          unfold off at f2
          rw [g1] at f1 f2
          cases hq : hh[id]? with
          | none => rw [hq] at f1; cases f1
          | some nd' =>
            rw [hq] at f1 f2
            simp only [Option.map_some, Option.some.injEq] at f1 f2
            exact ⟨nd', rfl, by rw [f1]; exact g2, by rw [f2]; exact g3, by rw [f1, f2]; exact g4, by rw [f1]; exact g5⟩
        · rw [List.mem_singleton] at hid
          subst hid
          obtain ⟨f1, f2⟩ := hbnew
          unfold DataStore.blk at f1
          unfold off at f2
          cases hq : hh[id]? with
          | none => rw [hq] at f1; cases f1
          | some nd' =>
            rw [hq] at f1 f2
            simp only [Option.map_some, Option.some.injEq] at f1 f2
            refine ⟨nd', rfl, by rw [f1]; exact hm0, by rw [f2]; exact hxC'.1, ?_, by rw [f1]; exact (hClt x hxC).2.symm⟩
            rw [f1, f2]
            show x.hi < g.start + p.n
            omega
      · intro j a b
        show (if _ then g.rows j + p.m else g.rows j) = _
        rw [if_pos (hin j a b), pathRows_append, hrows, hok.rows j a b]
        simp [pathRows, hbnew.1]
      · intro j a b i
        show _ = (if _ then _ else _)
        have hr := hok.rows j a b
        unfold pathCell
        rw [pathPos_append hpos' hposn, hrows, ← hr]
        by_cases c : g.rows j ≤ i
        · have e : (decide (g.start ≤ j) && decide (j < stop)) = true ∧ g.rows j ≤ i := ⟨hin j a b, c⟩
          rw [if_pos e, if_neg (by omega)]
          unfold pathPos
          rw [hbnew.1]
          dsimp only
          by_cases c2 : i < g.rows j + p.m
          · rw [if_pos c2, if_pos (by omega), if_pos (by omega)]
            simp only [Option.bind_some, cellAt]
            obtain ⟨f1, f2⟩ := hbnew
            unfold DataStore.blk at f1
            unfold off at f2
            cases hq : hh[new]? with
            | none => rw [hq] at f1; cases f1
            | some nd' =>
              rw [hq] at f1 f2
              simp only [Option.map_some, Option.some.injEq] at f1 f2
              simp only [Option.map_some, Option.some.injEq]
              rw [f1, f2]
              rfl
          · rw [if_neg c2, if_neg (by omega)]
            rfl
        · have e : ¬ ((decide (g.start ≤ j) && decide (j < stop)) = true ∧ g.rows j ≤ i) := fun w => c w.2
          rw [if_neg e, if_pos (by omega)]
          rw [← hok.cell j a b i]
          exact pathCell_frame hpf i j
      · intro hs id hid
        have ho : one = true := by
          simp only [Bool.or_eq_false_iff, Bool.not_eq_false'] at hs
          exact hs.2
        rcases List.mem_append.mp hid with hid | hid
        · rw [(hpf id hid).2]; exact hok.own (hCsh x hxC) id hid
        · rw [List.mem_singleton] at hid
          subst hid
          rw [hbnew.2, ← (hone1 ho x hxC).1]
    · rw [hFN x hx hxC]
      refine hok.frame hb.2.1 ?_ (fun id hid => hblk (hlt x hx id hid)) ?_
      · intro id hid
        rw [hl.nx_out (hnotT x hx hxC id hid), (hfields (hlt x hx id hid)).1]
      · intro j a b
        have hout : ¬ ((decide (g.start ≤ j) && decide (j < stop)) = true) := by
          simp only [Bool.and_eq_true, decide_eq_true_eq]
          rintro ⟨w1, w2⟩
          exact hxC ((hmemC x hx).mpr ⟨by omega, by omega⟩)
        exact ⟨rfl, if_neg hout, fun i => if_neg (fun w => hout w.1)⟩
  · -- apart
    rw [List.pairwise_map]
    have hpw := List.Pairwise.and h.apart (tiles_pairwise h.tiles)
    refine List.Pairwise.imp_of_mem ?_ hpw
    rintro x y hx hy ⟨hap, hlt'⟩ id h1 h2
    have hxy : x ≠ y := by
      rintro rfl
      have := tiles_mem h.tiles x hx
      omega
    by_cases cx : x ∈ C
    · by_cases cy : y ∈ C
      · rw [hFC x hx cx] at h1 ⊢
        rw [hFC y hy cy] at h2 ⊢
        rcases List.mem_append.mp h1 with h1 | h1
        · rcases List.mem_append.mp h2 with h2 | h2
          · exact absurd h2 (h.disjoint hx hy hxy (hCsh x cx) id h1)
          · rw [List.mem_singleton] at h2
            rw [h2] at h1
            exact absurd h1 (hnotnew x hx)
        · rw [List.mem_singleton] at h1
          subst h1
          have ho : one = false := by
            cases ho : one with
            | false => rfl
            | true =>
              have e1 := hone1 ho x cx
              have e2 := hone1 ho y cy
              have := tiles_mem h.tiles y hy
              omega
          have hhd : ∀ z ∈ L, (z.path ++ [id]).head? ≠ some id := by
            intro z hz w
            have hne := (h.ok z hz).ne
            cases hp : z.path with
            | nil => exact hne hp
            | cons a b =>
              rw [hp] at w
              simp only [List.cons_append, List.head?_cons, Option.some.injEq] at w
              exact hnotnew z hz (by rw [hp, w]; simp)
          exact ⟨by simp [ho], by simp [ho], by simp, by simp, hhd x hx, hhd y hy⟩
      · rw [hFC x hx cx] at h1
        rw [hFN y hy cy] at h2
        rcases List.mem_append.mp h1 with h1 | h1
        · exact absurd h2 (h.disjoint hx hy hxy (hCsh x cx) id h1)
        · rw [List.mem_singleton] at h1
          subst h1
          exact absurd h2 (hnotnew y hy)
    · by_cases cy : y ∈ C
      · rw [hFN x hx cx] at h1
        rw [hFC y hy cy] at h2
        rcases List.mem_append.mp h2 with h2 | h2
        · exact absurd h1 (h.disjoint hy hx hxy.symm (hCsh y cy) id h2)
        · rw [List.mem_singleton] at h2
          subst h2
          exact absurd h1 (hnotnew x hx)
      · rw [hFN x hx cx] at h1 ⊢
        rw [hFN y hy cy] at h2 ⊢
        exact hap id h1 h2
  · -- parents
    intro A' y B' hL' a b l r hp
    obtain ⟨A1, R1, e1, e2, e3⟩ := List.map_eq_append_iff.mp hL'
    obtain ⟨x, B1, e4, e5, e6⟩ := List.map_eq_cons_iff.mp e3
    subst e4
    have hxL : x ∈ L := by rw [e1]; simp
    -- pairs of the old chain
    have hold : ∀ r', x.path = l ++ a :: b :: r' →
        (lp hh b = some (some a) ∧ off hh b = off hh a) ∨ (lp hh b ≠ some (some a) ∧ ∃ z ∈ A', b ∈ z.path) := by
      intro r' hp'
      have ha : a < new := hlt x hxL a (by rw [hp']; simp)
      have hb : b < new := hlt x hxL b (by rw [hp']; simp)
      rw [hlpold hb, (hblk hb).2, (hblk ha).2]
      rcases h.parents A1 x B1 e1 a b l r' hp' with hq | ⟨hq1, z, hz, hzb⟩
      · exact Or.inl hq
      · refine Or.inr ⟨hq1, F z, ?_, hFsub z (by rw [e1]; simp [hz]) b hzb⟩
        rw [← e2]
        exact List.mem_map_of_mem hz
    by_cases cx : x ∈ C
    · rw [← e5, hFC x hxL cx] at hp
      have hok := h.ok x hxL
      dsimp only at hp
      rcases List.eq_nil_or_concat r with hr | ⟨r', z, hr⟩
      · subst hr
        have hp2 : x.path ++ [new] = (l ++ [a]) ++ [b] := by rw [hp]; simp
        obtain ⟨hp3, hp4⟩ := List.append_inj' hp2 rfl
        have hb : b = new := by simpa using hp4.symm
        subst hb
        have ha : x.tail = a := by
          unfold Iv.tail; rw [hp3]; simp
        -- the first range met
        cases hCc : C with
        | nil => rw [hCc] at cx; cases cx
        | cons x0 C' =>
          have hx0 : x0 ∈ C := by rw [hCc]; simp
          have hx0lo : x0.lo = g.start := by rw [hCc] at hC; exact hC.1
          have hlpn : lp hh b = some (some x0.tail) := by rw [hlpnew, hCc]; rfl
          by_cases c : x0 = x
          · subst c
            refine Or.inl ⟨by rw [hlpn, ha], ?_⟩
            rw [hbnew.2]
            have hax : a ∈ x0.path := by rw [hp3]; simp
            rw [(hblk (hlt x0 hxL a hax)).2, hok.own (hCsh x0 cx) a hax, hx0lo]
          · refine Or.inr ⟨?_, F x0, ?_, ?_⟩
            · rw [hlpn]
              intro w
              have w' : x0.tail = a := by simpa using w
              refine h.disjoint (hCL x0 hx0) hxL c (hCsh x0 hx0) x0.tail (Iv.tail_mem (h.ok x0 (hCL x0 hx0)).ne) ?_
              rw [w', ← ha]
              exact Iv.tail_mem hok.ne
            · rw [← e2]
              refine List.mem_map_of_mem ?_
              have hx0L := hCL x0 hx0
              rw [e1] at hx0L
              rcases List.mem_append.mp hx0L with hm | hm
              · exact hm
              · rcases List.mem_cons.mp hm with hm | hm
                · exact absurd hm c
                · have htl := h.tiles
                  rw [e1] at htl
                  have := (List.pairwise_cons.mp (List.pairwise_append.mp (tiles_pairwise htl)).2.1).1 x0 hm
                  have := (hmemC x hxL).mp cx
                  omega
            · rw [hFC x0 (hCL x0 hx0) hx0]
              simp
      · subst hr
        have hp2 : x.path ++ [new] = (l ++ a :: b :: r') ++ [z] := by rw [hp]; simp
        obtain ⟨hp3, -⟩ := List.append_inj' hp2 rfl
        exact hold r' hp3
    · rw [← e5, hFN x hxL cx] at hp
      exact hold r hp
  · -- missing
    show decide (stop < g.n) = true ↔ (if stop < g.n then stop else 0) ≠ 0
    by_cases c : stop < g.n
    · simp [c]; omega
    · simp [c]
  · intro _; rfl
  · intro hne
    dsimp only at hne ⊢
    have c : stop < g.n := by
      by_contra c
      rw [if_neg c] at hne
      exact hne rfl
    rw [if_pos c]
    refine ⟨?_, ?_⟩
    · cases hDD : D with
      | nil => rw [hDD] at hD; simp only [Tiles] at hD; omega
      | cons z D' =>
        rw [hDD] at hD
        refine ⟨F z, List.mem_map_of_mem (by rw [hL, hDD]; simp), ?_⟩
        rw [(hFb z).1, hD.1]
    · intro j a b
      by_cases c0 : g.start = 0
      · have e0 : (decide (g.start ≤ 0) && decide (0 < stop)) = true := by
          simp only [Bool.and_eq_true, decide_eq_true_eq]; omega
        have he := h.even c0 j a b
        by_cases cj : j < stop
        · have ej : (decide (g.start ≤ j) && decide (j < stop)) = true := by
            simp only [Bool.and_eq_true, decide_eq_true_eq]; omega
          rw [if_pos ej, if_pos e0, if_pos cj, he]
        · have ej : ¬ (decide (g.start ≤ j) && decide (j < stop)) = true := by
            simp only [Bool.and_eq_true, decide_eq_true_eq]; omega
          rw [if_neg ej, if_pos e0, if_neg cj, he]
          omega
      · have e0 : ¬ (decide (g.start ≤ 0) && decide (0 < stop)) = true := by
          simp only [Bool.and_eq_true, decide_eq_true_eq]; omega
        have he := (h.start0 c0).2 j a b
        have ha := hadd c0
        rw [if_neg e0]
        by_cases c1 : j < g.start
        · have ej : ¬ (decide (g.start ≤ j) && decide (j < stop)) = true := by
            simp only [Bool.and_eq_true, decide_eq_true_eq]; omega
          rw [if_neg ej, if_pos (by omega), he, if_pos c1]
        · rw [if_neg c1] at he
          by_cases cj : j < stop
          · have ej : (decide (g.start ≤ j) && decide (j < stop)) = true := by
              simp only [Bool.and_eq_true, decide_eq_true_eq]; omega
            rw [if_pos ej, if_pos cj, he]
            omega
          · have ej : ¬ (decide (g.start ≤ j) && decide (j < stop)) = true := by
              simp only [Bool.and_eq_true, decide_eq_true_eq]; omega
            rw [if_neg ej, if_neg cj, he, ha]
  · intro hz j a b
    dsimp only at hz ⊢
    have c : stop = g.n := by
      by_contra c
      rw [if_pos (by omega)] at hz
      omega
    have hb : j < g.n := b
    by_cases c0 : g.start = 0
    · have e0 : (decide (g.start ≤ 0) && decide (0 < stop)) = true := by
        simp only [Bool.and_eq_true, decide_eq_true_eq]; omega
      have ej : (decide (g.start ≤ j) && decide (j < stop)) = true := by
        simp only [Bool.and_eq_true, decide_eq_true_eq]; omega
      rw [if_pos ej, if_pos e0, h.even c0 j a hb]
    · have e0 : ¬ (decide (g.start ≤ 0) && decide (0 < stop)) = true := by
        simp only [Bool.and_eq_true, decide_eq_true_eq]; omega
      have he := (h.start0 c0).2 j a hb
      have ha := hadd c0
      rw [if_neg e0]
      by_cases c1 : j < g.start
      · have ej : ¬ (decide (g.start ≤ j) && decide (j < stop)) = true := by
          simp only [Bool.and_eq_true, decide_eq_true_eq]; omega
        rw [if_neg ej, he, if_pos c1]
      · rw [if_neg c1] at he
        have ej : (decide (g.start ≤ j) && decide (j < stop)) = true := by
          simp only [Bool.and_eq_true, decide_eq_true_eq]; omega
        rw [if_pos ej, he]
        omega

end Verif.DataStore

namespace Verif.DataStore
variable {V : Type}

theorem Inv.start_nonneg {s : Store V} {g : Mat V} {L : List Iv} (h : Inv s g L) : 0 ≤ g.start := by
  by_cases c : g.start = 0
  · omega
  · obtain ⟨⟨x, hx, h1⟩, -⟩ := h.start0 c
    have := tiles_mem h.tiles x hx
    omega

/-- The ranges from `start` on. -/
theorem Inv.from_start {s : Store V} {g : Mat V} {L : List Iv} (h : Inv s g L) : ∃ A R, L = A ++ R ∧ Tiles 0 A g.start ∧
    Tiles g.start R g.n := by
  by_cases c : g.start = 0
  · exact ⟨[], L, rfl, by rw [c]; rfl, by rw [c]; exact h.tiles⟩
  · obtain ⟨⟨x, hx, h1⟩, -⟩ := h.start0 c
    obtain ⟨A, R, h2, h3, h4⟩ := tiles_split h.tiles hx
    rw [h1] at h3
    refine ⟨A, R, h2, ?_, h3⟩
    have h5 := h.tiles
    rw [h2, tiles_append] at h5
    obtain ⟨b, h6, h7⟩ := h5
    have : b = g.start := by
      cases R with
      | nil => simp only [Tiles] at h3 h7; omega
      | cons y R => have := h3.1; have := h7.1; omega
    rw [this] at h6
    exact h6

theorem Inv.rows {s : Store V} {g : Mat V} {L : List Iv} (h : Inv s g L) (p : Piece V) (hsup : rowsSupported g p) :
    (∃ g', g.addRows p = some g' ∧ ∃ s', concatRows s p.m p.n p.ty p.order p.data = some (.success, s') ∧ ∃ L', Inv s' g' L') ∨
    (g.addRows p = none ∧ ∃ st s', st ≠ .success ∧ concatRows s p.m p.n p.ty p.order p.data = some (st, s') ∧ ∃ L', Inv s' g L') := by
  have hn0 := h.n_nonneg
  by_cases hn : g.n = 0
  · unfold Mat.addRows concatRows
    rw [if_pos hn, if_pos (by rw [h.n]; omega)]
    rcases h.cols p with w | ⟨w1, st, w2, w3⟩
    · exact Or.inl w
    · exact Or.inr ⟨w1, st, s, w2, w3, L, h⟩
  · have hstart : (if s.missing then s.startMissing else 0) = g.start := by
      cases hs : s.missing with
      | true => rw [if_pos rfl]; exact h.start hs
      | false =>
        rw [if_neg (by simp)]
        by_contra c
        have := h.missing.mpr (fun w => c w.symm)
        rw [hs] at this
        cases this
    unfold concatRows
    rw [if_neg (by rw [h.n]; omega)]
    dsimp only
    rw [hstart]
    -- refusals because of the arguments
    by_cases c1 : p.m ≤ 0
    · refine Or.inr ⟨?_, .invalidInput, s, by decide, by rw [if_pos c1], L, h⟩
      unfold Mat.addRows
      rw [if_neg hn, if_neg (by intro w; omega)]
    rw [if_neg c1]
    by_cases c2 : p.n ≤ 0
    · refine Or.inr ⟨?_, .invalidInput, s, by decide, by rw [if_pos c2], L, h⟩
      unfold Mat.addRows
      rw [if_neg hn, if_neg (by intro w; omega)]
    rw [if_neg c2]
    by_cases c3 : s.n > 0 ∧ p.n + g.start > s.n
    · refine Or.inr ⟨?_, .invalidInput, s, by decide, by rw [if_pos c3], L, h⟩
      rw [h.n] at c3
      unfold Mat.addRows
      rw [if_neg hn, if_neg (by intro w; omega)]
    rw [if_neg c3]
    rw [h.n] at c3
    have hfit : g.start + p.n ≤ g.n := by omega
    obtain ⟨hsh, hpend⟩ := hsup (by omega) (by omega) hfit
    have hst := h.start_nonneg
    obtain ⟨A, R, hL, hA, hR⟩ := h.from_start
    have hRL : ∀ x ∈ R, x ∈ L := by intro x hx; rw [hL]; simp [hx]
    have hlt := h.path_lt
    have hRm := tiles_mem hR
    have hspan : ∀ x ∈ L, x.span ∈ g.spans := by intro x hx; rw [h.spans]; exact List.mem_map_of_mem hx
    have hRsh : ∀ x ∈ R, x.lo < g.start + p.n → x.shared = false := fun x hx hs =>
      hsh x.span (hspan x (hRL x hx)) ((span_meets x _ _).mpr ⟨hs, by have := hRm x hx; omega⟩)
    generalize hnode : (⟨⟨p.m, p.n, p.ty, p.order, p.data⟩, g.start, none, none⟩ : Node V) = node
    have hnew : (s.heap ++ [node])[s.heap.length]? = some node := get_new
    have hready : Ready (s.heap ++ [node]) g s.heap.length [] (g.start + p.n) R := by
      refine ⟨?_, ?_, by simp, ?_⟩
      · intro x hx _
        have hb := hRm x hx
        exact (h.ok x (hRL x hx)).frame hb.2.1 (fun id hid => (append_fields (hlt x (hRL x hx) id hid)).1)
          (fun id hid => ⟨(append_fields (hlt x (hRL x hx) id hid)).2.2.2, (append_fields (hlt x (hRL x hx) id hid)).2.1⟩)
          (fun j _ _ => ⟨rfl, rfl, fun _ => rfl⟩)
      · intro x hx _ w
        exact Nat.lt_irrefl _ (hlt x (hRL x hx) _ w)
      · refine List.Pairwise.imp_of_mem ?_ (tiles_pairwise hR)
        intro x y hx hy hxy h1 h2
        exact h.disjoint (hRL x hx) (hRL y hy) (by rintro rfl; have := hRm x hx; omega) (hRsh x hx h1)
    have hlinked : Linked (s.heap ++ [node]) s.heap.length [] ([] : List Nat).head? (s.heap ++ [node]) :=
      Linked.refl hnew (by rw [← hnode])
    obtain ⟨C, D, e1, e2, hh, e3, e4⟩ := attach_spec (g := g) (ty := p.ty) hnew h.tiles hfit R A [] (p.n.toNat + 1) (g.start - 1)
      (s.heap ++ [node]) hL (by rw [show g.start - 1 + 1 = g.start by omega]; exact hR) hready (by simp) hlinked (by omega) (by omega)
    rw [List.nil_append] at e3
    rw [show g.start - 1 + 1 = g.start by omega] at e4
    rcases e4 with ⟨e4, e5⟩ | ⟨⟨x, D', e4, e6, e7⟩, e5⟩
    · -- accepted
      refine Or.inl ?_
      rw [h.cmap, e5]
      dsimp only
      have hD : Tiles (g.start + p.n) D g.n := by
        rw [e1, tiles_append] at hR
        obtain ⟨b, h1, h2⟩ := hR
        have : b = g.start + p.n := by
          have : ∀ {K : List Iv} {a b c : Int}, Tiles a K b → Tiles a K c → b = c := by
            intro K
            induction K with
            | nil => intro a b c h1 h2; simp only [Tiles] at h1 h2; omega
            | cons y K ih => intro a b c h1 h2; exact ih h1.2.2 h2.2.2
          exact this h1 e4
        rw [this] at h2
        exact h2
      have hall : ∀ x ∈ g.spans, x.meets g.start (g.start + p.n) → x.hi < g.start + p.n ∧ g.ty x.lo = p.ty := by
        intro sp hsp hmeet
        rw [h.spans] at hsp
        obtain ⟨x, hx, rfl⟩ := List.mem_map.mp hsp
        rw [span_meets] at hmeet
        rw [hL] at hx
        rcases List.mem_append.mp hx with hx | hx
        · have := tiles_mem hA x hx; omega
        · rw [e1] at hx
          rcases List.mem_append.mp hx with hx | hx
          · exact (e2 x hx).2
          · have := tiles_mem hD x hx; omega
      rw [← hnode] at e3
      obtain ⟨g', h1, L', h2⟩ := h.attached p hn (by omega) (by omega) hst hfit (fun w => (hpend w).1) hall hsh (by rw [hL, e1]) e4 hD hA e3
      refine ⟨g', h1, ?_⟩
      rw [h.n]
      by_cases c : g.start + p.n < g.n
      · rw [if_pos c]
        refine ⟨_, rfl, L', ?_⟩
        simp only [c, if_true, decide_true] at h2
        rw [h.cmap, h.n] at h2
        exact h2
      · rw [if_neg c]
        refine ⟨_, rfl, L', ?_⟩
        simp only [c, if_false, decide_false] at h2
        rw [h.cmap, h.n] at h2
        exact h2
    · -- refused
      refine Or.inr ⟨?_, ?_⟩
      · unfold Mat.addRows
        rw [if_neg hn, if_neg]
        rintro ⟨-, -, -, -, w⟩
        have hxR : x ∈ R := by rw [e1, e4]; simp
        exact e7 (w x.span (hspan x (hRL x hxR)) ((span_meets x _ _).mpr ⟨e6, by have := hRm x hxR; omega⟩))
      · rw [h.cmap, e5]
        dsimp only
        obtain ⟨h', d1, d2⟩ := detach_spec (g := g) hnew (by rw [← hnode]) h.tiles hfit R A C D (p.n.toNat + 1) (g.start - 1) hh hL e1
          (fun y hy => (e2 y hy).1) (by rw [show g.start - 1 + 1 = g.start by omega]; exact hR) hready e3 (by omega)
        rw [d1]
        refine ⟨_, _, by decide, rfl, L, ?_⟩
        have hs : s.missing = false := by
          cases hs : s.missing with
          | false => rfl
          | true =>
            have hxR : x ∈ R := by rw [e1, e4]; simp
            exact absurd ((hpend (h.missing.mp hs)).2 x.span (hspan x (hRL x hxR))
              ((span_meets x _ _).mpr ⟨e6, by have := hRm x hxR; omega⟩)) e7
        have hf : ∀ x ∈ L, ∀ id ∈ x.path, nx h' id = nx s.heap id ∧ off h' id = off s.heap id ∧ lp h' id = lp s.heap id ∧
            blk h' id = blk s.heap id := by
          intro x hx id hid
          have hid' := hlt x hx id hid
          have ha := append_fields (k := [node]) hid'
          refine ⟨(d2.nx_out (by simp)).trans ha.1, (d2.blk id).2.trans ha.2.1, ?_, (d2.blk id).1.trans ha.2.2.2⟩
          rw [d2.lp, ha.2.2.1]
          have : id ≠ s.heap.length := by omega
          cases lp s.heap id <;> simp [this]
        refine ⟨h.tiles, h.n, ?_, rfl, h.spans, ?_, h.apart, ?_, h.missing, h.start, h.start0, h.even⟩
        · show (if s.missing then s.m else s.m + p.m) - p.m = g.m
          rw [hs, if_neg (by simp), h.m]
          omega
        · intro x hx
          have hb := tiles_mem h.tiles x hx
          exact (h.ok x hx).frame hb.2.1 (fun id hid => (hf x hx id hid).1) (fun id hid => ⟨(hf x hx id hid).2.2.2, (hf x hx id hid).2.1⟩)
            (fun j _ _ => ⟨rfl, rfl, fun _ => rfl⟩)
        · intro A' y B' hL' a b l r hp
          have hy : y ∈ L := by rw [hL']; simp
          have fa := hf y hy a (by rw [hp]; simp)
          have fb := hf y hy b (by rw [hp]; simp)
          rw [fb.2.2.1, fb.2.1, fa.2.1]
          exact h.parents A' y B' hL' a b l r hp

end Verif.DataStore
