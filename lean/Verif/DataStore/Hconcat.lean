/-
`horizontal_concat` keeps the invariant.
-/
import Verif.DataStore.Rows

namespace Verif.DataStore
variable {V : Type}

/-- The heap `h` is `h0` with the offsets of the objects of `M` increased. -/
structure Moved (h0 : List (Node V)) (d : Int) (M : List Nat) (h : List (Node V)) : Prop where
  len : h.length = h0.length
  get : ∀ id : Nat, h[id]? = (h0[id]?).map fun nd => { nd with offset := if id ∈ M then nd.offset + d else nd.offset }

theorem Moved.refl {h0 : List (Node V)} {d : Int} : Moved h0 d [] h0 := by
  refine ⟨rfl, fun id => ?_⟩
  cases h0[id]? <;> simp

theorem Moved.set {h0 h : List (Node V)} {d : Int} {M : List Nat} (hm : Moved h0 d M h) {i : Nat} {o : Int} (ho : off h0 i = some o) :
    Moved h0 d (M ++ [i]) (setOffset h i (o + d)) := by
  refine ⟨by rw [← hm.len]; simp [setOffset], fun id => ?_⟩
  unfold setOffset
  rw [List.getElem?_modify, hm.get id]
  unfold off at ho
  cases hh : h0[id]? with
  | none => simp
  | some nd =>
    by_cases c : i = id
    · subst c
      rw [hh] at ho
      have : nd.offset = o := by simpa using ho
      simp [this]
    · have : ¬ id = i := fun w => c w.symm
      simp [c, this]

theorem Moved.again {h0 h : List (Node V)} {d : Int} {M : List Nat} (hm : Moved h0 d M h) {i : Nat} (hi : i ∈ M) :
    Moved h0 d (M ++ [i]) h := by
  refine ⟨hm.len, fun id => ?_⟩
  rw [hm.get id]
  cases hh : h0[id]? with
  | none => rfl
  | some nd =>
    by_cases c : id = i
    · subst c; simp [hi]
    · simp [c]

theorem moveOffsets_spec {h0 : List (Node V)} {d : Int} : ∀ (p : List Nat) (i fuel : Nat) (M : List Nat) (h : List (Node V)),
    Path h0 (some i) (i :: p) → Moved h0 d M h → i ∈ M → p.length < fuel →
    (∀ a b l r, i :: p = l ++ a :: b :: r → (lp h0 b = some (some a) ∧ off h0 b = off h0 a) ∨ (lp h0 b ≠ some (some a) ∧ b ∈ M)) →
    ∃ h', moveOffsets fuel i h = some h' ∧ Moved h0 d (M ++ p) h' := by
  intro p
  induction p with
  | nil =>
    intro i fuel M h hp hm hi hf hpar
    cases fuel with
    | zero => omega
    | succ fuel =>
      cases hp with
      | @cons _ q _ h1 h2 =>
        cases h2
        unfold nx at h1
        cases hh : h0[i]? with
        | none => rw [hh] at h1; cases h1
        | some nd =>
          rw [hh] at h1
          have hq : nd.next = none := by simpa using h1
          refine ⟨h, ?_, by simpa using hm⟩
          unfold moveOffsets
          rw [hm.get, hh]
          dsimp only [Option.map_some]
          rw [hq]
  | cons j p ih =>
    intro i fuel M h hp hm hi hf hpar
    cases fuel with
    | zero => omega
    | succ fuel =>
      cases hp with
      | @cons _ q _ h1 h2 =>
        cases h2 with
        | @cons _ q' _ h3 h4 =>
          unfold nx at h1
          cases hh : h0[i]? with
          | none => rw [hh] at h1; cases h1
          | some nd =>
            rw [hh] at h1
            have hq : nd.next = some j := by simpa using h1
            cases hj : h0[j]? with
            | none => unfold nx at h3; rw [hj] at h3; cases h3
            | some nj =>
              unfold moveOffsets
              rw [hm.get, hh]
              dsimp only [Option.map_some]
              rw [hq]
              dsimp only
              rw [hm.get, hj]
              dsimp only [Option.map_some]
              have key : Moved h0 d (M ++ [j]) (if nj.leftParent = some i then
                  setOffset h j (if i ∈ M then nd.offset + d else nd.offset) else h) := by
                rcases hpar i j [] p rfl with ⟨e1, e2⟩ | ⟨e1, e2⟩
                · have hl : nj.leftParent = some i := by simpa [lp, hj] using e1
                  have ho : off h0 j = some nd.offset := by rw [e2]; simp [off, hh]
                  rw [if_pos hl, if_pos hi]
                  exact hm.set ho
                · have hl : nj.leftParent ≠ some i := by simpa [lp, hj] using e1
                  rw [if_neg hl]
                  exact hm.again e2
              obtain ⟨h', g1, g2⟩ := ih j fuel (M ++ [j]) _ (.cons h3 h4) key (by simp) (by simpa using hf) (by
                intro a b l r hr
                rcases hpar a b (i :: l) r (by rw [hr]; rfl) with w | ⟨w1, w2⟩
                · exact Or.inl w
                · exact Or.inr ⟨w1, by simp [w2]⟩)
              exact ⟨h', g1, by simpa using g2⟩

/-- A range further to the right. -/
def Iv.move (d : Int) (x : Iv) : Iv := { x with lo := x.lo + d, hi := x.hi + d }

theorem tiles_move {d : Int} {L : List Iv} : ∀ {a b : Int}, Tiles a L b → Tiles (a + d) (L.map (Iv.move d)) (b + d) := by
  induction L with
  | nil => intro a b h; simp only [Tiles] at h; simp only [List.map_nil, Tiles]; omega
  | cons x L ih =>
    intro a b h
    obtain ⟨h1, h2, h3⟩ := h
    have := ih h3
    refine ⟨by show x.lo + d = a + d; omega, by show x.lo + d ≤ x.hi + d; omega, ?_⟩
    show Tiles (x.hi + d + 1) _ _
    rw [show x.hi + d + 1 = x.hi + 1 + d by omega]
    exact this

theorem moveCols_spec {h0 : List (Node V)} {n1 : Int} {L1 L2 : List Iv} (ht1 : Tiles 0 L1 n1)
    (hpath : ∀ x ∈ L2, x.path ≠ [] ∧ Path h0 x.path.head? x.path) (hap : L2.Pairwise Apart) (hpar : Parents h0 L2) :
    ∀ (K P : List Iv) (a b : Int) (h : List (Node V)), L2 = P ++ K → Tiles 0 P a → Tiles a K b →
    Moved h0 n1 (P.flatMap Iv.path) h →
    ∃ h', moveCols n1 (K.map Iv.entry) (n1 + a) ((L1 ++ P.map (Iv.move n1)).map Iv.entry) h =
      some (n1 + b, (L1 ++ L2.map (Iv.move n1)).map Iv.entry, h') ∧ Moved h0 n1 (L2.flatMap Iv.path) h' := by
  intro K
  induction K with
  | nil =>
    intro P a b h hL hP hK hm
    simp only [Tiles] at hK
    rw [List.append_nil] at hL
    subst hL
    subst hK
    exact ⟨h, rfl, hm⟩
  | cons x K ih =>
    intro P a b h hL hP hK hm
    obtain ⟨hx1, hx2, hx3⟩ := hK
    have hxL : x ∈ L2 := by rw [hL]; simp
    obtain ⟨hne, hp⟩ := hpath x hxL
    have hhead : x.path.head? = some x.entry.val ∧ ∃ p, x.path = x.entry.val :: p := by
      unfold Iv.entry
      cases hxp : x.path with
      | nil => exact absurd hxp hne
      | cons i p => exact ⟨rfl, p, rfl⟩
    obtain ⟨hhd, p, hxp⟩ := hhead
    have hnotin : x.entry.val ∉ P.flatMap Iv.path := by
      intro w
      obtain ⟨y, hy, hyi⟩ := List.mem_flatMap.mp w
      have hap' := hap
      rw [hL] at hap'
      have := (List.pairwise_append.mp hap').2.2 y hy x (by simp) x.entry.val hyi (by rw [hxp]; simp)
      exact this.2.2.2.2.2 hhd
    rw [hhd] at hp
    obtain ⟨nd, hnd⟩ : ∃ nd, h0[x.entry.val]? = some nd := by
      have := path_mem_lt hp x.entry.val (by rw [hxp]; simp)
      exact ⟨_, List.getElem?_eq_getElem this⟩
    rw [List.map_cons]
    unfold moveCols
    dsimp only
    rw [hm.get, hnd]
    dsimp only [Option.map_some]
    rw [if_neg hnotin]
    have hwidth : x.entry.hi - x.entry.lo + 1 = x.hi - x.lo + 1 := rfl
    rw [hwidth]
    have htl : Tiles 0 (L1 ++ P.map (Iv.move n1)) (n1 + a) := by
      rw [tiles_append]
      refine ⟨n1, ht1, ?_⟩
      have := tiles_move (d := n1) hP
      rw [Int.zero_add] at this
      rw [Int.add_comm n1 a]
      exact this
    rw [cmap_insert htl (by omega)]
    dsimp only
    have hm1 : Moved h0 n1 (P.flatMap Iv.path ++ [x.entry.val]) (setOffset h x.entry.val (nd.offset + n1)) :=
      hm.set (by simp [off, hnd])
    rw [hxp] at hp
    obtain ⟨h', g1, g2⟩ := moveOffsets_spec p x.entry.val ((setOffset h x.entry.val (nd.offset + n1)).length + 1) _ _ hp hm1 (by simp) (by
      have := path_length hp
      rw [hm1.len]
      simp at this
      omega) (by
      intro c e l r hr
      rcases hpar P x K hL c e l r (by rw [hxp]; exact hr) with w | ⟨w1, y, hy, w2⟩
      · exact Or.inl w
      · exact Or.inr ⟨w1, List.mem_append_left _ (List.mem_flatMap.mpr ⟨y, hy, w2⟩)⟩)
    rw [g1]
    dsimp only
    have hflat : (P ++ [x]).flatMap Iv.path = P.flatMap Iv.path ++ [x.entry.val] ++ p := by
      rw [List.flatMap_append]
      simp [hxp]
    obtain ⟨h'', g3, g4⟩ := ih (P ++ [x]) (x.hi + 1) b h' (by rw [hL]; simp) (by
      rw [tiles_append]
      exact ⟨a, hP, hx1, hx2, rfl⟩) hx3 (by rw [hflat]; exact g2)
    refine ⟨h'', ?_, g4⟩
    rw [← g3]
    have e1 : n1 + a + (x.hi - x.lo + 1) = n1 + (x.hi + 1) := by omega
    have e2 : (⟨n1 + a, n1 + a + (x.hi - x.lo + 1) - 1, x.entry.val⟩ : IntervalMap.Entry Nat) = (Iv.move n1 x).entry := by
      unfold Iv.move Iv.entry
      dsimp only
      rw [show n1 + a = x.lo + n1 by omega, show x.lo + n1 + (x.hi - x.lo + 1) - 1 = x.hi + n1 by omega]
    rw [e2, e1]
    congr 1
    simp

end Verif.DataStore

namespace Verif.DataStore
variable {V : Type}

/-- The objects of the second heap come behind those of the first one. -/
def both (h t : List (Node V)) : List (Node V) := h ++ t.map (shiftNode h.length)

def Iv.up (k : Nat) (x : Iv) : Iv := { x with path := x.path.map (· + k) }

theorem both_get {h t : List (Node V)} (id : Nat) : (both h t)[id + h.length]? = (t[id]?).map (shiftNode h.length) := by
  unfold both
  rw [List.getElem?_append_right (by omega)]
  simp

theorem both_fields {h t : List (Node V)} (id : Nat) :
    nx (both h t) (id + h.length) = (nx t id).map (Option.map (· + h.length)) ∧
    off (both h t) (id + h.length) = off t id ∧
    lp (both h t) (id + h.length) = (lp t id).map (Option.map (· + h.length)) ∧
    blk (both h t) (id + h.length) = blk t id := by
  unfold nx off lp blk
  rw [both_get]
  cases t[id]? <;> simp [shiftNode]

theorem path_up {h t : List (Node V)} {q : Option Nat} {p : List Nat} (hp : Path t q p) :
    Path (both h t) (q.map (· + h.length)) (p.map (· + h.length)) := by
  induction hp with
  | nil => exact .nil
  | cons h1 _ ih =>
    refine .cons ?_ ih
    rw [(both_fields _).1, h1]
    rfl

theorem apart_up {k : Nat} {x y : Iv} (h : Apart x y) : Apart (x.up k) (y.up k) := by
  intro id h1 h2
  obtain ⟨i, hi, rfl⟩ := List.mem_map.mp h1
  obtain ⟨j, hj, hij⟩ := List.mem_map.mp h2
  have : j = i := by omega
  subst this
  obtain ⟨a, b, c, d, e, f⟩ := h j hi hj
  refine ⟨a, b, ?_, ?_, ?_, ?_⟩
  · simp [Iv.up, c]
  · simp [Iv.up, d]
  · intro w
    simp only [Iv.up, List.head?_map, Option.map_eq_some_iff] at w
    obtain ⟨z, hz, hzj⟩ := w
    have : z = j := by omega
    rw [this] at hz
    exact e hz
  · intro w
    simp only [Iv.up, List.head?_map, Option.map_eq_some_iff] at w
    obtain ⟨z, hz, hzj⟩ := w
    have : z = j := by omega
    rw [this] at hz
    exact f hz

theorem parents_up {h t : List (Node V)} {L : List Iv} (hp : Parents t L) : Parents (both h t) (L.map (Iv.up h.length)) := by
  intro A x B hL a b l r hpath
  obtain ⟨A1, R1, e1, e2, e3⟩ := List.map_eq_append_iff.mp hL
  obtain ⟨x1, B1, e4, e5, e6⟩ := List.map_eq_cons_iff.mp e3
  subst e4
  rw [← e5] at hpath
  obtain ⟨l1, r1, f1, f2, f3⟩ := List.map_eq_append_iff.mp hpath
  obtain ⟨a1, r2, f4, f5, f6⟩ := List.map_eq_cons_iff.mp f3
  obtain ⟨b1, r3, f7, f8, f9⟩ := List.map_eq_cons_iff.mp f6
  subst f4 f7 f5 f8
  rw [(both_fields b1).2.2.1, (both_fields b1).2.1, (both_fields a1).2.1]
  rcases hp A1 x1 B1 e1 a1 b1 l1 r3 f1 with ⟨w1, w2⟩ | ⟨w1, y, w2, w3⟩
  · exact Or.inl ⟨by rw [w1]; rfl, w2⟩
  · refine Or.inr ⟨?_, y.up h.length, ?_, List.mem_map_of_mem w3⟩
    · intro w
      apply w1
      cases hl : lp t b1 with
      | none => rw [hl] at w; cases w
      | some q =>
        rw [hl] at w
        cases q with
        | none => simp at w
        | some z =>
          simp only [Option.map_some, Option.some.injEq] at w
          have : z = a1 := by omega
          rw [this]
    · rw [← e2]; exact List.mem_map_of_mem w2

theorem pathPos_up {h t hh : List (Node V)} (hb : ∀ id, (blk hh (id + h.length)).map Block.m = (blk t id).map Block.m) {p : List Nat} :
    ∀ (i : Int), pathPos hh (p.map (· + h.length)) i = (pathPos t p i).map fun q => (q.1 + h.length, q.2) := by
  induction p with
  | nil => intro i; rfl
  | cons x p ih =>
    intro i
    have hx := hb x
    simp only [List.map_cons, pathPos]
    cases h1 : blk t x with
    | none =>
      rw [h1] at hx
      cases h2 : blk hh (x + h.length) with
      | none => rfl
      | some b => rw [h2] at hx; cases hx
    | some b =>
      rw [h1] at hx
      cases h2 : blk hh (x + h.length) with
      | none => rw [h2] at hx; cases hx
      | some b' =>
        rw [h2] at hx
        have hm : b'.m = b.m := by simpa using hx
        dsimp only
        rw [hm]
        by_cases c : i < b.m
        · rw [if_pos c, if_pos c]
          by_cases c2 : 0 ≤ i
          · rw [if_pos c2, if_pos c2]; rfl
          · rw [if_neg c2, if_neg c2]; rfl
        · rw [if_neg c, if_neg c]
          exact ih _

theorem pathRows_up {h t hh : List (Node V)} (hb : ∀ id, (blk hh (id + h.length)).map Block.m = (blk t id).map Block.m) {p : List Nat} :
    pathRows hh (p.map (· + h.length)) = pathRows t p := by
  induction p with
  | nil => rfl
  | cons x p ih => simp only [List.map_cons, pathRows, ih, hb x]

theorem Inv.hconcat {s t : Store V} {g f : Mat V} {L K : List Iv} (h : Inv s g L) (k : Inv t f K) :
    (∃ g', g.append f = some g' ∧ ∃ s', horizontalConcat s t = some (.success, s') ∧ ∃ L', Inv s' g' L') ∨
    (g.append f = none ∧ ∃ st, st ≠ .success ∧ horizontalConcat s t = some (st, s)) := by
  have hn0 := h.n_nonneg
  have kn0 := k.n_nonneg
  have hms : s.m = t.m ↔ ((g.n = 0 ↔ f.n = 0) ∧ (g.n ≠ 0 → g.rows 0 = f.rows 0)) := by
    rw [h.m, k.m]
    unfold Mat.m
    by_cases c1 : g.n = 0
    · by_cases c2 : f.n = 0
      · simp [c1, c2]
      · have := k.m_pos c2
        simp only [c1, c2, if_true, if_false]
        constructor
        · intro w; omega
        · rintro ⟨w, -⟩; exact (w.mp trivial).elim
    · have := h.m_pos c1
      by_cases c2 : f.n = 0
      · simp only [c1, c2, if_true, if_false]
        constructor
        · intro w; omega
        · rintro ⟨w, -⟩; exact (w.mpr trivial).elim
      · simp [c1, c2]
  have hmiss : (s.missing || t.missing) = true ↔ ¬ (g.start = 0 ∧ f.start = 0) := by
    rw [Bool.or_eq_true, h.missing, k.missing]
    by_cases c : g.start = 0 <;> simp [c]
  unfold Mat.append horizontalConcat
  by_cases hc : g.start = 0 ∧ f.start = 0 ∧ (g.n = 0 ↔ f.n = 0) ∧ (g.n ≠ 0 → g.rows 0 = f.rows 0)
  · refine Or.inl ?_
    rw [if_pos hc]
    obtain ⟨h1, h2, h3, h4⟩ := hc
    refine ⟨_, rfl, ?_⟩
    have hsm : ¬ ((s.missing || t.missing) = true) := fun w => hmiss.mp w ⟨h1, h2⟩
    rw [if_neg (fun w => w (hms.mpr ⟨h3, h4⟩)), if_neg hsm]
    -- the loop
    have hlt := h.path_lt
    have klt := k.path_lt
    have hentries : t.cmap.map (shiftEntry s.heap.length) = (K.map (Iv.up s.heap.length)).map Iv.entry := by
      rw [k.cmap, List.map_map, List.map_map]
      refine List.map_congr_left fun x hx => ?_
      have hne := (k.ok x hx).ne
      simp only [Function.comp]
      unfold Iv.entry Iv.up shiftEntry
      cases hp : x.path with
      | nil => exact absurd hp hne
      | cons a b => rfl
    have htl : Tiles 0 (K.map (Iv.up s.heap.length)) f.n := tiles_map (F := Iv.up s.heap.length) (fun x => ⟨rfl, rfl⟩) k.tiles
    obtain ⟨hh, g1, g2⟩ := moveCols_spec (h0 := both s.heap t.heap) (L2 := K.map (Iv.up s.heap.length)) h.tiles
      (by
        intro y hy
        obtain ⟨x, hx, rfl⟩ := List.mem_map.mp hy
        refine ⟨by simpa [Iv.up] using (k.ok x hx).ne, ?_⟩
        have := path_up (h := s.heap) (k.ok x hx).path
        simpa [Iv.up] using this)
      (by rw [List.pairwise_map]; exact k.apart.imp apart_up) (parents_up k.parents)
      (K.map (Iv.up s.heap.length)) [] 0 f.n (both s.heap t.heap) rfl rfl htl Moved.refl
    have e0 : g.n + 0 = g.n := by omega
    rw [List.map_nil, List.append_nil, e0] at g1
    rw [hentries, h.cmap, h.n, show s.heap ++ t.heap.map (shiftNode s.heap.length) = both s.heap t.heap from rfl, g1]
    dsimp only
    refine ⟨_, rfl, L ++ (K.map (Iv.up s.heap.length)).map (Iv.move g.n), ?_⟩
    -- fields of the heap afterwards
    have hold : ∀ {id : Nat}, id < s.heap.length → hh[id]? = s.heap[id]? := by
      intro id hid
      rw [g2.get]
      have : id ∉ (K.map (Iv.up s.heap.length)).flatMap Iv.path := by
        intro w
        obtain ⟨y, hy, hyi⟩ := List.mem_flatMap.mp w
        obtain ⟨x, hx, rfl⟩ := List.mem_map.mp hy
        obtain ⟨z, hz, hzi⟩ := List.mem_map.mp hyi
        omega
      simp only [this, if_false]
      unfold both
      rw [append_get hid]
      cases s.heap[id]? <;> rfl
    have hnewid : ∀ x ∈ K, ∀ id ∈ x.path, id + s.heap.length ∈ (K.map (Iv.up s.heap.length)).flatMap Iv.path := by
      intro x hx id hid
      refine List.mem_flatMap.mpr ⟨x.up s.heap.length, List.mem_map_of_mem hx, ?_⟩
      exact List.mem_map_of_mem hid
    have hb : ∀ id, blk hh (id + s.heap.length) = blk t.heap id := by
      intro id
      unfold blk
      rw [g2.get, both_get]
      cases t.heap[id]? <;> rfl
    have hnx : ∀ id, nx hh (id + s.heap.length) = (nx t.heap id).map (Option.map (· + s.heap.length)) := by
      intro id
      unfold nx
      rw [g2.get, both_get]
      cases t.heap[id]? <;> rfl
    have hlp : ∀ id, lp hh (id + s.heap.length) = lp (both s.heap t.heap) (id + s.heap.length) := by
      intro id
      unfold lp
      rw [g2.get, both_get]
      cases t.heap[id]? <;> rfl
    have hoff : ∀ x ∈ K, ∀ id ∈ x.path, off hh (id + s.heap.length) = (off t.heap id).map (· + g.n) := by
      intro x hx id hid
      unfold off
      rw [g2.get, both_get]
      simp only [hnewid x hx id hid, if_true]
      cases t.heap[id]? <;> rfl
    have hge : ∀ {j : Int}, ∀ x ∈ L, x.lo ≤ j → j ≤ x.hi → ¬ g.n ≤ j := by
      intro j x hx a b
      have := tiles_mem h.tiles x hx
      omega
    constructor
    · show Tiles 0 _ (g.n + f.n)
      rw [tiles_append]
      refine ⟨g.n, h.tiles, ?_⟩
      have := tiles_move (d := g.n) htl
      rw [Int.zero_add] at this
      rw [Int.add_comm g.n f.n]
      exact this
    · rfl
    · show s.m = Mat.m _
      unfold Mat.m
      dsimp only
      rw [h.m]
      unfold Mat.m
      by_cases c : g.n = 0
      · have := h3.mp c
        simp [c, this]
      · rw [if_neg c, if_neg (by omega), if_neg (by omega)]
    · rfl
    · show g.spans ++ _ = _
      rw [h.spans, k.spans]
      simp only [List.map_append, List.map_map]
      rfl
    · intro y hy
      rcases List.mem_append.mp hy with hy | hy
      · have hbd := tiles_mem h.tiles y hy
        refine (h.ok y hy).frame hbd.2.1 ?_ ?_ ?_
        · intro id hid
          unfold nx; rw [hold (hlt y hy id hid)]
        · intro id hid
          unfold blk off; rw [hold (hlt y hy id hid)]; exact ⟨rfl, rfl⟩
        · intro j a b
          have := hge y hy a b
          exact ⟨if_neg this, if_neg this, fun i => if_neg this⟩
      · obtain ⟨y1, hy1, rfl⟩ := List.mem_map.mp hy
        obtain ⟨x, hx, rfl⟩ := List.mem_map.mp hy1
        have hok := k.ok x hx
        have hbd := tiles_mem k.tiles x hx
        have hin : ∀ {j : Int}, x.lo + g.n ≤ j → g.n ≤ j := by intro j a; omega
        have hposk : ∀ id, (blk hh (id + s.heap.length)).map Block.m = (blk t.heap id).map Block.m := fun id => by rw [hb id]
        refine ⟨by simpa [Iv.up, Iv.move] using hok.ne, ?_, ?_, ?_, ?_, ?_, ?_⟩
        · have hp := path_up (h := s.heap) hok.path
          show Path hh (x.path.map (· + s.heap.length)).head? (x.path.map (· + s.heap.length))
          rw [List.head?_map]
          refine path_frame hp ?_
          intro id hid
          obtain ⟨z, hz, rfl⟩ := List.mem_map.mp hid
          show nx hh (z + s.heap.length) = nx (both s.heap t.heap) (z + s.heap.length)
          rw [hnx z, (both_fields z).1]
        · intro id hid
          obtain ⟨z, hz, rfl⟩ := List.mem_map.mp hid
          obtain ⟨nd, w1, w2, w3, w4, w5⟩ := hok.nodes z hz
          have hbz := hb z
          have hoz := hoff x hx z hz
          unfold blk at hbz
          unfold off at hoz
          rw [w1] at hbz hoz
          show ∃ nd, hh[z + s.heap.length]? = some nd ∧ _
          cases hq : hh[z + s.heap.length]? with
          | none => rw [hq] at hbz; cases hbz
          | some nd' =>
            rw [hq] at hbz hoz
            simp only [Option.map_some, Option.some.injEq] at hbz hoz
            refine ⟨nd', rfl, by rw [hbz]; exact w2, by rw [hoz]; show nd.offset + g.n ≤ x.lo + g.n; omega, ?_, ?_⟩
            · rw [hbz, hoz]; show x.hi + g.n < nd.offset + g.n + nd.b.n; omega
            · rw [hbz, w5]
              show _ = (if g.n ≤ x.lo + g.n then f.ty (x.lo + g.n - g.n) else _)
              rw [if_pos (hin (Int.le_refl _)), Int.add_sub_cancel]
        · intro j a b
          change x.lo + g.n ≤ j at a
          change j ≤ x.hi + g.n at b
          show (if g.n ≤ j then f.ty (j - g.n) else _) = (if g.n ≤ x.lo + g.n then f.ty (x.lo + g.n - g.n) else _)
          rw [if_pos (hin a), if_pos (hin (Int.le_refl _)), Int.add_sub_cancel]
          exact hok.ty _ (by omega) (by omega)
        · intro j a b
          change x.lo + g.n ≤ j at a
          change j ≤ x.hi + g.n at b
          show (if g.n ≤ j then f.rows (j - g.n) else _) = pathRows hh (x.path.map (· + s.heap.length))
          rw [if_pos (hin a), pathRows_up hposk]
          exact hok.rows _ (by omega) (by omega)
        · intro j a b i
          change x.lo + g.n ≤ j at a
          change j ≤ x.hi + g.n at b
          show pathCell hh (x.path.map (· + s.heap.length)) j i = (if g.n ≤ j then f.cell i (j - g.n) else _)
          rw [if_pos (hin a), ← hok.cell (j - g.n) (by omega) (by omega) i]
          unfold pathCell
          rw [pathPos_up hposk]
          cases hq : pathPos t.heap x.path i with
          | none => rfl
          | some q =>
            have hqm := (pathPos_mem hq).1
            simp only [Option.map_some, Option.bind_some]
            unfold cellAt
            have hbz := hb q.1
            have hoz := hoff x hx q.1 hqm
            unfold blk at hbz
            unfold off at hoz
            cases w1 : t.heap[q.1]? with
            | none =>
              rw [w1] at hbz
              cases w2 : hh[q.1 + s.heap.length]? with
              | none => rfl
              | some nd => rw [w2] at hbz; cases hbz
            | some nd =>
              rw [w1] at hbz hoz
              cases w2 : hh[q.1 + s.heap.length]? with
              | none => rw [w2] at hbz; cases hbz
              | some nd' =>
                rw [w2] at hbz hoz
                simp only [Option.map_some, Option.some.injEq] at hbz hoz
                simp only [Option.map_some, Option.some.injEq]
                rw [hbz, hoz]
                congr 1
                omega
        · intro hs id hid
          obtain ⟨z, hz, rfl⟩ := List.mem_map.mp hid
          show off hh (z + s.heap.length) = some (x.lo + g.n)
          rw [hoff x hx z hz, hok.own hs z hz]
          rfl
    · rw [List.pairwise_append]
      refine ⟨h.apart, ?_, ?_⟩
      · rw [List.pairwise_map, List.pairwise_map]
        exact k.apart.imp fun w => apart_up w
      · intro x hx y hy id a b
        obtain ⟨y1, hy1, rfl⟩ := List.mem_map.mp hy
        obtain ⟨z, hz, rfl⟩ := List.mem_map.mp hy1
        obtain ⟨w, hw, rfl⟩ := List.mem_map.mp b
        exfalso
        have : w + s.heap.length < s.heap.length := hlt x hx _ a
        omega
    · -- parents
      intro A x B hL a b l r hp
      rcases List.append_eq_append_iff.mp hL with ⟨A', e1, e2⟩ | ⟨B', e1, e2⟩
      · -- in the second store
        obtain ⟨A1, R1, w1, w2, w3⟩ := List.map_eq_append_iff.mp e2
        obtain ⟨x1, B1, w4, w5, w6⟩ := List.map_eq_cons_iff.mp w3
        subst w4
        rw [← w5] at hp
        have hx1 : x1 ∈ K.map (Iv.up s.heap.length) := by rw [w1]; simp
        obtain ⟨x2, hx2, rfl⟩ := List.mem_map.mp hx1
        have hp' : x2.path.map (· + s.heap.length) = l ++ a :: b :: r := hp
        have ha : ∃ a', a' ∈ x2.path ∧ a' + s.heap.length = a :=
          List.mem_map.mp (show a ∈ x2.path.map (· + s.heap.length) by rw [hp']; simp)
        have hbb : ∃ b', b' ∈ x2.path ∧ b' + s.heap.length = b :=
          List.mem_map.mp (show b ∈ x2.path.map (· + s.heap.length) by rw [hp']; simp)
        obtain ⟨a', ha1, rfl⟩ := ha
        obtain ⟨b', hb1, rfl⟩ := hbb
        have := parents_up (h := s.heap) k.parents A1 _ B1 w1 _ _ l r hp
        rw [hlp, hoff x2 hx2 b' hb1, hoff x2 hx2 a' ha1]
        rw [(both_fields b').2.1, (both_fields a').2.1] at this
        rcases this with ⟨v1, v2⟩ | ⟨v1, y, v2, v3⟩
        · exact Or.inl ⟨v1, by rw [v2]⟩
        · refine Or.inr ⟨v1, y.move g.n, ?_, v3⟩
          rw [e1, ← w2]
          exact List.mem_append_right _ (List.mem_map_of_mem v2)
      · cases B' with
        | nil =>
          -- the first range of the second store
          simp only [List.nil_append] at e2
          obtain ⟨x1, B1, w4, w5, w6⟩ := List.map_eq_cons_iff.mp e2.symm
          rw [← w5] at hp
          have hx1 : x1 ∈ K.map (Iv.up s.heap.length) := by rw [w4]; simp
          obtain ⟨x2, hx2, rfl⟩ := List.mem_map.mp hx1
          have hp' : x2.path.map (· + s.heap.length) = l ++ a :: b :: r := hp
          have ha : ∃ a', a' ∈ x2.path ∧ a' + s.heap.length = a :=
            List.mem_map.mp (show a ∈ x2.path.map (· + s.heap.length) by rw [hp']; simp)
          have hbb : ∃ b', b' ∈ x2.path ∧ b' + s.heap.length = b :=
            List.mem_map.mp (show b ∈ x2.path.map (· + s.heap.length) by rw [hp']; simp)
          obtain ⟨a', ha1, rfl⟩ := ha
          obtain ⟨b', hb1, rfl⟩ := hbb
          have := parents_up (h := s.heap) k.parents [] _ B1 w4 _ _ l r hp
          rw [hlp, hoff x2 hx2 b' hb1, hoff x2 hx2 a' ha1]
          rw [(both_fields b').2.1, (both_fields a').2.1] at this
          rcases this with ⟨v1, v2⟩ | ⟨v1, y, v2, v3⟩
          · exact Or.inl ⟨v1, by rw [v2]⟩
          · cases v2
        | cons z B' =>
          simp only [List.cons_append, List.cons.injEq] at e2
          obtain ⟨rfl, -⟩ := e2
          have hx : x ∈ L := by rw [e1]; simp
          have ha := hlt x hx a (by rw [hp]; simp)
          have hbl := hlt x hx b (by rw [hp]; simp)
          have := h.parents A x B' e1 a b l r hp
          unfold lp off at this ⊢
          rw [hold ha, hold hbl]
          exact this
    · exact h.missing
    · exact h.start
    · intro w; exact absurd h1 w
    · intro _ j a b
      change j < g.n + f.n at b
      show (if g.n ≤ j then f.rows (j - g.n) else g.rows j) = (if g.n ≤ 0 then f.rows (0 - g.n) else g.rows 0)
      by_cases c : g.n = 0
      · have := h3.mp c
        omega
      · rw [if_neg (show ¬ g.n ≤ 0 by omega)]
        by_cases cj : g.n ≤ j
        · rw [if_pos cj, k.even h2 (j - g.n) (by omega) (by omega), h4 c]
        · rw [if_neg cj, h.even h1 j a (by omega)]
  · refine Or.inr ?_
    rw [if_neg hc]
    refine ⟨rfl, ?_⟩
    by_cases c1 : s.m ≠ t.m
    · rw [if_pos c1]; exact ⟨_, by decide, rfl⟩
    · rw [if_neg c1]
      have c1' := hms.mp (not_not.mp c1)
      rw [if_pos]
      · exact ⟨_, by decide, rfl⟩
      · rw [hmiss]
        intro w
        exact hc ⟨w.1, w.2, c1'⟩

end Verif.DataStore
