/-
The invariant of data stores and what it means for reading and writing elements.
-/
import Verif.DataStore.Chains
import Verif.IntervalMap.Proof

namespace Verif.DataStore
open Verif.IntervalMap (Entry WF find_mem find_not_mem)
variable {V : Type}

/-- A range of columns with its chain of blocks. -/
structure Iv where
  lo : Int
  hi : Int
  shared : Bool
  path : List Nat

def Iv.entry (x : Iv) : Entry Nat := ⟨x.lo, x.hi, x.path.headD 0⟩
def Iv.span (x : Iv) : Span := ⟨x.lo, x.hi, x.shared⟩

/-- The ranges follow each other from `a` to `b`. -/
def Tiles : Int → List Iv → Int → Prop
  | a, [], b => a = b
  | a, x :: L, b => x.lo = a ∧ x.lo ≤ x.hi ∧ Tiles (x.hi + 1) L b

theorem tiles_append {a c : Int} {L K : List Iv} : Tiles a (L ++ K) c ↔ ∃ b, Tiles a L b ∧ Tiles b K c := by
  induction L generalizing a with
  | nil => simp [Tiles]
  | cons x L ih =>
    simp only [List.cons_append, Tiles, ih]
    constructor
    · rintro ⟨h1, h2, b, h3, h4⟩; exact ⟨b, ⟨h1, h2, h3⟩, h4⟩
    · rintro ⟨b, ⟨h1, h2, h3⟩, h4⟩; exact ⟨h1, h2, b, h3, h4⟩

theorem tiles_le {L : List Iv} : ∀ {a b : Int}, Tiles a L b → a ≤ b := by
  induction L with
  | nil => intro a b h; exact Int.le_of_eq h
  | cons x L ih => intro a b h; have := ih h.2.2; have := h.1; have := h.2.1; omega

theorem tiles_mem {L : List Iv} : ∀ {a b : Int}, Tiles a L b → ∀ x ∈ L, a ≤ x.lo ∧ x.lo ≤ x.hi ∧ x.hi < b := by
  induction L with
  | nil => intro a b _ x hx; cases hx
  | cons y L ih =>
    intro a b h x hx
    obtain ⟨h1, h2, h3⟩ := h
    rcases List.mem_cons.mp hx with rfl | hx
    · have := tiles_le h3; omega
    · have := ih h3 x hx; omega

theorem tiles_find {L : List Iv} : ∀ {a b j : Int}, Tiles a L b → a ≤ j → j < b → ∃ x ∈ L, x.lo ≤ j ∧ j ≤ x.hi := by
  induction L with
  | nil => intro a b j h h1 h2; simp only [Tiles] at h; omega
  | cons y L ih =>
    intro a b j h h1 h2
    obtain ⟨h3, h4, h5⟩ := h
    by_cases c : j ≤ y.hi
    · exact ⟨y, by simp, by omega, c⟩
    · obtain ⟨x, h6, h7⟩ := ih h5 (by omega : y.hi + 1 ≤ j) h2
      exact ⟨x, by simp [h6], h7⟩

theorem tiles_pairwise {L : List Iv} : ∀ {a b : Int}, Tiles a L b → L.Pairwise fun x y => x.hi < y.lo := by
  induction L with
  | nil => intro a b _; exact .nil
  | cons y L ih =>
    intro a b h
    refine .cons (fun x hx => ?_) (ih h.2.2)
    have := tiles_mem h.2.2 x hx
    omega

theorem tiles_unique {L : List Iv} : ∀ {a b j : Int}, Tiles a L b → ∀ {x y : Iv}, x ∈ L → y ∈ L → x.lo ≤ j → j ≤ x.hi → y.lo ≤ j →
    j ≤ y.hi → x = y := by
  induction L with
  | nil => intro a b j _ x y hx; cases hx
  | cons z L ih =>
    intro a b j h x y hx hy h1 h2 h3 h4
    have hm := tiles_mem h.2.2
    rcases List.mem_cons.mp hx with ex | hx'
    · rcases List.mem_cons.mp hy with ey | hy'
      · rw [ex, ey]
      · have := hm y hy'; subst ex; omega
    · rcases List.mem_cons.mp hy with ey | hy'
      · have := hm x hx'; subst ey; omega
      · exact ih h.2.2 hx' hy' h1 h2 h3 h4

theorem tiles_wf {L : List Iv} {a b : Int} (h : Tiles a L b) : WF (L.map Iv.entry) := by
  constructor
  · intro e he
    obtain ⟨x, hx, rfl⟩ := List.mem_map.mp he
    exact (tiles_mem h x hx).2.1
  · exact List.pairwise_map.mpr (tiles_pairwise h)

theorem cmap_find {L : List Iv} {a b : Int} (h : Tiles a L b) {x : Iv} (hx : x ∈ L) {j : Int} (h1 : x.lo ≤ j) (h2 : j ≤ x.hi) :
    IntervalMap.find false (L.map Iv.entry) j = some (some x.entry) :=
  find_mem (tiles_wf h) (List.mem_map_of_mem hx) h1 h2

theorem cmap_find_none {L : List Iv} {b : Int} (h : Tiles 0 L b) {j : Int} (hj : b ≤ j) :
    IntervalMap.find false (L.map Iv.entry) j = some none := by
  rw [find_not_mem (tiles_wf h)]
  · rw [if_neg]
    rintro ⟨h1, h2, -⟩
    cases L with
    | nil => simp at h1
    | cons x L =>
      have := h2 x.entry (by simp)
      have := tiles_mem h x (by simp)
      simp only [Iv.entry] at *
      omega
  · intro e he
    obtain ⟨x, hx, rfl⟩ := List.mem_map.mp he
    have := tiles_mem h x hx
    simp only [Iv.entry]
    omega

theorem cmap_insert {L : List Iv} {b : Int} (h : Tiles 0 L b) {nc : Int} (hnc : 0 < nc) (v : Nat) :
    IntervalMap.insert false (L.map Iv.entry) b (b + nc - 1) v = some (true, L.map Iv.entry ++ [⟨b, b + nc - 1, v⟩]) := by
  unfold IntervalMap.insert
  rw [if_neg (by omega), cmap_find_none h (Int.le_refl b), cmap_find_none h (by omega)]
  have hs := IntervalMap.split_before (A := L.map Iv.entry) (B := []) (lo := b) (hi := b + nc - 1) (by
    intro e he
    obtain ⟨x, hx, rfl⟩ := List.mem_map.mp he
    have := tiles_mem h x hx
    rw [IntervalMap.less_eq]
    simp only [Iv.entry]
    omega) (by simp)
  rw [List.append_nil] at hs
  simp [hs.1, hs.2]

/-- The chain of a range of columns holds their contents. -/
structure IvOk (h : List (Node V)) (g : Mat V) (x : Iv) : Prop where
  ne : x.path ≠ []
  path : Path h x.path.head? x.path
  nodes : ∀ id ∈ x.path, ∃ nd, h[id]? = some nd ∧ 0 < nd.b.m ∧ nd.offset ≤ x.lo ∧ x.hi < nd.offset + nd.b.n ∧ nd.b.ty = g.ty x.lo
  ty : ∀ j, x.lo ≤ j → j ≤ x.hi → g.ty j = g.ty x.lo
  rows : ∀ j, x.lo ≤ j → j ≤ x.hi → g.rows j = pathRows h x.path
  cell : ∀ j, x.lo ≤ j → j ≤ x.hi → ∀ i, pathCell h x.path j i = g.cell i j
  own : x.shared = false → ∀ id ∈ x.path, off h id = some x.lo

/-- Only the last blocks of two chains are common. -/
def Apart (x y : Iv) : Prop := ∀ id, id ∈ x.path → id ∈ y.path →
  x.shared = true ∧ y.shared = true ∧ x.path.getLast? = some id ∧ y.path.getLast? = some id ∧
  x.path.head? ≠ some id ∧ y.path.head? ≠ some id

/-- Every block but the first of a chain is either that of the chain of its left parent, or already in a chain
further to the left. -/
def Parents (h : List (Node V)) (L : List Iv) : Prop := ∀ A x B, L = A ++ x :: B → ∀ a b l r, x.path = l ++ a :: b :: r →
  (lp h b = some (some a) ∧ off h b = off h a) ∨ (lp h b ≠ some (some a) ∧ ∃ y ∈ A, b ∈ y.path)

structure Inv (s : Store V) (g : Mat V) (L : List Iv) : Prop where
  tiles : Tiles 0 L g.n
  n : s.n = g.n
  m : s.m = g.m
  cmap : s.cmap = L.map Iv.entry
  spans : g.spans = L.map Iv.span
  ok : ∀ x ∈ L, IvOk s.heap g x
  apart : L.Pairwise Apart
  parents : Parents s.heap L
  missing : s.missing = true ↔ g.start ≠ 0
  start : s.missing = true → s.startMissing = g.start
  start0 : g.start ≠ 0 → (∃ x ∈ L, x.lo = g.start) ∧ ∀ j, 0 ≤ j → j < g.n → g.rows j = if j < g.start then g.rows 0 else g.rows 0 - g.add
  even : g.start = 0 → ∀ j, 0 ≤ j → j < g.n → g.rows j = g.rows 0

theorem IvOk.pos {h : List (Node V)} {g : Mat V} {x : Iv} (hx : IvOk h g x) : Pos h x.path := by
  intro id hid
  obtain ⟨nd, h1, h2, -⟩ := hx.nodes id hid
  exact ⟨nd.b, by simp [blk, h1], h2⟩

theorem IvOk.head {h : List (Node V)} {g : Mat V} {x : Iv} (hx : IvOk h g x) :
    x.path.head? = some x.entry.val ∧ x.entry.val ∈ x.path := by
  have := hx.ne
  unfold Iv.entry
  cases hp : x.path with
  | nil => exact absurd hp this
  | cons i p => simp

theorem Inv.n_nonneg {s : Store V} {g : Mat V} {L : List Iv} (h : Inv s g L) : 0 ≤ g.n := tiles_le h.tiles

theorem Inv.m_pos {s : Store V} {g : Mat V} {L : List Iv} (h : Inv s g L) (hn : g.n ≠ 0) : 0 < g.rows 0 := by
  have := h.n_nonneg
  obtain ⟨x, hx, h1, h2⟩ := tiles_find (j := 0) h.tiles (Int.le_refl 0) (by omega)
  have hok := h.ok x hx
  rw [hok.rows 0 h1 h2]
  have hp := hok.pos
  cases hpath : x.path with
  | nil => exact absurd hpath hok.ne
  | cons i p =>
    rw [hpath] at hp
    obtain ⟨b, h3, h4⟩ := hp i (by simp)
    have := pathRows_nonneg (h := s.heap) (p := p) fun i hi => hp i (by simp [hi])
    simp only [pathRows, h3, Option.map_some, Option.getD_some]
    omega

/-- Where a supplied value is. -/
theorem Inv.locate {s : Store V} {g : Mat V} {L : List Iv} (h : Inv s g L) {i j : Int} (h0 : 0 ≤ j) (h1 : j < g.n)
    (h2 : 0 ≤ i) (h3 : i < g.rows j) : ∃ x ∈ L, x.lo ≤ j ∧ j ≤ x.hi ∧
      IntervalMap.find false s.cmap j = some (some x.entry) ∧
      (∃ nd, s.heap[x.entry.val]? = some nd ∧ nd.b.ty = g.ty j) ∧
      ∃ q nd, pathPos s.heap x.path i = some q ∧ DataStore.locate s.heap (i.toNat + 1) (some x.entry.val) 0 i = some (q.1, i - q.2) ∧
        s.heap[q.1]? = some nd ∧ 0 ≤ q.2 ∧ q.2 < nd.b.m ∧ 0 ≤ j - nd.offset ∧ j - nd.offset < nd.b.n ∧
        g.cell i j = some (nd.b.cell q.2 (j - nd.offset)) := by
  obtain ⟨x, hx, hl, hh⟩ := tiles_find h.tiles h0 h1
  have hok := h.ok x hx
  refine ⟨x, hx, hl, hh, ?_, ?_, ?_⟩
  · rw [h.cmap]; exact cmap_find h.tiles hx hl hh
  · obtain ⟨nd, h4, -, -, -, h5⟩ := hok.nodes _ hok.head.2
    exact ⟨nd, h4, by rw [h5, hok.ty j hl hh]⟩
  · rw [hok.rows j hl hh] at h3
    obtain ⟨q, hq⟩ := pathPos_some hok.pos h2 h3
    obtain ⟨h4, b, h5, h6, h7⟩ := pathPos_mem hq
    obtain ⟨nd, h8, h9, h10, h11, -⟩ := hok.nodes _ h4
    have hb : nd.b = b := by simpa [blk, h8] using h5
    subst hb
    refine ⟨q, nd, hq, ?_, h8, h6, h7, by omega, by omega, ?_⟩
    · refine locate_path hok.pos (by rw [← hok.head.1]; exact hok.path) ?_ (by omega)
      rw [Int.sub_zero]
      exact hq
    · rw [← hok.cell j hl hh, pathCell, hq]
      simp [cellAt, h8]

theorem Inv.agrees {s : Store V} {g : Mat V} {L : List Iv} (h : Inv s g L) : Agrees s g := by
  refine ⟨⟨h.n, h.m⟩, h.missing, ?_, ?_⟩
  · intro i j h0 h1 h2 h3
    have hn : g.n ≠ 0 := by omega
    have hm : g.m = g.rows 0 := if_neg hn
    refine ⟨fun hs => ?_, fun h4 => ?_⟩
    · rw [h.even hs j h0 h1]; omega
    · obtain ⟨x, hx, hl, hh, hf, ⟨nd0, hd, hty⟩, q, nd, hq, hloc, hnd, hr0, hr1, hc0, hc1, hcell⟩ := h.locate h0 h1 h2 h4
      obtain ⟨col, stride, hg, hv⟩ := getCol_cell (b := nd.b) (r := q.2) hc0 hc1
      have e1 : ¬ (i < 0 ∨ i ≥ s.m) := by rw [h.m]; omega
      have e2 : ¬ (j < 0 ∨ j ≥ s.n) := by rw [h.n]; omega
      refine ⟨_, hcell, ?_, fun ty hne => ?_⟩
      · unfold getElement
        rw [if_neg e1, if_neg e2, hf]
        dsimp only
        rw [hd]
        dsimp only
        rw [if_neg (by simp [hty]), hloc]
        dsimp only
        rw [hnd]
        dsimp only
        rw [hg]
        dsimp only
        rw [show i - (i - q.2) = q.2 by omega, hv]
      · unfold getElement
        rw [if_neg e1, if_neg e2, hf]
        dsimp only
        rw [hd]
        dsimp only
        rw [if_pos (by rw [hty]; exact Ne.symm hne)]
  · intro ty i j hij
    unfold getElement
    rw [h.m, h.n]
    by_cases c : i < 0 ∨ i ≥ g.m
    · rw [if_pos c]
    · rw [if_neg c, if_pos (by omega)]

end Verif.DataStore
