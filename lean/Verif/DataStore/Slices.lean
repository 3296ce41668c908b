/-
Columns and slices of stores that satisfy the invariant.
-/
import Verif.DataStore.Extract

namespace Verif.DataStore
open Verif.IntervalSet (Ivl)
variable {V : Type}

theorem valid_iff {i : Ivl} {n : Int} : i.isValidIdx n = true ↔ 0 ≤ i.lower ∧ i.lower ≤ i.upper ∧ i.upper < n := by
  unfold IntervalSet.Ivl.isValidIdx
  by_cases c : i.lower > i.upper
  · rw [if_pos c]; simp; omega
  · rw [if_neg c]
    by_cases c2 : i.lower < 0 ∨ i.upper ≥ n
    · rw [if_pos c2]; simp; omega
    · rw [if_neg c2]; simp; omega

theorem Inv.sliceCols {s : Store V} {g : Mat V} {L : List Iv} (h : Inv s g L) {W : Int → V} {ty : Ty} {rows : Ivl} {ucol ld : Int}
    (h1 : 0 ≤ rows.lower) (h2 : rows.lower ≤ rows.upper) (hu : ucol < g.n) :
    ∀ {fuel : Nat} {lcol idx : Int} {o : Out V}, 0 ≤ lcol → 0 ≤ ucol - lcol + 1 → ucol - lcol + 1 < fuel →
    (∀ j, lcol ≤ j → j ≤ ucol → rows.upper < g.rows j) →
    (∀ c r, 0 ≤ c → c ≤ ucol - lcol → rows.lower ≤ r → r ≤ rows.upper → g.cell r (lcol + c) = some (W (c * ld + idx + (r - rows.lower)))) →
    ∃ d st o', DataStore.sliceCols s ty rows ucol ld fuel lcol idx o = some (st, o') ∧ 0 ≤ d ∧
      (∀ j, lcol ≤ j → j < lcol + d → g.ty j = ty) ∧
      Filled W (Rect ld idx (rows.upper - rows.lower + 1) 0 d) o o' ∧
      ((st = .success ∧ d = ucol - lcol + 1) ∨ (st = .invalidInput ∧ d < ucol - lcol + 1 ∧ g.ty (lcol + d) ≠ ty)) := by
  intro fuel
  induction fuel with
  | zero => intro lcol idx o a b c; omega
  | succ fuel ih =>
    intro lcol idx o h3 h4 hf hrows hW
    unfold DataStore.sliceCols
    have hrect0 : ∀ k, ¬ Rect ld idx (rows.upper - rows.lower + 1) 0 0 k := by
      rintro k ⟨c, r, a1, a2, -⟩
      omega
    by_cases c1 : ucol - lcol ≥ 0
    · rw [if_pos c1]
      obtain ⟨x, hx, hl, hh⟩ := tiles_find h.tiles h3 (show lcol < g.n by omega)
      have hok := h.ok x hx
      rw [h.cmap, cmap_find h.tiles hx hl hh]
      dsimp only
      obtain ⟨nd, n1, n2, n3, n4, n5⟩ := hok.nodes _ hok.head.2
      rw [n1]
      dsimp only
      have hty : nd.b.ty = g.ty lcol := by rw [n5, hok.ty lcol hl hh]
      by_cases c2 : nd.b.ty ≠ ty
      · rw [if_pos c2]
        refine ⟨0, _, _, rfl, Int.le_refl _, fun j a b => by omega, Filled.none.congr fun k => ⟨fun w => w.elim, fun w => hrect0 k w⟩,
          Or.inr ⟨rfl, by omega, ?_⟩⟩
        rw [Int.add_zero, ← hty]
        exact c2
      · rw [if_neg c2]
        have c2' : nd.b.ty = ty := not_not.mp c2
        have hehi : x.entry.hi = x.hi := rfl
        rw [hehi]
        generalize huc : min ucol x.hi = uc
        obtain ⟨o1, e1, e2⟩ := sliceRows_filled (h := s.heap) (W := W) (lcol := lcol) (uc := uc) (lrow := rows.lower) (urow := rows.upper)
          (ld := ld) (by omega) (p := x.path)
          (by
            intro id hid
            obtain ⟨nd, a1, a2, a3, a4, -⟩ := hok.nodes id hid
            exact ⟨nd, a1, a2, by omega, by omega⟩)
          (fuel := rows.upper.toNat + 2) (q := some x.entry.val) (lr := rows.lower) (first := 0) (idxr := idx) (o := o)
          (by rw [← hok.head.1]; exact hok.path) (by omega) (by omega)
          (by
            intro _
            refine ⟨by omega, ?_⟩
            rw [← hok.rows lcol hl hh]
            have := hrows lcol (Int.le_refl _) (by omega)
            omega)
          (by
            intro c r a1 a2 a3 a4
            rw [Int.sub_zero, hok.cell (lcol + c) (by omega) (by omega)]
            exact hW c r a1 (by omega) a3 a4)
        rw [e1]
        dsimp only
        have e3 : idx + ld * (uc - lcol + 1) = idx + (uc - lcol + 1) * ld := by rw [Int.mul_comm]
        rw [e3]
        obtain ⟨d, st, o', f1, f2, f3, f4, f5⟩ := ih (lcol := uc + 1) (idx := idx + (uc - lcol + 1) * ld) (o := o1) (by omega) (by omega) (by omega)
          (fun j a b => hrows j (by omega) b)
          (by
            intro c r a1 a2 a3 a4
            have := hW (c + (uc - lcol + 1)) r (by omega) (by omega) a3 a4
            rw [show uc + 1 + c = lcol + (c + (uc - lcol + 1)) by omega, this, Int.add_mul]
            congr 2
            omega)
        refine ⟨uc - lcol + 1 + d, st, o', ?_, by omega, ?_, ?_, ?_⟩
        · rw [← f1]
        · intro j a b
          by_cases cj : j ≤ uc
          · rw [hok.ty j (by omega) (by omega), ← hok.ty lcol hl hh, ← hty, c2']
          · exact f3 j (by omega) (by omega)
        · refine (e2.trans f4).congr fun k => ?_
          rw [rect_shift, rect_cols (by omega) f2]
        · rcases f5 with ⟨w1, w2⟩ | ⟨w1, w2, w3⟩
          · exact Or.inl ⟨w1, by omega⟩
          · refine Or.inr ⟨w1, by omega, ?_⟩
            rw [show lcol + (uc - lcol + 1 + d) = uc + 1 + d by omega]
            exact w3
    · rw [if_neg c1]
      have : ucol - lcol + 1 = 0 := by omega
      exact ⟨0, _, _, rfl, Int.le_refl _, fun j a b => by omega, Filled.none.congr fun k => ⟨fun w => w.elim, fun w => hrect0 k w⟩,
          Or.inl ⟨rfl, by omega⟩⟩

theorem Inv.extractSlice {s : Store V} {g : Mat V} {L : List Iv} (h : Inv s g L) {W : Int → V} {ty : Ty} {rows cols : Ivl} {ld first : Int}
    {o : Out V} (h1 : 0 ≤ rows.lower) (h2 : rows.lower ≤ rows.upper) (h3 : rows.upper < g.m) (h4 : 0 ≤ cols.lower) (h5 : cols.lower ≤ cols.upper)
    (h6 : cols.upper < g.n) (hld : rows.upper - rows.lower + 1 ≤ ld) (hrows : ∀ j, cols.lower ≤ j → j ≤ cols.upper → rows.upper < g.rows j)
    (hW : ∀ c r, 0 ≤ c → c ≤ cols.upper - cols.lower → rows.lower ≤ r → r ≤ rows.upper →
      g.cell r (cols.lower + c) = some (W (c * ld + first + (r - rows.lower)))) :
    ∃ d st o', DataStore.extractSlice s ty rows cols ld first o = some (st, o') ∧ 0 ≤ d ∧
      (∀ j, cols.lower ≤ j → j < cols.lower + d → g.ty j = ty) ∧
      Filled W (Rect ld first (rows.upper - rows.lower + 1) 0 d) o o' ∧
      ((st = .success ∧ d = cols.upper - cols.lower + 1) ∨ (st = .invalidInput ∧ d < cols.upper - cols.lower + 1 ∧ g.ty (cols.lower + d) ≠ ty)) := by
  unfold DataStore.extractSlice
  rw [h.n, h.m, valid_iff.mpr ⟨h4, h5, h6⟩, valid_iff.mpr ⟨h1, h2, h3⟩]
  have e1 : ¬ ((!true) = true) := by decide
  rw [if_neg e1, if_neg e1, if_neg (by omega)]
  exact h.sliceCols h1 h2 h6 h4 (by omega) (by omega) hrows hW

theorem Inv.extractSlice_refused {s : Store V} {g : Mat V} {L : List Iv} (h : Inv s g L) {ty : Ty} {rows cols : Ivl} {ld first : Int}
    {o : Out V} (hno : ¬ (0 ≤ rows.lower ∧ rows.lower ≤ rows.upper ∧ rows.upper < g.m ∧ 0 ≤ cols.lower ∧ cols.lower ≤ cols.upper ∧
      cols.upper < g.n ∧ rows.upper - rows.lower + 1 ≤ ld)) :
    DataStore.extractSlice s ty rows cols ld first o = some (.invalidInput, o) := by
  unfold DataStore.extractSlice
  rw [h.n, h.m]
  cases c1 : cols.isValidIdx g.n with
  | false => rfl
  | true =>
    cases c2 : rows.isValidIdx g.m with
    | false => rfl
    | true =>
      have v1 := valid_iff.mp c1
      have v2 := valid_iff.mp c2
      have e1 : ¬ ((!true) = true) := by decide
      rw [if_neg e1, if_neg e1, if_pos (by omega)]

/-- What `extract_column` does. -/
theorem Inv.extractColumn {s : Store V} {g : Mat V} {L : List Iv} (h : Inv s g L) {ty : Ty} {idx m : Int} {o : Out V} :
    (g.start = 0 ∧ m = g.m ∧ 0 ≤ idx ∧ idx < g.n ∧ g.ty idx = ty ∧
      ∃ o', DataStore.extractColumn s ty idx m o = some (.success, o') ∧
        (∀ i, 0 ≤ i → i < m → g.cell i idx = some (o' i)) ∧ ∀ k, ¬ (0 ≤ k ∧ k < m) → o' k = o k) ∨
    (¬ (g.start = 0 ∧ m = g.m ∧ 0 ≤ idx ∧ idx < g.n ∧ g.ty idx = ty) ∧
      ∃ st, st ≠ .success ∧ DataStore.extractColumn s ty idx m o = some (st, o)) := by
  unfold DataStore.extractColumn
  by_cases c1 : g.start = 0
  · have hmiss : ¬ (s.missing = true) := fun w => h.missing.mp w c1
    rw [if_neg hmiss, h.m, h.n]
    by_cases c2 : m = g.m
    · rw [if_neg (not_not.mpr c2)]
      by_cases c3 : idx < 0 ∨ idx ≥ g.n
      · rw [if_pos c3]
        exact Or.inr ⟨by omega, _, by decide, rfl⟩
      · rw [if_neg c3]
        obtain ⟨x, hx, hl, hh⟩ := tiles_find h.tiles (j := idx) (by omega) (by omega)
        have hok := h.ok x hx
        rw [h.cmap, cmap_find h.tiles hx hl hh]
        dsimp only
        obtain ⟨nd, n1, n2, n3, n4, n5⟩ := hok.nodes _ hok.head.2
        rw [n1]
        dsimp only
        have hty : nd.b.ty = g.ty idx := by rw [n5, hok.ty idx hl hh]
        by_cases c4 : nd.b.ty ≠ ty
        · rw [if_pos c4]
          refine Or.inr ⟨?_, _, by decide, rfl⟩
          rintro ⟨-, -, -, -, w⟩
          exact c4 (by rw [hty, w])
        · rw [if_neg c4]
          refine Or.inl ⟨c1, c2, by omega, by omega, by rw [← hty]; exact not_not.mp c4, ?_⟩
          have hpr : pathRows s.heap x.path = m := by
            rw [← hok.rows idx hl hh, h.even c1 idx (by omega) (by omega), c2]
            unfold Mat.m
            rw [if_neg (by omega)]
          have hall : ∀ r, 0 ≤ r → r < pathRows s.heap x.path → ∃ v, pathCell s.heap x.path idx r = some v := by
            intro r a b
            obtain ⟨q, hq⟩ := pathPos_some hok.pos a b
            obtain ⟨h4, -⟩ := pathPos_mem hq
            obtain ⟨nd, h8, -⟩ := hok.nodes _ h4
            exact ⟨nd.b.cell q.2 (idx - nd.offset), by unfold pathCell cellAt; rw [hq]; simp [h8]⟩
          obtain ⟨o', e1, e2⟩ := columnLoop_filled (h := s.heap) (W := fun k => (pathCell s.heap x.path idx k).getD (o k)) (idx := idx) (p := x.path)
            (by
              intro id hid
              obtain ⟨nd, a1, a2, a3, a4, -⟩ := hok.nodes id hid
              exact ⟨nd, a1, a2, by omega, by omega⟩)
            (fuel := s.heap.length + 1) (q := some x.entry.val) (idxrow := 0) (o := o)
            (by rw [← hok.head.1]; exact hok.path) (by have := path_length hok.path; omega)
            (by
              intro r a b
              obtain ⟨v, hv⟩ := hall r a b
              rw [Int.zero_add, hv]
              rfl)
          refine ⟨o', e1, ?_, ?_⟩
          · intro i a b
            obtain ⟨v, hv⟩ := hall i a (by omega)
            have := e2.1 i (by omega)
            dsimp only at this
            rw [hv] at this
            rw [← hok.cell idx hl hh, hv, this]
            rfl
          · intro k hk
            exact e2.2 k (by omega)
    · rw [if_pos c2]
      exact Or.inr ⟨fun w => c2 w.2.1, _, by decide, rfl⟩
  · rw [if_pos (h.missing.mpr c1)]
    exact Or.inr ⟨fun w => c1 w.1, _, by decide, rfl⟩

end Verif.DataStore
