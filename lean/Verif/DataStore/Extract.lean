/-
What the extraction of columns and slices writes.
-/
import Verif.DataStore.Main

namespace Verif.DataStore
open Verif.IntervalSet (Ivl)
variable {V : Type}

/-- The positions in `S` get the values `W`, all others keep theirs. -/
def Filled (W : Int → V) (S : Int → Prop) (o o' : Out V) : Prop := (∀ k, S k → o' k = W k) ∧ ∀ k, ¬ S k → o' k = o k

theorem Filled.trans {W : Int → V} {S T : Int → Prop} {o o' o'' : Out V} (h : Filled W S o o') (h' : Filled W T o' o'') :
    Filled W (fun k => S k ∨ T k) o o'' := by
  constructor
  · intro k hk
    by_cases c : T k
    · exact h'.1 k c
    · rw [h'.2 k c]
      exact h.1 k (hk.resolve_right c)
  · intro k hk
    rw [h'.2 k (fun w => hk (Or.inr w)), h.2 k (fun w => hk (Or.inl w))]

theorem Filled.congr {W : Int → V} {S T : Int → Prop} {o o' : Out V} (h : Filled W S o o') (hst : ∀ k, S k ↔ T k) :
    Filled W T o o' := ⟨fun k hk => h.1 k ((hst k).mpr hk), fun k hk => h.2 k (fun w => hk ((hst k).mp w))⟩

theorem Filled.none {W : Int → V} {o : Out V} : Filled W (fun _ => False) o o := ⟨fun _ h => h.elim, fun _ _ => rfl⟩

theorem filled_put {W : Int → V} {o : Out V} {k : Int} {v : V} (h : W k = v) : Filled W (fun x => x = k) o (put o k v) := by
  constructor
  · intro x hx
    unfold put
    rw [if_pos hx, hx, h]
  · intro x hx
    unfold put
    rw [if_neg hx]

theorem copyCol_filled {W : Int → V} {bl : Int → V} {c stride idxrow : Int} : ∀ (n : Nat) (i : Int) (o : Out V),
    (∀ r, i ≤ r → r < i + n → W (idxrow + r) = bl (c + r * stride)) →
    Filled W (fun k => idxrow + i ≤ k ∧ k < idxrow + i + n) o (copyCol bl c stride idxrow n i o)
  | 0, i, o, _ => Filled.none.congr fun k => ⟨fun h => h.elim, fun h => by omega⟩
  | n + 1, i, o, hW => by
    unfold copyCol
    refine ((filled_put (hW i (Int.le_refl _) (by omega))).trans (copyCol_filled n (i + 1) _ fun r h1 h2 => hW r (by omega) (by omega))).congr ?_
    intro k
    omega

theorem copyRun_fst {bl : Int → V} {inc : Int} : ∀ (n : Nat) (idx idxD : Int) (o : Out V),
    (copyRun bl inc n (idx, idxD, o)).1 = idx + n * inc ∧ (copyRun bl inc n (idx, idxD, o)).2.1 = idxD + n
  | 0, idx, idxD, o => by simp [copyRun]
  | n + 1, idx, idxD, o => by
    unfold copyRun
    obtain ⟨h1, h2⟩ := copyRun_fst (bl := bl) (inc := inc) n (idx + inc) (idxD + 1) (put o idxD (bl idx))
    rw [h1, h2]
    push_cast
    rw [Int.add_mul]
    omega

theorem copyRun_filled {W : Int → V} {bl : Int → V} {inc : Int} : ∀ (n : Nat) (idx idxD : Int) (o : Out V),
    (∀ r : Int, 0 ≤ r → r < n → W (idxD + r) = bl (idx + r * inc)) →
    Filled W (fun k => idxD ≤ k ∧ k < idxD + n) o (copyRun bl inc n (idx, idxD, o)).2.2
  | 0, idx, idxD, o, _ => Filled.none.congr fun k => ⟨fun h => h.elim, fun h => by omega⟩
  | n + 1, idx, idxD, o, hW => by
    unfold copyRun
    have h0 : W idxD = bl idx := by simpa using hW 0 (Int.le_refl _) (by omega)
    refine ((filled_put h0).trans (copyRun_filled n (idx + inc) (idxD + 1) _ fun r h1 h2 => ?_)).congr ?_
    · have := hW (r + 1) (by omega) (by omega)
      rw [show idxD + 1 + r = idxD + (r + 1) by omega, this, Int.add_mul]
      congr 1
      omega
    · intro k
      omega

/-- Positions of `nrows` rows from `t` on in the columns `q`, …, `q + n - 1` of an array. -/
def Rect (ld t nrows q n : Int) (k : Int) : Prop := ∃ c r, q ≤ c ∧ c < q + n ∧ 0 ≤ r ∧ r < nrows ∧ k = c * ld + t + r

theorem rect_step {ld t nrows q : Int} {n : Nat} (k : Int) :
    ((q * ld + t ≤ k ∧ k < q * ld + t + nrows) ∨ Rect ld t nrows (q + 1) n k) ↔ Rect ld t nrows q (n + 1) k := by
  constructor
  · rintro (⟨h1, h2⟩ | ⟨c, r, h1, h2, h3, h4, h5⟩)
    · exact ⟨q, k - (q * ld + t), Int.le_refl _, by omega, by omega, by omega, by omega⟩
    · exact ⟨c, r, by omega, by omega, h3, h4, h5⟩
  · rintro ⟨c, r, h1, h2, h3, h4, h5⟩
    by_cases hc : c = q
    · subst hc
      exact Or.inl ⟨by omega, by omega⟩
    · exact Or.inr ⟨c, r, by omega, by omega, h3, h4, h5⟩

theorem copyColMajor_filled {W : Int → V} {b : Block V} {rows : Ivl} {nrows idxStart ld : Int} (hn : 0 ≤ nrows) :
    ∀ (n : Nat) (q c0 : Int) (o : Out V),
    (∀ c r, q ≤ c → c < q + n → 0 ≤ r → r < nrows → W (c * ld + idxStart + r) = b.bl ((c0 + c - q) * b.m + rows.lower + r)) →
    Filled W (Rect ld idxStart nrows q n) o (copyColMajor b rows nrows idxStart ld n (c0 * b.m, q * ld, o)).2.2
  | 0, q, c0, o, _ => Filled.none.congr fun k => ⟨fun h => h.elim, fun ⟨c, r, h⟩ => by omega⟩
  | n + 1, q, c0, o, hW => by
    unfold copyColMajor
    obtain ⟨h1, h2⟩ := copyRun_fst (bl := b.bl) (inc := 1) nrows.toNat (c0 * b.m + rows.lower) (q * ld + idxStart) o
    dsimp only
    rw [h1, h2]
    have e1 : c0 * b.m + rows.lower + ((nrows.toNat : Nat) : Int) * 1 + (b.m - nrows - rows.lower) = (c0 + 1) * b.m := by
      rw [Int.add_mul]; omega
    have e2 : q * ld + idxStart + ((nrows.toNat : Nat) : Int) + (ld - nrows - idxStart) = (q + 1) * ld := by
      rw [Int.add_mul]; omega
    rw [e1, e2]
    refine ((copyRun_filled (W := W) nrows.toNat _ _ o fun r hr0 hr1 => ?_).trans
      (copyColMajor_filled hn n (q + 1) (c0 + 1) _ fun c r a1 a2 a3 a4 => ?_)).congr ?_
    · rw [hW q r (Int.le_refl _) (by omega) hr0 (by omega)]
      congr 1
      rw [show c0 + q - q = c0 by omega]
      omega
    · rw [hW c r (by omega) (by omega) a3 a4]
      congr 4
      omega
    · intro k
      have := rect_step (ld := ld) (t := idxStart) (nrows := nrows) (q := q) (n := n) k
      push_cast
      rw [← this, show ((nrows.toNat : Nat) : Int) = nrows by omega]

theorem copyRowMajor_filled {W : Int → V} {b : Block V} {cols rows : Ivl} {nrows idxStart ld : Int} (hn : 0 ≤ nrows) :
    ∀ (n : Nat) (q : Int) (o : Out V),
    (∀ c r, q ≤ c → c < q + n → 0 ≤ r → r < nrows → W (c * ld + idxStart + r) = b.bl ((rows.lower + r) * b.n + (cols.lower + c))) →
    Filled W (Rect ld idxStart nrows q n) o (copyRowMajor b cols rows nrows idxStart ld n q (q * ld, o)).2
  | 0, q, o, _ => Filled.none.congr fun k => ⟨fun h => h.elim, fun ⟨c, r, h⟩ => by omega⟩
  | n + 1, q, o, hW => by
    unfold copyRowMajor
    obtain ⟨h1, h2⟩ := copyRun_fst (bl := b.bl) (inc := b.n) nrows.toNat (rows.lower * b.n + cols.lower + q) (q * ld + idxStart) o
    dsimp only
    rw [h2]
    have e2 : q * ld + idxStart + ((nrows.toNat : Nat) : Int) + (ld - nrows - idxStart) = (q + 1) * ld := by
      rw [Int.add_mul]; omega
    rw [e2]
    refine ((copyRun_filled (W := W) nrows.toNat _ _ o fun r hr0 hr1 => ?_).trans
      (copyRowMajor_filled hn n (q + 1) _ fun c r a1 a2 a3 a4 => ?_)).congr ?_
    · rw [hW q r (Int.le_refl _) (by omega) hr0 (by omega)]
      congr 1
      rw [Int.add_mul]
      omega
    · exact hW c r (by omega) (by omega) a3 a4
    · intro k
      have := rect_step (ld := ld) (t := idxStart) (nrows := nrows) (q := q) (n := n) k
      push_cast
      rw [← this, show ((nrows.toNat : Nat) : Int) = nrows by omega]

theorem copySlice_filled {W : Int → V} {b : Block V} {cols rows : Ivl} {idxStart ld : Int} {o : Out V}
    (h1 : 0 ≤ cols.lower) (h2 : cols.lower ≤ cols.upper) (h3 : cols.upper < b.n)
    (h4 : 0 ≤ rows.lower) (h5 : rows.lower ≤ rows.upper) (h6 : rows.upper < b.m)
    (hW : ∀ c r, 0 ≤ c → c ≤ cols.upper - cols.lower → 0 ≤ r → r ≤ rows.upper - rows.lower →
      W (c * ld + idxStart + r) = b.cell (rows.lower + r) (cols.lower + c)) :
    ∃ o', copySlice b cols rows idxStart ld o = (.success, o') ∧
      Filled W (Rect ld idxStart (rows.upper - rows.lower + 1) 0 (cols.upper - cols.lower + 1)) o o' := by
  have v1 : cols.isValidIdx b.n = true := by
    unfold IntervalSet.Ivl.isValidIdx
    simp
    omega
  have v2 : rows.isValidIdx b.m = true := by
    unfold IntervalSet.Ivl.isValidIdx
    simp
    omega
  unfold copySlice
  rw [v1, v2]
  have ec : ((cols.upper - cols.lower + 1).toNat : Int) = cols.upper - cols.lower + 1 := by omega
  cases ho : b.order with
  | col =>
    refine ⟨_, rfl, ?_⟩
    have := copyColMajor_filled (W := W) (b := b) (rows := rows) (nrows := rows.upper - rows.lower + 1) (idxStart := idxStart) (ld := ld) (by omega)
      (cols.upper - cols.lower + 1).toNat 0 cols.lower o (by
        intro c r a1 a2 a3 a4
        rw [hW c r a1 (by omega) a3 (by omega)]
        unfold Block.cell
        rw [ho]
        dsimp only
        congr 1
        rw [show cols.lower + c - 0 = cols.lower + c by omega]
        omega)
    rw [ec, Int.zero_mul] at this
    exact this
  | row =>
    refine ⟨_, rfl, ?_⟩
    have := copyRowMajor_filled (W := W) (b := b) (cols := cols) (rows := rows) (nrows := rows.upper - rows.lower + 1) (idxStart := idxStart) (ld := ld) (by omega)
      (cols.upper - cols.lower + 1).toNat 0 o (by
        intro c r a1 a2 a3 a4
        rw [hW c r a1 (by omega) a3 (by omega)]
        unfold Block.cell
        rw [ho])
    rw [ec, Int.zero_mul] at this
    exact this

theorem pathCell_cons {h : List (Node V)} {x : Nat} {p : List Nat} {nd : Node V} (hx : h[x]? = some nd) (j i : Int) :
    pathCell h (x :: p) j i = if i < nd.b.m then (if 0 ≤ i then some (nd.b.cell i (j - nd.offset)) else none) else pathCell h p j (i - nd.b.m) := by
  have hb : blk h x = some nd.b := by unfold blk; rw [hx]; rfl
  unfold pathCell
  have hcons : pathPos h (x :: p) i = if i < nd.b.m then (if 0 ≤ i then some (x, i) else none) else pathPos h p (i - nd.b.m) := by
    simp only [pathPos, hb]
  rw [hcons]
  by_cases c : i < nd.b.m
  · rw [if_pos c, if_pos c]
    by_cases c2 : 0 ≤ i
    · rw [if_pos c2, if_pos c2]
      simp only [Option.bind_some]
      unfold cellAt
      rw [hx]
      rfl
    · rw [if_neg c2, if_neg c2]
      rfl
  · rw [if_neg c, if_neg c]

theorem pathRows_cons {h : List (Node V)} {x : Nat} {p : List Nat} {nd : Node V} (hx : h[x]? = some nd) :
    pathRows h (x :: p) = nd.b.m + pathRows h p := by
  have hb : blk h x = some nd.b := by unfold blk; rw [hx]; rfl
  simp only [pathRows, hb, Option.map_some, Option.getD_some]

theorem nx_eq {h : List (Node V)} {x : Nat} {nd : Node V} (hx : h[x]? = some nd) : nx h x = some nd.next := by
  unfold nx
  rw [hx]
  rfl

theorem columnLoop_filled {h : List (Node V)} {W : Int → V} {idx : Int} {p : List Nat}
    (hn : ∀ id ∈ p, ∃ nd, h[id]? = some nd ∧ 0 < nd.b.m ∧ nd.offset ≤ idx ∧ idx < nd.offset + nd.b.n) :
    ∀ {fuel : Nat} {q : Option Nat} {idxrow : Int} {o : Out V}, Path h q p → p.length < fuel →
    (∀ r, 0 ≤ r → r < pathRows h p → pathCell h p idx r = some (W (idxrow + r))) →
    ∃ o', columnLoop h idx fuel q idxrow o = some (.success, o') ∧ Filled W (fun k => idxrow ≤ k ∧ k < idxrow + pathRows h p) o o' := by
  induction p with
  | nil =>
    intro fuel q idxrow o hp hf hW
    cases hp
    cases fuel with
    | zero => omega
    | succ fuel => exact ⟨o, rfl, Filled.none.congr fun k => ⟨fun h => h.elim, fun h => by simp only [pathRows] at h; omega⟩⟩
  | cons x p ih =>
    intro fuel q idxrow o hp hf hW
    cases hp with
    | cons h1 h2 =>
      obtain ⟨nd, w1, w2, w3, w4⟩ := hn x (List.mem_cons_self ..)
      cases fuel with
      | zero => omega
      | succ fuel =>
        unfold columnLoop
        rw [w1]
        dsimp only
        rw [nx_eq w1] at h1
        injection h1 with h1
        have hpr := pathRows_cons (p := p) w1
        have hpos : Pos h p := by
          intro id hid
          obtain ⟨nd, a, b, _⟩ := hn id (List.mem_cons_of_mem _ hid)
          exact ⟨nd.b, by unfold blk; rw [a]; rfl, b⟩
        have hp0 := pathRows_nonneg hpos
        have hget : ∃ col stride, getCol nd.b (idx - nd.offset) = some (col, stride) ∧
            ∀ r, 0 ≤ r → r < nd.b.m → W (idxrow + r) = nd.b.bl (col + r * stride) := by
          obtain ⟨col, stride, e1, -⟩ := getCol_cell (b := nd.b) (r := 0) (show 0 ≤ idx - nd.offset by omega) (by omega)
          refine ⟨col, stride, e1, ?_⟩
          intro r a1 a2
          obtain ⟨col', stride', e1', e2'⟩ := getCol_cell (b := nd.b) (r := r) (show 0 ≤ idx - nd.offset by omega) (by omega)
          rw [e1] at e1'
          injection e1' with e1'
          injection e1' with ea eb
          subst ea eb
          have := hW r a1 (by omega)
          rw [pathCell_cons w1, if_pos a2, if_pos a1] at this
          injection this with this
          rw [← this, e2']
        obtain ⟨col, stride, e1, e2⟩ := hget
        rw [e1]
        dsimp only
        have hem : ((nd.b.m.toNat : Nat) : Int) = nd.b.m := by omega
        have f1 := copyCol_filled (W := W) (bl := nd.b.bl) (c := col) (stride := stride) (idxrow := idxrow) nd.b.m.toNat 0 o
          (by intro r a b; exact e2 r a (by omega))
        obtain ⟨o', g1, g2⟩ := ih (fun id hid => hn id (List.mem_cons_of_mem _ hid)) (fuel := fuel) (q := nd.next) (idxrow := idxrow + nd.b.m)
          (o := copyCol nd.b.bl col stride idxrow nd.b.m.toNat 0 o) (by rw [h1]; exact h2) (by simp only [List.length_cons] at hf; omega)
          (by
            intro r a b
            have := hW (r + nd.b.m) (by omega) (by omega)
            rw [pathCell_cons w1, if_neg (by omega)] at this
            rw [show r + nd.b.m - nd.b.m = r by omega] at this
            rw [this]
            congr 2
            omega)
        refine ⟨o', g1, (f1.trans g2).congr ?_⟩
        intro k
        rw [hpr]
        omega

theorem rect_rows {ld t a b q n : Int} (ha : 0 ≤ a) (hb : 0 ≤ b) (k : Int) :
    (Rect ld t a q n k ∨ Rect ld (t + a) b q n k) ↔ Rect ld t (a + b) q n k := by
  constructor
  · rintro (⟨c, r, h1, h2, h3, h4, h5⟩ | ⟨c, r, h1, h2, h3, h4, h5⟩)
    · exact ⟨c, r, h1, h2, h3, by omega, h5⟩
    · exact ⟨c, r + a, h1, h2, by omega, by omega, by omega⟩
  · rintro ⟨c, r, h1, h2, h3, h4, h5⟩
    by_cases hr : r < a
    · exact Or.inl ⟨c, r, h1, h2, h3, hr, h5⟩
    · exact Or.inr ⟨c, r - a, h1, h2, by omega, by omega, by omega⟩

theorem rect_cols {ld t a q n m : Int} (hn : 0 ≤ n) (hm : 0 ≤ m) (k : Int) :
    (Rect ld t a q n k ∨ Rect ld t a (q + n) m k) ↔ Rect ld t a q (n + m) k := by
  constructor
  · rintro (⟨c, r, h1, h2, h3, h4, h5⟩ | ⟨c, r, h1, h2, h3, h4, h5⟩)
    · exact ⟨c, r, h1, by omega, h3, h4, h5⟩
    · exact ⟨c, r, by omega, by omega, h3, h4, h5⟩
  · rintro ⟨c, r, h1, h2, h3, h4, h5⟩
    by_cases hc : c < q + n
    · exact Or.inl ⟨c, r, h1, hc, h3, h4, h5⟩
    · exact Or.inr ⟨c, r, by omega, by omega, h3, h4, h5⟩

/-- Moving the columns is the same as moving the array. -/
theorem rect_shift {ld t a q n d : Int} (k : Int) : Rect ld (t + d * ld) a q n k ↔ Rect ld t a (q + d) n k := by
  constructor
  · rintro ⟨c, r, h1, h2, h3, h4, h5⟩
    refine ⟨c + d, r, by omega, by omega, h3, h4, ?_⟩
    rw [Int.add_mul]
    omega
  · rintro ⟨c, r, h1, h2, h3, h4, h5⟩
    refine ⟨c - d, r, by omega, by omega, h3, h4, ?_⟩
    rw [Int.sub_mul]
    omega

theorem rect_empty {ld t a q n : Int} (h : a ≤ 0) (k : Int) : ¬ Rect ld t a q n k := by
  rintro ⟨c, r, h1, h2, h3, h4, h5⟩
  omega

theorem sliceRows_filled {h : List (Node V)} {W : Int → V} {lcol uc lrow urow ld : Int} (hlu : lcol ≤ uc) {p : List Nat}
    (hn : ∀ id ∈ p, ∃ nd, h[id]? = some nd ∧ 0 < nd.b.m ∧ nd.offset ≤ lcol ∧ uc < nd.offset + nd.b.n) :
    ∀ {fuel : Nat} {q : Option Nat} {lr first idxr : Int} {o : Out V}, Path h q p → lr = max first lrow → 0 < fuel →
      (lr ≤ urow → urow - first + 1 < fuel ∧ urow - first < pathRows h p) →
    (∀ c r, 0 ≤ c → c ≤ uc - lcol → lr ≤ r → r ≤ urow → pathCell h p (lcol + c) (r - first) = some (W (c * ld + idxr + (r - lr)))) →
    ∃ o', sliceRows h lcol uc lrow urow ld fuel q lr first idxr o = some (.success, o') ∧
      Filled W (Rect ld idxr (urow - lr + 1) 0 (uc - lcol + 1)) o o' := by
  induction p with
  | nil =>
    intro fuel q lr first idxr o hp hlr hf0 hf hW
    cases hp
    have hlt : ¬ urow - lr ≥ 0 := by
      intro w
      have := (hf (by omega)).2
      simp only [pathRows] at this
      omega
    cases fuel with
    | zero => omega
    | succ fuel =>
      unfold sliceRows
      rw [if_neg hlt]
      exact ⟨o, rfl, Filled.none.congr fun k => ⟨fun h => h.elim, fun h => rect_empty (by omega) k h⟩⟩
  | cons x p ih =>
    intro fuel q lr first idxr o hp hlr hf0 hf hW
    cases hp with
    | cons h1 h2 =>
      obtain ⟨nd, w1, w2, w3, w4⟩ := hn x (List.mem_cons_self ..)
      rw [nx_eq w1] at h1
      injection h1 with h1
      have hpr := pathRows_cons (p := p) w1
      cases fuel with
      | zero => omega
      | succ fuel =>
        unfold sliceRows
        by_cases c1 : urow - lr ≥ 0
        · rw [if_pos c1]
          dsimp only
          rw [w1]
          dsimp only
          obtain ⟨hf1, hf2⟩ := hf (by omega)
          generalize hur : min urow (first + nd.b.m - 1) = ur
          by_cases c2 : ur - first ≥ lr - first
          · rw [if_pos c2]
            obtain ⟨o1, e1, e2⟩ := copySlice_filled (W := W) (b := nd.b) (cols := ⟨lcol - nd.offset, uc - nd.offset⟩)
              (rows := ⟨lr - first, ur - first⟩) (idxStart := idxr) (ld := ld) (o := o)
              (by dsimp only; omega) (by dsimp only; omega) (by dsimp only; omega) (by dsimp only; omega) (by dsimp only; omega)
              (by dsimp only; omega)
              (by
                dsimp only
                intro c r a1 a2 a3 a4
                have := hW c (lr + r) a1 (by omega) (by omega) (by omega)
                rw [pathCell_cons w1, if_pos (by omega), if_pos (by omega)] at this
                injection this with this
                rw [show lr + r - lr = r by omega] at this
                rw [← this]
                congr 1 <;> omega)
            rw [e1]
            dsimp only
            dsimp only at e2
            obtain ⟨o', g1, g2⟩ := ih (fun id hid => hn id (List.mem_cons_of_mem _ hid)) (fuel := fuel) (q := nd.next)
              (lr := max (ur + 1) lrow) (first := ur + 1) (idxr := idxr + (ur - lr + 1)) (o := o1) (by rw [h1]; exact h2) rfl (by omega)
              (by intro w; omega)
              (by
                intro c r a1 a2 a3 a4
                have hur2 : ur = first + nd.b.m - 1 := by omega
                have := hW c r a1 a2 (by omega) a4
                rw [pathCell_cons w1, if_neg (by omega)] at this
                rw [show r - (ur + 1) = r - first - nd.b.m by omega, this]
                congr 2
                omega)
            refine ⟨o', g1, (e2.trans g2).congr ?_⟩
            intro k
            have key := rect_rows (ld := ld) (t := idxr) (a := ur - lr + 1) (b := urow - ur) (q := 0) (n := uc - lcol + 1) (by omega) (by omega) k
            rw [show ur - first - (lr - first) + 1 = ur - lr + 1 by omega, show uc - nd.offset - (lcol - nd.offset) + 1 = uc - lcol + 1 by omega,
              show urow - max (ur + 1) lrow + 1 = urow - ur by omega, key, show ur - lr + 1 + (urow - ur) = urow - lr + 1 by omega]
          · rw [if_neg c2]
            obtain ⟨o', g1, g2⟩ := ih (fun id hid => hn id (List.mem_cons_of_mem _ hid)) (fuel := fuel) (q := nd.next)
              (lr := max (ur + 1) lrow) (first := ur + 1) (idxr := idxr) (o := o) (by rw [h1]; exact h2) rfl (by omega)
              (by intro w; omega)
              (by
                intro c r a1 a2 a3 a4
                have hur2 : ur = first + nd.b.m - 1 := by omega
                have := hW c r a1 a2 (by omega) a4
                rw [pathCell_cons w1, if_neg (by omega)] at this
                rw [show r - (ur + 1) = r - first - nd.b.m by omega, this]
                congr 2
                omega)
            refine ⟨o', g1, ?_⟩
            rw [show max (ur + 1) lrow = lr by omega] at g2
            exact g2
        · rw [if_neg c1]
          exact ⟨o, rfl, Filled.none.congr fun k => ⟨fun h => h.elim, fun h => rect_empty (by omega) k h⟩⟩

end Verif.DataStore
