/-
Selections: what the calls select, and what `extract_selection` writes.
-/
import Verif.DataStore.Slices
import Verif.IntervalSet.Proof2
import Mathlib.Tactic.ByContra

namespace Verif.DataStore
open Verif.IntervalSet (Ivl Canonical Holds)
variable {V : Type}

/-- The members of a list of intervals, one after the other. -/
def flat : List Ivl → List Int
  | [] => []
  | i :: is => (List.range (width i).toNat).map (fun k : Nat => i.lower + (k : Int)) ++ flat is

def total (is : List Ivl) : Int := (is.map width).sum

theorem total_nil : total [] = 0 := rfl
theorem total_cons (i : Ivl) (is : List Ivl) : total (i :: is) = width i + total is := by simp [total]

theorem total_nonneg {is : List Ivl} (h : ∀ i ∈ is, i.lower ≤ i.upper) : 0 ≤ total is := by
  induction is with
  | nil => exact Int.le_refl 0
  | cons i is ih =>
    rw [total_cons]
    have := ih fun i hi => h i (List.mem_cons_of_mem _ hi)
    have := h i (List.mem_cons_self ..)
    unfold width
    omega

theorem flat_length {is : List Ivl} (h : ∀ i ∈ is, i.lower ≤ i.upper) : ((flat is).length : Int) = total is := by
  induction is with
  | nil => rfl
  | cons i is ih =>
    rw [total_cons, ← ih fun i hi => h i (List.mem_cons_of_mem _ hi)]
    have := h i (List.mem_cons_self ..)
    simp only [flat, List.length_append, List.length_map, List.length_range]
    unfold width
    omega

theorem flat_head {i : Ivl} {is : List Ivl} {k : Int} (h0 : 0 ≤ k) (h1 : k < width i) : (flat (i :: is))[k.toNat]? = some (i.lower + k) := by
  unfold flat
  rw [List.getElem?_append_left (by simp; omega), List.getElem?_map, List.getElem?_range (by omega)]
  simp
  omega

theorem flat_tail {i : Ivl} {is : List Ivl} {t : Nat} {w : Int} (hw : w = width i) (h : 0 ≤ w) :
    (flat (i :: is))[(w + t).toNat]? = (flat is)[t]? := by
  subst hw
  rw [show flat (i :: is) = (List.range (width i).toNat).map (fun k : Nat => i.lower + (k : Int)) ++ flat is from rfl,
    List.getElem?_append_right (by simp only [List.length_map, List.length_range]; omega)]
  simp only [List.length_map, List.length_range]
  rw [show (width i + (t : Int)).toNat - (width i).toNat = t by omega]

theorem mem_flat {is : List Ivl} {k : Int} : k ∈ flat is ↔ Holds is k := by
  induction is with
  | nil => simp [flat, Holds]
  | cons i is ih =>
    unfold flat
    rw [List.mem_append, ih]
    unfold Holds
    constructor
    · rintro (h | ⟨x, hx, h⟩)
      · obtain ⟨n, hn, rfl⟩ := List.mem_map.mp h
        rw [List.mem_range] at hn
        unfold width at hn
        exact ⟨i, List.mem_cons_self .., by omega, by omega⟩
      · exact ⟨x, List.mem_cons_of_mem _ hx, h⟩
    · rintro ⟨x, hx, h1, h2⟩
      rcases List.mem_cons.mp hx with rfl | hx
      · left
        refine List.mem_map.mpr ⟨(k - x.lower).toNat, ?_, by omega⟩
        rw [List.mem_range]
        unfold width
        omega
      · exact Or.inr ⟨x, hx, h1, h2⟩

theorem flat_sorted {is : List Ivl} (h : Canonical is) : (flat is).Pairwise (· < ·) := by
  induction is with
  | nil => exact .nil
  | cons i is ih =>
    obtain ⟨h1, h2⟩ := h
    rw [List.pairwise_cons] at h2
    unfold flat
    rw [List.pairwise_append]
    refine ⟨?_, ih ⟨fun i hi => h1 i (List.mem_cons_of_mem _ hi), h2.2⟩, ?_⟩
    · rw [List.pairwise_map]
      refine List.pairwise_lt_range.imp ?_
      intro a b hab
      omega
    · intro a ha b hb
      obtain ⟨n, hn, rfl⟩ := List.mem_map.mp ha
      rw [List.mem_range] at hn
      obtain ⟨x, hx, h3, h4⟩ := mem_flat.mp hb
      have := h2.1 x hx
      unfold width at hn
      omega

/-- There is one increasing list with given members. -/
theorem sorted_unique : ∀ {l l' : List Int}, l.Pairwise (· < ·) → l'.Pairwise (· < ·) → (∀ k, k ∈ l ↔ k ∈ l') → l = l'
  | [], [], _, _, _ => rfl
  | [], b :: l', _, _, h => absurd ((h b).mpr (List.mem_cons_self ..)) (by simp)
  | a :: l, [], _, _, h => absurd ((h a).mp (List.mem_cons_self ..)) (by simp)
  | a :: l, b :: l', h1, h2, h => by
    rw [List.pairwise_cons] at h1 h2
    have hab : a = b := by
      rcases List.mem_cons.mp ((h a).mp (List.mem_cons_self ..)) with e | e
      · exact e
      · rcases List.mem_cons.mp ((h b).mpr (List.mem_cons_self ..)) with e' | e'
        · exact e'.symm
        · have := h1.1 b e'
          have := h2.1 a e
          omega
    subst hab
    congr 1
    refine sorted_unique h1.2 h2.2 fun k => ?_
    constructor
    · intro hk
      rcases List.mem_cons.mp ((h k).mp (List.mem_cons_of_mem _ hk)) with e | e
      · have := h1.1 k hk; omega
      · exact e
    · intro hk
      rcases List.mem_cons.mp ((h k).mpr (List.mem_cons_of_mem _ hk)) with e | e
      · have := h2.1 k hk; omega
      · exact e

/-- The rows selected by one column interval. -/
theorem Inv.selRowLoop {s : Store V} {g : Mat V} {L : List Iv} (h : Inv s g L) {W : Int → V} {ty : Ty} {col : Ivl} {ld : Int} {size : Option Int}
    (hcomp : g.start = 0) (h4 : 0 ≤ col.lower) (h5 : col.lower ≤ col.upper) (h6 : col.upper < g.n) :
    ∀ {rows : List Ivl} {idx : Int} {o : Out V}, (∀ row ∈ rows, 0 ≤ row.lower ∧ row.lower ≤ row.upper ∧ row.upper < g.m) → total rows ≤ ld →
    (∀ sz, size = some sz → idx + ld * (width col - 1) + total rows ≤ sz) →
    (∀ c, 0 ≤ c → c < width col → ∀ (t : Nat) r, (flat rows)[t]? = some r → g.cell r (col.lower + c) = some (W (c * ld + idx + t))) →
    ∃ st o' S, DataStore.selRowLoop s ty col ld size rows idx o = some (st, o') ∧ (∀ k, S k → Rect ld idx (total rows) 0 (width col) k) ∧
      Filled W S o o' ∧
      ((st = .success ∧ (rows ≠ [] → ∀ j, col.lower ≤ j → j ≤ col.upper → g.ty j = ty) ∧ ∀ k, Rect ld idx (total rows) 0 (width col) k → S k) ∨
       (st = .invalidInput ∧ ∃ j, col.lower ≤ j ∧ j ≤ col.upper ∧ g.ty j ≠ ty)) := by
  intro rows
  induction rows with
  | nil =>
    intro idx o hr hld hsz hW
    exact ⟨.success, o, fun _ => False, rfl, fun k w => w.elim, Filled.none, Or.inl ⟨rfl, fun w => absurd rfl w, fun k w => rect_empty (Int.le_refl 0) k w⟩⟩
  | cons row rows ih =>
    intro idx o hr hld hsz hW
    obtain ⟨r1, r2, r3⟩ := hr row (List.mem_cons_self ..)
    have hr' : ∀ row ∈ rows, 0 ≤ row.lower ∧ row.lower ≤ row.upper ∧ row.upper < g.m := fun x hx => hr x (List.mem_cons_of_mem _ hx)
    have ht := total_nonneg fun x hx => (hr' x hx).2.1
    rw [total_cons] at hld hsz ⊢
    have hm : g.m = g.rows 0 := by unfold Mat.m; rw [if_neg (by omega)]
    have hw : width row = row.upper - row.lower + 1 := rfl
    have hwc : width col = col.upper - col.lower + 1 := rfl
    unfold DataStore.selRowLoop
    obtain ⟨d, st, o1, e1, e2, e3, e4, e5⟩ := h.extractSlice (W := W) (ty := ty) (rows := row) (cols := col) (ld := ld) (first := idx) (o := o)
      r1 r2 r3 h4 h5 h6 (by omega) (fun j a b => by rw [h.even hcomp j (by omega) (by omega)]; omega)
      (by
        intro c r a1 a2 a3 a4
        have := hW c a1 (by omega) (r - row.lower).toNat r (by
          rw [flat_head (i := row) (is := rows) (k := r - row.lower) (by omega) (by omega)]
          congr 1
          omega)
        rw [this]
        congr 2
        omega)
    rw [e1]
    rcases e5 with ⟨rfl, rfl⟩ | ⟨rfl, w2, w3⟩
    · dsimp only
      have hany : ¬ (size.any (fun sz => decide (sz < idx + ld * (width col - 1) + width row)) = true) := by
        cases hs : size with
        | none => simp
        | some sz =>
          have := hsz sz hs
          simp
          omega
      rw [if_neg hany]
      obtain ⟨st, o', S, f1, f2, f3, f4⟩ := ih (idx := idx + width row) (o := o1) hr' (by omega)
        (fun sz hs => by have := hsz sz hs; omega)
        (by
          intro c a1 a2 t r htr
          have := hW c a1 a2 (width row + t).toNat r (by rw [flat_tail rfl (by omega)]; exact htr)
          rw [this]
          congr 2
          omega)
      refine ⟨st, o', fun k => Rect ld idx (width row) 0 (width col) k ∨ S k, f1, ?_, e4.trans f3, ?_⟩
      · intro k hk
        rw [← rect_rows (by omega) ht]
        exact hk.imp_right fun w => f2 k w
      · rcases f4 with ⟨w1, w2, w3⟩ | w
        · refine Or.inl ⟨w1, fun _ j a b => e3 j a (by omega), ?_⟩
          intro k hk
          rw [← rect_rows (by omega) ht] at hk
          exact hk.imp_right fun w => w3 k w
        · exact Or.inr w
    · refine ⟨.invalidInput, o1, _, rfl, ?_, e4, Or.inr ⟨rfl, _, by omega, by omega, w3⟩⟩
      rintro k ⟨c, r, a1, a2, a3, a4, a5⟩
      exact ⟨c, r, a1, by omega, a3, by omega, a5⟩

theorem Inv.selColLoop {s : Store V} {g : Mat V} {L : List Iv} (h : Inv s g L) {W : Int → V} {ty : Ty} {rows : List Ivl} {ld : Int} {size : Option Int}
    (hcomp : g.start = 0) (hr : ∀ row ∈ rows, 0 ≤ row.lower ∧ row.lower ≤ row.upper ∧ row.upper < g.m) (hrn : rows ≠ []) (hld : total rows ≤ ld) :
    ∀ {cols : List Ivl} {q : Int} {o : Out V}, (∀ col ∈ cols, 0 ≤ col.lower ∧ col.lower ≤ col.upper ∧ col.upper < g.n) →
    (∀ sz, size = some sz → (q + total cols) * ld ≤ sz) →
    (∀ (n : Nat) c, (flat cols)[n]? = some c → ∀ (t : Nat) r, (flat rows)[t]? = some r → g.cell r c = some (W ((q + n) * ld + t))) →
    ∃ st o' S, DataStore.selColLoop s ty rows ld ld size cols q o = some (st, o') ∧ (∀ k, S k → Rect ld 0 (total rows) q (total cols) k) ∧
      Filled W S o o' ∧
      ((st = .success ∧ (∀ j ∈ flat cols, g.ty j = ty) ∧ ∀ k, Rect ld 0 (total rows) q (total cols) k → S k) ∨
       (st = .invalidInput ∧ ∃ j ∈ flat cols, g.ty j ≠ ty)) := by
  have ht := total_nonneg fun x hx => (hr x hx).2.1
  intro cols
  induction cols with
  | nil =>
    intro q o hc hsz hW
    refine ⟨.success, o, fun _ => False, rfl, fun k w => w.elim, Filled.none, Or.inl ⟨rfl, fun j hj => absurd hj (by simp [flat]), ?_⟩⟩
    rintro k ⟨c, r, a1, a2, -⟩
    rw [total_nil] at a2
    omega
  | cons col cols ih =>
    intro q o hc hsz hW
    obtain ⟨r1, r2, r3⟩ := hc col (List.mem_cons_self ..)
    have hc' : ∀ row ∈ cols, 0 ≤ row.lower ∧ row.lower ≤ row.upper ∧ row.upper < g.n := fun x hx => hc x (List.mem_cons_of_mem _ hx)
    have htc := total_nonneg fun x hx => (hc' x hx).2.1
    rw [total_cons] at hsz ⊢
    have hwc : width col = col.upper - col.lower + 1 := rfl
    have hmem : ∀ j, col.lower ≤ j → j ≤ col.upper → j ∈ flat (col :: cols) := fun j a b =>
      mem_flat.mpr ⟨col, List.mem_cons_self .., a, b⟩
    unfold DataStore.selColLoop
    obtain ⟨st, o1, S, e1, e2, e3, e4⟩ := h.selRowLoop (W := W) (ty := ty) (col := col) (ld := ld) (size := size) hcomp r1 r2 r3 (rows := rows)
      (idx := q * ld) (o := o) hr hld
      (by
        intro sz hs
        have h1 := hsz sz hs
        have h2 : 0 ≤ total cols * ld := Int.mul_nonneg htc (by omega)
        rw [← Int.add_assoc, Int.add_mul, Int.add_mul] at h1
        have h3 : ld * (width col - 1) = width col * ld - ld := by
          rw [Int.mul_sub, Int.mul_one, Int.mul_comm]
        rw [h3]
        omega)
      (by
        intro c a1 a2 t r htr
        have := hW c.toNat (col.lower + c) (flat_head a1 a2) t r htr
        rw [this, show ((c.toNat : Nat) : Int) = c by omega, Int.add_mul]
        congr 2
        omega)
    rw [e1]
    have hsh : ∀ k, Rect ld (q * ld) (total rows) 0 (width col) k ↔ Rect ld 0 (total rows) q (width col) k := by
      intro k
      have := rect_shift (ld := ld) (t := 0) (a := total rows) (q := 0) (n := width col) (d := q) k
      rw [Int.zero_add, Int.zero_add] at this
      exact this
    rcases e4 with ⟨rfl, w2, w3⟩ | ⟨rfl, j, w2, w3, w4⟩
    · dsimp only
      obtain ⟨st, o', T, f1, f2, f3, f4⟩ := ih (q := q + width col) (o := o1) hc'
        (fun sz hs => by have := hsz sz hs; rw [Int.add_assoc]; exact this)
        (by
          intro n c hn t r htr
          have := hW (width col + n).toNat c (by rw [flat_tail rfl (by omega)]; exact hn) t r htr
          rw [this, show (((width col + (n : Int)).toNat : Nat) : Int) = width col + n by omega, Int.add_assoc])
      refine ⟨st, o', fun k => S k ∨ T k, f1, ?_, e3.trans f3, ?_⟩
      · intro k hk
        rw [← rect_cols (by omega) htc]
        exact hk.imp (fun w => (hsh k).mp (e2 k w)) fun w => f2 k w
      · rcases f4 with ⟨v1, v2, v3⟩ | ⟨v1, j, v2, v3⟩
        · refine Or.inl ⟨v1, ?_, ?_⟩
          · intro j hj
            obtain ⟨x, hx, a, b⟩ := mem_flat.mp hj
            rcases List.mem_cons.mp hx with ex | hx
            · rw [ex] at a b
              exact w2 hrn j a b
            · exact v2 j (mem_flat.mpr ⟨x, hx, a, b⟩)
          · intro k hk
            rw [← rect_cols (by omega) htc] at hk
            exact hk.imp (fun w => w3 k ((hsh k).mpr w)) fun w => v3 k w
        · refine Or.inr ⟨v1, j, ?_, v3⟩
          unfold flat
          exact List.mem_append_right _ v2
    · refine ⟨.invalidInput, o1, S, rfl, ?_, e3, Or.inr ⟨rfl, j, hmem j w2 w3, w4⟩⟩
      intro k hk
      rw [← rect_cols (by omega) htc]
      exact Or.inl ((hsh k).mp (e2 k hk))

theorem transposeRow_get {tmp : Out V} {ld ldd i : Int} : ∀ (n : Nat) (j : Int) (o : Out V) (k : Int),
    transposeRow tmp ld ldd i n j o k = if j + i * ld ≤ k ∧ k < j + n + i * ld then tmp (i + (k - i * ld) * ldd) else o k
  | 0, j, o, k => by
    unfold transposeRow
    rw [if_neg (by omega)]
  | n + 1, j, o, k => by
    unfold transposeRow
    rw [transposeRow_get n (j + 1)]
    unfold put
    by_cases c : k = j + i * ld
    · rw [if_neg (by omega), if_pos c, if_pos (by omega), c, show j + i * ld - i * ld = j by omega]
    · rw [if_neg c]
      by_cases c2 : j + 1 + i * ld ≤ k ∧ k < j + 1 + n + i * ld
      · rw [if_pos c2, if_pos (by omega)]
      · rw [if_neg c2, if_neg (by omega)]

theorem transpose_filled {tmp W : Out V} {ld ldd nCols : Int} (h0 : 0 ≤ nCols) : ∀ (n : Nat) (i : Int) (o : Out V),
    (∀ r c, i ≤ r → r < i + n → 0 ≤ c → c < nCols → W (r * ld + c) = tmp (r + c * ldd)) →
    Filled W (Rect ld 0 nCols i n) o (transpose tmp ld ldd nCols n i o)
  | 0, i, o, _ => Filled.none.congr fun k => ⟨fun h => h.elim, fun ⟨c, r, h⟩ => by omega⟩
  | n + 1, i, o, hW => by
    unfold transpose
    have hrow : Filled W (fun k => i * ld + 0 ≤ k ∧ k < i * ld + 0 + nCols) o (transposeRow tmp ld ldd i nCols.toNat 0 o) := by
      constructor
      · intro k hk
        rw [transposeRow_get, if_pos (by omega), ← hW i (k - i * ld) (Int.le_refl _) (by omega) (by omega) (by omega)]
        congr 1
        omega
      · intro k hk
        rw [transposeRow_get, if_neg (by omega)]
    refine (hrow.trans (transpose_filled h0 n (i + 1) _ fun r c a1 a2 a3 a4 => hW r c (by omega) (by omega) a3 a4)).congr ?_
    intro k
    have := rect_step (ld := ld) (t := 0) (nrows := nCols) (q := i) (n := n) k
    push_cast
    rw [← this]


theorem find_update {sels : Sels} {key key' : String} {f : Sel → Sel} :
    (sels.update key f).find key' = if key' = key then some (f ((sels.find key).getD {})) else sels.find key' := by
  unfold Sels.update
  cases hf : sels.find key with
  | none =>
    dsimp only
    unfold Sels.find
    by_cases c : key' = key
    · subst c
      simp
    · rw [if_neg c, List.find?_cons_of_neg (by simpa using fun w => c w.symm)]
  | some x =>
    dsimp only
    have key1 : ∀ (l : Sels), (List.find? (fun e => e.1 == key') (l.map fun e => if e.1 == key then (e.1, f e.2) else e)).map Prod.snd =
        if key' = key then ((List.find? (fun e => e.1 == key) l).map Prod.snd).map f else (List.find? (fun e => e.1 == key') l).map Prod.snd := by
      intro l
      induction l with
      | nil => simp
      | cons e l ih =>
        rw [List.map_cons]
        by_cases c : key' = key
        · subst c
          simp only [if_true] at ih ⊢
          by_cases c1 : e.1 = key'
          · simp [c1]
          · have h1 : (e.1 == key') = false := by simpa using c1
            simp only [List.find?_cons, h1, Bool.false_eq_true, if_false]
            exact ih
        · rw [if_neg c] at ih ⊢
          by_cases c1 : e.1 = key'
          · have h1 : (e.1 == key) = false := by
              rw [c1]
              simpa using c
            simp [c1, c]
          · have h2 : (e.1 == key') = false := by simpa using c1
            have h3 : ((if (e.1 == key) = true then (e.1, f e.2) else e).1 == key') = false := by
              split <;> exact h2
            simp only [List.find?_cons, h2, h3]
            exact ih
    show Option.map Prod.snd (List.find? (fun e => e.1 == key') (sels.map fun e => if e.1 == key then (e.1, f e.2) else e)) = _
    rw [key1]
    by_cases c : key' = key
    · rw [if_pos c, if_pos c]
      have : (List.find? (fun e => e.1 == key) sels).map Prod.snd = some x := hf
      rw [this]
      rfl
    · rw [if_neg c, if_neg c]
      rfl

/-- The selections are those that the calls describe. -/
structure SelInv (g : Mat V) (calls : List SelCall) (sels : Sels) : Prop where
  absent : ∀ key, sels.find key = none ↔ ¬ Named g calls key
  found : ∀ key x, sels.find key = some x → Canonical x.rows ∧ Canonical x.cols ∧
    (∀ r, Holds x.rows r ↔ RowGiven g calls key r) ∧ ∀ j, Holds x.cols j ↔ ColGiven g calls key j

theorem not_given {g : Mat V} {calls : List SelCall} {key : String} (h : ¬ Named g calls key) :
    (∀ r, ¬ RowGiven g calls key r) ∧ ∀ j, ¬ ColGiven g calls key j := by
  constructor
  · rintro r ⟨c, h1, h2, h3, -⟩
    exact h ⟨c, h1, h2, h3⟩
  · rintro r ⟨c, h1, h2, h3, -⟩
    exact h ⟨c, h1, h2, h3⟩

theorem snoc_named {g : Mat V} {calls : List SelCall} {c : SelCall} {key : String} :
    Named g (calls ++ [c]) key ↔ Named g calls key ∨ (c.ok g ∧ c.key = key) := by
  unfold Named
  simp only [List.mem_append, List.mem_singleton]
  constructor
  · rintro ⟨x, hx | rfl, h⟩
    · exact Or.inl ⟨x, hx, h⟩
    · exact Or.inr h
  · rintro (⟨x, hx, h⟩ | h)
    · exact ⟨x, Or.inl hx, h⟩
    · exact ⟨c, Or.inr rfl, h⟩

theorem snoc_row {g : Mat V} {calls : List SelCall} {c : SelCall} {key : String} {r : Int} :
    RowGiven g (calls ++ [c]) key r ↔ RowGiven g calls key r ∨ (c.ok g ∧ c.key = key ∧ ∃ i, c.rowIvl = some i ∧ i.lower ≤ r ∧ r ≤ i.upper) := by
  unfold RowGiven
  simp only [List.mem_append, List.mem_singleton]
  constructor
  · rintro ⟨x, hx | rfl, h⟩
    · exact Or.inl ⟨x, hx, h⟩
    · exact Or.inr h
  · rintro (⟨x, hx, h⟩ | h)
    · exact ⟨x, Or.inl hx, h⟩
    · exact ⟨c, Or.inr rfl, h⟩

theorem snoc_col {g : Mat V} {calls : List SelCall} {c : SelCall} {key : String} {j : Int} :
    ColGiven g (calls ++ [c]) key j ↔ ColGiven g calls key j ∨ (c.ok g ∧ c.key = key ∧ ∃ i, c.colIvl = some i ∧ i.lower ≤ j ∧ j ≤ i.upper) := by
  unfold ColGiven
  simp only [List.mem_append, List.mem_singleton]
  constructor
  · rintro ⟨x, hx | rfl, h⟩
    · exact Or.inl ⟨x, hx, h⟩
    · exact Or.inr h
  · rintro (⟨x, hx, h⟩ | h)
    · exact ⟨x, Or.inl hx, h⟩
    · exact ⟨c, Or.inr rfl, h⟩

/-- A refused call. -/
theorem SelInv.refused {g : Mat V} {calls : List SelCall} {sels : Sels} (h : SelInv g calls sels) {c : SelCall} (hc : ¬ c.ok g) :
    SelInv g (calls ++ [c]) sels := by
  constructor
  · intro key
    rw [snoc_named, h.absent]
    constructor
    · rintro w (v | v)
      · exact w v
      · exact hc v.1
    · intro w v
      exact w (Or.inl v)
  · intro key x hx
    obtain ⟨h1, h2, h3, h4⟩ := h.found key x hx
    refine ⟨h1, h2, fun r => ?_, fun j => ?_⟩
    · rw [snoc_row, h3]
      exact ⟨Or.inl, fun w => w.resolve_right fun v => hc v.1⟩
    · rw [snoc_col, h4]
      exact ⟨Or.inl, fun w => w.resolve_right fun v => hc v.1⟩

/-- An accepted call. -/
theorem SelInv.accepted {g : Mat V} {calls : List SelCall} {sels : Sels} (h : SelInv g calls sels) {c : SelCall} (hc : c.ok g) {f : Sel → Sel}
    (hf : ∀ x, (Canonical x.rows → Canonical (f x).rows) ∧ (Canonical x.cols → Canonical (f x).cols) ∧
      (Canonical x.rows → ∀ r, Holds (f x).rows r ↔ Holds x.rows r ∨ ∃ i, c.rowIvl = some i ∧ i.lower ≤ r ∧ r ≤ i.upper) ∧
      (Canonical x.cols → ∀ j, Holds (f x).cols j ↔ Holds x.cols j ∨ ∃ i, c.colIvl = some i ∧ i.lower ≤ j ∧ j ≤ i.upper)) :
    SelInv g (calls ++ [c]) (sels.update c.key f) := by
  constructor
  · intro key
    rw [find_update, snoc_named]
    by_cases e : key = c.key
    · rw [if_pos e]
      constructor
      · intro w; cases w
      · intro w; exact absurd (Or.inr ⟨hc, e.symm⟩) w
    · rw [if_neg e, h.absent]
      constructor
      · rintro w (v | v)
        · exact w v
        · exact e v.2.symm
      · intro w v
        exact w (Or.inl v)
  · intro key x hx
    rw [find_update] at hx
    by_cases e : key = c.key
    · rw [if_pos e] at hx
      injection hx with hx
      subst hx e
      have base : Canonical ((sels.find c.key).getD {}).rows ∧ Canonical ((sels.find c.key).getD {}).cols ∧
          (∀ r, Holds ((sels.find c.key).getD {}).rows r ↔ RowGiven g calls c.key r) ∧
          ∀ j, Holds ((sels.find c.key).getD {}).cols j ↔ ColGiven g calls c.key j := by
        cases hs : sels.find c.key with
        | none =>
          have := not_given ((h.absent c.key).mp hs)
          refine ⟨⟨by simp, .nil⟩, ⟨by simp, .nil⟩, fun r => ?_, fun j => ?_⟩
          · simp only [Option.getD_none]
            exact ⟨fun ⟨i, hi, _⟩ => absurd hi (by simp), fun w => absurd w (this.1 r)⟩
          · simp only [Option.getD_none]
            exact ⟨fun ⟨i, hi, _⟩ => absurd hi (by simp), fun w => absurd w (this.2 j)⟩
        | some y => exact h.found _ y hs
      obtain ⟨b1, b2, b3, b4⟩ := base
      obtain ⟨f1, f2, f3, f4⟩ := hf ((sels.find c.key).getD {})
      refine ⟨f1 b1, f2 b2, fun r => ?_, fun j => ?_⟩
      · rw [f3 b1, b3, snoc_row]
        exact or_congr Iff.rfl ⟨fun w => ⟨hc, rfl, w⟩, fun w => w.2.2⟩
      · rw [f4 b2, b4, snoc_col]
        exact or_congr Iff.rfl ⟨fun w => ⟨hc, rfl, w⟩, fun w => w.2.2⟩
    · rw [if_neg e] at hx
      obtain ⟨h1, h2, h3, h4⟩ := h.found key x hx
      refine ⟨h1, h2, fun r => ?_, fun j => ?_⟩
      · rw [snoc_row, h3]
        exact ⟨Or.inl, fun w => w.resolve_right fun v => e v.2.1.symm⟩
      · rw [snoc_col, h4]
        exact ⟨Or.inl, fun w => w.resolve_right fun v => e v.2.1.symm⟩

theorem insert_spec {i : Ivl} {x : List Ivl} (hi : i.lower ≤ i.upper) :
    (Canonical x → Canonical (IntervalSet.insert i x).2) ∧
    (Canonical x → ∀ r, Holds (IntervalSet.insert i x).2 r ↔ Holds x r ∨ (i.lower ≤ r ∧ r ≤ i.upper)) := by
  refine ⟨fun hx => (IntervalSet.insert_correct (lb := i.lower) (ub := i.upper) hi hx).2.1,
    fun hx r => (IntervalSet.insert_correct (lb := i.lower) (ub := i.upper) hi hx).2.2 r⟩

theorem Inv.runSel {s : Store V} {g : Mat V} {L : List Iv} (h : Inv s g L) (hcomp : g.start = 0) (calls : List SelCall) :
    SelInv g calls (DataStore.runSel s calls) := by
  have hmiss : ¬ (s.missing = true) := fun w => h.missing.mp w hcomp
  have htf : ¬ ((!true) = true) := by decide
  have step : ∀ (l done : List SelCall) (sels : Sels), SelInv g done sels → SelInv g (done ++ l) (l.foldl (fun sels c =>
    match c with
    | .cols key c => (selectColumns s sels key c).2
    | .rows key r => (selectRows s sels key r).2
    | .slice key r c => (selectSlice s sels key r c).2) sels) := by
    intro l
    induction l with
    | nil => intro done sels hs; simpa using hs
    | cons c l ih =>
      intro done sels hs
      rw [List.foldl_cons]
      have := fun sels' (w : SelInv g (done ++ [c]) sels') => ih (done ++ [c]) sels' w
      rw [List.append_assoc, List.singleton_append] at this
      apply this
      cases c with
      | cols key i =>
        dsimp only
        unfold selectColumns
        rw [if_neg hmiss, h.n]
        cases hv : i.isValidIdx g.n with
        | false =>
          refine hs.refused ?_
          intro w
          have := valid_iff.mpr (w.2 i rfl)
          rw [hv] at this
          cases this
        | true =>
          rw [if_neg htf]
          have hv := valid_iff.mp hv
          refine hs.accepted (c := .cols key i) (f := fun x => { x with cols := (IntervalSet.insert i x.cols).2 }) ⟨fun j hj => (by cases hj), fun j hj => (by cases hj; exact hv)⟩ ?_
          intro x
          obtain ⟨e1, e2⟩ := insert_spec (x := x.cols) hv.2.1
          refine ⟨id, e1, fun _ r => ⟨Or.inl, fun w => w.elim id (fun ⟨i, hi, _⟩ => by cases hi)⟩, fun w j => ?_⟩
          rw [e2 w]
          exact or_congr Iff.rfl ⟨fun w => ⟨i, rfl, w⟩, fun ⟨i', hi', w⟩ => by cases hi'; exact w⟩
      | rows key i =>
        dsimp only
        unfold selectRows
        rw [if_neg hmiss, h.m]
        cases hv : i.isValidIdx g.m with
        | false =>
          refine hs.refused ?_
          intro w
          have := valid_iff.mpr (w.1 i rfl)
          rw [hv] at this
          cases this
        | true =>
          rw [if_neg htf]
          have hv := valid_iff.mp hv
          refine hs.accepted (c := .rows key i) (f := fun x => { x with rows := (IntervalSet.insert i x.rows).2 }) ⟨fun j hj => (by cases hj; exact hv), fun j hj => (by cases hj)⟩ ?_
          intro x
          obtain ⟨e1, e2⟩ := insert_spec (x := x.rows) hv.2.1
          refine ⟨e1, id, fun w r => ?_, fun _ j => ⟨Or.inl, fun w => w.elim id (fun ⟨i, hi, _⟩ => by cases hi)⟩⟩
          rw [e2 w]
          exact or_congr Iff.rfl ⟨fun w => ⟨i, rfl, w⟩, fun ⟨i', hi', w⟩ => by cases hi'; exact w⟩
      | slice key r c =>
        dsimp only
        unfold selectSlice
        rw [if_neg hmiss, h.m, h.n]
        cases hv : c.isValidIdx g.n with
        | false =>
          refine hs.refused ?_
          intro w
          have := valid_iff.mpr (w.2 c rfl)
          rw [hv] at this
          cases this
        | true =>
          rw [if_neg htf]
          cases hv' : r.isValidIdx g.m with
          | false =>
            refine hs.refused ?_
            intro w
            have := valid_iff.mpr (w.1 r rfl)
            rw [hv'] at this
            cases this
          | true =>
            rw [if_neg htf]
            have hv := valid_iff.mp hv
            have hv' := valid_iff.mp hv'
            refine hs.accepted (c := .slice key r c)
              (f := fun x => { x with rows := (IntervalSet.insert r x.rows).2, cols := (IntervalSet.insert c x.cols).2 }) ⟨fun j hj => (by cases hj; exact hv'), fun j hj => (by cases hj; exact hv)⟩ ?_
            intro x
            obtain ⟨e1, e2⟩ := insert_spec (x := x.rows) hv'.2.1
            obtain ⟨e3, e4⟩ := insert_spec (x := x.cols) hv.2.1
            refine ⟨e1, e3, fun w k => ?_, fun w k => ?_⟩
            · rw [e2 w]
              exact or_congr Iff.rfl ⟨fun w => ⟨r, rfl, w⟩, fun ⟨i', hi', w⟩ => by cases hi'; exact w⟩
            · rw [e4 w]
              exact or_congr Iff.rfl ⟨fun w => ⟨c, rfl, w⟩, fun ⟨i', hi', w⟩ => by cases hi'; exact w⟩
  have h0 : SelInv g [] ([] : Sels) := by
    constructor
    · intro key
      exact ⟨fun _ ⟨c, hc, _⟩ => absurd hc (by simp), fun _ => rfl⟩
    · intro key x hx
      cases hx
  have := step calls [] [] h0
  rw [List.nil_append] at this
  exact this

/-- The selection that is extracted. -/
theorem Inv.effective {s : Store V} {g : Mat V} {L : List Iv} (h : Inv s g L) (hn : g.n ≠ 0) {calls : List SelCall} {sels : Sels}
    (hs : SelInv g calls sels) (key : String) :
    ((∃ key', Named g calls key') ∧ ¬ Named g calls key ∧ DataStore.effective s sels key = .error .invalidInput) ∨
    (((∃ key', Named g calls key') → Named g calls key) ∧ ∃ st sel, DataStore.effective s sels key = .ok (st, sel) ∧
      (st = .success ∧ (∃ key', Named g calls key') ∨ st = .fullExtraction ∧ ¬ ∃ key', Named g calls key') ∧
      Canonical sel.rows ∧ Canonical sel.cols ∧ sel.rows ≠ [] ∧ sel.cols ≠ [] ∧
      (∀ r, Holds sel.rows r ↔ RowSel g calls key r) ∧ ∀ j, Holds sel.cols j ↔ ColSel g calls key j) := by
  have hn0 := h.n_nonneg
  have hm0 : 0 < g.m := by
    unfold Mat.m
    rw [if_neg hn]
    exact h.m_pos hn
  have hempty : sels.isEmpty = true ↔ ¬ ∃ key', Named g calls key' := by
    constructor
    · rintro w ⟨key', v⟩
      rw [List.isEmpty_iff] at w
      subst w
      exact (hs.absent key').mp rfl v
    · intro w
      rw [List.isEmpty_iff]
      cases hc : sels with
      | nil => rfl
      | cons e l =>
        exfalso
        have := (hs.absent e.1).mpr fun v => w ⟨_, v⟩
        rw [hc] at this
        simp [Sels.find] at this
  have one : ∀ n : Int, 0 < n → (IntervalSet.insert ⟨0, n - 1⟩ []).2 = [⟨0, n - 1⟩] ∧ (Ivl.mk 0 (n - 1)).isValidIdx n = true := by
    intro n hpos
    constructor
    · unfold IntervalSet.insert
      rw [if_neg (by dsimp only; omega)]
      rfl
    · rw [valid_iff]
      dsimp only
      omega
  have can : ∀ n : Int, 0 < n → Canonical [⟨0, n - 1⟩] ∧ ∀ r, Holds [⟨0, n - 1⟩] r ↔ 0 ≤ r ∧ r < n := by
    intro n hpos
    refine ⟨⟨by simp; omega, by simp⟩, ?_⟩
    intro r
    unfold Holds
    simp
    omega
  obtain ⟨om1, om2⟩ := one g.m hm0
  obtain ⟨on1, on2⟩ := one g.n (by omega)
  obtain ⟨cm1, cm2⟩ := can g.m hm0
  obtain ⟨cn1, cn2⟩ := can g.n (by omega)
  unfold DataStore.effective
  rw [h.m, h.n]
  by_cases c : sels.isEmpty = true
  · rw [if_pos c]
    have hno := hempty.mp c
    have hng := not_given fun v => hno ⟨key, v⟩
    refine Or.inr ⟨fun w => absurd w hno, ?_⟩
    dsimp only
    rw [om2, on2, om1, on1]
    refine ⟨_, _, rfl, Or.inr ⟨rfl, hno⟩, cm1, cn1, by simp, by simp, ?_, ?_⟩
    · intro r
      rw [cm2]
      unfold RowSel
      constructor
      · intro w; exact Or.inr ⟨w.1, w.2, hng.1⟩
      · rintro (w | w)
        · exact absurd w (hng.1 r)
        · exact ⟨w.1, w.2.1⟩
    · intro r
      rw [cn2]
      unfold ColSel
      constructor
      · intro w; exact Or.inr ⟨w.1, w.2, hng.2⟩
      · rintro (w | w)
        · exact absurd w (hng.2 r)
        · exact ⟨w.1, w.2.1⟩
  · rw [if_neg c]
    have hyes : ∃ key', Named g calls key' := by
      by_contra w
      exact c (hempty.mpr w)
    cases hf : sels.find key with
    | none => exact Or.inl ⟨hyes, (hs.absent key).mp hf, rfl⟩
    | some x =>
      have hnamed : Named g calls key := by
        by_contra w
        rw [(hs.absent key).mpr w] at hf
        cases hf
      obtain ⟨x1, x2, x3, x4⟩ := hs.found key x hf
      refine Or.inr ⟨fun _ => hnamed, ?_⟩
      dsimp only
      rw [om2, on2, om1, on1]
      -- the rows and the columns are handled in the same way
      have hrows : ∃ rows, (if x.rows.isEmpty = true then (if true = true then (Except.ok [⟨0, g.m - 1⟩] : Except Status (List Ivl)) else .error .internalError)
          else .ok x.rows) = .ok rows ∧ Canonical rows ∧ rows ≠ [] ∧ ∀ r, Holds rows r ↔ RowSel g calls key r := by
        by_cases e : x.rows.isEmpty = true
        · rw [if_pos e, if_pos rfl]
          refine ⟨_, rfl, cm1, by simp, fun r => ?_⟩
          have hng : ∀ r, ¬ RowGiven g calls key r := by
            intro r w
            obtain ⟨i, hi, -⟩ := (x3 r).mpr w
            rw [List.isEmpty_iff.mp e] at hi
            cases hi
          rw [cm2]
          unfold RowSel
          constructor
          · intro w; exact Or.inr ⟨w.1, w.2, hng⟩
          · rintro (w | w)
            · exact absurd w (hng r)
            · exact ⟨w.1, w.2.1⟩
        · rw [if_neg e]
          refine ⟨_, rfl, x1, fun w => e (by rw [w]; rfl), fun r => ?_⟩
          rw [x3]
          unfold RowSel
          constructor
          · exact Or.inl
          · rintro (w | ⟨-, -, w⟩)
            · exact w
            · exfalso
              cases hx : x.rows with
              | nil => exact e (by rw [hx]; rfl)
              | cons i l =>
                refine w i.lower ((x3 _).mp ⟨i, by rw [hx]; simp, Int.le_refl _, x1.1 i (by rw [hx]; simp)⟩)
      have hcols : ∃ cols, (if x.cols.isEmpty = true then (if true = true then (Except.ok [⟨0, g.n - 1⟩] : Except Status (List Ivl)) else .error .internalError)
          else .ok x.cols) = .ok cols ∧ Canonical cols ∧ cols ≠ [] ∧ ∀ r, Holds cols r ↔ ColSel g calls key r := by
        by_cases e : x.cols.isEmpty = true
        · rw [if_pos e, if_pos rfl]
          refine ⟨_, rfl, cn1, by simp, fun r => ?_⟩
          have hng : ∀ r, ¬ ColGiven g calls key r := by
            intro r w
            obtain ⟨i, hi, -⟩ := (x4 r).mpr w
            rw [List.isEmpty_iff.mp e] at hi
            cases hi
          rw [cn2]
          unfold ColSel
          constructor
          · intro w; exact Or.inr ⟨w.1, w.2, hng⟩
          · rintro (w | w)
            · exact absurd w (hng r)
            · exact ⟨w.1, w.2.1⟩
        · rw [if_neg e]
          refine ⟨_, rfl, x2, fun w => e (by rw [w]; rfl), fun r => ?_⟩
          rw [x4]
          unfold ColSel
          constructor
          · exact Or.inl
          · rintro (w | ⟨-, -, w⟩)
            · exact w
            · exfalso
              cases hx : x.cols with
              | nil => exact e (by rw [hx]; rfl)
              | cons i l =>
                refine w i.lower ((x4 _).mp ⟨i, by rw [hx]; simp, Int.le_refl _, x2.1 i (by rw [hx]; simp)⟩)
      obtain ⟨rows, r1, r2, r3, r4⟩ := hrows
      obtain ⟨cols, c1, c2, c3, c4⟩ := hcols
      rw [r1, c1]
      exact ⟨_, _, rfl, Or.inl ⟨rfl, hyes⟩, r2, c2, r3, c3, r4, c4⟩

theorem divmod {ld t q : Int} (h0 : 0 ≤ t) (h1 : t < ld) : (q * ld + t) / ld = q ∧ (q * ld + t) % ld = t := by
  constructor
  · rw [Int.add_comm, Int.add_mul_ediv_right _ _ (by omega), Int.ediv_eq_zero_of_lt h0 h1]
    omega
  · rw [Int.add_comm, Int.add_mul_emod_self_right, Int.emod_eq_of_lt h0 h1]

/-- The values to be written, by position. -/
def target (g : Mat V) (rs cs : List Int) (ld : Int) (o : Out V) (k : Int) : V :=
  match rs[(k % ld).toNat]?, cs[(k / ld).toNat]? with
  | some r, some c => (g.cell r c).getD (o k)
  | _, _ => o k

theorem target_eq {g : Mat V} {rs cs : List Int} {ld : Int} {o : Out V} {t q : Nat} {r c : Int} {v : V} (h1 : (t : Int) < ld) (hr : rs[t]? = some r)
    (hc : cs[q]? = some c) (hv : g.cell r c = some v) : target g rs cs ld o (q * ld + t) = v := by
  unfold target
  obtain ⟨e1, e2⟩ := divmod (ld := ld) (t := t) (q := q) (by omega) h1
  rw [e1, e2, Int.toNat_natCast, Int.toNat_natCast, hr, hc]
  dsimp only
  rw [hv]
  rfl

/-- Every supplied row of a complete store has a value. -/
theorem Inv.cell_some {s : Store V} {g : Mat V} {L : List Iv} (h : Inv s g L) (hcomp : g.start = 0) {i j : Int} (h0 : 0 ≤ i) (h1 : i < g.m)
    (h2 : 0 ≤ j) (h3 : j < g.n) : ∃ v, g.cell i j = some v := by
  have hm : g.m = g.rows 0 := by unfold Mat.m; rw [if_neg (by omega)]
  obtain ⟨x, hx, hl, hh, -, -, q, nd, -, -, -, -, -, -, -, hcell⟩ := h.locate h2 h3 h0 (by rw [h.even hcomp j h2 h3]; omega)
  exact ⟨_, hcell⟩

theorem rowSel_bounds {g : Mat V} {calls : List SelCall} {key : String} {r : Int} (h : RowSel g calls key r) : 0 ≤ r ∧ r < g.m := by
  rcases h with ⟨c, -, h2, -, i, h4, h5, h6⟩ | h
  · have := h2.1 i h4
    omega
  · exact ⟨h.1, h.2.1⟩

theorem colSel_bounds {g : Mat V} {calls : List SelCall} {key : String} {r : Int} (h : ColSel g calls key r) : 0 ≤ r ∧ r < g.n := by
  rcases h with ⟨c, -, h2, -, i, h4, h5, h6⟩ | h
  · have := h2.2 i h4
    omega
  · exact ⟨h.1, h.2.1⟩

/-- The lists of selected rows and columns. -/
def SelLists (g : Mat V) (calls : List SelCall) (key : String) (rs cs : List Int) : Prop :=
  rs.Pairwise (· < ·) ∧ (∀ r, r ∈ rs ↔ RowSel g calls key r) ∧ cs.Pairwise (· < ·) ∧ ∀ c, c ∈ cs ↔ ColSel g calls key c

theorem rect_list {rs cs : List Int} {R C ld : Int} (hR : (rs.length : Int) = R) (hC : (cs.length : Int) = C) {k : Int} :
    Rect ld 0 R 0 C k ↔ ∃ t q : Nat, t < rs.length ∧ q < cs.length ∧ k = q * ld + t := by
  constructor
  · rintro ⟨c, r, h1, h2, h3, h4, h5⟩
    refine ⟨r.toNat, c.toNat, by omega, by omega, ?_⟩
    rw [show ((c.toNat : Nat) : Int) = c by omega]
    omega
  · rintro ⟨t, q, h1, h2, h3⟩
    exact ⟨q, t, by omega, by omega, by omega, by omega, by omega⟩

theorem Inv.extract_col {s : Store V} {g : Mat V} {L : List Iv} (h : Inv s g L) (hcomp : g.start = 0) (hn : g.n ≠ 0) {calls : List SelCall}
    {key : String} {rs cs : List Int} (hl : SelLists g calls key rs cs) {ld : Int} (hld : (rs.length : Int) ≤ ld) (zero : V) (ty : Ty) (o : Out V) :
    ((∃ key', Named g calls key') ∧ ¬ Named g calls key ∧
      extractSelection s (DataStore.runSel s calls) zero ty key .col ld o = some (.invalidInput, o)) ∨
    (((∃ key', Named g calls key') → Named g calls key) ∧ ∃ st o',
      extractSelection s (DataStore.runSel s calls) zero ty key .col ld o = some (st, o') ∧
      ((∀ c ∈ cs, g.ty c = ty) → (st = .success ∧ (∃ key', Named g calls key') ∨ st = .fullExtraction ∧ ¬ ∃ key', Named g calls key') ∧
        SubMatrix g rs cs (fun t q => q * ld + t) o o') ∧
      ((∃ c ∈ cs, g.ty c ≠ ty) → st = .invalidInput ∧
        ∀ k, (∀ t q : Nat, t < rs.length → q < cs.length → k ≠ q * ld + t) → o' k = o k)) := by
  have hmiss : ¬ (s.missing = true) := fun w => h.missing.mp w hcomp
  unfold extractSelection
  rw [if_neg hmiss]
  rcases h.effective hn (h.runSel hcomp calls) key with ⟨w1, w2, w3⟩ | ⟨w1, st, sel, w2, w3, w4, w5, w6, w7, w8, w9⟩
  · rw [w3]
    exact Or.inl ⟨w1, w2, rfl⟩
  · rw [w2]
    dsimp only
    refine Or.inr ⟨w1, ?_⟩
    obtain ⟨l1, l2, l3, l4⟩ := hl
    have hrs : rs = flat sel.rows := sorted_unique l1 (flat_sorted w4) fun k => by rw [l2, mem_flat, w8]
    have hcs : cs = flat sel.cols := sorted_unique l3 (flat_sorted w5) fun k => by rw [l4, mem_flat, w9]
    have hR := flat_length w4.1
    have hC := flat_length w5.1
    rw [← hrs] at hR
    rw [← hcs] at hC
    have brow : ∀ row ∈ sel.rows, 0 ≤ row.lower ∧ row.lower ≤ row.upper ∧ row.upper < g.m := by
      intro row hrow
      have hlu := w4.1 row hrow
      have a := rowSel_bounds ((w8 row.lower).mp ⟨row, hrow, Int.le_refl _, hlu⟩)
      have b := rowSel_bounds ((w8 row.upper).mp ⟨row, hrow, hlu, Int.le_refl _⟩)
      exact ⟨a.1, hlu, b.2⟩
    have bcol : ∀ col ∈ sel.cols, 0 ≤ col.lower ∧ col.lower ≤ col.upper ∧ col.upper < g.n := by
      intro col hcol
      have hlu := w5.1 col hcol
      have a := colSel_bounds ((w9 col.lower).mp ⟨col, hcol, Int.le_refl _, hlu⟩)
      have b := colSel_bounds ((w9 col.upper).mp ⟨col, hcol, hlu, Int.le_refl _⟩)
      exact ⟨a.1, hlu, b.2⟩
    have hval : ∀ (n : Nat) c, cs[n]? = some c → ∀ (t : Nat) r, rs[t]? = some r →
        g.cell r c = some (target g rs cs ld o (n * ld + t)) := by
      intro n c hc t r hr
      have hb := rowSel_bounds ((l2 r).mp (List.mem_of_getElem? hr))
      have hb' := colSel_bounds ((l4 c).mp (List.mem_of_getElem? hc))
      obtain ⟨v, hv⟩ := h.cell_some hcomp hb.1 hb.2 hb'.1 hb'.2
      have ht : t < rs.length := by
        rw [List.getElem?_eq_some_iff] at hr
        exact hr.1
      rw [target_eq (by omega) hr hc hv]
      exact hv
    obtain ⟨st', o', S, e1, e2, e3, e4⟩ := h.selColLoop (W := target g rs cs ld o) (ty := ty) (rows := sel.rows) (ld := ld) (size := none) hcomp brow w6
      (by omega) (cols := sel.cols) (q := 0) (o := o) bcol (fun sz hs => by cases hs)
      (by
        intro n c hnc t r htr
        rw [← hcs] at hnc
        rw [← hrs] at htr
        rw [Int.zero_add]
        exact hval n c hnc t r htr)
    rw [e1]
    have hframe : ∀ k, (∀ t q : Nat, t < rs.length → q < cs.length → k ≠ q * ld + t) → o' k = o k := by
      intro k hk
      refine e3.2 k fun w => ?_
      obtain ⟨t, q, a, b, c⟩ := (rect_list hR hC).mp (e2 k w)
      exact hk t q a b c
    rw [← hcs] at e4
    rcases e4 with ⟨rfl, v2, v3⟩ | ⟨rfl, v2⟩
    · refine ⟨st, o', rfl, fun _ => ⟨w3, ?_, hframe⟩, fun ⟨c, hc, w⟩ => absurd (v2 c hc) w⟩
      intro t q r c hr hc
      have ht : t < rs.length := by rw [List.getElem?_eq_some_iff] at hr; exact hr.1
      have hq : q < cs.length := by rw [List.getElem?_eq_some_iff] at hc; exact hc.1
      rw [e3.1 (q * ld + t) (v3 _ ((rect_list hR hC).mpr ⟨t, q, ht, hq, rfl⟩))]
      exact hval q c hc t r hr
    · refine ⟨.invalidInput, o', rfl, ?_, fun _ => ⟨rfl, hframe⟩⟩
      intro w
      obtain ⟨c, hc, hne⟩ := v2
      exact absurd (w c hc) hne

/-- A selection of consecutive columns is one interval. -/
theorem one_interval {cols : List Ivl} (h : Canonical cols) (hne : cols ≠ [])
    (hc : ∀ a b k, Holds cols a → Holds cols b → a ≤ k → k ≤ b → Holds cols k) : ∃ c, cols = [c] := by
  cases cols with
  | nil => exact absurd rfl hne
  | cons c l =>
    cases l with
    | nil => exact ⟨c, rfl⟩
    | cons d l =>
      exfalso
      obtain ⟨h1, h2⟩ := h
      rw [List.pairwise_cons] at h2
      have hcd := h2.1 d (by simp)
      have hc1 := h1 c (by simp)
      have hd1 := h1 d (by simp)
      obtain ⟨x, hx, a, b⟩ := hc c.upper d.lower (c.upper + 1) ⟨c, by simp, hc1, Int.le_refl _⟩ ⟨d, by simp, Int.le_refl _, hd1⟩ (by omega) (by omega)
      rcases List.mem_cons.mp hx with e | hx
      · rw [e] at b; omega
      · have := h2.1 x hx
        omega

theorem Inv.extract_row {s : Store V} {g : Mat V} {L : List Iv} (h : Inv s g L) (hcomp : g.start = 0) (hn : g.n ≠ 0) {calls : List SelCall}
    {key : String} {rs cs : List Int} (hl : SelLists g calls key rs cs) (hone : ∀ a b k, a ∈ cs → b ∈ cs → a ≤ k → k ≤ b → k ∈ cs)
    {ld : Int} (hld : (cs.length : Int) ≤ ld) (zero : V) (ty : Ty) (o : Out V) :
    ((∃ key', Named g calls key') ∧ ¬ Named g calls key ∧
      extractSelection s (DataStore.runSel s calls) zero ty key .row ld o = some (.invalidInput, o)) ∨
    (((∃ key', Named g calls key') → Named g calls key) ∧ ∃ st o',
      extractSelection s (DataStore.runSel s calls) zero ty key .row ld o = some (st, o') ∧
      ((∀ c ∈ cs, g.ty c = ty) → (st = .success ∧ (∃ key', Named g calls key') ∨ st = .fullExtraction ∧ ¬ ∃ key', Named g calls key') ∧
        SubMatrix g rs cs (fun t q => t * ld + q) o o') ∧
      ((∃ c ∈ cs, g.ty c ≠ ty) → st = .invalidInput ∧ o' = o)) := by
  have hmiss : ¬ (s.missing = true) := fun w => h.missing.mp w hcomp
  unfold extractSelection
  rw [if_neg hmiss]
  rcases h.effective hn (h.runSel hcomp calls) key with ⟨w1, w2, w3⟩ | ⟨w1, st, sel, w2, w3, w4, w5, w6, w7, w8, w9⟩
  · rw [w3]
    exact Or.inl ⟨w1, w2, rfl⟩
  · rw [w2]
    dsimp only
    refine Or.inr ⟨w1, ?_⟩
    obtain ⟨l1, l2, l3, l4⟩ := hl
    have hrs : rs = flat sel.rows := sorted_unique l1 (flat_sorted w4) fun k => by rw [l2, mem_flat, w8]
    have hcs : cs = flat sel.cols := sorted_unique l3 (flat_sorted w5) fun k => by rw [l4, mem_flat, w9]
    have hR := flat_length w4.1
    have hC := flat_length w5.1
    rw [← hrs] at hR
    rw [← hcs] at hC
    have brow : ∀ row ∈ sel.rows, 0 ≤ row.lower ∧ row.lower ≤ row.upper ∧ row.upper < g.m := by
      intro row hrow
      have hlu := w4.1 row hrow
      have a := rowSel_bounds ((w8 row.lower).mp ⟨row, hrow, Int.le_refl _, hlu⟩)
      have b := rowSel_bounds ((w8 row.upper).mp ⟨row, hrow, hlu, Int.le_refl _⟩)
      exact ⟨a.1, hlu, b.2⟩
    have bcol : ∀ col ∈ sel.cols, 0 ≤ col.lower ∧ col.lower ≤ col.upper ∧ col.upper < g.n := by
      intro col hcol
      have hlu := w5.1 col hcol
      have a := colSel_bounds ((w9 col.lower).mp ⟨col, hcol, Int.le_refl _, hlu⟩)
      have b := colSel_bounds ((w9 col.upper).mp ⟨col, hcol, hlu, Int.le_refl _⟩)
      exact ⟨a.1, hlu, b.2⟩
    obtain ⟨col, hcol⟩ := one_interval w5 w7 fun a b k ha hb h1 h2 => by
      rw [w9, ← l4] at ha hb ⊢
      exact hone a b k ha hb h1 h2
    have ht := total_nonneg w4.1
    have htc := total_nonneg w5.1
    generalize hRd : total sel.rows = R at *
    generalize hCd : total sel.cols = C at *
    have e1 : (sel.cols.map width).sum = C := hCd
    have e2 : (sel.cols.map fun _ => (sel.rows.map width).sum).sum = R := by
      rw [hcol]
      simp only [List.map_cons, List.map_nil, List.sum_cons, List.sum_nil, Int.add_zero]
      exact hRd
    rw [e1, e2]
    have e3 : ∀ (size : Option Int) (out : Out V), DataStore.selColLoop s ty sel.rows ld R size sel.cols 0 out = DataStore.selColLoop s ty sel.rows R R size sel.cols 0 out := by
      intro size out
      rw [hcol]
      unfold DataStore.selColLoop
      rw [Int.zero_mul, Int.zero_mul]
      rfl
    rw [e3]
    have hval : ∀ (l : Int) (out : Out V) (n : Nat) c, cs[n]? = some c → ∀ (t : Nat) r, rs[t]? = some r → ∃ v, g.cell r c = some v := by
      intro l out n c hc t r hr
      have hb := rowSel_bounds ((l2 r).mp (List.mem_of_getElem? hr))
      have hb' := colSel_bounds ((l4 c).mp (List.mem_of_getElem? hc))
      exact h.cell_some hcomp hb.1 hb.2 hb'.1 hb'.2
    obtain ⟨st', tmp, S, f1, f2, f3, f4⟩ := h.selColLoop (W := target g rs cs R (fun _ => zero)) (ty := ty) (rows := sel.rows) (ld := R)
      (size := some (C * R)) hcomp brow w6 (by omega) (cols := sel.cols) (q := 0) (o := fun _ => zero) bcol
      (by intro sz hs; injection hs with hs; rw [hCd, ← hs, Int.zero_add])
      (by
        intro n c hnc t r htr
        rw [← hcs] at hnc
        rw [← hrs] at htr
        obtain ⟨v, hv⟩ := hval 0 o n c hnc t r htr
        have htl : t < rs.length := by rw [List.getElem?_eq_some_iff] at htr; exact htr.1
        rw [Int.zero_add, target_eq (by omega) htr hnc hv]
        exact hv)
    rw [hRd, hCd] at f2 f4
    rw [f1]
    rw [← hcs] at f4
    rcases f4 with ⟨rfl, v2, v3⟩ | ⟨rfl, v2⟩
    · dsimp only
      have htr := transpose_filled (tmp := tmp) (W := fun k => tmp ((k / ld) + (k % ld) * R)) (ld := ld) (ldd := R) (nCols := C) htc R.toNat 0 o
        (by
          intro r c a1 a2 a3 a4
          obtain ⟨d1, d2⟩ := divmod (ld := ld) (t := c) (q := r) a3 (by omega)
          rw [d1, d2])
      refine ⟨st, _, rfl, fun _ => ⟨w3, ?_, ?_⟩, fun ⟨c, hc, w⟩ => absurd (v2 c hc) w⟩
      · intro t q r c hr hc
        have ht' : t < rs.length := by rw [List.getElem?_eq_some_iff] at hr; exact hr.1
        have hq : q < cs.length := by rw [List.getElem?_eq_some_iff] at hc; exact hc.1
        rw [htr.1 (t * ld + q) ⟨t, q, by omega, by omega, by omega, by omega, by omega⟩]
        obtain ⟨d1, d2⟩ := divmod (ld := ld) (t := q) (q := t) (by omega) (by omega)
        dsimp only
        rw [d1, d2]
        obtain ⟨v, hv⟩ := hval 0 o q c hc t r hr
        have := f3.1 (q * R + t) (v3 _ ((rect_list hR hC).mpr ⟨t, q, ht', hq, rfl⟩))
        rw [target_eq (by omega) hr hc hv] at this
        rw [Int.add_comm (t : Int), this]
        exact hv
      · intro k hk
        refine htr.2 k ?_
        rintro ⟨c, r, a1, a2, a3, a4, a5⟩
        refine hk c.toNat r.toNat (by omega) (by omega) ?_
        show k = ((c.toNat : Nat) : Int) * ld + ((r.toNat : Nat) : Int); rw [show ((c.toNat : Nat) : Int) = c by omega]
        omega
    · dsimp only
      refine ⟨.invalidInput, o, rfl, ?_, fun _ => ⟨rfl, rfl⟩⟩
      intro w
      obtain ⟨c, hc, hne⟩ := v2
      exact absurd (w c hc) hne

end Verif.DataStore
