/-
C05–C08: the data store.
-/
import Verif.DataStore.Select

namespace Verif.DataStore
open Verif.IntervalSet (Ivl)
variable {V : Type}

/-! ### C05 -/

/-- C05 in full: after any history of calls the store is the matrix that was assembled. -/
def C05_statement : Prop := ∀ (V : Type) (h : Hist V), ∃ s, exec h = some s ∧ Agrees s (contents h)

/-- A column and a row of consecutive integers, for examples. -/
def colOf (m : Int) (ty : Ty) (b : Int) : Piece Int := ⟨m, 1, ty, .col, fun k => b + k⟩
def rowOf (n : Int) (ty : Ty) (b : Int) : Piece Int := ⟨1, n, ty, .row, fun k => b + k⟩

/-- Two columns, two full rows below and another one: the second row closes a cycle of blocks, and the third one
makes `concatenate_rows` loop for ever. -/
def hTwice : Hist Int :=
  .rows (.rows (.cols (.cols .empty (colOf 1 .int 10)) (colOf 1 .int 20)) (rowOf 2 .int 30)) (rowOf 2 .int 40)

theorem C05_row_loop_violated : exec (.rows hTwice (rowOf 2 .int 50)) = none := by
  have h : (exec (.rows hTwice (rowOf 2 .int 50))).isNone = true := by decide +kernel
  exact Option.isNone_iff_eq_none.mp h

/-- Two columns, a full row below and a row in two pieces: the second piece of the last row is not found, reading it
dereferences a null pointer. -/
def hMixed : Hist Int := .rows (.rows (.rows (.cols (.cols .empty (colOf 1 .int 10)) (colOf 1 .int 20)) (rowOf 2 .int 30))
  (rowOf 1 .int 40)) (rowOf 1 .int 50)

theorem C05_row_pieces_violated : ∃ s, exec hMixed = some s ∧ s.missing = false ∧ s.m = 3 ∧ s.n = 2 ∧
    (contents hMixed).cell 2 1 = some 50 ∧ getElement s .int 2 1 = none := by
  have h : (exec hMixed).any (fun s => s.missing == false && s.m == 3 && s.n == 2 && (contents hMixed).cell 2 1 == some 50 &&
    (getElement s .int 2 1).isNone) = true := by decide +kernel
  cases hs : exec hMixed with
  | none => rw [hs] at h; cases h
  | some s =>
    rw [hs] at h
    simp only [Option.any_some, Bool.and_eq_true, beq_iff_eq, Option.isNone_iff_eq_none] at h
    exact ⟨s, rfl, h.1.1.1.1, h.1.1.1.2, h.1.1.2, h.1.2, h.2⟩

/-- Rows that are completed by a block with fewer rows: the store is complete, but lacks values. -/
def hUneven : Hist Int := .rows (.rows (.cols (.cols .empty (colOf 1 .int 10)) (colOf 1 .int 20)) (colOf 2 .int 30)) (colOf 1 .int 40)

theorem C05_uneven_rows_violated : ∃ s, exec hUneven = some s ∧ s.missing = false ∧ s.m = 3 ∧ s.n = 2 ∧ getElement s .int 2 1 = none := by
  have h : (exec hUneven).any (fun s => s.missing == false && s.m == 3 && s.n == 2 && (getElement s .int 2 1).isNone) = true := by decide +kernel
  cases hs : exec hUneven with
  | none => rw [hs] at h; cases h
  | some s =>
    rw [hs] at h
    simp only [Option.any_some, Bool.and_eq_true, beq_iff_eq, Option.isNone_iff_eq_none] at h
    exact ⟨s, rfl, h.1.1.1, h.1.1.2, h.1.2, h.2⟩

/-- A block that is refused while rows are incomplete reduces the number of rows: values that were supplied cannot be
read any more. -/
def hRefused : Hist Int := .rows (.rows (.rows (.cols (.cols .empty (colOf 1 .int 10)) (colOf 1 .double 20)) (colOf 2 .int 30))
  (colOf 2 .int 40)) (colOf 2 .double 50)

theorem C05_refused_rows_violated : ∃ s, exec hRefused = some s ∧ s.missing = false ∧ s.m = 1 ∧ (contents hRefused).m = 3 ∧
    (contents hRefused).cell 1 0 = some 30 ∧ getElement s .int 1 0 = some (.invalidInput, none) := by
  have h : (exec hRefused).any (fun s => s.missing == false && s.m == 1 && (contents hRefused).m == 3 && (contents hRefused).cell 1 0 == some 30 &&
    decide (getElement s .int 1 0 = some (.invalidInput, none))) = true := by decide +kernel
  cases hs : exec hRefused with
  | none => rw [hs] at h; cases h
  | some s =>
    rw [hs] at h
    simp only [Option.any_some, Bool.and_eq_true, beq_iff_eq, decide_eq_true_eq] at h
    exact ⟨s, rfl, h.1.1.1.1, h.1.1.1.2, h.1.1.2, h.1.2, h.2⟩

theorem C05_violated : ¬ C05_statement := by
  intro h
  obtain ⟨s, hs, -⟩ := h Int (.rows hTwice (rowOf 2 .int 50))
  rw [C05_row_loop_violated] at hs
  cases hs

/-- C05 for the histories in which rows are only added below columns whose last rows came in a block of their own, and
in which incomplete rows are completed by blocks that fit (`Supported`).  Missing: the other histories, for which it
is violated. -/
theorem C05_partial (h : Hist V) (hs : Supported h) : ∃ s, exec h = some s ∧ Agrees s (contents h) := by
  obtain ⟨s, h1, L, h2⟩ := exec_inv h hs
  exact ⟨s, h1, h2.agrees⟩

/-- C05: a concatenation is accepted if and only if it is possible. -/
theorem C05_status_partial (h : Hist V) (hs : Supported h) : ∃ s, exec h = some s ∧
    (∀ p : Piece V, ∃ st s', concatCols s p.m p.n p.ty p.order p.data = some (st, s') ∧ (st = .success ↔ ((contents h).addCols p).isSome)) ∧
    (∀ p : Piece V, rowsSupported (contents h) p →
      ∃ st s', concatRows s p.m p.n p.ty p.order p.data = some (st, s') ∧ (st = .success ↔ ((contents h).addRows p).isSome)) ∧
    (∀ k, Supported k → ∃ t, exec k = some t ∧
      ∃ st s', horizontalConcat s t = some (st, s') ∧ (st = .success ↔ ((contents h).append (contents k)).isSome)) := by
  obtain ⟨s, h1, L, h2⟩ := exec_inv h hs
  refine ⟨s, h1, ?_, ?_, ?_⟩
  · intro p
    rcases h2.cols p with ⟨g', w1, s', w2, -⟩ | ⟨w1, st, w2, w3⟩
    · exact ⟨_, _, w2, by simp [w1]⟩
    · exact ⟨_, _, w3, by simp [w1, w2]⟩
  · intro p hp
    rcases h2.rows p hp with ⟨g', w1, s', w2, -⟩ | ⟨w1, st, s', w2, w3, -⟩
    · exact ⟨_, _, w2, by simp [w1]⟩
    · exact ⟨_, _, w3, by simp [w1, w2]⟩
  · intro k hk
    obtain ⟨t, k1, K, k2⟩ := exec_inv k hk
    refine ⟨t, k1, ?_⟩
    rcases h2.hconcat k2 with ⟨g', w1, s', w2, -⟩ | ⟨w1, st, w2, w3⟩
    · exact ⟨_, _, w2, by simp [w1]⟩
    · exact ⟨_, _, w3, by simp [w1, w2]⟩

/-- Rows in two pieces below three columns that came in two blocks. -/
def hExample : Hist Int :=
  .rows (.rows (.cols (.cols .empty ⟨2, 2, .int, .row, fun k => 10 + k⟩) (colOf 2 .double 20)) ⟨1, 2, .int, .col, fun k => 30 + k⟩) (colOf 1 .double 40)

theorem hExample_supported : Supported hExample := by
  refine ⟨⟨trivial, ?_⟩, ?_⟩
  · intro _ _ _
    refine ⟨by decide +kernel, fun w => absurd (by decide +kernel) w⟩
  · intro _ _ _
    exact ⟨by decide +kernel, fun _ => by decide +kernel⟩

example : (∃ s, exec hExample = some s ∧ Agrees s (contents hExample)) ∧ (contents hExample).n = 3 ∧ (contents hExample).m = 3 ∧
    (contents hExample).cell 2 1 = some 31 ∧ (contents hExample).cell 0 1 = some 11 ∧ (contents hExample).cell 2 2 = some 40 :=
  ⟨C05_partial hExample hExample_supported, by decide +kernel, by decide +kernel, by decide +kernel, by decide +kernel, by decide +kernel⟩

/-! ### C06 -/

/-- C06 in full, for all stores that calls can produce. -/
def C06_statement : Prop := ∀ (V : Type) (h : Hist V) (s : Store V), exec h = some s → ∀ ty i j v, ∃ st s', setElement s ty i j v = some (st, s') ∧
  (st = .success → getElement s' ty i j = some (.success, some v) ∧
    ∀ ty' i' j', (i' ≠ i ∨ j' ≠ j) → getElement s' ty' i' j' = getElement s ty' i' j') ∧
  (st ≠ .success → s' = s)

/-- Rows are incomplete: setting an element for which no value has been supplied dereferences a null pointer. -/
def hIncomplete : Hist Int := .rows (.cols (.cols .empty (colOf 1 .int 10)) (colOf 1 .int 20)) (colOf 1 .int 30)

theorem C06_incomplete_violated : ¬ C06_statement := by
  intro h
  have key : (exec hIncomplete).any (fun s => (setElement s .int 1 1 7).isNone) = true := by decide +kernel
  cases hs : exec hIncomplete with
  | none => rw [hs] at key; cases key
  | some s =>
    rw [hs] at key
    obtain ⟨st, s', h1, -⟩ := h Int hIncomplete s hs .int 1 1 7
    rw [Option.any_some, h1] at key
    cases key

/-- C06 for positions for which a value has been supplied or which are outside of the store (in a complete store these
are all positions).  Missing: positions of incomplete rows, and histories that are not supported. -/
theorem C06_partial (h : Hist V) (hs : Supported h) (s : Store V) (he : exec h = some s) (ty : Ty) (i j : Int) (v : V)
    (hij : elementSupported (contents h) i j) : ∃ st s', setElement s ty i j v = some (st, s') ∧
      (st = .success ↔ 0 ≤ j ∧ j < (contents h).n ∧ 0 ≤ i ∧ i < (contents h).rows j ∧ (contents h).ty j = ty) ∧
      (st = .success → getElement s' ty i j = some (.success, some v) ∧
        ∀ ty' i' j', (i' ≠ i ∨ j' ≠ j) → elementSupported (contents h) i' j' → getElement s' ty' i' j' = getElement s ty' i' j') ∧
      (st ≠ .success → s' = s) := by
  obtain ⟨s0, h1, L, h2⟩ := exec_inv h hs
  rw [he] at h1
  injection h1 with h1
  subst h1
  rcases h2.set (ty := ty) (v := v) (add_nonneg h) hij with ⟨g', w1, s', w2, w3⟩ | ⟨w1, w2⟩
  · obtain ⟨a1, a2, a3, a4, a5, rfl⟩ := set_some w1
    refine ⟨_, s', w2, by simp [a1, a2, a3, a4, a5], fun _ => ⟨?_, ?_⟩, fun w => absurd rfl w⟩
    · have hm := Int.lt_of_lt_of_le a4 (h2.rows_le (add_nonneg h) a1 a2)
      obtain ⟨v', e1, e2, -⟩ := (w3.agrees.read i j a1 a2 a3 hm).2 a4
      simp only [and_self, if_true, Option.some.injEq] at e1
      subst e1
      rw [← a5]
      exact e2
    · intro ty' i' j' hne hsup'
      have ag := w3.agrees
      have ag0 := h2.agrees
      by_cases c : i' < 0 ∨ (contents h).m ≤ i' ∨ j' < 0 ∨ (contents h).n ≤ j'
      · rw [ag.refuse ty' i' j' c, ag0.refuse ty' i' j' c]
      · have hr : i' < (contents h).rows j' := hsup' (by omega) (by omega) (by omega)
        obtain ⟨v1, e1, e2, e3⟩ := (ag.read i' j' (by omega) (show j' < (contents h).n by omega) (by omega) (show i' < (contents h).m by omega)).2 hr
        obtain ⟨v2, f1, f2, f3⟩ := (ag0.read i' j' (by omega) (by omega) (by omega) (by omega)).2 hr
        dsimp only at e1 e2 e3
        rw [if_neg (by omega)] at e1
        rw [f1] at e1
        injection e1 with e1
        subst e1
        by_cases ct : ty' = (contents h).ty j'
        · rw [ct, e2, f2]
        · rw [e3 ty' ct, f3 ty' ct]
  · refine ⟨_, s, w2, ?_, fun w => (by cases w), fun _ => rfl⟩
    constructor
    · intro w; cases w
    · rintro ⟨a1, a2, a3, a4, a5⟩
      unfold Mat.set at w1
      rw [if_pos ⟨a1, a2, a3, a4, a5⟩] at w1
      cases w1

/-- In a complete store the condition on the position holds everywhere. -/
theorem C06_complete_partial (h : Hist V) (hs : Supported h) (hc : (contents h).start = 0) (i j : Int) : elementSupported (contents h) i j := by
  obtain ⟨s, h1, L, h2⟩ := exec_inv h hs
  intro a b c
  have hm : (contents h).m = (contents h).rows 0 := by unfold Mat.m; rw [if_neg (by omega)]
  rw [h2.even hc j a b]
  omega

example : ∃ s, exec hExample = some s ∧ ∃ st s', setElement s .int 2 1 99 = some (st, s') ∧ st = .success ∧
    getElement s' .int 2 1 = some (.success, some 99) ∧ getElement s' .int 2 0 = getElement s .int 2 0 := by
  obtain ⟨s, hs, -⟩ := C05_partial hExample hExample_supported
  have hsup := C06_complete_partial hExample hExample_supported (by decide +kernel)
  obtain ⟨st, s', h1, h2, h3, -⟩ := C06_partial hExample hExample_supported s hs .int 2 1 99 (hsup 2 1)
  have hst : st = .success := h2.mpr (by decide +kernel)
  exact ⟨s, hs, st, s', h1, hst, (h3 hst).1, (h3 hst).2 .int 2 0 (by decide) (hsup 2 0)⟩

/-! ### C07 -/

/-- A column is copied to the first positions of the array; nothing else changes. -/
def ColumnExact (s : Store V) (g : Mat V) : Prop := ∀ ty idx m (o : Int → V), ∃ st o', extractColumn s ty idx m o = some (st, o') ∧
  (g.start = 0 ∧ m = g.m ∧ 0 ≤ idx ∧ idx < g.n ∧ g.ty idx = ty →
    st = .success ∧ (∀ i, 0 ≤ i → i < m → g.cell i idx = some (o' i)) ∧ ∀ k, (k < 0 ∨ m ≤ k) → o' k = o k) ∧
  (¬ (g.start = 0 ∧ m = g.m ∧ 0 ≤ idx ∧ idx < g.n ∧ g.ty idx = ty) → st ≠ .success ∧ o' = o)

/-- A slice is copied to the positions given by the leading dimension and the first position. -/
def SliceExact (s : Store V) (g : Mat V) : Prop := ∀ ty (rows cols : Ivl) ld first (o : Int → V), ∃ st o',
  extractSlice s ty rows cols ld first o = some (st, o') ∧
  (¬ (0 ≤ rows.lower ∧ rows.lower ≤ rows.upper ∧ rows.upper < g.m ∧ 0 ≤ cols.lower ∧ cols.lower ≤ cols.upper ∧ cols.upper < g.n ∧
    rows.upper - rows.lower + 1 ≤ ld) → st = .invalidInput ∧ o' = o) ∧
  (0 ≤ rows.lower ∧ rows.lower ≤ rows.upper ∧ rows.upper < g.m ∧ 0 ≤ cols.lower ∧ cols.lower ≤ cols.upper ∧ cols.upper < g.n ∧
    rows.upper - rows.lower + 1 ≤ ld →
    (st = .success ↔ ∀ c, cols.lower ≤ c → c ≤ cols.upper → g.ty c = ty) ∧
    (st = .success → ∀ r c, rows.lower ≤ r → r ≤ rows.upper → cols.lower ≤ c → c ≤ cols.upper →
      g.cell r c = some (o' (first + (c - cols.lower) * ld + (r - rows.lower)))) ∧
    ∀ k, (∀ r c, rows.lower ≤ r → r ≤ rows.upper → cols.lower ≤ c → c ≤ cols.upper →
      k ≠ first + (c - cols.lower) * ld + (r - rows.lower)) → o' k = o k)

/-- C07 in full. -/
def C07_statement : Prop := ∀ (V : Type) (h : Hist V) (s : Store V), exec h = some s → s.missing = false →
  ColumnExact s (contents h) ∧ SliceExact s (contents h)

/-- The extraction of a column of a complete store never ends if two full rows have been added. -/
theorem C07_endless_violated : ∃ s, exec hTwice = some s ∧ s.missing = false ∧ s.m = 3 ∧ s.n = 2 ∧
    ∀ o, extractColumn s .int 0 3 o = none := by
  have h : (exec hTwice).any (fun s => s.missing == false && s.m == 3 && s.n == 2 && (extractColumn s .int 0 3 (fun _ => 0)).isNone) = true := by
    decide +kernel
  have indep : ∀ (heap : List (Node Int)) (fuel : Nat) (q : Option Nat) (r : Int) (o o' : Out Int),
      columnLoop heap 0 fuel q r o = none → columnLoop heap 0 fuel q r o' = none := by
    intro heap fuel
    induction fuel with
    | zero => intro q r o o' _; rfl
    | succ fuel ih =>
      intro q r o o' hn
      cases q with
      | none => cases hn
      | some id =>
        unfold columnLoop at hn ⊢
        cases h1 : heap[id]? with
        | none => rfl
        | some nd =>
          rw [h1] at hn
          dsimp only at hn ⊢
          cases h2 : getCol nd.b (0 - nd.offset) with
          | none => rw [h2] at hn; cases hn
          | some cs =>
            rw [h2] at hn
            exact ih _ _ _ _ hn
  cases hs : exec hTwice with
  | none => rw [hs] at h; cases h
  | some s =>
    rw [hs] at h
    simp only [Option.any_some, Bool.and_eq_true, beq_iff_eq, Option.isNone_iff_eq_none] at h
    refine ⟨s, rfl, h.1.1.1, h.1.1.2, h.1.2, fun o => ?_⟩
    have hx := h.2
    unfold extractColumn at hx ⊢
    rw [h.1.1.1, h.1.1.2, h.1.2] at hx ⊢
    have e1 : ¬ (false = true) := by decide
    have e2 : ¬ ((3 : Int) ≠ 3) := by decide
    have e3 : ¬ ((0 : Int) < 0 ∨ (0 : Int) ≥ 2) := by decide
    rw [if_neg e1, if_neg e2, if_neg e3] at hx ⊢
    cases hf : IntervalMap.find false s.cmap 0 with
    | none => rfl
    | some e =>
      rw [hf] at hx
      cases e with
      | none => rfl
      | some e =>
        dsimp only at hx ⊢
        cases hd : s.heap[e.val]? with
        | none => rfl
        | some nd =>
          rw [hd] at hx
          dsimp only at hx ⊢
          by_cases ct : nd.b.ty ≠ .int
          · rw [if_pos ct] at hx; cases hx
          · rw [if_neg ct] at hx ⊢
            exact indep _ _ _ _ _ _ hx

theorem C07_violated : ¬ C07_statement := by
  intro h
  obtain ⟨s, h1, h2, h3, h4, h5⟩ := C07_endless_violated
  obtain ⟨st, o', w, -⟩ := (h Int hTwice s h1 h2).1 .int 0 3 (fun _ => 0)
  rw [h5] at w
  cases w

/-- C07 for supported histories (extraction of a slice only from complete stores, as `extract_selection` does).
Missing: the histories that are not supported. -/
theorem C07_partial (h : Hist V) (hs : Supported h) : ∃ s, exec h = some s ∧ ColumnExact s (contents h) ∧
    ((contents h).start = 0 → SliceExact s (contents h)) := by
  obtain ⟨s, h1, L, h2⟩ := exec_inv h hs
  refine ⟨s, h1, ?_, ?_⟩
  · intro ty idx m o
    rcases h2.extractColumn (ty := ty) (idx := idx) (m := m) (o := o) with ⟨a1, a2, a3, a4, a5, o', w1, w2, w3⟩ | ⟨a, st, w1, w2⟩
    · exact ⟨_, o', w1, fun _ => ⟨rfl, w2, fun k hk => w3 k (by omega)⟩, fun w => absurd ⟨a1, a2, a3, a4, a5⟩ w⟩
    · exact ⟨st, o, w2, fun w => absurd w a, fun _ => ⟨w1, rfl⟩⟩
  · intro hcomp ty rows cols ld first o
    by_cases c : 0 ≤ rows.lower ∧ rows.lower ≤ rows.upper ∧ rows.upper < (contents h).m ∧ 0 ≤ cols.lower ∧ cols.lower ≤ cols.upper ∧
        cols.upper < (contents h).n ∧ rows.upper - rows.lower + 1 ≤ ld
    · have c' := c
      obtain ⟨c1, c2, c3, c4, c5, c6, c7⟩ := c'
      have hm : (contents h).m = (contents h).rows 0 := by unfold Mat.m; rw [if_neg (by omega)]
      -- values by position
      have hval : ∀ q t, 0 ≤ q → q ≤ cols.upper - cols.lower → rows.lower ≤ t → t ≤ rows.upper →
          (contents h).cell t (cols.lower + q) =
            some ((fun k => ((contents h).cell (rows.lower + (k - first) % ld) (cols.lower + (k - first) / ld)).getD (o k)) (q * ld + first + (t - rows.lower))) := by
        intro q t a1 a2 a3 a4
        obtain ⟨v, hv⟩ := h2.cell_some hcomp (i := t) (j := cols.lower + q) (by omega) (by omega) (by omega) (by omega)
        obtain ⟨d1, d2⟩ := divmod (ld := ld) (t := t - rows.lower) (q := q) (by omega) (by omega)
        dsimp only
        rw [show q * ld + first + (t - rows.lower) - first = q * ld + (t - rows.lower) by omega, d1, d2,
          show rows.lower + (t - rows.lower) = t by omega, hv]
        rfl
      obtain ⟨d, st, o', e1, e2, e3, e4, e5⟩ := h2.extractSlice
        (W := fun k => ((contents h).cell (rows.lower + (k - first) % ld) (cols.lower + (k - first) / ld)).getD (o k))
        (ty := ty) (ld := ld) (first := first) (o := o) c1 c2 c3 c4 c5 c6 c7
        (fun j a b => by rw [h2.even hcomp j (by omega) (by omega)]; omega) hval
      refine ⟨st, o', e1, fun w => absurd c w, fun _ => ⟨?_, ?_, ?_⟩⟩
      · rcases e5 with ⟨rfl, rfl⟩ | ⟨rfl, w2, w3⟩
        · exact ⟨fun _ c a b => e3 c a (by omega), fun _ => rfl⟩
        · exact ⟨fun w => by (cases w), fun w => absurd (w (cols.lower + d) (by omega) (by omega)) w3⟩
      · intro hst r c a1 a2 a3 a4
        rcases e5 with ⟨-, rfl⟩ | ⟨w, -, -⟩
        · have := hval (c - cols.lower) r (by omega) (by omega) a1 a2
          rw [show cols.lower + (c - cols.lower) = c by omega] at this
          rw [this, show first + (c - cols.lower) * ld = (c - cols.lower) * ld + first by omega]
          rw [e4.1 _ ⟨c - cols.lower, r - rows.lower, by omega, by omega, by omega, by omega, rfl⟩]
        · rw [w] at hst; cases hst
      · intro k hk
        refine e4.2 k ?_
        rintro ⟨q, t, a1, a2, a3, a4, a5⟩
        refine hk (rows.lower + t) (cols.lower + q) (by omega) (by omega) (by omega) ?_ ?_
        · rcases e5 with ⟨-, w⟩ | ⟨-, w, -⟩ <;> omega
        · rw [show cols.lower + q - cols.lower = q by omega]
          omega
    · exact ⟨_, o, h2.extractSlice_refused c, fun _ => ⟨rfl, rfl⟩, fun w => absurd w c⟩

example : ∃ s, exec hExample = some s ∧ ∃ o', extractSlice s .int ⟨1, 2⟩ ⟨0, 1⟩ 5 3 (fun _ => -1) = some (.success, o') ∧
    o' 3 = 12 ∧ o' 4 = 30 ∧ o' 8 = 13 ∧ o' 9 = 31 ∧ o' 5 = -1 := by
  obtain ⟨s, hs, -, h⟩ := C07_partial hExample hExample_supported
  have hh := h (by decide +kernel)
  obtain ⟨st, o', h1, -, h2⟩ := hh .int ⟨1, 2⟩ ⟨0, 1⟩ 5 3 (fun _ => -1)
  obtain ⟨h3, h4, h5⟩ := h2 (by decide +kernel)
  have hst : st = .success := h3.mpr (by
    intro c a b
    dsimp only at a b
    rcases (show c = 0 ∨ c = 1 by omega) with rfl | rfl <;> decide +kernel)
  subst hst
  have cell : ∀ r c, r = 1 ∨ r = 2 → c = 0 ∨ c = 1 → (contents hExample).cell r c = some (o' (3 + (c - 0) * 5 + (r - 1))) :=
    fun r c a b => h4 rfl r c (by dsimp only; omega) (by dsimp only; omega) (by dsimp only; omega) (by dsimp only; omega)
  have e : ∀ r c v, (contents hExample).cell r c = some v → (r = 1 ∨ r = 2) → (c = 0 ∨ c = 1) → o' (3 + (c - 0) * 5 + (r - 1)) = v := by
    intro r c v hv a b
    have := cell r c a b
    rw [hv] at this
    injection this with this
    exact this.symm
  refine ⟨s, hs, o', h1, e 1 0 12 (by decide +kernel) (by omega) (by omega), e 2 0 30 (by decide +kernel) (by omega) (by omega),
    e 1 1 13 (by decide +kernel) (by omega) (by omega), e 2 1 31 (by decide +kernel) (by omega) (by omega), ?_⟩
  exact h5 5 (by
    intro r c a b a' b'
    dsimp only at a b a' b' ⊢
    omega)

/-! ### C08 -/

/-- The rows `rs` and columns `cs` are the selected ones, in increasing order. -/
def SelectedLists (g : Mat V) (calls : List SelCall) (key : String) (rs cs : List Int) : Prop :=
  rs.Pairwise (· < ·) ∧ (∀ r, r ∈ rs ↔ RowSel g calls key r) ∧ cs.Pairwise (· < ·) ∧ ∀ c, c ∈ cs ↔ ColSel g calls key c

/-- Where element `(t, q)` of the sub-matrix belongs. -/
def place (order : Order) (ld t q : Int) : Int :=
  match order with
  | .col => q * ld + t
  | .row => t * ld + q

/-- What is wanted of `extract_selection`. -/
def SelectionExact (s : Store V) (g : Mat V) (calls : List SelCall) (key : String) (zero : V) (ty : Ty) (order : Order) (ld : Int) (rs cs : List Int) : Prop :=
  ∀ o : Int → V, ∃ st o', extractSelection s (runSel s calls) zero ty key order ld o = some (st, o') ∧
    ((∃ key', Named g calls key') ∧ ¬ Named g calls key → st = .invalidInput ∧ o' = o) ∧
    (((∃ key', Named g calls key') → Named g calls key) →
      ((∀ c ∈ cs, g.ty c = ty) → (st = .success ∧ (∃ key', Named g calls key') ∨ st = .fullExtraction ∧ ¬ ∃ key', Named g calls key') ∧
        SubMatrix g rs cs (place order ld) o o') ∧
      ((∃ c ∈ cs, g.ty c ≠ ty) → st = .invalidInput ∧
        ∀ k, (∀ t q : Nat, t < rs.length → q < cs.length → k ≠ place order ld t q) → o' k = o k))

/-- C08 in full: for complete stores that are not empty, both orders and all legal leading dimensions. -/
def C08_statement : Prop := ∀ (V : Type) (h : Hist V) (s : Store V), Supported h → exec h = some s → (contents h).start = 0 → (contents h).n ≠ 0 →
  ∀ calls key rs cs, SelectedLists (contents h) calls key rs cs →
  ∀ zero ty order ld, (match order with | .col => (rs.length : Int) ≤ ld | .row => (cs.length : Int) ≤ ld) →
  SelectionExact s (contents h) calls key zero ty order ld rs cs

/-- Three columns in one block; the first and the last are selected. -/
def hThree : Hist Int := .cols .empty ⟨2, 3, .int, .col, fun k => 1 + k⟩
def twoCols : List SelCall := [.cols "a" ⟨0, 0⟩, .cols "a" ⟨2, 2⟩]

/-- In row-major order the two columns are not side by side, and twice as many rows as selected are written, behind
the end of the array. -/
theorem C08_row_major_violated : ∃ s, exec hThree = some s ∧
    (extractSelection s (runSel s twoCols) 0 .int "a" .row 2 (fun _ => -1)).map (fun r => (r.1, (List.range 9).map fun (k : Nat) => r.2 k)) =
      some (.success, [1, 0, 2, 0, 5, 0, 6, 0, -1]) ∧
    (extractSelection s (runSel s twoCols) 0 .int "a" .col 2 (fun _ => -1)).map (fun r => (r.1, (List.range 5).map fun (k : Nat) => r.2 k)) =
      some (.success, [1, 2, 5, 6, -1]) := by
  have h : (exec hThree).any (fun s =>
    decide ((extractSelection s (runSel s twoCols) 0 .int "a" .row 2 (fun _ => -1)).map (fun r => (r.1, (List.range 9).map fun (k : Nat) => r.2 k)) =
      some (.success, [1, 0, 2, 0, 5, 0, 6, 0, -1])) &&
    decide ((extractSelection s (runSel s twoCols) 0 .int "a" .col 2 (fun _ => -1)).map (fun r => (r.1, (List.range 5).map fun (k : Nat) => r.2 k)) =
      some (.success, [1, 2, 5, 6, -1]))) = true := by decide +kernel
  cases hs : exec hThree with
  | none => rw [hs] at h; cases h
  | some s =>
    rw [hs] at h
    simp only [Option.any_some, Bool.and_eq_true, decide_eq_true_eq] at h
    exact ⟨s, rfl, h.1, h.2⟩

/-- With a larger leading dimension the temporary array is overrun. -/
theorem C08_overrun_violated : ∃ s, exec hThree = some s ∧ extractSelection s (runSel s twoCols) 0 .int "a" .row 9 (fun _ => -1) = none := by
  have h : (exec hThree).any (fun s => (extractSelection s (runSel s twoCols) 0 .int "a" .row 9 (fun _ => -1)).isNone) = true := by decide +kernel
  cases hs : exec hThree with
  | none => rw [hs] at h; cases h
  | some s =>
    rw [hs] at h
    exact ⟨s, rfl, Option.isNone_iff_eq_none.mp h⟩

theorem twoCols_lists : SelectedLists (contents hThree) twoCols "a" [0, 1] [0, 2] := by
  have hn : (contents hThree).n = 3 := by decide +kernel
  have hm : (contents hThree).m = 2 := by decide +kernel
  have ok1 : (SelCall.cols "a" ⟨0, 0⟩).ok (contents hThree) := by
    constructor
    · intro i hi; cases hi
    · intro i hi; cases hi; rw [hn]; decide
  have ok2 : (SelCall.cols "a" ⟨2, 2⟩).ok (contents hThree) := by
    constructor
    · intro i hi; cases hi
    · intro i hi; cases hi; rw [hn]; decide
  refine ⟨by decide, ?_, by decide, ?_⟩
  · intro r
    have hno : ∀ r', ¬ RowGiven (contents hThree) twoCols "a" r' := by
      rintro r' ⟨c, hc, -, -, i, hi, -⟩
      simp only [twoCols, List.mem_cons, List.not_mem_nil, or_false] at hc
      rcases hc with rfl | rfl <;> cases hi
    unfold RowSel
    rw [hm]
    simp only [List.mem_cons, List.not_mem_nil, or_false]
    constructor
    · intro h; exact Or.inr ⟨by omega, by omega, hno⟩
    · rintro (h | h)
      · exact absurd h (hno r)
      · omega
  · intro c
    unfold ColSel
    simp only [List.mem_cons, List.not_mem_nil, or_false]
    constructor
    · rintro (rfl | rfl)
      · exact Or.inl ⟨_, by simp [twoCols], ok1, rfl, _, rfl, by decide, by decide⟩
      · exact Or.inl ⟨_, by simp [twoCols], ok2, rfl, _, rfl, by decide, by decide⟩
    · rintro (⟨x, hx, -, -, i, hi, h1, h2⟩ | ⟨-, -, h⟩)
      · simp only [twoCols, List.mem_cons, List.not_mem_nil, or_false] at hx
        rcases hx with rfl | rfl
        · cases hi; dsimp only at h1 h2; omega
        · cases hi; dsimp only at h1 h2; omega
      · exact absurd ⟨_, by simp [twoCols], ok1, rfl, _, rfl, by decide, by decide⟩ (h 0)

theorem C08_violated : ¬ C08_statement := by
  intro h
  obtain ⟨s, hs, hn⟩ := C08_overrun_violated
  obtain ⟨st, o', w, -⟩ := h Int hThree s trivial hs (by decide +kernel) (by decide +kernel) twoCols "a" [0, 1] [0, 2] twoCols_lists 0 .int .row 9
    (by decide) (fun _ => -1)
  rw [hn] at w
  cases w

/-- C08 in column-major order, and in row-major order if the selected columns are consecutive.  Missing: other
selections in row-major order, for which it is violated, and unsupported histories. -/
theorem C08_partial (h : Hist V) (s : Store V) (hs : Supported h) (he : exec h = some s) (hc : (contents h).start = 0) (hn : (contents h).n ≠ 0)
    (calls : List SelCall) (key : String) (rs cs : List Int) (hl : SelectedLists (contents h) calls key rs cs) (zero : V) (ty : Ty)
    (order : Order) (ld : Int) (hld : match order with | .col => (rs.length : Int) ≤ ld | .row => (cs.length : Int) ≤ ld)
    (hone : order = .row → ∀ a b k, a ∈ cs → b ∈ cs → a ≤ k → k ≤ b → k ∈ cs) :
    SelectionExact s (contents h) calls key zero ty order ld rs cs := by
  obtain ⟨s0, h1, L, h2⟩ := exec_inv h hs
  rw [he] at h1
  injection h1 with h1
  subst h1
  intro o
  cases order with
  | col =>
    rcases h2.extract_col hc hn hl hld zero ty o with ⟨a1, a2, a3⟩ | ⟨a1, st, o', a2, a3, a4⟩
    · exact ⟨_, o, a3, fun _ => ⟨rfl, rfl⟩, fun w => absurd (w a1) a2⟩
    · exact ⟨st, o', a2, fun w => absurd (a1 w.1) w.2, fun _ => ⟨a3, a4⟩⟩
  | row =>
    rcases h2.extract_row hc hn hl (hone rfl) hld zero ty o with ⟨a1, a2, a3⟩ | ⟨a1, st, o', a2, a3, a4⟩
    · exact ⟨_, o, a3, fun _ => ⟨rfl, rfl⟩, fun w => absurd (w a1) a2⟩
    · exact ⟨st, o', a2, fun w => absurd (a1 w.1) w.2, fun _ => ⟨a3, fun w => ⟨(a4 w).1, fun k _ => by rw [(a4 w).2]⟩⟩⟩

example : ∃ s, exec hThree = some s ∧ SelectionExact s (contents hThree) twoCols "a" 0 .int .col 4 [0, 1] [0, 2] := by
  obtain ⟨s, hs, -⟩ := C05_partial hThree trivial
  exact ⟨s, hs, C08_partial hThree s trivial hs (by decide +kernel) (by decide +kernel) twoCols "a" [0, 1] [0, 2] twoCols_lists 0 .int .col 4
    (by decide) (fun w => by cases w)⟩

end Verif.DataStore
