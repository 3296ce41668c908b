import Verif.AutoDetect.Proof

namespace Verif.AutoDetect
variable {R : Type}

/-- The column `col` is the right one for the cells (in row order), `ptr k` being the
address of the cell in row `k`: the narrowest type that accepts every cell, one entry per
cell, in order, holding the parsed cell. -/
def RightColumn (ofInt : Int → R) (ptr : Nat → Nat) (cells : List (Elem R)) : Col R → Prop
  | .ints l => cells = l.map Elem.int
  | .reals l =>
      (∃ e ∈ cells, ∀ v, e ≠ .int v) ∧
      List.Forall₂ (fun e r => e = .real r ∨ ∃ v, e = .int v ∧ r = ofInt v) cells l
  | .bools l => cells ≠ [] ∧ cells = l.map Elem.bool
  | .chars l =>
      (∃ e ∈ cells, (∀ v, e ≠ .int v) ∧ ∀ v, e ≠ .real v) ∧ (∃ e ∈ cells, ∀ b, e ≠ .bool b) ∧
      l = (List.range cells.length).map ptr

theorem all_false {p : Elem R → Bool} {l : List (Elem R)} (h : l.all p = false) :
    ∃ e ∈ l, p e = false := by
  rw [List.all_eq_false] at h
  obtain ⟨e, he, h1⟩ := h
  exact ⟨e, he, by simpa using h1⟩

theorem colOf_right [Inhabited R] (ofInt : Int → R) (ptr : Nat → Nat) (es : List (Elem R)) :
    RightColumn ofInt ptr es (colOf ofInt ptr es) := by
  unfold colOf
  by_cases h1 : es.all isInt = true
  · rw [if_pos h1]
    simp only [RightColumn, List.map_map]
    conv_lhs => rw [← List.map_id es]
    apply List.map_congr_left
    intro e he
    have := List.all_eq_true.mp h1 e he
    cases e <;> simp_all [isInt, intVal]
  · rw [if_neg h1]
    obtain ⟨e1, he1, hn1⟩ := all_false (by simpa using h1)
    by_cases h2 : es.all isNum = true
    · rw [if_pos h2]
      refine ⟨⟨e1, he1, ?_⟩, ?_⟩
      · rintro v rfl; simp [isInt] at hn1
      · have : ∀ l : List (Elem R), (∀ e ∈ l, isNum e = true) → List.Forall₂
            (fun e r => e = .real r ∨ ∃ v, e = .int v ∧ r = ofInt v) l (l.map (realVal ofInt)) := by
          intro l
          induction l with
          | nil => intro _; exact .nil
          | cons e l ih =>
            intro h
            refine .cons ?_ (ih (fun x hx => h x (by simp [hx])))
            have := h e (by simp)
            cases e <;> simp_all [isNum, realVal]
        exact this es (List.all_eq_true.mp h2)
    · rw [if_neg h2]
      obtain ⟨e2, he2, hn2⟩ := all_false (by simpa using h2)
      by_cases h3 : es.all isBool = true
      · rw [if_pos h3]
        refine ⟨List.ne_nil_of_mem he1, ?_⟩
        rw [List.map_map]
        conv_lhs => rw [← List.map_id es]
        apply List.map_congr_left
        intro e he
        have := List.all_eq_true.mp h3 e he
        cases e <;> simp_all [isBool, boolVal]
      · rw [if_neg h3]
        obtain ⟨e3, he3, hn3⟩ := all_false (by simpa using h3)
        refine ⟨⟨e2, he2, ?_, ?_⟩, ⟨e3, he3, ?_⟩, rfl⟩
        · rintro v rfl; simp [isNum] at hn2
        · rintro v rfl; simp [isNum] at hn2
        · rintro v rfl; simp [isBool] at hn3

/-- Address of cell (row `j`, column `i`) of the table of strings. -/
def address (o : Order) (nrows ncols j i : Nat) : Nat :=
  match o with
  | .rowMajor => j * ncols + i
  | .colMajor => i * nrows + j

theorem address_eq (o : Order) (nrows ncols j i : Nat) :
    dataIndex o nrows ncols j i = address o nrows ncols j i := by
  cases o <;> simp [dataIndex, address, Nat.mul_comm, Nat.add_comm]

/-- C24, for every table, size, storage order and reading of the cells: there is no out-of-range
access, one column per table column, and each is the right column for its cells. -/
theorem C24_columns [Inhabited R] (ofInt : Int → R) (o : Order) (nrows ncols : Nat)
    (number : Nat → Option (Elem R)) (cell : Nat → Nat → Elem R)
    (hcell : ∀ j i, j < nrows → i < ncols → number (address o nrows ncols j i) = some (cell j i)) :
    ∃ cols, detectColumns ofInt o nrows ncols number = some cols ∧ cols.length = ncols ∧
      ∀ i, i < ncols → ∃ col, cols[i]? = some col ∧
        RightColumn ofInt (fun j => address o nrows ncols j i)
          ((List.range nrows).map fun j => cell j i) col := by
  refine ⟨_, detect_eq ofInt o nrows ncols number cell (fun j i hj hi => ?_), by simp, ?_⟩
  · rw [address_eq]; exact hcell j i hj hi
  · intro i hi
    refine ⟨_, by rw [List.getElem?_map, List.getElem?_range hi]; rfl, ?_⟩
    simp only [address_eq]
    exact colOf_right ofInt _ _

/-- The type of a column. -/
inductive Ty | int | real | bool | string
deriving DecidableEq

def Col.ty : Col R → Ty
  | .ints _ => .int
  | .reals _ => .real
  | .bools _ => .bool
  | .chars _ => .string

/-- The right column is unique, and its type depends only on which cells occur, not
on their order or number. -/
theorem C24_type_of_cells (ofInt : Int → R) (ptr ptr' : Nat → Nat) (es es' : List (Elem R))
    (h : ∀ e, e ∈ es ↔ e ∈ es') (c c' : Col R) (hc : RightColumn ofInt ptr es c)
    (hc' : RightColumn ofInt ptr' es' c') : c.ty = c'.ty := by
  have hall : ∀ (P : Elem R → Prop), (∀ e ∈ es, P e) ↔ ∀ e ∈ es', P e := by
    intro P; exact ⟨fun h1 e he => h1 e ((h e).mpr he), fun h1 e he => h1 e ((h e).mp he)⟩
  have key : ∀ (p : Nat → Nat) (l : List (Elem R)) (d : Col R), RightColumn ofInt p l d →
      d.ty = (open Classical in
        if ∀ e ∈ l, ∃ v, e = Elem.int v then Ty.int
        else if ∀ e ∈ l, (∃ v, e = Elem.int v) ∨ ∃ v, e = Elem.real v then Ty.real
        else if ∀ e ∈ l, ∃ v, e = Elem.bool v then Ty.bool else Ty.string) := by
    intro p l d hd
    cases d with
    | ints m =>
      rw [if_pos]; · rfl
      intro e he
      rw [hd] at he
      obtain ⟨v, -, rfl⟩ := List.mem_map.mp he
      exact ⟨v, rfl⟩
    | reals m =>
      obtain ⟨⟨e, he, hne⟩, hall⟩ := hd
      rw [if_neg, if_pos]
      · rfl
      · intro x hx
        clear he hne
        induction hall with
        | nil => simp at hx
        | cons h1 _ ih =>
          rcases List.mem_cons.mp hx with rfl | hx
          · rcases h1 with h2 | ⟨v, h2, -⟩
            · exact Or.inr ⟨_, h2⟩
            · exact Or.inl ⟨_, h2⟩
          · exact ih hx
      · intro h1
        obtain ⟨v, hv⟩ := h1 e he
        exact hne v hv
    | bools m =>
      obtain ⟨hne, rfl⟩ := hd
      cases m with
      | nil => simp at hne
      | cons b m =>
        rw [if_neg, if_neg, if_pos]
        · rfl
        · intro e he
          obtain ⟨v, -, rfl⟩ := List.mem_map.mp he
          exact ⟨v, rfl⟩
        · intro h1
          have := h1 (.bool b) (by simp)
          simp at this
        · intro h1
          have := h1 (.bool b) (by simp)
          simp at this
    | chars m =>
      obtain ⟨⟨e, he, h1, h2⟩, ⟨e', he', h3⟩, -⟩ := hd
      rw [if_neg, if_neg, if_neg]
      · rfl
      · intro h4
        obtain ⟨v, hv⟩ := h4 e' he'
        exact h3 v hv
      · intro h4
        rcases h4 e he with ⟨v, hv⟩ | ⟨v, hv⟩
        · exact h1 v hv
        · exact h2 v hv
      · intro h4
        obtain ⟨v, hv⟩ := h4 e he
        exact h1 v hv
  rw [key ptr es c hc, key ptr' es' c' hc']
  have k1 := propext (hall (fun e => ∃ v, e = Elem.int v))
  have k2 := propext (hall (fun e => (∃ v, e = Elem.int v) ∨ ∃ v, e = Elem.real v))
  have k3 := propext (hall (fun e => ∃ v, e = Elem.bool v))
  classical
  exact ite_congr k1 (fun _ => rfl) fun _ => ite_congr k2 (fun _ => rfl) fun _ =>
    ite_congr k3 (fun _ => rfl) fun _ => rfl

/-- Reordering the rows does not change the column types: `σ` is any reordering. -/
theorem C24_order_independent [Inhabited R] (ofInt : Int → R) (o : Order) (nrows ncols : Nat)
    (number number' : Nat → Option (Elem R)) (cell : Nat → Nat → Elem R) (σ : Nat → Nat)
    (hσ : ∀ j, j < nrows → σ j < nrows) (hsurj : ∀ j, j < nrows → ∃ k, k < nrows ∧ σ k = j)
    (hcell : ∀ j i, j < nrows → i < ncols → number (address o nrows ncols j i) = some (cell j i))
    (hcell' : ∀ j i, j < nrows → i < ncols →
      number' (address o nrows ncols j i) = some (cell (σ j) i)) :
    ∃ cols cols', detectColumns ofInt o nrows ncols number = some cols ∧
      detectColumns ofInt o nrows ncols number' = some cols' ∧
      cols.map Col.ty = cols'.map Col.ty := by
  obtain ⟨cols, h1, h2, h3⟩ := C24_columns ofInt o nrows ncols number cell hcell
  obtain ⟨cols', h1', h2', h3'⟩ := C24_columns ofInt o nrows ncols number' (fun j i => cell (σ j) i) hcell'
  refine ⟨cols, cols', h1, h1', ?_⟩
  apply List.ext_getElem?
  intro i
  by_cases hi : i < ncols
  · obtain ⟨c, hc, hr⟩ := h3 i hi
    obtain ⟨c', hc', hr'⟩ := h3' i hi
    rw [List.getElem?_map, List.getElem?_map, hc, hc']
    simp only [Option.map_some, Option.some.injEq]
    refine C24_type_of_cells ofInt _ _ _ _ ?_ c c' hr hr'
    intro e
    simp only [List.mem_map, List.mem_range]
    constructor
    · rintro ⟨j, hj, rfl⟩
      obtain ⟨k, hk, rfl⟩ := hsurj j hj
      exact ⟨k, hk, rfl⟩
    · rintro ⟨j, hj, rfl⟩
      exact ⟨σ j, hσ j hj, rfl⟩
  · rw [List.getElem?_eq_none (by simp; omega), List.getElem?_eq_none (by simp; omega)]

/-- The text of a string literal as bytes. -/
def bytes (s : String) : List Nat := s.toList.map Char.toNat

/-- `get_number` on a table of strings with the default options. -/
def readCells (data : List String) (k : Nat) : Option (Elem Rat) :=
  data[k]?.bind fun s => getNumber Parse.int64 Parse.doubleCfg false (bytes s)

/-- A table with an integer, a real, a boolean and a string column; the real column starts
with integers and the string column with an integer. -/
example : detectColumns (fun v => (v : Rat)) .rowMajor 3 4
    (readCells ["1", "7", "true", "5", "-2", "8", "FALSE", "x", "3", "2.5", "True", "6"])
    = some [.ints [1, -2, 3], .reals [7, 8, 5/2], .bools [1, 0, 1], .chars [3, 7, 11]] := by
  decide +kernel

/-- Because the reader of real numbers ignores what follows a number (C45), a column of
dates is typed real and only the year is kept. -/
theorem C24_dates_become_numbers : detectColumns (fun v => (v : Rat)) .colMajor 2 1
    (readCells ["2020-01-31", "2021-02-28"]) = some [.reals [2020, 2021]] := by
  decide +kernel

end Verif.AutoDetect
