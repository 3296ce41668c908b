import Verif.AutoDetect.Model
import Mathlib.Data.List.Basic

set_option linter.unusedSimpArgs false

namespace Verif.AutoDetect
variable {R : Type}

/-- Type of the column made of these cells. -/
def isInt : Elem R → Bool | .int _ => true | _ => false
def isNum : Elem R → Bool | .int _ => true | .real _ => true | _ => false
def isBool : Elem R → Bool | .bool _ => true | _ => false

def intVal : Elem R → Int | .int v => v | _ => 0
def boolVal : Elem R → Nat | .bool v => v | _ => 0
def realVal [Inhabited R] (ofInt : Int → R) : Elem R → R
  | .int v => ofInt v | .real v => v | _ => default

/-- The column for the cells `es`, where `ptr k` is the pointer to cell `k`. -/
def colOf [Inhabited R] (ofInt : Int → R) (ptr : Nat → Nat) (es : List (Elem R)) : Col R :=
  if es.all isInt then .ints (es.map intVal)
  else if es.all isNum then .reals (es.map (realVal ofInt))
  else if es.all isBool then .bools (es.map boolVal)
  else .chars ((List.range es.length).map ptr)

theorem map_real [Inhabited R] (ofInt : Int → R) (es : List (Elem R)) (h : es.all isInt = true) :
    (es.map intVal).map ofInt = es.map (realVal ofInt) := by
  rw [List.map_map]
  apply List.map_congr_left
  intro e he
  have := List.all_eq_true.mp h e he
  cases e <;> simp_all [isInt, intVal, realVal]

/-- One step on one column. -/
def colStep (ofInt : Int → R) (o : Order) (nrows ncols j i : Nat) (e : Elem R) (col : Col R) :
    Option (Col R) :=
  updateColumn ofInt o nrows ncols i j e (extendChars (dataIndex o nrows ncols j i) col)

theorem colStep_colOf [Inhabited R] (ofInt : Int → R) (o : Order) (nrows ncols i : Nat)
    (es : List (Elem R)) (e : Elem R) :
    colStep ofInt o nrows ncols es.length i e
        (colOf ofInt (fun k => dataIndex o nrows ncols k i) es)
      = some (colOf ofInt (fun k => dataIndex o nrows ncols k i) (es ++ [e])) := by
  have hch : (convertToChar o nrows ncols i es.length : Col R)
      = .chars ((List.range (es ++ [e]).length).map (fun k => dataIndex o nrows ncols k i)) := by
    simp [convertToChar]
  have hIN : es.all isInt = true → es.all isNum = true := by
    intro h
    rw [List.all_eq_true] at h ⊢
    intro x hx
    have := h x hx
    cases x <;> simp_all [isInt, isNum]
  by_cases hnil : es = []
  · subst hnil
    cases e <;> simp [colStep, extendChars, colOf, updateColumn, isInt, isNum, isBool, intVal, realVal, boolVal,
      convertToChar]
  have hpos := List.length_pos_iff.mpr hnil
  obtain ⟨x, hx⟩ := List.exists_mem_of_ne_nil es hnil
  have hNB : es.all isNum = true → es.all isBool = true → False := by
    intro h1 h2
    have h3 := List.all_eq_true.mp h1 x hx
    have h4 := List.all_eq_true.mp h2 x hx
    cases x <;> simp_all [isNum, isBool]
  by_cases h1 : es.all isInt = true
  · have h2 := hIN h1
    have h3 : es.all isBool = false := by
      cases h : es.all isBool with
      | false => rfl
      | true => exact (hNB h2 h).elim
    have hr := map_real ofInt es h1
    cases e with
    | int v => simp [colStep, extendChars, colOf, updateColumn, h1, isInt, intVal]
    | real v =>
      simp only [colStep, extendChars, colOf, updateColumn, h1, if_true, List.length_map, Nat.le_refl,
        List.all_append, h2]
      rw [List.take_of_length_le (by simp), hr]
      simp [isInt, isNum, realVal]
    | bool b =>
      simp only [colStep, extendChars, colOf, h1, if_true, updateColumn]
      rw [if_neg (by omega), hch]
      simp [List.all_append, isInt, isNum, isBool, h3]
    | text =>
      simp only [colStep, extendChars, colOf, h1, if_true, updateColumn]
      rw [hch]
      simp [List.all_append, isInt, isNum, isBool]
  · simp only [Bool.not_eq_true] at h1
    by_cases h2 : es.all isNum = true
    · have h3 : es.all isBool = false := by
        cases h : es.all isBool with
        | false => rfl
        | true => exact (hNB h2 h).elim
      cases e with
      | int v => simp [colStep, extendChars, colOf, updateColumn, h1, h2, isNum, realVal]
      | real v => simp [colStep, extendChars, colOf, updateColumn, h1, h2, isNum, realVal]
      | bool b =>
        simp only [colStep, extendChars, colOf, h1, h2, if_true, updateColumn, Bool.false_eq_true, if_false]
        rw [if_neg (by omega), hch]
        simp [List.all_append, h1, isNum, h3]
      | text =>
        simp only [colStep, extendChars, colOf, h1, h2, if_true, updateColumn, Bool.false_eq_true, if_false]
        rw [hch]
        simp [List.all_append, h1, isNum, isBool]
    · simp only [Bool.not_eq_true] at h2
      by_cases h3 : es.all isBool = true
      · cases e with
        | bool b => simp [colStep, extendChars, colOf, updateColumn, h1, h2, h3, isBool, boolVal]
        | int v =>
          simp only [colStep, extendChars, colOf, h1, h2, h3, if_true, updateColumn, Bool.false_eq_true, if_false]
          rw [hch]; simp [List.all_append, h1, h2, isBool]
        | real v =>
          simp only [colStep, extendChars, colOf, h1, h2, h3, if_true, updateColumn, Bool.false_eq_true, if_false]
          rw [hch]; simp [List.all_append, h1, h2, isBool]
        | text =>
          simp only [colStep, extendChars, colOf, h1, h2, h3, if_true, updateColumn, Bool.false_eq_true, if_false]
          rw [hch]; simp [List.all_append, h1, h2, isBool]
      · simp only [Bool.not_eq_true] at h3
        cases e with
        | bool b =>
          simp only [colStep, extendChars, colOf, h1, h2, h3, updateColumn, Bool.false_eq_true, if_false]
          rw [if_neg (by omega), hch]; simp [List.all_append, h1, h2, h3]
        | _ =>
          simp only [colStep, extendChars, colOf, h1, h2, h3, updateColumn, Bool.false_eq_true, if_false]
          rw [hch]; simp [List.all_append, h1, h2, h3]

/-- Cells of column `i` in the first `m` rows. -/
def colCells (cell : Nat → Nat → Elem R) (i m : Nat) : List (Elem R) :=
  (List.range m).map (fun j => cell j i)

theorem rowLoop [Inhabited R] (ofInt : Int → R) (o : Order) (nrows ncols : Nat)
    (number : Nat → Option (Elem R)) (cell : Nat → Nat → Elem R) (j : Nat) (hj : j < nrows)
    (hnum : ∀ j i, j < nrows → i < ncols → number (dataIndex o nrows ncols j i) = some (cell j i)) :
    ∀ m, m ≤ ncols →
    (List.range m).foldlM (fun cols i => cellStep ofInt o nrows ncols number j i cols)
      ((List.range ncols).map fun i => colOf ofInt (fun k => dataIndex o nrows ncols k i) (colCells cell i j))
    = some ((List.range ncols).map fun i => colOf ofInt (fun k => dataIndex o nrows ncols k i)
        (colCells cell i (if i < m then j + 1 else j))) := by
  intro m
  induction m with
  | zero => intro _; simp
  | succ m ih =>
    intro hm
    rw [List.range_succ, List.foldlM_append, ih (by omega)]
    simp only [List.foldlM_cons, List.foldlM_nil, Option.bind_eq_bind, Option.bind_some]
    have hcol : ((List.range ncols).map fun i => colOf ofInt (fun k => dataIndex o nrows ncols k i)
        (colCells cell i (if i < m then j + 1 else j)))[m]?
        = some (colOf ofInt (fun k => dataIndex o nrows ncols k m) (colCells cell m j)) := by
      rw [List.getElem?_map, List.getElem?_range (by omega)]
      simp
    have hlen : (colCells cell m j).length = j := by simp [colCells]
    have hs := colStep_colOf ofInt o nrows ncols m (colCells cell m j) (cell j m)
    rw [hlen] at hs
    have hc : colCells cell m j ++ [cell j m] = colCells cell m (j + 1) := by
      simp [colCells, List.range_succ]
    rw [hc] at hs
    have hstep : cellStep ofInt o nrows ncols number j m
        ((List.range ncols).map fun i => colOf ofInt (fun k => dataIndex o nrows ncols k i)
          (colCells cell i (if i < m then j + 1 else j)))
        = some (((List.range ncols).map fun i => colOf ofInt (fun k => dataIndex o nrows ncols k i)
          (colCells cell i (if i < m then j + 1 else j))).set m
            (colOf ofInt (fun k => dataIndex o nrows ncols k m) (colCells cell m (j + 1)))) := by
      unfold cellStep
      rw [hcol, hnum j m hj (by omega)]
      simp only
      unfold colStep at hs
      rw [hs]
      rfl
    rw [hstep]
    simp only [Option.bind_some]
    congr 1
    apply List.ext_getElem?
    intro i
    by_cases hi : i < ncols
    · by_cases him : m = i
      · subst him
        rw [List.getElem?_set_self (by simpa using hi), List.getElem?_map, List.getElem?_range hi]
        simp
      · rw [List.getElem?_set_ne him, List.getElem?_map, List.getElem?_range hi, List.getElem?_map,
          List.getElem?_range hi]
        simp only [Option.map_some, Option.some.injEq]
        have : (i < m) = (i < m + 1) := by
          apply propext; omega
        simp only [this]
    · rw [List.getElem?_eq_none (by simp; omega), List.getElem?_eq_none (by simp; omega)]

theorem detect_eq [Inhabited R] (ofInt : Int → R) (o : Order) (nrows ncols : Nat)
    (number : Nat → Option (Elem R)) (cell : Nat → Nat → Elem R)
    (hnum : ∀ j i, j < nrows → i < ncols → number (dataIndex o nrows ncols j i) = some (cell j i)) :
    detectColumns ofInt o nrows ncols number = some ((List.range ncols).map fun i =>
      colOf ofInt (fun k => dataIndex o nrows ncols k i) (colCells cell i nrows)) := by
  have key : ∀ m, m ≤ nrows → (List.range m).foldlM
      (fun cols j => (List.range ncols).foldlM
        (fun cols i => cellStep ofInt o nrows ncols number j i cols) cols)
      (List.replicate ncols (.ints []))
      = some ((List.range ncols).map fun i =>
          colOf ofInt (fun k => dataIndex o nrows ncols k i) (colCells cell i m)) := by
    intro m
    induction m with
    | zero =>
      intro _
      simp only [List.range_zero, List.foldlM_nil, colCells, List.map_nil, colOf, List.all_nil, if_true]
      congr 1
      apply List.ext_getElem? 
      intro i
      by_cases hi : i < ncols
      · simp [hi]
      · rw [List.getElem?_eq_none (by simp; omega), List.getElem?_eq_none (by simp; omega)]
    | succ m ih =>
      intro hm
      rw [List.range_succ, List.foldlM_append, ih (by omega)]
      simp only [List.foldlM_cons, List.foldlM_nil, Option.bind_eq_bind, Option.bind_some]
      rw [rowLoop ofInt o nrows ncols number cell m (by omega) hnum ncols (Nat.le_refl _)]
      simp only [Option.bind_some]
      congr 1
      apply List.map_congr_left
      intro i hi
      rw [if_pos (List.mem_range.mp hi)]
  exact key nrows (Nat.le_refl _)

end Verif.AutoDetect
