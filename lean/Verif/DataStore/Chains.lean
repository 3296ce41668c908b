/-
Chains of blocks: the rows of a column.
-/
import Verif.DataStore.Spec
import Mathlib.Data.List.Basic
import Mathlib.Data.List.Perm.Subperm
import Mathlib.Tactic.Ring
import Mathlib.Tactic.Linarith

namespace Verif.DataStore
variable {V : Type}

def nx (heap : List (Node V)) (i : Nat) : Option (Option Nat) := (heap[i]?).map Node.next
def off (heap : List (Node V)) (i : Nat) : Option Int := (heap[i]?).map Node.offset
def blk (heap : List (Node V)) (i : Nat) : Option (Block V) := (heap[i]?).map Node.b
def lp (heap : List (Node V)) (i : Nat) : Option (Option Nat) := (heap[i]?).map Node.leftParent

/-- The pointer leads through the objects of the list to a null pointer. -/
inductive Path (heap : List (Node V)) : Option Nat → List Nat → Prop
  | nil : Path heap none []
  | cons {i q p} : nx heap i = some q → Path heap q p → Path heap (some i) (i :: p)

theorem path_frame {h h' : List (Node V)} {q : Option Nat} {p : List Nat} (hp : Path h q p)
    (hf : ∀ i ∈ p, nx h' i = nx h i) : Path h' q p := by
  induction hp with
  | nil => exact .nil
  | cons h1 _ ih =>
    exact .cons ((hf _ (by simp)).trans h1) (ih fun i hi => hf i (by simp [hi]))

theorem path_det {h : List (Node V)} {q : Option Nat} {p p' : List Nat} (hp : Path h q p) (hp' : Path h q p') : p = p' := by
  induction hp generalizing p' with
  | nil => cases hp'; rfl
  | cons h1 _ ih =>
    cases hp' with
    | cons h2 h3 =>
      rw [h1] at h2
      cases h2
      rw [ih h3]

theorem path_split {h : List (Node V)} {q : Option Nat} {a : List Nat} {i : Nat} {b : List Nat} (hp : Path h q (a ++ i :: b)) :
    Path h (some i) (i :: b) := by
  induction a generalizing q with
  | nil => cases hp with | cons h1 h2 => exact .cons h1 h2
  | cons x a ih => cases hp with | cons h1 h2 => exact ih h2

theorem path_nodup {h : List (Node V)} {q : Option Nat} {p : List Nat} (hp : Path h q p) : p.Nodup := by
  induction hp with
  | nil => exact List.nodup_nil
  | @cons i q p h1 hp ih =>
    refine List.nodup_cons.mpr ⟨?_, ih⟩
    intro hm
    obtain ⟨a, b, rfl⟩ := List.append_of_mem hm
    have h2 := path_split hp
    have h3 : Path h (some i) (i :: (a ++ i :: b)) := .cons h1 hp
    have := congrArg List.length (path_det h2 h3)
    simp at this
    omega

theorem path_mem_lt {h : List (Node V)} {q : Option Nat} {p : List Nat} (hp : Path h q p) : ∀ i ∈ p, i < h.length := by
  induction hp with
  | nil => simp
  | cons h1 _ ih =>
    intro j hj
    rcases List.mem_cons.mp hj with rfl | hj
    · unfold nx at h1
      cases hh : h[j]? with
      | none => rw [hh] at h1; cases h1
      | some nd => exact (List.getElem?_eq_some_iff.mp hh).1
    · exact ih j hj

theorem path_length {h : List (Node V)} {q : Option Nat} {p : List Nat} (hp : Path h q p) : p.length ≤ h.length := by
  have h1 := path_nodup hp
  have h2 := path_mem_lt hp
  have h3 : p ⊆ List.range h.length := fun i hi => List.mem_range.mpr (h2 i hi)
  have h4 := (h1.subperm h3).length_le
  simpa using h4

/-- The last object has no successor, the others have the next one. -/
theorem path_last {h : List (Node V)} {q : Option Nat} {p : List Nat} {t : Nat} (hp : Path h q (p ++ [t])) : nx h t = some none := by
  have := path_split hp
  cases this with
  | cons h1 h2 => cases h2; exact h1

theorem path_mid {h : List (Node V)} {q : Option Nat} {a b : List Nat} {i j : Nat} (hp : Path h q (a ++ i :: j :: b)) :
    nx h i = some (some j) := by
  have := path_split hp
  cases this with
  | cons h1 h2 => cases h2 with | cons h3 h4 => exact h1

theorem path_eq_last {h : List (Node V)} {q : Option Nat} {p : List Nat} {i : Nat} (hp : Path h q p) (hi : i ∈ p)
    (hn : nx h i = some none) : p.getLast? = some i := by
  obtain ⟨a, b, rfl⟩ := List.append_of_mem hi
  cases b with
  | nil => simp
  | cons j b => rw [path_mid hp] at hn; cases hn

/-- Appending an object to a chain. -/
theorem path_snoc {h h' : List (Node V)} {q : Option Nat} {p : List Nat} {t new : Nat} (hp : Path h q (p ++ [t]))
    (hf : ∀ i ∈ p, nx h' i = nx h i) (ht : nx h' t = some (some new)) (hn : nx h' new = some none) :
    Path h' q (p ++ [t] ++ [new]) := by
  induction p generalizing q with
  | nil => cases hp with | cons h1 h2 => exact .cons ht (.cons hn .nil)
  | cons x p ih =>
    cases hp with
    | cons h1 h2 =>
      exact .cons ((hf x (by simp)).trans h1) (ih h2 fun i hi => hf i (by simp [hi]))

/-- `lastNode` finds the last object of a chain. -/
theorem lastNode_path {h : List (Node V)} {p : List Nat} : ∀ {fuel i : Nat}, Path h (some i) p → p.length ≤ fuel →
    ∃ t, p.getLast? = some t ∧ lastNode h fuel i = some t := by
  induction p with
  | nil => intro fuel i hp; cases hp
  | cons x p ih =>
    intro fuel i hp hf
    cases hp with
    | @cons _ q _ h1 h2 =>
      cases fuel with
      | zero => simp at hf
      | succ fuel =>
        unfold nx at h1
        cases hh : h[x]? with
        | none => rw [hh] at h1; cases h1
        | some nd =>
          rw [hh] at h1
          have hq : nd.next = q := by simpa using h1
          unfold lastNode
          rw [hh]
          dsimp only
          rw [hq]
          cases q with
          | none => cases h2; exact ⟨x, by simp, rfl⟩
          | some j =>
            obtain ⟨t, h3, h4⟩ := ih h2 (by simpa using hf)
            refine ⟨t, ?_, h4⟩
            rw [List.getLast?_cons, h3]; rfl

/-! ### Values -/

def Block.cell (b : Block V) (r c : Int) : V :=
  match b.order with
  | .row => b.bl (r * b.n + c)
  | .col => b.bl (c * b.m + r)

/-- The block that contains a row, and the row in it. -/
def pathPos (heap : List (Node V)) : List Nat → Int → Option (Nat × Int)
  | [], _ => none
  | id :: p, i =>
    match blk heap id with
    | none => none
    | some b => if i < b.m then (if 0 ≤ i then some (id, i) else none) else pathPos heap p (i - b.m)

def cellAt (heap : List (Node V)) (id : Nat) (r j : Int) : Option V :=
  (heap[id]?).map fun nd => nd.b.cell r (j - nd.offset)

def pathCell (heap : List (Node V)) (p : List Nat) (j i : Int) : Option V :=
  (pathPos heap p i).bind fun q => cellAt heap q.1 q.2 j

def pathRows (heap : List (Node V)) : List Nat → Int
  | [] => 0
  | id :: p => ((blk heap id).map Block.m).getD 0 + pathRows heap p

/-- The blocks have rows. -/
def Pos (heap : List (Node V)) (p : List Nat) : Prop := ∀ id ∈ p, ∃ b, blk heap id = some b ∧ 0 < b.m

theorem pathRows_nonneg {h : List (Node V)} {p : List Nat} (hp : Pos h p) : 0 ≤ pathRows h p := by
  induction p with
  | nil => exact Int.le_refl 0
  | cons x p ih =>
    obtain ⟨b, h1, h2⟩ := hp x (by simp)
    have := ih fun i hi => hp i (by simp [hi])
    simp only [pathRows, h1, Option.map_some, Option.getD_some]
    omega

theorem pathPos_frame {h h' : List (Node V)} {p : List Nat} (hf : ∀ i ∈ p, (blk h' i).map Block.m = (blk h i).map Block.m) (i : Int) :
    pathPos h' p i = pathPos h p i := by
  induction p generalizing i with
  | nil => rfl
  | cons x p ih =>
    have h1 := hf x (by simp)
    have h2 := ih fun i hi => hf i (by simp [hi])
    unfold pathPos
    cases hb : blk h x with
    | none =>
      rw [hb] at h1
      cases hb' : blk h' x with
      | none => rfl
      | some b => rw [hb'] at h1; cases h1
    | some b =>
      rw [hb] at h1
      cases hb' : blk h' x with
      | none => rw [hb'] at h1; cases h1
      | some b' =>
        rw [hb'] at h1
        have h3 : b'.m = b.m := by simpa using h1
        dsimp only
        rw [h3, h2]

theorem pathRows_frame {h h' : List (Node V)} {p : List Nat} (hf : ∀ i ∈ p, (blk h' i).map Block.m = (blk h i).map Block.m) :
    pathRows h' p = pathRows h p := by
  induction p with
  | nil => rfl
  | cons x p ih =>
    have h1 := hf x (by simp)
    have h2 := ih fun i hi => hf i (by simp [hi])
    simp only [pathRows, h1, h2]

theorem pathPos_mem {h : List (Node V)} {p : List Nat} : ∀ {i : Int} {q : Nat × Int}, pathPos h p i = some q →
    q.1 ∈ p ∧ ∃ b, blk h q.1 = some b ∧ 0 ≤ q.2 ∧ q.2 < b.m := by
  induction p with
  | nil => intro i q hq; cases hq
  | cons x p ih =>
    intro i q hq
    unfold pathPos at hq
    cases hb : blk h x with
    | none => rw [hb] at hq; cases hq
    | some b =>
      rw [hb] at hq
      dsimp only at hq
      by_cases h1 : i < b.m
      · rw [if_pos h1] at hq
        by_cases h2 : 0 ≤ i
        · rw [if_pos h2] at hq
          cases hq
          exact ⟨by simp, b, hb, h2, h1⟩
        · rw [if_neg h2] at hq; cases hq
      · rw [if_neg h1] at hq
        obtain ⟨h2, h3⟩ := ih hq
        exact ⟨by simp [h2], h3⟩

theorem pathPos_neg {h : List (Node V)} {p : List Nat} (hp : Pos h p) {i : Int} (hi : i < 0) : pathPos h p i = none := by
  cases p with
  | nil => rfl
  | cons x p =>
    obtain ⟨b, h1, h2⟩ := hp x (by simp)
    unfold pathPos
    rw [h1]
    dsimp only
    rw [if_pos (by omega), if_neg (by omega)]

theorem pathPos_some {h : List (Node V)} {p : List Nat} (hp : Pos h p) : ∀ {i : Int}, 0 ≤ i → i < pathRows h p →
    ∃ q, pathPos h p i = some q := by
  induction p with
  | nil => intro i h1 h2; simp only [pathRows] at h2; omega
  | cons x p ih =>
    intro i h1 h2
    obtain ⟨b, h3, h4⟩ := hp x (by simp)
    simp only [pathRows, h3, Option.map_some, Option.getD_some] at h2
    unfold pathPos
    rw [h3]
    dsimp only
    by_cases h5 : i < b.m
    · rw [if_pos h5, if_pos h1]; exact ⟨_, rfl⟩
    · rw [if_neg h5]
      exact ih (fun i hi => hp i (by simp [hi])) (by omega) (by omega)

theorem pathPos_ge {h : List (Node V)} {p : List Nat} (hp : Pos h p) : ∀ {i : Int}, pathRows h p ≤ i →
    pathPos h p i = none := by
  induction p with
  | nil => intro i h1; rfl
  | cons x p ih =>
    intro i h1
    obtain ⟨b, h3, h4⟩ := hp x (by simp)
    have hp' : Pos h p := fun i hi => hp i (by simp [hi])
    have h6 := pathRows_nonneg hp'
    simp only [pathRows, h3, Option.map_some, Option.getD_some] at h1
    unfold pathPos
    rw [h3]
    dsimp only
    rw [if_neg (by omega)]
    exact ih hp' (by omega)

theorem pathPos_inj {h : List (Node V)} {p : List Nat} (hn : p.Nodup) : ∀ {i i' : Int} {q : Nat × Int},
    pathPos h p i = some q → pathPos h p i' = some q → i = i' := by
  induction p with
  | nil => intro i i' q h1; cases h1
  | cons x p ih =>
    intro i i' q h1 h2
    rw [List.nodup_cons] at hn
    unfold pathPos at h1 h2
    cases hb : blk h x with
    | none => rw [hb] at h1; cases h1
    | some b =>
      rw [hb] at h1 h2
      dsimp only at h1 h2
      by_cases c1 : i < b.m
      · rw [if_pos c1] at h1
        split at h1
        · cases h1
          by_cases c2 : i' < b.m
          · rw [if_pos c2] at h2
            split at h2
            · cases h2; rfl
            · cases h2
          · rw [if_neg c2] at h2
            exact absurd (pathPos_mem h2).1 hn.1
        · cases h1
      · rw [if_neg c1] at h1
        by_cases c2 : i' < b.m
        · rw [if_pos c2] at h2
          split at h2
          · cases h2
            exact absurd (pathPos_mem h1).1 hn.1
          · cases h2
        · rw [if_neg c2] at h2
          have := ih hn.2 h1 h2
          omega

theorem pathRows_append {h : List (Node V)} {p p' : List Nat} : pathRows h (p ++ p') = pathRows h p + pathRows h p' := by
  induction p with
  | nil => simp [pathRows]
  | cons x p ih => simp only [List.cons_append, pathRows, ih]; omega

theorem pathPos_append {h : List (Node V)} {p p' : List Nat} (hp : Pos h p) (hp' : Pos h p') : ∀ (i : Int),
    pathPos h (p ++ p') i = if i < pathRows h p then pathPos h p i else pathPos h p' (i - pathRows h p) := by
  induction p with
  | nil =>
    intro i
    have h0 : pathRows h [] = 0 := rfl
    rw [h0]
    by_cases c : i < 0
    · rw [List.nil_append, pathPos_neg hp' c, if_pos c]; rfl
    · rw [if_neg c]; simp
  | cons x p ih =>
    intro i
    obtain ⟨b, h3, h4⟩ := hp x (by simp)
    have hp0 : Pos h p := fun i hi => hp i (by simp [hi])
    have h6 := pathRows_nonneg hp0
    simp only [List.cons_append, pathRows, h3, Option.map_some, Option.getD_some, pathPos]
    by_cases c1 : i < b.m
    · have c2 : i < b.m + pathRows h p := by omega
      simp only [if_pos c1, if_pos c2]
    · rw [ih hp0]
      by_cases c2 : i - b.m < pathRows h p
      · have c3 : i < b.m + pathRows h p := by omega
        simp only [if_neg c1, if_pos c2, if_pos c3]
      · have c3 : ¬ i < b.m + pathRows h p := by omega
        simp only [if_neg c1, if_neg c2, if_neg c3]
        congr 1
        omega

theorem pathCell_frame {h h' : List (Node V)} {p : List Nat}
    (hf : ∀ i ∈ p, blk h' i = blk h i ∧ off h' i = off h i) (i j : Int) : pathCell h' p j i = pathCell h p j i := by
  unfold pathCell
  rw [pathPos_frame (h := h) (h' := h') (fun i hi => by rw [(hf i hi).1])]
  cases hq : pathPos h p i with
  | none => rfl
  | some q =>
    obtain ⟨h1, h2⟩ := hf q.1 (pathPos_mem hq).1
    simp only [Option.bind_some]
    unfold cellAt
    unfold blk at h1
    unfold off at h2
    cases h3 : h[q.1]? with
    | none =>
      rw [h3] at h1
      cases h4 : h'[q.1]? with
      | none => rfl
      | some nd => rw [h4] at h1; cases h1
    | some nd =>
      rw [h3] at h1 h2
      cases h4 : h'[q.1]? with
      | none => rw [h4] at h1; cases h1
      | some nd' =>
        rw [h4] at h1 h2
        simp only [Option.map_some, Option.some.injEq] at h1 h2
        simp [h1, h2]

/-- The loop that looks for the block of a row. -/
theorem locate_path {h : List (Node V)} {p : List Nat} (hpos : Pos h p) : ∀ {fuel : Nat} {q : Option Nat} {offset i : Int} {r : Nat × Int},
    Path h q p → pathPos h p (i - offset) = some r → (i - offset).toNat < fuel →
    locate h fuel q offset i = some (r.1, i - r.2) := by
  induction p with
  | nil => intro fuel q offset i r _ h1; cases h1
  | cons x p ih =>
    intro fuel q offset i r hp h1 hf
    cases hp with
    | @cons _ q' _ h2 h3 =>
      obtain ⟨b, h4, h5⟩ := hpos x (by simp)
      unfold pathPos at h1
      rw [h4] at h1
      dsimp only at h1
      cases fuel with
      | zero => omega
      | succ fuel =>
        unfold locate
        unfold blk at h4
        unfold nx at h2
        cases hh : h[x]? with
        | none => rw [hh] at h4; cases h4
        | some nd =>
          rw [hh] at h4 h2
          simp only [Option.map_some, Option.some.injEq] at h4 h2
          subst h4
          subst h2
          dsimp only
          by_cases c : i - offset < nd.b.m
          · rw [if_pos c] at h1
            rw [if_neg (by omega)]
            split at h1
            · cases h1
              simp
            · cases h1
          · rw [if_neg c] at h1
            rw [if_pos (by omega)]
            refine ih (fun i hi => hpos i (by simp [hi])) h3 ?_ (by omega)
            rw [← h1]
            congr 1
            omega

/-- Position of a cell in the data of a block. -/
theorem getCol_cell {b : Block V} {r c : Int} (h0 : 0 ≤ c) (h1 : c < b.n) : ∃ col stride, getCol b c = some (col, stride) ∧
    b.bl (col + r * stride) = b.cell r c := by
  unfold getCol
  rw [if_neg (by omega)]
  cases ho : b.order with
  | row =>
    refine ⟨_, _, rfl, ?_⟩
    simp only [Block.cell, ho]
    congr 1
    omega
  | col =>
    refine ⟨_, _, rfl, ?_⟩
    simp only [Block.cell, ho]
    congr 1
    rw [Int.mul_comm b.m c]
    omega

/-- Different cells of a block have different positions. -/
theorem index_inj {n r c r' c' : Int} (h0 : 0 ≤ c) (h1 : c < n) (h0' : 0 ≤ c') (h1' : c' < n) (h : r * n + c = r' * n + c') :
    r = r' ∧ c = c' := by
  have hr : r = r' := by
    rcases Int.lt_trichotomy r r' with hlt | heq | hgt
    · have : (r + 1) * n ≤ r' * n := Int.mul_le_mul_of_nonneg_right (by omega) (by omega)
      rw [Int.add_mul] at this
      omega
    · exact heq
    · have : (r' + 1) * n ≤ r * n := Int.mul_le_mul_of_nonneg_right (by omega) (by omega)
      rw [Int.add_mul] at this
      omega
  subst hr
  exact ⟨rfl, by omega⟩

end Verif.DataStore
