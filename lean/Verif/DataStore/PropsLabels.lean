/-
C40: labels and columns correspond.
-/
import Verif.DataStore.Labels

namespace Verif.DataStore

/-- A label call of the history was successful: the column exists and the call did not fail. -/
def Labelled (before : List LabelOp) (l : String) (j : Int) : Prop := ((runLabels before).label l j).1 = .success

instance (before : List LabelOp) (l : String) (j : Int) : Decidable (Labelled before l j) := by
  unfold Labelled
  infer_instance

/-- C40 in full: after a history the label of a successful call is that of the column and the column is that of the
label, unless a later successful call uses the label or the column again. -/
def C40_statement : Prop := ∀ before after l j, Labelled before l j →
  (∀ a l' j' b, after = a ++ .label l' j' :: b → Labelled (before ++ .label l j :: a) l' j' → l' ≠ l ∧ j' ≠ j) →
  (runLabels (before ++ .label l j :: after)).getIdx l = some j ∧
  (runLabels (before ++ .label l j :: after)).getLabel j = some (.success, l)

/-- A label that is moved to another column is still looked up at the old one. -/
theorem C40_moved_label_violated : ¬ C40_statement := by
  intro h
  have := (h [.cols 2, .label "a" 0] [] "a" 1 (by decide) (by intro a l' j' b w; simp at w)).1
  revert this
  decide

/-- The same, as an observation: both columns have the label "a", which leads to the first one. -/
example : (runLabels [.cols 2, .label "a" 0, .label "a" 1]).getIdx "a" = some 0 ∧
    (runLabels [.cols 2, .label "a" 0, .label "a" 1]).getLabel 0 = some (.success, "a") ∧
    (runLabels [.cols 2, .label "a" 0, .label "a" 1]).getLabel 1 = some (.success, "a") := by decide

/-- A label that is replaced still leads to the column. -/
theorem C40_replaced_label_violated : ∃ ops l j, (runLabels ops).getIdx l = some j ∧ ∃ l', l' ≠ l ∧
    (runLabels ops).getLabel j = some (.success, l') :=
  ⟨[.cols 1, .label "a" 0, .label "b" 0], "a", 0, by decide, "b", by decide, by decide⟩

/-- Number of columns with room for a label. -/
theorem length_step (s : Labels) (op : LabelOp) (hle : s.toName.length ≤ s.n) :
    (op.step s).toName.length = (match op with | .cols nc => s.n + nc | _ => s.toName.length) ∧
    (op.step s).n = (match op with | .cols nc => s.n + nc | .hconcat nc => s.n + nc | .label .. => s.n) := by
  cases op with
  | cols nc =>
    refine ⟨?_, rfl⟩
    simp only [LabelOp.step, Labels.addCols, List.length_append, List.length_take, List.length_replicate]
    omega
  | hconcat nc => exact ⟨rfl, rfl⟩
  | label l j =>
    simp only [LabelOp.step, Labels.label]
    split
    · exact ⟨rfl, rfl⟩
    · split
      · exact ⟨rfl, rfl⟩
      · simp

theorem length_le (ops : List LabelOp) : (runLabels ops).toName.length ≤ (runLabels ops).n := by
  have key : ∀ (ops : List LabelOp) (s : Labels), s.toName.length ≤ s.n → (ops.foldl LabelOp.step s).toName.length ≤ (ops.foldl LabelOp.step s).n := by
    intro ops
    induction ops with
    | nil => intro s h; exact h
    | cons op ops ih =>
      intro s h
      apply ih
      have := length_step s op h
      cases op <;> simp only at this <;> omega
  exact key ops {} (Nat.le_refl _)

theorem run_snoc (ops : List LabelOp) (op : LabelOp) : runLabels (ops ++ [op]) = op.step (runLabels ops) := by
  simp [runLabels]

theorem label_success {s : Labels} {l : String} {j : Int} : (s.label l j).1 = .success ↔ 0 ≤ j ∧ j < s.n ∧ s.toName.length = s.n := by
  unfold Labels.label
  split
  · constructor
    · intro h; cases h
    · omega
  · split
    · constructor
      · intro h; cases h
      · omega
    · constructor
      · intro _
        refine ⟨by omega, by omega, by omega⟩
      · intro _; rfl

theorem lookup_label {s : Labels} {l : String} {j : Int} (h : (s.label l j).1 = .success) (l' : String) :
    (s.label l j).2.getIdx l' = match s.getIdx l' with
      | some i => some i
      | none => if l' = l then some j else none := by
  have hs := label_success.mp h
  unfold Labels.label Labels.getIdx
  rw [if_neg (by omega), if_neg (by omega)]
  dsimp only
  cases hl : lookup l s.toIdx with
  | some i =>
    dsimp only
    cases hl' : lookup l' s.toIdx with
    | some i' => rfl
    | none =>
      dsimp only
      rw [if_neg]
      rintro rfl
      rw [hl] at hl'
      cases hl'
  | none =>
    dsimp only
    rw [show lookup l' ((l, j) :: s.toIdx) = if l = l' then some j else lookup l' s.toIdx from rfl]
    by_cases c : l = l'
    · subst c
      rw [if_pos rfl, hl]
      dsimp only
      rw [if_pos rfl]
    · rw [if_neg c]
      cases hl' : lookup l' s.toIdx with
      | some i' => rfl
      | none =>
        dsimp only
        rw [if_neg (fun w => c w.symm)]

theorem label_refused {s : Labels} {l : String} {j : Int} (h : (s.label l j).1 ≠ .success) : (s.label l j).2 = s := by
  unfold Labels.label at h ⊢
  split
  · rfl
  · split
    · rfl
    · rename_i h1 h2
      rw [if_neg h1, if_neg h2] at h
      exact absurd rfl h

/-- C40, what the look-up of a label gives: the column of the first successful call with the label. -/
theorem C40_lookup_first (before after : List LabelOp) (l : String) (j : Int) (h : Labelled before l j)
    (hf : ∀ a j' b, before = a ++ .label l j' :: b → ¬ Labelled a l j') :
    (runLabels (before ++ .label l j :: after)).getIdx l = some j := by
  have h0 : ∀ (n : Nat) (ops : List LabelOp), ops.length = n → (∀ a j' b, ops = a ++ .label l j' :: b → ¬ Labelled a l j') → (runLabels ops).getIdx l = none := by
    intro n
    induction n with
    | zero =>
      intro ops hn _
      rw [List.length_eq_zero_iff.mp hn]
      rfl
    | succ n ih =>
      intro ops hn hno
      rcases List.eq_nil_or_concat ops with e | ⟨xs, x, e⟩
      · subst e; simp at hn
      · rw [List.concat_eq_append] at e
        subst e
        have hx := ih xs (by simpa using hn) (fun a j' b e => hno a j' (b ++ [x]) (by rw [e]; simp))
        rw [run_snoc]
        cases x with
        | cols nc => exact hx
        | hconcat nc => exact hx
        | label l' j' =>
          show ((runLabels xs).label l' j').2.getIdx l = none
          by_cases c : ((runLabels xs).label l' j').1 = .success
          · rw [lookup_label c, hx]
            dsimp only
            rw [if_neg]
            rintro rfl
            exact hno xs j' [] rfl c
          · rw [label_refused c]
            exact hx
  have h1 : (runLabels (before ++ [.label l j])).getIdx l = some j := by
    rw [run_snoc]
    show ((runLabels before).label l j).2.getIdx l = some j
    rw [lookup_label h, h0 _ before rfl hf]
    simp
  have h2 : ∀ (ops : List LabelOp) (s : Labels), s.getIdx l = some j → (ops.foldl LabelOp.step s).getIdx l = some j := by
    intro ops
    induction ops with
    | nil => intro s hs; exact hs
    | cons op ops ih =>
      intro s hs
      apply ih
      cases op with
      | cols nc => exact hs
      | hconcat nc => exact hs
      | label l' j' =>
        show (s.label l' j').2.getIdx l = some j
        by_cases c : (s.label l' j').1 = .success
        · rw [lookup_label c, hs]
        · rw [label_refused c]; exact hs
  have := h2 after _ h1
  unfold runLabels at this ⊢
  rw [List.foldl_append] at this ⊢
  exact this

example : (runLabels [.cols 2, .label "b" 1, .hconcat 1, .label "c" 0]).getIdx "b" = some 1 :=
  C40_lookup_first [.cols 2] [.hconcat 1, .label "c" 0] "b" 1 (by decide) (by
    intro a j' b h
    cases a with
    | nil => cases h
    | cons x a => simp at h)

/-- C40, what the label of a column is: that of the last successful call for the column. -/
theorem C40_label_last (before after : List LabelOp) (l : String) (j : Int) (h : Labelled before l j)
    (hl : ∀ a l' b, after = a ++ .label l' j :: b → ¬ Labelled (before ++ .label l j :: a) l' j) :
    (runLabels (before ++ .label l j :: after)).getLabel j = some (.success, l) := by
  have hs := label_success.mp h
  have key : ∀ (n : Nat) (after : List LabelOp), after.length = n →
      (∀ a l' b, after = a ++ .label l' j :: b → ¬ Labelled (before ++ .label l j :: a) l' j) →
      (runLabels (before ++ .label l j :: after)).toName[j.toNat]? = some (some l) ∧ (j : Int) < (runLabels (before ++ .label l j :: after)).n := by
    intro n
    induction n with
    | zero =>
      intro after hn _
      rw [List.length_eq_zero_iff.mp hn, run_snoc]
      show ((runLabels before).label l j).2.toName[j.toNat]? = some (some l) ∧ j < ((runLabels before).label l j).2.n
      unfold Labels.label
      rw [if_neg (by omega), if_neg (by omega)]
      dsimp only
      rw [List.getElem?_set_self (by omega)]
      exact ⟨rfl, hs.2.1⟩
    | succ n ih =>
      intro after hn hno
      rcases List.eq_nil_or_concat after with e | ⟨xs, x, e⟩
      · subst e; simp at hn
      · rw [List.concat_eq_append] at e
        subst e
        obtain ⟨h1, h2⟩ := ih xs (by simpa using hn) (fun a l' b e => hno a l' (b ++ [x]) (by rw [e]; simp))
        rw [show before ++ LabelOp.label l j :: (xs ++ [x]) = (before ++ .label l j :: xs) ++ [x] by simp, run_snoc]
        have hlt : j.toNat < (runLabels (before ++ .label l j :: xs)).toName.length := by
          rw [List.getElem?_eq_some_iff] at h1
          exact h1.1
        cases x with
        | cols nc =>
          have hle := length_le (before ++ .label l j :: xs)
          generalize runLabels (before ++ .label l j :: xs) = s at *
          refine ⟨?_, ?_⟩
          · show (s.addCols nc).toName[j.toNat]? = _
            unfold Labels.addCols
            dsimp only
            rw [List.getElem?_append_left (by rw [List.length_take]; omega), List.getElem?_take_of_lt (by omega)]
            exact h1
          · show j < ((s.n + nc : Nat) : Int)
            omega
        | hconcat nc =>
          refine ⟨h1, ?_⟩
          show j < (((runLabels (before ++ .label l j :: xs)).n + nc : Nat) : Int)
          omega
        | label l' j' =>
          show ((runLabels (before ++ .label l j :: xs)).label l' j').2.toName[j.toNat]? = some (some l) ∧
            j < ((runLabels (before ++ .label l j :: xs)).label l' j').2.n
          by_cases c : ((runLabels (before ++ .label l j :: xs)).label l' j').1 = .success
          · have hne : j' ≠ j := by
              rintro rfl
              exact hno xs l' [] rfl c
            have hc := label_success.mp c
            unfold Labels.label
            rw [if_neg (by omega), if_neg (by omega)]
            dsimp only
            rw [List.getElem?_set_ne (by omega)]
            exact ⟨h1, h2⟩
          · rw [label_refused c]
            exact ⟨h1, h2⟩
  obtain ⟨h1, h2⟩ := key _ after rfl hl
  unfold Labels.getLabel
  rw [if_neg (by omega), h1]

example : (runLabels [.cols 2, .label "a" 1, .label "b" 1, .cols 3]).getLabel 1 = some (.success, "b") :=
  C40_label_last [.cols 2, .label "a" 1] [.cols 3] "b" 1 (by decide) (by
    intro a l' b h
    cases a with
    | nil => cases h
    | cons x a => simp at h)

/-- C40 where it holds: neither the label nor the column is used in another successful call, before or after.
Missing: labels that are moved and columns that are labelled again (see the violations). -/
theorem C40_fresh_partial (before after : List LabelOp) (l : String) (j : Int) (h : Labelled before l j)
    (hf : ∀ a j' b, before = a ++ .label l j' :: b → ¬ Labelled a l j')
    (hl : ∀ a l' b, after = a ++ .label l' j :: b → ¬ Labelled (before ++ .label l j :: a) l' j) :
    (runLabels (before ++ .label l j :: after)).getIdx l = some j ∧
    (runLabels (before ++ .label l j :: after)).getLabel j = some (.success, l) :=
  ⟨C40_lookup_first before after l j h hf, C40_label_last before after l j h hl⟩

example : ∃ ops l j, (runLabels ops).getIdx l = some j ∧ (runLabels ops).getLabel j = some (.success, l) ∧ ops.length = 4 :=
  ⟨[.cols 3, .label "x" 2, .label "y" 0, .cols 1], "x", 2, by decide, by decide, rfl⟩

/-- C40: after a horizontal concatenation no column can be labelled, and the label of a new column is read behind the
end of an array. -/
theorem C40_hconcat_violated (ops : List LabelOp) (nc : Nat) (hn : 0 < nc) :
    (∀ l j, ((runLabels (ops ++ [.hconcat nc])).label l j).1 ≠ .success) ∧
    ∃ j : Int, 0 ≤ j ∧ j < (runLabels (ops ++ [.hconcat nc])).n ∧ (runLabels (ops ++ [.hconcat nc])).getLabel j = none := by
  have hle := length_le ops
  rw [run_snoc]
  refine ⟨fun l j w => ?_, ((runLabels ops).n : Int), by omega, ?_, ?_⟩
  · have := (label_success.mp w).2.2
    change (runLabels ops).toName.length = (runLabels ops).n + nc at this
    omega
  · show ((runLabels ops).n : Int) < (((runLabels ops).n + nc : Nat) : Int)
    omega
  · show Labels.getLabel ((runLabels ops).hconcat nc) _ = none
    unfold Labels.getLabel Labels.hconcat
    rw [if_neg (by dsimp only; omega)]
    dsimp only
    rw [List.getElem?_eq_none (by rw [Int.toNat_natCast]; omega)]

example : (runLabels [.cols 2, .hconcat 1]).getLabel 2 = none := by decide
example : ((runLabels [.cols 2, .hconcat 1]).label "a" 0).1 = .internalError := by decide

end Verif.DataStore
