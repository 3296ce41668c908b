import Verif.CsvTable.Proof

namespace Verif.CsvTable
variable {W α H : Type}

/-- The lines of the file that are read: all but the last with `skip footer`. -/
def usedLines (skipFooter : Bool) (ls : List (List W)) : List (List W) :=
  if skipFooter then ls.dropLast else ls

/-- The data lines: without the heading line. -/
def dataLines (skipFooter getHeadings : Bool) (ls : List (List W)) : List (List W) :=
  (usedLines skipFooter ls).drop (if getHeadings then 1 else 0)

/-- Position of entry `(i, j)` of an `nr` by `nc` matrix. -/
def position (o : Order) (nr nc i j : Nat) : Nat :=
  match o with
  | .rowMajor => i * nc + j
  | .colMajor => j * nr + i

theorem position_eq (o : Order) (nr nc i j : Nat) : position o nr nc i j = cellIndex o nr nc i j := by
  cases o <;> simp only [position, cellIndex] <;> omega

theorem populate_eq (c : Cfg W α H) (ls : List (List W)) :
    populate c (tokOf ls) =
      (let L := usedLines c.skipFooter ls
       let first := if c.getHeadings then 1 else 0
       let f := L.flatten.length / L.length
       if L = [] then .noData 0
       else if L.length = first then .noData L.flatten.length
       else if f * (L.length - first) = 0 ∧ c.callocNull then .memory
       else match fillLoop c ls L.length first f with
        | .error .ragged => .ragged
        | .error .parse => .parse
        | .error .ub => .ub
        | .ok (a, m) => .ok m (L.length - first) f a) := by
  have hlen : (tokOf ls).lineFields.length = ls.length := by simp [tokOf]
  unfold populate
  simp only [hlen]
  cases hs : c.skipFooter with
  | false =>
    simp only [usedLines, Bool.false_eq_true, if_false, false_and, or_false, List.length_eq_zero_iff,
      fillLoop]
    rfl
  | true =>
    simp only [usedLines, if_true, true_and]
    by_cases h : ls.length = 0 ∨ ls.length = 1
    · rw [if_pos h, if_pos]
      rw [← List.length_eq_zero_iff, List.length_dropLast]; omega
    · have hne : ls ≠ [] := by rintro rfl; simp at h
      have hne2 : ¬ ls.dropLast = [] := by
        rw [← List.length_eq_zero_iff, List.length_dropLast]; omega
      rw [if_neg h]
      simp only [if_neg hne2]
      have hw : (tokOf ls).words.length - (tokOf ls).lineFields.getD (ls.length - 1) 0
          = ls.dropLast.flatten.length := by
        have h1 : (tokOf ls).lineFields.getD (ls.length - 1) 0 = (ls.getLast hne).length := by
          rw [List.getD_eq_getElem?_getD, tok_fields ls (by omega : ls.length - 1 < ls.length),
            List.getLast_eq_getElem]
          rfl
        rw [h1]
        simp only [tokOf]
        have h2 : ls.flatten = ls.dropLast.flatten ++ ls.getLast hne := by
          have := congrArg List.flatten (List.dropLast_append_getLast hne)
          rw [List.flatten_append] at this
          simpa using this.symm
        rw [h2, List.length_append]
        omega
      rw [hw, List.length_dropLast]
      rfl

theorem used_getElem (sk : Bool) (ls : List (List W)) {i : Nat} (h : i < (usedLines sk ls).length) :
    ∃ hi : i < ls.length, ls[i] = (usedLines sk ls)[i] := by
  cases sk with
  | false => exact ⟨h, rfl⟩
  | true =>
    have h' : i < ls.length - 1 := by simpa [usedLines] using h
    refine ⟨by omega, ?_⟩
    simp [usedLines]

theorem used_length_le (sk : Bool) (ls : List (List W)) : (usedLines sk ls).length ≤ ls.length := by
  cases sk <;> simp [usedLines]

/-- All lines used have the same number of fields. -/
def Rectangular (ls : List (List W)) (nc : Nat) : Prop := ∀ l ∈ ls, l.length = nc

theorem flatten_rect {ls : List (List W)} {nc : Nat} (h : Rectangular ls nc) :
    ls.flatten.length = nc * ls.length := by
  induction ls with
  | nil => simp
  | cons l ls ih =>
    rw [List.flatten_cons, List.length_append, ih (fun x hx => h x (by simp [hx])), h l (by simp),
      List.length_cons]
    ring

theorem head_words {ls : List (List W)} (h : 0 < ls.length) :
    (tokOf ls).words.take ls[0].length = ls[0] := by
  cases ls with
  | nil => simp at h
  | cons l ls => simp [tokOf]

/-- What the outputs have to be. -/
structure TableRead (c : Cfg W α H) (ls : List (List W)) (s : Status) (a : Ptr α) (nrows ncols : Int)
    (heads : Option (List H)) : Prop where
  rows : nrows = (dataLines c.skipFooter c.getHeadings ls).length
  rowsPos : dataLines c.skipFooter c.getHeadings ls ≠ []
  /-- every data line has `ncols` fields -/
  rect : ∀ l ∈ dataLines c.skipFooter c.getHeadings ls, (l.length : Int) = ncols
  /-- so has the heading line, unless the data lines have no fields at all -/
  rectAll : ncols ≠ 0 → ∀ l ∈ usedLines c.skipFooter ls, (l.length : Int) = ncols
  /-- the matrix -/
  cells : ∃ buf, a = .buf buf ∧ (buf.length : Int) = nrows * ncols ∧
    ∀ i j l w, (dataLines c.skipFooter c.getHeadings ls)[i]? = some l → l[j]? = some w →
      buf[position c.order nrows.toNat ncols.toNat i j]? =
        some (match c.num w with | some v => v | none => c.missing)
  /-- success means that every cell was a number; otherwise missing data is reported -/
  status : s = if ∀ l ∈ dataLines c.skipFooter c.getHeadings ls, ∀ w ∈ l, c.num w ≠ none then .success
    else .missingData
  warn : s = .missingData → c.warnMissing = true
  /-- the headings are the trimmed fields of the first line -/
  headings : c.getHeadings = true → ncols ≠ 0 →
    ∃ l rest, ls = l :: rest ∧ heads = some (l.map c.heading)

open Classical in
/-- C23: whenever the call does not fail, the lines form a rectangular table and the
matrix holds every cell at its row and column, for both storage orders, with and without
headings and footer, whatever the caller's variables contained. -/
theorem C23_cells (c : Cfg W α H) (ls : List (List W)) (callerNull : Bool) (nrows0 ncols0 : Int)
    (s : Status) (a : Ptr α) (nrows ncols : Int) (heads : Option (List H))
    (h : parseAndProcess c (tokOf ls) callerNull nrows0 ncols0 = .done s a nrows ncols heads)
    (hs : s = .success ∨ s = .missingData) :
    TableRead c ls s a nrows ncols heads := by
  have hpe : s ≠ .parsingError ∧ s ≠ .memoryError := by rcases hs with rfl | rfl <;> simp
  unfold parseAndProcess at h
  simp only at h
  rw [populate_eq] at h
  simp only at h
  by_cases h1 : usedLines c.skipFooter ls = []
  · simp only [if_pos h1] at h
    exfalso
    split at h
    · split at h
      · cases h; exact hpe.1 rfl
      · rename_i hh; exact hh rfl
    · cases h; exact hpe.1 rfl
  simp only [if_neg h1] at h
  by_cases h2 : (usedLines c.skipFooter ls).length = (if c.getHeadings then 1 else 0)
  · simp only [if_pos h2] at h
    exfalso
    repeat' split at h
    all_goals first | (cases h; done) | (cases h; exact hpe.1 rfl)
  simp only [if_neg h2] at h
  by_cases h3 : (usedLines c.skipFooter ls).flatten.length / (usedLines c.skipFooter ls).length *
      ((usedLines c.skipFooter ls).length - (if c.getHeadings then 1 else 0)) = 0 ∧ c.callocNull = true
  · simp only [if_pos h3] at h
    exfalso
    repeat' split at h
    all_goals first | (cases h; done) | (cases h; exact hpe.1 rfl) | (cases h; exact hpe.2 rfl)
  simp only [if_neg h3] at h
  have hfl : (if c.getHeadings then 1 else 0) ≤ (usedLines c.skipFooter ls).length := by
    have := List.length_pos_iff.mpr h1
    split <;> omega
  cases hfill : fillLoop c ls (usedLines c.skipFooter ls).length (if c.getHeadings then 1 else 0)
      ((usedLines c.skipFooter ls).flatten.length / (usedLines c.skipFooter ls).length) with
  | error e =>
    rw [hfill] at h
    exfalso
    cases e with
    | ub => simp at h
    | _ =>
      simp only at h
      repeat' split at h
      all_goals first | (cases h; done) | (cases h; exact hpe.1 rfl)
  | ok st =>
    obtain ⟨buf, m⟩ := st
    rw [hfill] at h
    simp only at h
    obtain ⟨hgood, hinv⟩ := fillLoop_ok c ls (used_length_le _ _) hfl hfill
    generalize hf : (usedLines c.skipFooter ls).flatten.length / (usedLines c.skipFooter ls).length = f at *
    -- the outputs
    have hout : a = .buf buf ∧ s = (if m then .missingData else .success) ∧
        nrows = ((usedLines c.skipFooter ls).length - (if c.getHeadings then 1 else 0) : Nat) ∧
        ncols = (f : Int) ∧ (c.getHeadings = true → f ≠ 0 → ∃ hl : 0 < ls.length, ls[0].length = f ∧
          heads = some (ls[0].map c.heading)) := by
      by_cases hg : c.getHeadings = true
      · simp only [if_pos hg] at h
        by_cases hz : (f : Int) = 0
        · rw [if_pos hz] at h
          cases h
          simp only [hg, if_true]
          refine ⟨trivial, trivial, trivial, trivial, fun _ h5 => absurd hz (by omega)⟩
        · rw [if_neg hz] at h
          have hl : 0 < ls.length := by
            have := List.length_pos_iff.mpr h1
            have := used_length_le c.skipFooter ls
            omega
          rw [tok_fields ls hl] at h
          simp only at h
          by_cases hh : (f : Int) = ls[0].length
          · rw [if_pos hh] at h
            cases h
            simp only [hg, if_true]
            refine ⟨trivial, trivial, trivial, trivial, fun _ _ => ⟨hl, by omega, ?_⟩⟩
            rw [head_words hl]
          · rw [if_neg hh] at h
            cases h
            exact absurd rfl hpe.1
      · simp only [if_neg hg] at h
        cases h
        simp only [hg]
        exact ⟨trivial, trivial, rfl, trivial, fun h6 => absurd h6 (by simp)⟩
    obtain ⟨rfl, hsm, hnr, hnc, hheads⟩ := hout
    have hD : (dataLines c.skipFooter c.getHeadings ls).length
        = (usedLines c.skipFooter ls).length - (if c.getHeadings then 1 else 0) := by
      simp [dataLines]
    have hDi : ∀ i l, (dataLines c.skipFooter c.getHeadings ls)[i]? = some l →
        ∃ hi : i + (if c.getHeadings then 1 else 0) < ls.length,
          i + (if c.getHeadings then 1 else 0) < (usedLines c.skipFooter ls).length ∧
          ls[i + (if c.getHeadings then 1 else 0)] = l := by
      intro i l hl
      rw [dataLines, List.getElem?_drop] at hl
      obtain ⟨h5, h6⟩ := List.getElem?_eq_some_iff.mp hl
      obtain ⟨hi, h7⟩ := used_getElem c.skipFooter ls h5
      have e : i + (if c.getHeadings then 1 else 0) = (if c.getHeadings then 1 else 0) + i := by omega
      simp only [e]
      exact ⟨hi, h5, by rw [h7, h6]⟩
    -- the status
    have hmiss : m = true ↔ ¬ ∀ l ∈ dataLines c.skipFooter c.getHeadings ls, ∀ w ∈ l, c.num w ≠ none := by
      rw [hinv.miss]
      constructor
      · rintro ⟨i', k', hi', hk', a1, a2, a3, -, a5⟩ hall
        refine hall ls[i'] ?_ _ (List.getElem_mem hk') a5
        obtain ⟨_, h7⟩ := used_getElem c.skipFooter ls a3
        rw [h7, dataLines, List.mem_iff_getElem?]
        refine ⟨i' - (if c.getHeadings then 1 else 0), ?_⟩
        rw [List.getElem?_drop,
          show (if c.getHeadings then 1 else 0) + (i' - (if c.getHeadings then 1 else 0)) = i' by omega]
        exact List.getElem?_eq_getElem a3
      · intro hall
        simp only [not_forall, not_not] at hall
        obtain ⟨l, hl, w, hw, hn⟩ := hall
        obtain ⟨i, hi⟩ := List.mem_iff_getElem?.mp hl
        obtain ⟨hi1, hi2, rfl⟩ := hDi i l hi
        obtain ⟨k, hk, rfl⟩ := List.mem_iff_getElem.mp hw
        obtain ⟨_, hlen, _⟩ := hgood (i + (if c.getHeadings then 1 else 0)) (by omega) hi2
        exact ⟨_, k, hi1, hk, by omega, by omega, hi2, Or.inl hi2, hn⟩
    have hrect0 : ∀ i, (if c.getHeadings then 1 else 0) ≤ i → ∀ hi : i < (usedLines c.skipFooter ls).length,
        (usedLines c.skipFooter ls)[i].length = f := by
      intro i h5 hi
      obtain ⟨hi1, h7⟩ := used_getElem c.skipFooter ls hi
      obtain ⟨_, hlen, _⟩ := hgood i h5 hi
      rw [← h7]; exact hlen
    refine ⟨?_, ?_, ?_, ?_, ?_, ?_, ?_, ?_⟩
    · rw [hD]; exact hnr
    · intro h5
      rw [h5] at hD
      simp only [List.length_nil] at hD
      omega
    · intro l hl
      obtain ⟨i, hi⟩ := List.mem_iff_getElem?.mp hl
      obtain ⟨hi1, hi2, rfl⟩ := hDi i l hi
      obtain ⟨_, hlen, _⟩ := hgood (i + (if c.getHeadings then 1 else 0)) (by omega) hi2
      rw [hlen, hnc]
    · intro hnz l hl
      obtain ⟨i, hi, rfl⟩ := List.mem_iff_getElem.mp hl
      rw [hnc]
      by_cases h5 : (if c.getHeadings then 1 else 0) ≤ i
      · rw [hrect0 i h5 hi]
      · have hg : c.getHeadings = true := by
          by_contra hg; simp [hg] at h5
        rw [if_pos hg] at h5
        have hi0 : i = 0 := by omega
        subst hi0
        obtain ⟨hi1, h7⟩ := used_getElem c.skipFooter ls hi
        rw [← h7]
        obtain ⟨_, hlen, _⟩ := hheads hg (by omega)
        rw [hlen]
    · refine ⟨buf, rfl, ?_, ?_⟩
      · have := hinv.len
        simp only at this
        rw [this, hnr, hnc]
        push_cast
        ring
      · intro i j l w hl hw
        obtain ⟨hi1, hi2, rfl⟩ := hDi i l hl
        obtain ⟨hj, rfl⟩ := List.getElem?_eq_some_iff.mp hw
        obtain ⟨_, hlen, _⟩ := hgood (i + (if c.getHeadings then 1 else 0)) (by omega) hi2
        have := hinv.val (i + (if c.getHeadings then 1 else 0)) j hi1 hj (by omega) (by omega) hi2 (by omega)
        rw [position_eq, hnr, hnc, Int.toNat_natCast, Int.toNat_natCast]
        rw [Nat.add_sub_cancel] at this
        exact this
    · rw [hsm]
      by_cases h5 : m = true
      · rw [if_pos h5, if_neg (hmiss.mp h5)]
      · rw [if_neg h5, if_pos (by by_contra h6; exact h5 (hmiss.mpr h6))]
    · intro h5
      rw [hsm] at h5
      have hm : m = true := by by_contra h6; rw [if_neg h6] at h5; cases h5
      by_contra hw
      have h6 := hmiss.mp hm
      apply h6
      intro l hl w hwm
      obtain ⟨i, hi⟩ := List.mem_iff_getElem?.mp hl
      obtain ⟨hi1, hi2, rfl⟩ := hDi i l hi
      obtain ⟨_, _, h7⟩ := hgood (i + (if c.getHeadings then 1 else 0)) (by omega) hi2
      rcases h7 with h8 | h8
      · exact absurd h8 hw
      · exact h8 w hwm
    · intro hg h5
      obtain ⟨hl, h6, h7⟩ := hheads hg (by omega)
      cases ls with
      | nil => simp at hl
      | cons l rest => exact ⟨l, rest, rfl, h7⟩

/-- Conversely, every rectangular table with at least one data line whose cells can be
read (or with missing data allowed) is accepted. -/
theorem C23_accepts (c : Cfg W α H) (ls : List (List W)) (callerNull : Bool) (nrows0 ncols0 : Int)
    (nc : Nat) (hnc : 0 < nc) (hrect : Rectangular (usedLines c.skipFooter ls) nc)
    (hdata : dataLines c.skipFooter c.getHeadings ls ≠ [])
    (hcells : c.warnMissing = true ∨
      ∀ l ∈ dataLines c.skipFooter c.getHeadings ls, ∀ w ∈ l, c.num w ≠ none) :
    ∃ s a nrows ncols heads,
      parseAndProcess c (tokOf ls) callerNull nrows0 ncols0 = .done s a nrows ncols heads ∧
      (s = .success ∨ s = .missingData) := by
  unfold parseAndProcess
  simp only
  rw [populate_eq]
  simp only
  have hDlen : (dataLines c.skipFooter c.getHeadings ls).length
      = (usedLines c.skipFooter ls).length - (if c.getHeadings then 1 else 0) := by
    simp [dataLines]
  have hDpos := List.length_pos_iff.mpr hdata
  have h1 : ¬ usedLines c.skipFooter ls = [] := by
    intro h; rw [h] at hDlen; simp only [List.length_nil] at hDlen; omega
  have hLpos := List.length_pos_iff.mpr h1
  have hf : (usedLines c.skipFooter ls).flatten.length / (usedLines c.skipFooter ls).length = nc := by
    rw [flatten_rect hrect, Nat.mul_div_cancel _ hLpos]
  have h2 : ¬ (usedLines c.skipFooter ls).length = (if c.getHeadings then 1 else 0) := by omega
  rw [hf]
  have h3 : ¬ (nc * ((usedLines c.skipFooter ls).length - (if c.getHeadings then 1 else 0)) = 0 ∧
      c.callocNull = true) := by
    rintro ⟨h4, -⟩
    rcases Nat.mul_eq_zero.mp h4 with h5 | h5 <;> omega
  simp only [if_neg h1, if_neg h2, if_neg h3]
  obtain ⟨⟨buf, m⟩, hst⟩ := fillLoop_good c ls (first := if c.getHeadings then 1 else 0) (f := nc)
    (used_length_le c.skipFooter ls) (by omega)
    (by
      intro i h4 h5
      obtain ⟨hi, h6⟩ := used_getElem c.skipFooter ls h5
      refine ⟨hi, by rw [h6]; exact hrect _ (List.getElem_mem _), ?_⟩
      rcases hcells with h7 | h7
      · exact Or.inl h7
      · right
        apply h7
        rw [h6, dataLines, List.mem_iff_getElem?]
        refine ⟨i - (if c.getHeadings then 1 else 0), ?_⟩
        rw [List.getElem?_drop,
          show (if c.getHeadings then 1 else 0) + (i - (if c.getHeadings then 1 else 0)) = i by omega]
        exact List.getElem?_eq_getElem h5)
  rw [hst]
  simp only
  by_cases hg : c.getHeadings = true
  · have hl : 0 < ls.length := by have := used_length_le c.skipFooter ls; omega
    have h0 : (nc : Int) = ls[0].length := by
      obtain ⟨_, h6⟩ := used_getElem c.skipFooter ls hLpos
      rw [h6, hrect _ (List.getElem_mem _)]
    rw [if_pos hg, if_neg (by omega), tok_fields ls hl]
    simp only
    rw [if_pos h0]
    refine ⟨_, _, _, _, _, rfl, ?_⟩
    cases m <;> simp
  · rw [if_neg hg]
    refine ⟨_, _, _, _, _, rfl, ?_⟩
    cases m <;> simp

/-- No undefined behaviour when the caller initialised `*a` with null. -/
theorem C23_no_ub (c : Cfg W α H) (ls : List (List W)) (nrows0 ncols0 : Int) :
    parseAndProcess c (tokOf ls) true nrows0 ncols0 ≠ .ub := by
  have hpop : populate c (tokOf ls) ≠ .ub := by
    rw [populate_eq]
    simp only
    have := fillLoop_not_ub c ls (first := if c.getHeadings then 1 else 0)
      (f := (usedLines c.skipFooter ls).flatten.length / (usedLines c.skipFooter ls).length)
      (used_length_le c.skipFooter ls)
    repeat' split
    all_goals simp_all
  have hne : ls = [] → populate c (tokOf ls) = .noData 0 := by
    rintro rfl
    rw [populate_eq]
    simp [usedLines]
  unfold parseAndProcess
  simp only
  by_cases hl : 0 < ls.length
  · rw [tok_fields ls hl]
    repeat' split
    all_goals simp_all
  · have : ls = [] := List.eq_nil_of_length_eq_zero (by omega)
    rw [hne this]
    simp

/-- When the caller's `*a` was not initialised, a ragged file with a heading line makes
the library free that pointer: after the ragged table is refused, `parse_headings` is run with
the caller's `*ncols`, and its failure frees `*a`. -/
theorem C23_uninitialised_pointer_freed :
    ∃ (c : Cfg Nat Nat Nat) (ls : List (List Nat)) (ncols0 : Int),
      parseAndProcess c (tokOf ls) false 0 ncols0 = .ub :=
  ⟨⟨.rowMajor, false, false, true, some, 0, 0, id, false⟩, [[1, 2], [3, 4], [5]], 7, by rfl⟩

/-- A table with heading and footer in both orders. -/
def exampleCfg (o : Order) : Cfg Nat Nat Nat :=
  ⟨o, true, true, true, fun w => if w < 10 then some (w + 100) else none, 999, 0, id, false⟩

example : parseAndProcess (exampleCfg .rowMajor) (tokOf [[70, 71], [1, 2], [3, 44], [5, 6], [7]]) true 0 0
      = .done .missingData (.buf [101, 102, 103, 999, 105, 106]) 3 2 (some [70, 71]) ∧
    parseAndProcess (exampleCfg .colMajor) (tokOf [[70, 71], [1, 2], [3, 4], [5, 6], [7]]) true 0 0
      = .done .success (.buf [101, 103, 105, 102, 104, 106]) 3 2 (some [70, 71]) ∧
    parseAndProcess (exampleCfg .colMajor) (tokOf [[70, 71], [1, 2], [3], [5, 6], [7]]) true 0 0
      = .done .parsingError .caller 0 0 none := ⟨rfl, rfl, rfl⟩

end Verif.CsvTable
