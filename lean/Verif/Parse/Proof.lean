import Verif.Parse.Model
import Verif.Parse.Spec
import Mathlib.Data.List.Basic
import Mathlib.Data.List.TakeWhile
import Mathlib.Data.List.Induction

namespace Verif.Parse

theorem isDigit_iff {c : Nat} : isDigit c = true ↔ Digit c := by
  simp only [isDigit, Digit, decide_eq_true_eq]; omega

theorem isSpace_iff {c : Nat} : isSpace c = true ↔ Blank c := by
  simp only [isSpace, Blank, decide_eq_true_eq]; omega

/-- Left-to-right accumulation. -/
def acc (n : Int) (ds : List Nat) : Int := ds.foldl (fun (v : Int) (d : Nat) => v * 10 + ((d : Int) - 48)) n

theorem acc_cons (n : Int) (d : Nat) (ds : List Nat) :
    acc n (d :: ds) = acc (n * 10 + ((d : Int) - 48)) ds := rfl

theorem acc_append (n : Int) (a b : List Nat) : acc n (a ++ b) = acc (acc n a) b := by
  simp [acc, List.foldl_append]

theorem digitsValue_append (ds : List Nat) (d : Nat) :
    digitsValue (ds ++ [d]) = digitsValue ds * 10 + (d - 48) := by
  simp only [digitsValue, List.reverse_append, List.reverse_cons, List.reverse_nil, List.nil_append,
    List.singleton_append, List.map_cons, Nat.ofDigits_cons]
  push_cast
  omega

theorem acc_zero (ds : List Nat) (h : ∀ c ∈ ds, Digit c) : acc 0 ds = digitsValue ds := by
  induction ds using List.reverseRecOn with
  | nil => rfl
  | append_singleton ds d ih =>
    rw [acc_append, ih (fun c hc => h c (by simp [hc])), digitsValue_append]
    have := h d (by simp)
    unfold Digit at this
    simp only [acc, List.foldl_cons, List.foldl_nil]
    push_cast
    omega

theorem acc_ge (ds : List Nat) (h : ∀ c ∈ ds, Digit c) (n : Int) (hn : 0 ≤ n) : n ≤ acc n ds := by
  induction ds generalizing n with
  | nil => exact Int.le_refl _
  | cons d ds ih =>
    rw [acc_cons]
    have hd := h d (by simp)
    unfold Digit at hd
    have := ih (fun c hc => h c (by simp [hc])) (n * 10 + ((d : Int) - 48)) (by omega)
    omega

/-- Characters consumed by the digit loops. -/
def cls (tsep : Nat) (c : Nat) : Bool := isDigit c || (decide (tsep ≠ 0) && decide (c = tsep))

/-- The digits among them. -/
def digs (tsep : Nat) (l : List Nat) : List Nat := l.filter (fun c => !(decide (tsep ≠ 0) && decide (c = tsep)))

theorem digs_digit {tsep : Nat} {l : List Nat} (h : ∀ c ∈ l, cls tsep c = true) :
    ∀ c ∈ digs tsep l, Digit c := by
  intro c hc
  simp only [digs, List.mem_filter] at hc
  have := h c hc.1
  simp only [cls, Bool.or_eq_true] at this
  rcases this with h1 | h1
  · exact isDigit_iff.mp h1
  · rw [h1] at hc; simp at hc

theorem posLoop_eq (r : Range) (hlo : r.lo ≤ 0) (hhi : 0 ≤ r.hi) (tsep : Nat) (l : List Nat)
    (n : Int) (h0 : 0 ≤ n) (hn : n ≤ r.hi) :
    posLoop r tsep l n =
      if acc n (digs tsep (l.takeWhile (cls tsep))) ≤ r.hi then
        .ok (acc n (digs tsep (l.takeWhile (cls tsep)))) (l.dropWhile (cls tsep))
      else .err := by
  induction l generalizing n with
  | nil => simp [posLoop, digs, acc, hn]
  | cons d p ih =>
    unfold posLoop
    by_cases hs : tsep ≠ 0 ∧ d = tsep
    · have hc : cls tsep d = true := by simp [cls, hs.1, hs.2]
      have hd : digs tsep (List.takeWhile (cls tsep) (d :: p))
          = digs tsep (List.takeWhile (cls tsep) p) := by
        simp only [List.takeWhile_cons, hc, if_true, digs]
        rw [List.filter_cons_of_neg (by simp [hs.1, hs.2])]
      rw [if_pos hs, hd, List.dropWhile_cons_of_pos hc]
      exact ih n h0 hn
    · rw [if_neg hs]
      by_cases hdig : isDigit d = true
      · have hc : cls tsep d = true := by simp [cls, hdig]
        have hd : digs tsep (List.takeWhile (cls tsep) (d :: p))
            = d :: digs tsep (List.takeWhile (cls tsep) p) := by
          simp only [List.takeWhile_cons, hc, if_true, digs]
          rw [List.filter_cons_of_pos]
          simp only [Bool.not_eq_true', Bool.and_eq_false_iff, decide_eq_false_iff_not]
          by_cases h1 : tsep ≠ 0
          · right; exact fun h2 => hs ⟨h1, h2⟩
          · left; exact h1
        rw [if_pos hdig, hd, List.dropWhile_cons_of_pos hc, acc_cons]
        have hD := isDigit_iff.mp hdig
        unfold Digit at hD
        rw [Int.tdiv_eq_ediv_of_nonneg hhi, Int.tmod_eq_emod_of_nonneg hhi]
        have hmem : ∀ c ∈ digs tsep (List.takeWhile (cls tsep) p), Digit c :=
          digs_digit (fun c hc => List.mem_takeWhile_imp hc)
        have hge := acc_ge _ hmem (n * 10 + ((d : Int) - 48)) (by omega)
        by_cases hle : n * 10 + ((d : Int) - 48) ≤ r.hi
        · rw [if_pos (by omega), if_pos]
          · exact ih _ (by omega) hle
          · simp only [Range.fits, Bool.and_eq_true, decide_eq_true_eq]; omega
        · rw [if_neg (by omega), if_neg (by omega)]
      · have hc : ¬ cls tsep d = true := by
          simp only [cls, Bool.or_eq_true, hdig, Bool.and_eq_true, decide_eq_true_eq]
          simpa using hs
        rw [if_neg hdig, List.takeWhile_cons_of_neg hc, List.dropWhile_cons_of_neg hc]
        simp [digs, acc, hn]

theorem negLoop_eq (r : Range) (hlo : r.lo ≤ 0) (hhi : 0 ≤ r.hi) (tsep : Nat) (l : List Nat)
    (n : Int) (h0 : 0 ≤ n) (hn : r.lo ≤ -n) :
    negLoop r tsep l (-n) =
      if r.lo ≤ -acc n (digs tsep (l.takeWhile (cls tsep))) then
        .ok (-acc n (digs tsep (l.takeWhile (cls tsep)))) (l.dropWhile (cls tsep))
      else .err := by
  induction l generalizing n with
  | nil => simp [negLoop, digs, acc, hn]
  | cons d p ih =>
    unfold negLoop
    by_cases hs : tsep ≠ 0 ∧ d = tsep
    · have hc : cls tsep d = true := by simp [cls, hs.1, hs.2]
      have hd : digs tsep (List.takeWhile (cls tsep) (d :: p))
          = digs tsep (List.takeWhile (cls tsep) p) := by
        simp only [List.takeWhile_cons, hc, if_true, digs]
        rw [List.filter_cons_of_neg (by simp [hs.1, hs.2])]
      rw [if_pos hs, hd, List.dropWhile_cons_of_pos hc]
      exact ih n h0 hn
    · rw [if_neg hs]
      by_cases hdig : isDigit d = true
      · have hc : cls tsep d = true := by simp [cls, hdig]
        have hd : digs tsep (List.takeWhile (cls tsep) (d :: p))
            = d :: digs tsep (List.takeWhile (cls tsep) p) := by
          simp only [List.takeWhile_cons, hc, if_true, digs]
          rw [List.filter_cons_of_pos]
          simp only [Bool.not_eq_true', Bool.and_eq_false_iff, decide_eq_false_iff_not]
          by_cases h1 : tsep ≠ 0
          · right; exact fun h2 => hs ⟨h1, h2⟩
          · left; exact h1
        rw [if_pos hdig, hd, List.dropWhile_cons_of_pos hc, acc_cons]
        have hD := isDigit_iff.mp hdig
        unfold Digit at hD
        obtain ⟨L, hL⟩ : ∃ L : Int, L = -r.lo := ⟨_, rfl⟩
        have hlo' : r.lo = -L := by omega
        rw [hlo'] at hn hlo ⊢
        rw [Int.neg_tdiv, Int.neg_tmod, Int.tdiv_eq_ediv_of_nonneg (by omega),
          Int.tmod_eq_emod_of_nonneg (by omega)]
        have hmem : ∀ c ∈ digs tsep (List.takeWhile (cls tsep) p), Digit c :=
          digs_digit (fun c hc => List.mem_takeWhile_imp hc)
        have hge := acc_ge _ hmem (n * 10 + ((d : Int) - 48)) (by omega)
        have hrw : -n * 10 - ((d : Int) - 48) = -(n * 10 + ((d : Int) - 48)) := by omega
        rw [hrw]
        by_cases hle : n * 10 + ((d : Int) - 48) ≤ L
        · rw [if_pos (by omega), if_pos]
          · rw [ih _ (by omega) (by omega), hlo']
          · simp only [Range.fits, Bool.and_eq_true, decide_eq_true_eq]; omega
        · rw [if_neg (by omega), if_neg (by omega)]
      · have hc : ¬ cls tsep d = true := by
          simp only [cls, Bool.or_eq_true, hdig, Bool.and_eq_true, decide_eq_true_eq]
          simpa using hs
        rw [if_neg hdig, List.takeWhile_cons_of_neg hc, List.dropWhile_cons_of_neg hc]
        simp [digs, acc, hn]

theorem skipSpace_eq (l : List Nat) : skipSpace l = l.dropWhile isSpace := by
  induction l with
  | nil => rfl
  | cons c p ih =>
    unfold skipSpace
    by_cases h : isSpace c = true
    · rw [if_pos h, List.dropWhile_cons_of_pos h, ih]
    · rw [if_neg h, List.dropWhile_cons_of_neg h]

/-- The magnitude read after the sign. -/
def mag (tsep : Nat) (p : List Nat) : Int := acc 0 (digs tsep (p.takeWhile (cls tsep)))

/-- Closed form of the reader. -/
theorem parseInt_eq (r : Range) (hlo : r.lo ≤ 0) (hhi : 0 ≤ r.hi) (tsep : Nat) (s : List Nat)
    (neg : Bool) (p : List Nat) (hp : readSign (s.dropWhile isSpace) = (neg, p)) :
    parseInt r tsep s =
      if isDigit (cur p) = true ∧ r.fits ((if neg then -1 else 1) * mag tsep p) = true ∧
          cur ((p.dropWhile (cls tsep)).dropWhile isSpace) = 0 then
        .ok ((if neg then -1 else 1) * mag tsep p) ((p.dropWhile (cls tsep)).dropWhile isSpace)
      else .err := by
  unfold parseInt
  rw [skipSpace_eq]
  dsimp only
  rw [hp]
  dsimp only
  have hmem : ∀ c ∈ digs tsep (List.takeWhile (cls tsep) p), Digit c :=
    digs_digit (fun c hc => List.mem_takeWhile_imp hc)
  have h0 : 0 ≤ mag tsep p := acc_ge _ hmem 0 (Int.le_refl _)
  by_cases hd : isDigit (cur p) = true
  · simp only [hd, Bool.not_true, Bool.false_eq_true, if_false, true_and]
    cases neg with
    | false =>
      simp only [Bool.false_eq_true, if_false, Int.one_mul]
      rw [posLoop_eq r hlo hhi tsep p 0 (Int.le_refl _) hhi]
      change (match (if mag tsep p ≤ r.hi then Res.ok (mag tsep p) _ else Res.err) with
        | .ub => Res.ub | .err => .err | .ok n p => _) = _
      by_cases hle : mag tsep p ≤ r.hi
      · have hf : r.fits (mag tsep p) = true := by
          simp only [Range.fits, decide_eq_true_eq]; omega
        simp only [if_pos hle, hf, true_and, skipSpace_eq]
        by_cases hz : cur ((p.dropWhile (cls tsep)).dropWhile isSpace) = 0
        · simp [hz]
        · simp [hz]
      · have hf : ¬ r.fits (mag tsep p) = true := by
          simp only [Range.fits, decide_eq_true_eq]; omega
        simp [if_neg hle, hf]
    | true =>
      simp only [if_true]
      have := negLoop_eq r hlo hhi tsep p 0 (Int.le_refl _) (by omega)
      simp only [Int.neg_zero] at this
      rw [this]
      change (match (if r.lo ≤ -mag tsep p then Res.ok (-mag tsep p) _ else Res.err) with
        | .ub => Res.ub | .err => .err | .ok n p => _) = _
      have hm : -1 * mag tsep p = -mag tsep p := by omega
      rw [hm]
      by_cases hle : r.lo ≤ -mag tsep p
      · have hf : r.fits (-mag tsep p) = true := by
          simp only [Range.fits, decide_eq_true_eq]; omega
        simp only [if_pos hle, hf, true_and, skipSpace_eq]
        by_cases hz : cur ((p.dropWhile (cls tsep)).dropWhile isSpace) = 0
        · simp [hz]
        · simp [hz]
      · have hf : ¬ r.fits (-mag tsep p) = true := by
          simp only [Range.fits, decide_eq_true_eq]; omega
        simp only [if_neg hle, hf]
        simp
  · simp [hd]

theorem cur_eq_zero {l : List Nat} (h : 0 ∉ l) : cur l = 0 ↔ l = [] := by
  cases l with
  | nil => simp [cur]
  | cons a l =>
    simp only [cur, List.headD_cons, reduceCtorEq, iff_false]
    intro h'; exact h (by simp [h'])

theorem dropWhile_all {p : Nat → Bool} {l : List Nat} (h : ∀ c ∈ l, p c = true) :
    l.dropWhile p = [] := by
  rw [List.dropWhile_eq_nil_iff]; exact h

theorem dropWhile_append_all {p : Nat → Bool} {a b : List Nat} (h : ∀ c ∈ a, p c = true) :
    (a ++ b).dropWhile p = b.dropWhile p := by
  induction a with
  | nil => rfl
  | cons c a ih =>
    rw [List.cons_append, List.dropWhile_cons_of_pos (h c (by simp))]
    exact ih (fun c hc => h c (by simp [hc]))

theorem takeWhile_append_all {p : Nat → Bool} {a b : List Nat} (h : ∀ c ∈ a, p c = true) :
    (a ++ b).takeWhile p = a ++ b.takeWhile p := by
  induction a with
  | nil => rfl
  | cons c a ih =>
    rw [List.cons_append, List.takeWhile_cons_of_pos (h c (by simp)), List.cons_append,
      ih (fun c hc => h c (by simp [hc]))]

theorem digs_eq (tsep : Nat) (l : List Nat) :
    digs tsep l = if tsep = 0 then l else l.filter (· ≠ tsep) := by
  unfold digs
  by_cases h : tsep = 0
  · simp [h]
  · rw [if_neg h]
    apply List.filter_congr
    intro c _
    simp [h]

/-- A grammatical cell determines the quantities of the closed form. -/
theorem cell_closed {tsep : Nat} {s : List Nat} {v : Int} (h : IntCell tsep s v) :
    ∃ neg p, readSign (s.dropWhile isSpace) = (neg, p) ∧ isDigit (cur p) = true ∧
      v = (if neg then -1 else 1) * mag tsep p ∧ (p.dropWhile (cls tsep)).dropWhile isSpace = [] := by
  obtain ⟨ws, sg, body, ws', hs, hws, hws', hsg, ⟨d, b, hb, hd⟩, hbody, hv⟩ := h
  have hcls : ∀ c ∈ body, cls tsep c = true := by
    intro c hc
    simp only [cls, Bool.or_eq_true, Bool.and_eq_true, decide_eq_true_eq]
    rcases hbody c hc with h1 | h1
    · exact Or.inl (isDigit_iff.mpr h1)
    · exact Or.inr h1
  have hdig := hd
  unfold Digit at hdig
  have hdrop : s.dropWhile isSpace = sg ++ body ++ ws' := by
    rw [hs, List.append_assoc, List.append_assoc, dropWhile_append_all (fun c hc => isSpace_iff.mpr (hws c hc)),
      ← List.append_assoc]
    rcases hsg with h1 | h1 | h1 <;> subst h1 <;> subst hb
    · rw [List.nil_append, List.cons_append, List.dropWhile_cons_of_neg]
      rw [isSpace_iff]; unfold Blank; omega
    · rfl
    · rfl
  have hread : readSign (s.dropWhile isSpace) = (decide (sg = [45]), body ++ ws') := by
    rw [hdrop]
    rcases hsg with h1 | h1 | h1 <;> subst h1 <;> subst hb
    · simp only [List.nil_append, List.cons_append, readSign]
      rw [if_neg (by omega), if_neg (by omega)]
      simp
    · rfl
    · rfl
  refine ⟨_, _, hread, ?_, ?_, ?_⟩
  · subst hb; exact isDigit_iff.mpr hd
  · have hmag : mag tsep (body ++ ws') = digitsValue (digs tsep body) := by
      unfold mag
      rw [takeWhile_append_all hcls]
      have : digs tsep (body ++ List.takeWhile (cls tsep) ws') = digs tsep body := by
        unfold digs
        rw [List.filter_append]
        have h2 : List.filter (fun c => !(decide (tsep ≠ 0) && decide (c = tsep)))
            (List.takeWhile (cls tsep) ws') = [] := by
          rw [List.filter_eq_nil_iff]
          intro c hc
          have h3 : cls tsep c = true := List.mem_takeWhile_imp hc
          have h4 := hws' c ((List.takeWhile_sublist _).subset hc)
          simp only [cls, Bool.or_eq_true, isDigit_iff] at h3
          rcases h3 with h5 | h5
          · unfold Digit at h5; unfold Blank at h4; omega
          · simpa using h5
        rw [h2, List.append_nil]
      rw [this, acc_zero _ (digs_digit hcls)]
    rw [hmag, hv, digs_eq]
    simp only [decide_eq_true_eq]
  · rw [dropWhile_append_all hcls]
    apply dropWhile_all
    intro c hc
    exact isSpace_iff.mpr (hws' c ((List.dropWhile_sublist _).subset hc))

/-- Conversely the closed form yields a grammatical cell. -/
theorem closed_cell {tsep : Nat} {s : List Nat} {neg : Bool} {p : List Nat}
    (hread : readSign (s.dropWhile isSpace) = (neg, p)) (hd : isDigit (cur p) = true)
    (hrest : (p.dropWhile (cls tsep)).dropWhile isSpace = []) :
    IntCell tsep s ((if neg then -1 else 1) * mag tsep p) := by
  have hcls : ∀ c ∈ p.takeWhile (cls tsep), cls tsep c = true := fun c hc => List.mem_takeWhile_imp hc
  refine ⟨s.takeWhile isSpace, (s.dropWhile isSpace).take ((s.dropWhile isSpace).length - p.length),
    p.takeWhile (cls tsep), p.dropWhile (cls tsep), ?_, ?_, ?_, ?_, ?_, ?_, ?_⟩
  · have hsplit : (s.dropWhile isSpace).take ((s.dropWhile isSpace).length - p.length) ++ p
        = s.dropWhile isSpace := by
      generalize s.dropWhile isSpace = q at hread ⊢
      cases q with
      | nil => simp only [readSign, Prod.mk.injEq] at hread; simp [← hread.2]
      | cons c q =>
        simp only [readSign] at hread
        by_cases h1 : c = 45
        · rw [if_pos h1] at hread; obtain ⟨-, rfl⟩ := Prod.mk.inj hread; simp
        · rw [if_neg h1] at hread
          by_cases h2 : c = 43
          · rw [if_pos h2] at hread; obtain ⟨-, rfl⟩ := Prod.mk.inj hread; simp
          · rw [if_neg h2] at hread; obtain ⟨-, rfl⟩ := Prod.mk.inj hread; simp
    rw [List.append_assoc, List.append_assoc, List.takeWhile_append_dropWhile, hsplit,
      List.takeWhile_append_dropWhile]
  · intro c hc; exact isSpace_iff.mp (List.mem_takeWhile_imp hc)
  · intro c hc; exact isSpace_iff.mp ((List.dropWhile_eq_nil_iff.mp hrest) c hc)
  · generalize s.dropWhile isSpace = q at hread ⊢
    cases q with
    | nil => simp
    | cons c q =>
      simp only [readSign] at hread
      by_cases h1 : c = 45
      · rw [if_pos h1] at hread; obtain ⟨-, rfl⟩ := Prod.mk.inj hread; simp [h1]
      · rw [if_neg h1] at hread
        by_cases h2 : c = 43
        · rw [if_pos h2] at hread; obtain ⟨-, rfl⟩ := Prod.mk.inj hread; simp [h2]
        · rw [if_neg h2] at hread; obtain ⟨-, rfl⟩ := Prod.mk.inj hread; simp
  · cases p with
    | nil => simp [cur, isDigit] at hd
    | cons c p =>
      have hc : isDigit c = true := hd
      refine ⟨c, p.takeWhile (cls tsep), ?_, isDigit_iff.mp hc⟩
      rw [List.takeWhile_cons_of_pos]
      simp [cls, hc]
  · intro c hc
    have := hcls c hc
    simp only [cls, Bool.or_eq_true, Bool.and_eq_true, decide_eq_true_eq, isDigit_iff] at this
    exact this
  · unfold mag
    rw [acc_zero _ (digs_digit hcls), digs_eq]
    have : neg = true ↔
        (s.dropWhile isSpace).take ((s.dropWhile isSpace).length - p.length) = [45] := by
      generalize s.dropWhile isSpace = q at hread ⊢
      cases q with
      | nil => simp only [readSign, Prod.mk.injEq] at hread; simp [← hread.2, ← hread.1]
      | cons c q =>
        simp only [readSign] at hread
        by_cases h1 : c = 45
        · rw [if_pos h1] at hread; obtain ⟨h3, rfl⟩ := Prod.mk.inj hread; simp [← h3, h1]
        · rw [if_neg h1] at hread
          by_cases h2 : c = 43
          · rw [if_pos h2] at hread; obtain ⟨h3, rfl⟩ := Prod.mk.inj hread; simp [← h3, h2]
          · rw [if_neg h2] at hread; obtain ⟨h3, rfl⟩ := Prod.mk.inj hread; simp [← h3]
    simp only [this]

end Verif.Parse
