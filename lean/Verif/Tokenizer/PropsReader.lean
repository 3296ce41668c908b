import Verif.Tokenizer.Reader
import Mathlib.Data.Nat.Digits.Defs

/-!
C59: a read depends on its options and its file alone.  C62: "skip rows" names lines.
-/
namespace Verif.Tokenizer.Reader
variable {stored : Cfg → List Nat → List Nat}

/-- Two outcomes tell the same: the same options in force, lines skipped alike, the same lines in the report. -/
def Same : Outcome → Outcome → Prop
  | .fault, .fault => True
  | .read g r, .read g' r' => g = g' ∧ ∀ n, n ∈ r ↔ n ∈ r'
  | _, _ => False

/-- The property C59: after any reads the handle reads a file as a new handle does. -/
def C59_statement : Prop :=
  ∀ (stored : Cfg → List Nat → List Nat) (h : List (Opts × List Nat)) (r : Opts × List Nat),
    Same (step stored (after stored h) r).1 (step stored {} r).1

/-- C59 is violated: "row start" 1 stays in force after it has been set back to 0. -/
theorem C59_violated : ¬ C59_statement := by
  intro h
  have h1 := h (fun _ _ => []) [({ start := 1 }, [])] ({}, [])
  have h2 : cfg {} (after (fun _ _ => []) [({ start := 1 }, [])]) = cfg {} ({} : S) := h1.1
  have h3 := congrArg (fun g => g.skip 0) h2
  exact absurd h3 (by decide +kernel)

/-- C59 is violated also when "row start" is never used: the report of a read names lines of earlier files. -/
theorem C59_report_violated : ∃ (stored : Cfg → List Nat → List Nat) (h : List (Opts × List Nat)) (r : Opts × List Nat),
    (∀ x ∈ h, x.1.start = 0) ∧ r.1.start = 0 ∧ ¬ Same (step stored (after stored h) r).1 (step stored {} r).1 := by
  refine ⟨fun g f => (List.range f.length).filter g.skip, [({ rows := [48] }, [97, 98])], ({}, [97, 98]), by simp, rfl, ?_⟩
  intro h
  have := (h.2 0).mp (by decide +kernel)
  exact absurd this (by decide +kernel)

theorem step_skipFirst (s : S) (r : Opts × List Nat) :
    (step stored s r).2.skipFirst = if (skipRows r.1.rows).isSome ∧ r.1.start > 0 then (r.1.start : Int) - 1 else s.skipFirst := by
  unfold step readOptions
  cases h : skipRows r.1.rows with
  | none => simp
  | some l =>
    unfold setSkipFirst
    by_cases h0 : r.1.start > 0 <;> simp [h0]

/-- The last "row start" other than 0 of a read whose options could be read. -/
def Lasts : List (Opts × List Nat) → Int → Prop
  | [], v => v = -1
  | r :: h, v => (Lasts h v ∧ ¬ ((skipRows r.1.rows).isSome ∧ r.1.start > 0)) ∨ ((skipRows r.1.rows).isSome ∧ r.1.start > 0 ∧ v = r.1.start - 1)

/-- What is kept: the last "row start" other than 0. -/
theorem after_lasts (h : List (Opts × List Nat)) : Lasts h (after stored h.reverse).skipFirst := by
  induction h with
  | nil => rfl
  | cons r h ih =>
    unfold after at ih ⊢
    rw [List.reverse_cons, List.foldl_append, List.foldl_cons, List.foldl_nil, step_skipFirst]
    by_cases hc : (skipRows r.1.rows).isSome ∧ r.1.start > 0
    · rw [if_pos hc]; exact Or.inr ⟨hc.1, hc.2, rfl⟩
    · rw [if_neg hc]; exact Or.inl ⟨ih, hc⟩

theorem step_fault (s : S) (r : Opts × List Nat) (h : skipRows r.1.rows = none) : (step stored s r).1 = .fault := by
  unfold step readOptions; rw [h]

theorem step_read (s : S) (r : Opts × List Nat) {l : List Int} (h : skipRows r.1.rows = some l) :
    ∃ rep, (step stored s r).1 = .read (cfg r.1 (setSkipFirst { s with skipSet := l } r.1.start)) rep ∧
      rep = s.skipped ++ stored (cfg r.1 (setSkipFirst { s with skipSet := l } r.1.start)) r.2 := by
  unfold step readOptions
  rw [h]
  refine ⟨_, rfl, ?_⟩
  unfold setSkipFirst
  split <;> rfl

theorem cfg_congr {o : Opts} {s t : S} (h : ∀ n, skipLine s n = skipLine t n) : cfg o s = cfg o t := by
  unfold cfg
  rw [funext h]

theorem skipFirst_bound (h : List (Opts × List Nat)) : (after stored h.reverse).skipFirst = -1 ↔
    ∀ r ∈ h, ¬ ((skipRows r.1.rows).isSome ∧ r.1.start > 0) := by
  have := after_lasts (stored := stored) h
  generalize (after stored h.reverse).skipFirst = v at this
  induction h with
  | nil => exact ⟨fun _ => by simp, fun _ => this⟩
  | cons r h ih =>
    rcases this with ⟨h1, h2⟩ | ⟨h1, h2, h3⟩
    · refine (ih h1).trans ?_
      simp only [List.mem_cons, forall_eq_or_imp]
      exact ⟨fun h => ⟨h2, h⟩, fun h => h.2⟩
    · constructor
      · intro e
        omega
      · intro hh
        exact absurd ⟨h1, h2⟩ (hh r (by simp))

/-- The options in force, to their exact extent: for a read without "skip rows" they are those of a new handle just when "row start"
is set, or no earlier read (with readable options) had it set. -/
theorem C59_options_iff (h : List (Opts × List Nat)) (o : Opts) (file : List Nat) (hr : o.rows = []) :
    (∃ rep rep' g, (step stored (after stored h) (o, file)).1 = .read g rep ∧ (step stored {} (o, file)).1 = .read g rep') ↔
      (o.start > 0 ∨ ∀ r ∈ h, ¬ ((skipRows r.1.rows).isSome ∧ r.1.start > 0)) := by
  have hs : skipRows (o, file).1.rows = some [] := by rw [show (o, file).1.rows = [] from hr]; rfl
  have hb := skipFirst_bound (stored := stored) h.reverse
  rw [List.reverse_reverse] at hb
  simp only [List.mem_reverse] at hb
  rw [← hb]
  obtain ⟨r1, e1, -⟩ := step_read (stored := stored) (after stored h) (o, file) hs
  obtain ⟨r2, e2, -⟩ := step_read (stored := stored) {} (o, file) hs
  rw [e1, e2]
  constructor
  · rintro ⟨_, _, g, h1, h2⟩
    injection h1 with h1 _
    injection h2 with h2 _
    by_cases h0 : o.start > 0
    · exact Or.inl h0
    · right
      have hk : ∀ n : Nat, ((n : Int) ≤ (after stored h).skipFirst) ↔ ((n : Int) ≤ -1) := by
        intro n
        have := congrArg (fun g => g.skip n) (h1.trans h2.symm)
        simp only [cfg, skipLine, setSkipFirst] at this
        rw [if_neg h0, if_neg h0] at this
        simpa using this
      have hl := after_lasts (stored := stored) h.reverse
      rw [List.reverse_reverse] at hl
      have hge : ∀ (l : List (Opts × List Nat)) v, Lasts l v → -1 ≤ v := by
        intro l
        induction l with
        | nil => intro v hv; simp [Lasts] at hv; omega
        | cons r l ih =>
          rintro v (⟨a, -⟩ | ⟨-, a, b⟩)
          · exact ih v a
          · omega
      have := hge _ _ hl
      have h1 := hk (after stored h).skipFirst.toNat
      by_contra hne
      omega
  · intro hor
    refine ⟨r1, r2, cfg o (setSkipFirst { ({} : S) with skipSet := [] } o.start), ?_, rfl⟩
    congr 1
    apply cfg_congr
    intro n
    unfold setSkipFirst
    by_cases h0 : o.start > 0
    · rw [if_pos h0, if_pos h0]; rfl
    · rw [if_neg h0, if_neg h0]
      have := hor.resolve_left h0
      unfold skipLine
      simp [this]

theorem step_skipped (s : S) (r : Opts × List Nat) : ∃ l, (step stored s r).2.skipped = s.skipped ++ l ∧ (l = [] ∨ ∃ g, l = stored g r.2) := by
  unfold step readOptions
  cases h : skipRows r.1.rows with
  | none => exact ⟨[], by simp, Or.inl rfl⟩
  | some l =>
    unfold setSkipFirst
    by_cases h0 : r.1.start > 0
    · simp only [if_pos h0]; exact ⟨_, rfl, Or.inr ⟨_, rfl⟩⟩
    · simp only [if_neg h0]; exact ⟨_, rfl, Or.inr ⟨_, rfl⟩⟩

/-- C59 holds for reads that all have "row start" 0, of files in which the tokenizer stores no skipped line; and for reads with "row start" set
after such reads with any "row start". -/
theorem C59_fresh_partial (h : List (Opts × List Nat)) (r : Opts × List Nat) (hs : ∀ x ∈ h, ∀ g, stored g x.2 = [])
    (ho : r.1.start > 0 ∨ ∀ x ∈ h, x.1.start = 0) : Same (step stored (after stored h) r).1 (step stored {} r).1 := by
  have hk : (after stored h).skipped = [] := by
    unfold after
    suffices ∀ s : S, s.skipped = [] → (h.foldl (fun s r => (step stored s r).2) s).skipped = [] from this {} rfl
    induction h with
    | nil => exact fun s e => e
    | cons x h ih =>
      intro s e
      rw [List.foldl_cons]
      apply ih (fun y hy => hs y (by simp [hy])) (ho.imp id (fun q y hy => q y (by simp [hy])))
      obtain ⟨l, e1, e2⟩ := step_skipped (stored := stored) s x
      rw [e1, e]
      rcases e2 with e2 | ⟨g, e2⟩
      · rw [e2]; rfl
      · rw [e2, hs x (by simp) g]; rfl
  have hf : r.1.start > 0 ∨ (after stored h).skipFirst = -1 := by
    refine ho.imp id (fun q => ?_)
    have hb := skipFirst_bound (stored := stored) h.reverse
    rw [List.reverse_reverse] at hb
    apply hb.mpr
    intro x hx hh
    have := q x (List.mem_reverse.mp hx)
    omega
  cases hr : skipRows r.1.rows with
  | none =>
    rw [step_fault _ r hr, step_fault _ r hr]
    trivial
  | some l =>
    obtain ⟨r1, e1, q1⟩ := step_read (stored := stored) (after stored h) r hr
    obtain ⟨r2, e2, q2⟩ := step_read (stored := stored) {} r hr
    have hg : cfg r.1 (setSkipFirst { after stored h with skipSet := l } r.1.start) = cfg r.1 (setSkipFirst { ({} : S) with skipSet := l } r.1.start) := by
      apply cfg_congr
      intro n
      unfold setSkipFirst
      rcases Nat.lt_or_ge 0 r.1.start with h0 | h0
      · rw [if_pos h0, if_pos h0]; rfl
      · rw [if_neg (by omega), if_neg (by omega)]
        have := hf.resolve_left (by omega)
        unfold skipLine
        simp [this]
    rw [e1, e2]
    refine ⟨hg, fun n => ?_⟩
    rw [q1, q2, hg, hk]

/-- the hypotheses hold for a handle that is used with "row start" 2 behind a read with "row start" 1 -/
example : Same (step (fun _ _ => []) (after (fun _ _ => []) [({ start := 1 }, [97])]) ({ start := 2, rows := [53, 44, 32, 57] }, [98])).1
    (step (fun _ _ => []) {} ({ start := 2, rows := [53, 44, 32, 57] }, [98])).1 :=
  C59_fresh_partial _ _ (by simp) (Or.inl (by decide))

/-! ### "skip rows" -/

/-- Decimal digits of a number, first digit first. -/
def decimal (n : Nat) : List Nat := if n = 0 then [48] else (Nat.digits 10 n).reverse.map (· + 48)

/-- Numbers with anything out of commas and spaces between them, at least one. -/
inductive Listed : List Nat → List Nat → Prop
  | nil {t} : (∀ c ∈ t, c = 44 ∨ c = 32) → Listed [] t
  | one {n t} : (∀ c ∈ t, c = 44 ∨ c = 32) → Listed [n] (decimal n ++ t)
  | cons {n m ns c t t'} : (c = 44 ∨ c = 32) → (∀ c ∈ t, c = 44 ∨ c = 32) → Listed (m :: ns) t' → Listed (n :: m :: ns) (decimal n ++ c :: (t ++ t'))
  | lead {ns c t} : (c = 44 ∨ c = 32) → Listed ns t → Listed ns (c :: t)

theorem decimal_digit {n c : Nat} (h : c ∈ decimal n) : 48 ≤ c ∧ c ≤ 57 := by
  unfold decimal at h
  split at h
  · simp at h; omega
  · simp only [List.mem_map, List.mem_reverse] at h
    obtain ⟨d, hd, rfl⟩ := h
    have := Nat.digits_lt_base (by norm_num : 1 < 10) hd
    omega

theorem decimal_ne (n : Nat) : decimal n ≠ [] := by
  unfold decimal
  split
  · simp
  · rename_i h
    simpa using Nat.digits_ne_nil_iff_ne_zero.mpr h

theorem leading_digits : ∀ (l : List Nat) (v : Nat), (∀ c ∈ l, c < 10) →
    leading (l.map (· + 48)) (some v) = some (l.foldl (fun v d => 10 * v + d) v)
  | [], _, _ => rfl
  | d :: l, v, h => by
    have := h d (by simp)
    rw [List.map_cons, leading, if_pos (by omega), leading_digits l _ (fun c hc => h c (by simp [hc])), List.foldl_cons]
    congr 2

theorem ofDigits_foldr (l : List Nat) : Nat.ofDigits 10 l = l.foldr (fun d v => 10 * v + d) 0 := by
  induction l with
  | nil => rfl
  | cons d l ih => rw [Nat.ofDigits_cons, ih, List.foldr_cons, Nat.add_comm]

theorem leading_decimal (n : Nat) : leading (decimal n) none = some n := by
  unfold decimal
  by_cases h : n = 0
  · rw [if_pos h, h]; rfl
  · rw [if_neg h]
    have hd : ∀ c ∈ (Nat.digits 10 n).reverse, c < 10 := fun c hc => Nat.digits_lt_base (by norm_num) (List.mem_reverse.mp hc)
    have hne : (Nat.digits 10 n).reverse ≠ [] := by simpa using Nat.digits_ne_nil_iff_ne_zero.mpr h
    have hv : (Nat.digits 10 n).reverse.foldl (fun v d => 10 * v + d) 0 = n := by
      rw [List.foldl_reverse, ← ofDigits_foldr, Nat.ofDigits_digits]
    generalize (Nat.digits 10 n).reverse = l at hd hne hv
    match l, hne with
    | d :: l, _ =>
      have := hd d (by simp)
      rw [List.map_cons, leading, if_pos (by omega), leading_digits l _ (fun c hc => hd c (by simp [hc])), ← hv, List.foldl_cons]
      simp

theorem stoi_decimal {n : Nat} (h : n < 2147483648) : stoi (decimal n) = some (n : Int) := by
  have e : stoi (decimal n) = match (leading (decimal n) none).map (fun n : Nat => (n : Int)) with
    | some i => if -2147483648 ≤ i ∧ i < 2147483648 then some i else none
    | none => none := by
    unfold stoi
    match hm : decimal n with
    | [] => rfl
    | c :: l =>
      have := decimal_digit (n := n) (c := c) (by rw [hm]; simp)
      split <;> first | rfl | (rename_i he; simp at he; omega)
  rw [e, leading_decimal]
  show (if -2147483648 ≤ (n : Int) ∧ (n : Int) < 2147483648 then some (n : Int) else none) = _
  rw [if_pos (by omega)]

theorem words_append {sep : Nat → Bool} : ∀ (a : List Nat) (w t : List Nat), (∀ c ∈ a, sep c = false) → words sep (a ++ t) w = words sep t (w ++ a)
  | [], w, t, _ => by simp
  | c :: a, w, t, h => by
    rw [List.cons_append, words, if_neg (by rw [h c (by simp)]; simp), words_append a _ t (fun x hx => h x (by simp [hx]))]
    simp

/-- Words between blanks, and in them words between commas: the words between commas and blanks. -/
theorem words_words : ∀ (t w : List Nat), (∀ c ∈ w, isSpace c = false) →
    (words isSpace t w).flatMap (fun item => words isSpace (item.map (fun c => if c == 44 || c == 32 then 32 else c)) []) =
      words isSpace ((w ++ t).map (fun c => if c == 44 || c == 32 then 32 else c)) []
  | [], w, hw => by
    rw [words]
    by_cases h : w = []
    · rw [if_pos h, h]; rfl
    · rw [if_neg h]; simp
  | c :: t, w, hw => by
    rw [words]
    by_cases hc : isSpace c = true
    · rw [if_pos hc]
      have key : ∀ (a b : List Nat) (x : List Nat), isSpace c = true →
          words isSpace (a ++ c :: b) x = words isSpace a x ++ words isSpace b [] := by
        intro a
        induction a with
        | nil =>
          intro b x h
          rw [List.nil_append, words.eq_2, if_pos h, words.eq_1]
          split <;> simp
        | cons d a ih =>
          intro b x h
          rw [List.cons_append, words, words]
          by_cases hd : isSpace d = true
          · rw [if_pos hd, if_pos hd, ih b [] h]
            split <;> simp
          · rw [if_neg hd, if_neg hd, ih b _ h]
      have hcm : (if c == 44 || c == 32 then 32 else c) = c := by
        by_cases h : (c == 44 || c == 32) = true
        · rw [if_pos h]
          rcases (by simpa using h : c = 44 ∨ c = 32) with rfl | rfl
          · exact absurd hc (by decide)
          · rfl
        · rw [if_neg h]
      by_cases h : w = []
      · rw [if_pos h, words_words t [] (by simp), h, List.nil_append, List.nil_append, List.map_cons, hcm, words, if_pos hc]
        rfl
      · rw [if_neg h, List.flatMap_cons, words_words t [] (by simp), List.nil_append, List.map_append, List.map_cons, hcm, key _ _ _ hc]
    · rw [if_neg hc, words_words t (w ++ [c]) (by
        intro x hx
        rcases List.mem_append.mp hx with hx | hx
        · exact hw x hx
        · rw [List.mem_singleton.mp hx]; simpa using hc)]
      rw [List.append_assoc]; rfl

theorem foldlM_flat {α β γ : Type} (f : β → List γ) (k : α → γ → Option α) : ∀ (l : List β) (a : α),
    l.foldlM (fun a b => (f b).foldlM k a) a = (l.flatMap f).foldlM k a
  | [], _ => rfl
  | b :: l, a => by
    rw [List.foldlM_cons, List.flatMap_cons, List.foldlM_append]
    congr 1
    funext x
    exact foldlM_flat f k l x

theorem skipRows_eq (t : List Nat) : skipRows t =
    (words isSpace (t.map (fun c => if c == 44 || c == 32 then 32 else c)) []).foldlM (fun acc w => (stoi w).map (fun i => acc ++ [i])) [] := by
  unfold skipRows
  rw [foldlM_flat, words_words t [] (by simp), List.nil_append]

theorem words_seps : ∀ (t r : List Nat), (∀ c ∈ t, c = 44 ∨ c = 32) →
    words isSpace ((t ++ r).map (fun c => if c == 44 || c == 32 then 32 else c)) [] = words isSpace (r.map (fun c => if c == 44 || c == 32 then 32 else c)) []
  | [], _, _ => rfl
  | c :: t, r, h => by
    have e : (if c == 44 || c == 32 then 32 else c) = 32 := if_pos (by simpa using h c (by simp))
    rw [List.cons_append, List.map_cons, e, words, if_pos (by decide), if_pos rfl, words_seps t r (fun x hx => h x (by simp [hx]))]

theorem map_decimal (n : Nat) : (decimal n).map (fun c => if c == 44 || c == 32 then 32 else c) = decimal n := by
  rw [List.map_congr_left (g := id), List.map_id]
  intro c hc
  have := decimal_digit hc
  exact if_neg (by simp; omega)

theorem decimal_space (n : Nat) : ∀ c ∈ decimal n, isSpace c = false := by
  intro c hc
  have := decimal_digit hc
  unfold isSpace
  simp
  omega

theorem words_listed {ns t : List Nat} (h : Listed ns t) :
    words isSpace (t.map (fun c => if c == 44 || c == 32 then 32 else c)) [] = ns.map decimal := by
  induction h with
  | nil h =>
    have := words_seps _ [] h
    rw [List.append_nil] at this
    rw [this]; rfl
  | @one n t h =>
    rw [List.map_append, map_decimal, words_append _ _ _ (decimal_space n), List.nil_append]
    match t, h with
    | [], _ => rw [List.map_nil, words, if_neg (decimal_ne n)]; rfl
    | c :: t, h =>
      have e : (if c == 44 || c == 32 then 32 else c) = 32 := if_pos (by simpa using h c (by simp))
      have := words_seps t [] (fun x hx => h x (by simp [hx]))
      rw [List.append_nil] at this
      rw [List.map_cons, e, words, if_pos (by decide), if_neg (decimal_ne n), this]; rfl
  | @cons n m ns c t t' hc ht _ ih =>
    have e : (if c == 44 || c == 32 then 32 else c) = 32 := if_pos (by simpa using hc)
    rw [List.map_append, map_decimal, words_append _ _ _ (decimal_space n), List.nil_append, List.map_cons, e, words, if_pos (by decide),
      if_neg (decimal_ne n), words_seps t t' ht, ih]
    rfl
  | @lead ns c t hc _ ih =>
    rw [← ih]
    exact words_seps [c] t (by simpa using hc)

theorem foldlM_stoi : ∀ (ns : List Nat) (acc : List Int), (∀ n ∈ ns, n < 2147483648) →
    (ns.map decimal).foldlM (fun acc w => (stoi w).map (fun i => acc ++ [i])) acc = some (acc ++ ns.map Int.ofNat)
  | [], acc, _ => by simp
  | n :: ns, acc, h => by
    rw [List.map_cons, List.foldlM_cons, stoi_decimal (h n (by simp))]
    show (ns.map decimal).foldlM _ (acc ++ [Int.ofNat n]) = _
    rw [foldlM_stoi ns _ (fun x hx => h x (by simp [hx]))]
    simp

/-- The property C62: a list of numbers below 2^31, with commas and spaces between them and "row start" 0, makes a new handle skip the lines
with these numbers, counted from 0, and no others; with "row start" s also the first s lines. -/
theorem C62_skip_rows {ns t : List Nat} (h : Listed ns t) (hb : ∀ n ∈ ns, n < 2147483648) (o : Opts) (ho : o.rows = t) (file : List Nat) :
    ∃ g rep, (step stored {} (o, file)).1 = .read g rep ∧ ∀ n, g.skip n = true ↔ (n ∈ ns ∨ n < o.start) := by
  have hs : skipRows o.rows = some (ns.map Int.ofNat) := by
    rw [ho, skipRows_eq, words_listed h, foldlM_stoi ns [] hb]; rfl
  obtain ⟨r1, e1, -⟩ := step_read (stored := stored) {} (o, file) hs
  refine ⟨_, r1, e1, fun n => ?_⟩
  have hm : (n : Int) ∈ ns.map Int.ofNat ↔ n ∈ ns := by
    rw [List.mem_map]
    constructor
    · rintro ⟨m, h1, h2⟩
      have : m = n := by simpa using h2
      rwa [← this]
    · exact fun h => ⟨n, h, rfl⟩
  show (decide ((n : Int) ≤ (setSkipFirst { ({} : S) with skipSet := ns.map Int.ofNat } o.start).skipFirst) ||
    (setSkipFirst { ({} : S) with skipSet := ns.map Int.ofNat } o.start).skipSet.contains (n : Int)) = true ↔ _
  have e1 : (setSkipFirst { ({} : S) with skipSet := ns.map Int.ofNat } o.start).skipSet = ns.map Int.ofNat := by
    unfold setSkipFirst; split <;> rfl
  have e2 : (setSkipFirst { ({} : S) with skipSet := ns.map Int.ofNat } o.start).skipFirst = (o.start : Int) - 1 := by
    unfold setSkipFirst; split
    · rfl
    · show (-1 : Int) = _; omega
  rw [e1, e2, Bool.or_eq_true, decide_eq_true_iff, List.contains_iff_mem, hm, or_comm]
  exact or_congr Iff.rfl (by omega)

/-- Signs: "+n" names line n. -/
theorem C62_plus {n : Nat} (hn : n < 2147483648) : skipRows (43 :: decimal n) = some [(n : Int)] ∧ skipRows (45 :: decimal n) = some [-(n : Int)] := by
  have key : ∀ c, c = 43 ∨ c = 45 → words isSpace ((c :: decimal n).map (fun c => if c == 44 || c == 32 then 32 else c)) [] = [c :: decimal n] := by
    intro c hc
    have e : (if c == 44 || c == 32 then 32 else c) = c := if_neg (by rcases hc with rfl | rfl <;> decide)
    have hs : isSpace c = false := by rcases hc with rfl | rfl <;> decide
    rw [List.map_cons, map_decimal, e]
    have := words_append (sep := isSpace) (c :: decimal n) [] [] (by
      intro x hx
      rcases List.mem_cons.mp hx with ex | hx
      · rw [ex]; exact hs
      · exact decimal_space n x hx)
    rw [List.append_nil] at this
    rw [this]
    rfl
  have h1 : stoi (43 :: decimal n) = some (n : Int) := by
    have : stoi (43 :: decimal n) = match (leading (decimal n) none).map (fun n : Nat => (n : Int)) with
      | some i => if -2147483648 ≤ i ∧ i < 2147483648 then some i else none
      | none => none := rfl
    rw [this, leading_decimal]
    show (if -2147483648 ≤ (n : Int) ∧ (n : Int) < 2147483648 then some (n : Int) else none) = _
    rw [if_pos (by omega)]
  have h2 : stoi (45 :: decimal n) = some (-(n : Int)) := by
    have : stoi (45 :: decimal n) = match (leading (decimal n) none).map (fun n : Nat => -(n : Int)) with
      | some i => if -2147483648 ≤ i ∧ i < 2147483648 then some i else none
      | none => none := rfl
    rw [this, leading_decimal]
    show (if -2147483648 ≤ -(n : Int) ∧ -(n : Int) < 2147483648 then some (-(n : Int)) else none) = _
    rw [if_pos (by omega)]
  constructor
  · rw [skipRows_eq, key 43 (Or.inl rfl), List.foldlM_cons, h1]; rfl
  · rw [skipRows_eq, key 45 (Or.inr rfl), List.foldlM_cons, h2]; rfl

/-- "5, 9 ,10" and "row start" 2 -/
example : (skipRows [53, 44, 32, 57, 32, 44, 49, 48] = some [5, 9, 10]) ∧ skipRows [53, 44, 97] = none ∧ skipRows [53, 120, 32, 45, 49] = some [5, -1] := by
  decide +kernel

example : Listed [5, 9] [53, 44, 32, 57] := by
  have h := Listed.cons (n := 5) (c := 44) (t := [32]) (Or.inl rfl) (by simp) (Listed.one (n := 9) (t := []) (by simp))
  simpa [decimal] using h

end Verif.Tokenizer.Reader
