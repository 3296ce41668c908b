import Verif.Options.Model
import Mathlib.Order.WithBot
import Mathlib.Data.List.Induction

/-!
# Lemmas about tidying and about the registry
-/

namespace Verif.Options

/-! ## Tidying as one pass

`tidy` keeps the text written so far and whether blanks were seen since. -/

def step (st : Str × Bool) (c : UInt8) : Str × Bool :=
  if isSpace c then (st.1, st.1 ≠ [])
  else (st.1 ++ (if st.2 then [32, c] else [c]), false)

def scan (s : Str) : Str × Bool := s.foldl step ([], false)

def tidy (s : Str) : Str := (scan s).1

theorem scan_append (a b : Str) : scan (a ++ b) = b.foldl step (scan a) := by
  simp [scan]

theorem step_space_space (st : Str × Bool) {c d : UInt8} (hc : isSpace c) (hd : isSpace d) :
    step (step st c) d = step st c := by simp [step, hc, hd]

theorem step_space_eq (st : Str × Bool) {c d : UInt8} (hc : isSpace c) (hd : isSpace d) :
    step st d = step st c := by simp [step, hc, hd]

theorem tidy_cons_space {w : UInt8} (hw : isSpace w) (s : Str) : tidy (w :: s) = tidy s := by
  simp [tidy, scan, step, hw]

theorem tidy_snoc_space {w : UInt8} (hw : isSpace w) (s : Str) : tidy (s ++ [w]) = tidy s := by
  rw [tidy, scan_append]; simp [tidy, step, hw]

theorem tidy_dropWhile (s : Str) : tidy (s.dropWhile isSpace) = tidy s := by
  induction s with
  | nil => rfl
  | cons c s ih =>
    by_cases h : isSpace c
    · rw [List.dropWhile_cons_of_pos h, ih, tidy_cons_space h]
    · rw [List.dropWhile_cons_of_neg h]

theorem tidy_rdrop (s : Str) : tidy (s.reverse.dropWhile isSpace).reverse = tidy s.reverse.reverse := by
  generalize s.reverse = r
  induction r with
  | nil => rfl
  | cons c r ih =>
    by_cases h : isSpace c
    · rw [List.dropWhile_cons_of_pos h, ih, List.reverse_cons, tidy_snoc_space h]
    · rw [List.dropWhile_cons_of_neg h]

theorem tidy_trim (s : Str) : tidy (trim s) = tidy s := by
  rw [trim, tidy_rdrop, List.reverse_reverse, tidy_dropWhile]

/-- What is pending when a scan stops. -/
def pend (p : Bool) : Str := if p then [32] else []

theorem fold_squeeze (s : Str) (out : Str) (p : Bool) (ho : out ≠ []) :
    (out ++ pend p) ++ squeeze p s =
      (s.foldl step (out, p)).1 ++ pend (s.foldl step (out, p)).2 := by
  induction s generalizing out p with
  | nil => simp [squeeze]
  | cons c s ih =>
    rw [List.foldl_cons]
    by_cases hc : isSpace c
    · have hs : step (out, p) c = (out, true) := by simp [step, hc, ho]
      rw [hs, ← ih out true ho]
      cases p <;> simp [squeeze, hc, pend]
    · have hs : step (out, p) c = (out ++ (if p then [32, c] else [c]), false) := by
        simp [step, hc]
      rw [hs, ← ih _ false (by cases p <;> simp)]
      cases p <;> simp [squeeze, hc, pend]

theorem scan_snoc_nonspace {c : UInt8} (hc : ¬ isSpace c) (s : Str) : (scan (s ++ [c])).2 = false := by
  rw [scan_append]; simp [step, hc]

theorem head_dropWhile (s : Str) : ∀ c ∈ (s.dropWhile isSpace).head?, ¬ isSpace c := by
  induction s with
  | nil => simp
  | cons c s ih =>
    by_cases h : isSpace c
    · rw [List.dropWhile_cons_of_pos h]; exact ih
    · rw [List.dropWhile_cons_of_neg h]; simp [h]

theorem head_rdrop (s : Str) (hs : ∀ c ∈ s.head?, ¬ isSpace c) :
    ∀ c ∈ ((s.reverse.dropWhile isSpace).reverse).head?, ¬ isSpace c := by
  have hpre : (s.reverse.dropWhile isSpace).reverse <+: s := by
    have := List.dropWhile_suffix isSpace (l := s.reverse)
    have h2 := List.reverse_prefix.2 this
    rwa [List.reverse_reverse] at h2
  obtain ⟨t, ht⟩ := hpre
  intro c hc
  apply hs c
  rw [← ht]
  cases h : (s.reverse.dropWhile isSpace).reverse with
  | nil => rw [h] at hc; simp at hc
  | cons x xs => rw [h] at hc; simpa using hc

theorem squeeze_trim (s : Str) : squeeze false (trim s) = tidy s := by
  rw [← tidy_trim]
  have h1 : ∀ c ∈ (trim s).head?, ¬ isSpace c := head_rdrop _ (head_dropWhile s)
  have h2 : ∀ c ∈ (trim s).getLast?, ¬ isSpace c := by
    rw [trim, List.getLast?_reverse]; exact head_dropWhile _
  generalize trim s = t at h1 h2
  cases t with
  | nil => rfl
  | cons c t =>
    have hc : ¬ isSpace c := h1 c (by simp)
    have hs : scan (c :: t) = t.foldl step ([c], false) := by
      simp [scan, step, hc]
    have hl : (scan (c :: t)).2 = false := by
      have hne : c :: t ≠ [] := by simp
      rw [← List.dropLast_concat_getLast hne]
      apply scan_snoc_nonspace
      apply h2
      rw [List.getLast?_eq_some_getLast hne]; simp
    have := fold_squeeze t [c] false (by simp)
    rw [← hs, hl] at this
    simp only [pend] at this
    rw [tidy, ← show _ = (scan (c :: t)).1 from by simpa using this]
    simp [squeeze, hc]

theorem prepStr_eq (s : Str) : prepStr s = (tidy s).map lower := by
  rw [prepStr, squeeze_trim]

theorem isSpace_lower (c : UInt8) : isSpace (lower c) = isSpace c := by
  have h : ∀ n : Fin 256, isSpace (lower (UInt8.ofFin n)) = isSpace (UInt8.ofFin n) := by
    decide +kernel
  simpa using h c.toFin

theorem lower_lower (c : UInt8) : lower (lower c) = lower c := by
  have h : ∀ n : Fin 256, lower (lower (UInt8.ofFin n)) = lower (UInt8.ofFin n) := by
    decide +kernel
  simpa using h c.toFin

theorem lower_32 : lower 32 = 32 := by decide

theorem fold_map_lower (s : Str) (st : Str × Bool) :
    ((s.map lower).foldl step (st.1.map lower, st.2)) =
      ((s.foldl step st).1.map lower, (s.foldl step st).2) := by
  induction s generalizing st with
  | nil => rfl
  | cons c s ih =>
    simp only [List.map_cons, List.foldl_cons]
    rw [← ih (step st c)]
    congr 1
    by_cases hc : isSpace c
    · simp [step, isSpace_lower, hc]
    · cases hp : st.2 <;> simp [step, isSpace_lower, hc, hp, lower_32]

theorem tidy_map_lower (s : Str) : tidy (s.map lower) = (tidy s).map lower := by
  have := fold_map_lower s ([], false)
  simp only [List.map_nil] at this
  rw [tidy, scan, this]; rfl

/-- Text already tidy: what a scan wrote. -/
theorem scan_idem (s : Str) :
    (∀ (r : Str × Bool), scan s = r →
      scan r.1 = (r.1, false) ∧ (r.2 = true → r.1 ≠ [])) := by
  refine List.reverseRecOn (motive := fun s => ∀ (r : Str × Bool), scan s = r →
      scan r.1 = (r.1, false) ∧ (r.2 = true → r.1 ≠ [])) s ?_ ?_
  · rintro r rfl; exact ⟨rfl, by simp [scan]⟩
  · rintro s c ih r rfl
    obtain ⟨h1, h2⟩ := ih _ rfl
    have he : scan (s ++ [c]) = step (scan s) c := by rw [scan_append]; rfl
    rw [he]
    by_cases hc : isSpace c
    · simp only [step, hc, if_true]
      exact ⟨h1, by simp⟩
    · simp only [step, hc]
      refine ⟨?_, by simp⟩
      cases hp : (scan s).2
      · simp only [Bool.false_eq_true, if_false]
        rw [scan_append, h1]; simp [step, hc]
      · simp only [if_true, Bool.false_eq_true, if_false]
        have hne := h2 hp
        rw [scan_append, h1]
        have h32 : isSpace 32 := by decide
        simp [step, hc, h32, hne]

theorem tidy_tidy (s : Str) : tidy (tidy s) = tidy s := by
  have := (scan_idem s _ rfl).1
  rw [tidy, tidy, this]

theorem prepStr_prepStr (s : Str) : prepStr (prepStr s) = prepStr s := by
  rw [prepStr_eq, prepStr_eq, tidy_map_lower, tidy_tidy]
  simp [List.map_map, Function.comp_def, lower_lower]

/-! ## The registry -/

theorem find_put_self (es : List (Str × Opt)) (k : Str) (o x : Opt) (h : find es k = some x) :
    find (put es k o) k = some o := by
  induction es with
  | nil => simp [find] at h
  | cons e es ih =>
    obtain ⟨n, y⟩ := e
    by_cases hn : n = k
    · simp [put, find, hn]
    · simp only [find, hn, if_false] at h
      simp [put, find, hn, ih h]

theorem find_put_ne (es : List (Str × Opt)) (k k' : Str) (o : Opt) (h : k' ≠ k) :
    find (put es k o) k' = find es k' := by
  induction es with
  | nil => rfl
  | cons e es ih =>
    obtain ⟨n, y⟩ := e
    by_cases hn : n = k
    · have : ¬ n = k' := fun h' => h (by rw [← h', hn])
      have h2 : ¬ k = k' := fun h' => h h'.symm
      simp [put, find, hn, h2]
    · by_cases hk : n = k'
      · simp [put, find, hk, h]
      · simp [put, find, hn, hk, ih]

theorem put_self (es : List (Str × Opt)) (k : Str) (o : Opt) (h : find es k = some o) :
    put es k o = es := by
  induction es with
  | nil => rfl
  | cons e es ih =>
    obtain ⟨n, y⟩ := e
    by_cases hn : n = k
    · simp only [find, hn, if_true, Option.some.injEq] at h
      simp [put, hn, h]
    · simp only [find, hn, if_false] at h
      simp [put, hn, ih h]

theorem isSome_find_put (es : List (Str × Opt)) (k k' : Str) (o : Opt) :
    (find (put es k o) k').isSome = (find es k').isSome := by
  by_cases h : k' = k
  · subst h
    cases hf : find es k' with
    | some x => rw [find_put_self _ _ _ _ hf]; rfl
    | none =>
      have : put es k' o = es := by
        induction es with
        | nil => rfl
        | cons e es ih =>
          obtain ⟨n, y⟩ := e
          by_cases hn : n = k'
          · simp [find, hn] at hf
          · simp only [find, hn, if_false] at hf
            simp [put, hn, ih hf]
      rw [this, hf]
  · rw [find_put_ne _ _ _ _ h]

theorem resolve_put (es : List (Str × Opt)) (k name : Str) (o : Opt) :
    resolve (put es k o) name = resolve es name := by
  simp [resolve, isSome_find_put]

theorem find_resolve {es : List (Str × Opt)} {name k : Str} (h : resolve es name = some k) :
    ∃ o, find es k = some o := by
  unfold resolve at h
  split at h
  · next h1 => cases h; exact Option.isSome_iff_exists.1 h1
  · split at h
    · next h1 => cases h; exact Option.isSome_iff_exists.1 h1
    · cases h

theorem Num.set_refused {α} [Ops α] (o : Num α) (v : α) (b : By) (h : (o.set v b).1 ≠ .ok) :
    (o.set v b).2 = o := by
  unfold Num.set at *; dsimp only at *
  split at h
  · next h1 => rw [if_pos h1]
  · simp at h

theorem StrOpt.set_refused (o : StrOpt) (v : Str) (b : By) (h : (o.set v b).1 ≠ .ok) :
    (o.set v b).2 = o := by
  unfold StrOpt.set at *
  split
  · next h0 =>
    rw [if_pos h0] at h
    split
    · next h1 => rw [if_pos h1] at h; simp at h
    · next h1 =>
      rw [if_neg h1] at h
      split
      · next h2 => rw [if_pos h2] at h; simp at h
      · rfl
  · next h0 =>
    rw [if_neg h0] at h
    split
    · next h1 => rw [if_pos h1] at h; simp at h
    · next h1 => rw [if_neg h1] at h; simp at h

theorem Opt.set_refused (o : Opt) (v : Val) (b : By) (h : (o.set v b).1 ≠ .ok) :
    (o.set v b).2 = o := by
  cases o <;> cases v <;> first | rfl | skip
  · exact congrArg Opt.int (Num.set_refused _ _ _ h)
  · exact congrArg Opt.f32 (Num.set_refused _ _ _ h)
  · exact congrArg Opt.f64 (Num.set_refused _ _ _ h)
  · exact absurd rfl h
  · exact congrArg Opt.str (StrOpt.set_refused _ _ _ h)

theorem Opt.set_ty (o : Opt) (v : Val) (b : By) : (o.set v b).2.ty = o.ty := by
  cases o <;> cases v <;> rfl

end Verif.Options
