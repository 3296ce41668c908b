import Verif.IntervalMap.Proof

namespace Verif.IntervalMap
variable {T : Type}

/-- Ranges accepted so far and not erased since, as a set: the abstract state of a
history.  `succ` says whether the call reported success. -/
def specStep (s : Int × Int × T → Prop) (succ : Bool) : Op T → (Int × Int × T → Prop)
  | .insert lo hi v => if succ then fun x => s x ∨ x = (lo, hi, v) else s
  | .erase k => fun x => s x ∧ ¬ (x.1 ≤ k ∧ k ≤ x.2.1)

/-- Whether a call of the model reports success. -/
def succeeded (w : Bool) (m : List (Entry T)) : Op T → Bool
  | .insert lo hi v => match insert w m lo hi v with | some (b, _) => b | none => false
  | .erase _ => true

/-- The ranges present according to the history. -/
def specRun (w : Bool) : List (Op T) → List (Entry T) → (Int × Int × T → Prop) → (Int × Int × T → Prop)
  | [], _, s => s
  | op :: ops, m, s =>
    match step w m op with
    | none => s
    | some m' => specRun w ops m' (specStep s (succeeded w m op) op)

/-- Lookup is right in the map `m` for the set of ranges `s`. -/
def LookupRight (w : Bool) (m : List (Entry T)) (s : Int × Int × T → Prop) : Prop :=
  ∀ key, ∃ r, find w m key = some r ∧
    (∀ e, r = some e → s (e.lo, e.hi, e.val) ∧ e.lo ≤ key ∧ key ≤ e.hi) ∧
    (r = none → ∀ x, s x → ¬ (x.1 ≤ key ∧ key ≤ x.2.1))

/-- No index belongs to two ranges. -/
def NoOverlap (s : Int × Int × T → Prop) : Prop :=
  ∀ x y key, s x → s y → x.1 ≤ key → key ≤ x.2.1 → y.1 ≤ key → key ≤ y.2.1 → x = y

/-- C04 in full: after every history, lookups are right for every key and no index is in two
ranges. -/
def C04_statement (w : Bool) : Prop :=
  ∀ ops : List (Op Nat), ∃ m, run w ops = some m ∧
    LookupRight w m (specRun w ops [] (fun _ => False)) ∧ NoOverlap (specRun w ops [] (fun _ => False))

/-- It fails by undefined behaviour: a key below the first range decrements `begin()`. -/
theorem C04_violated : ¬ C04_statement false := by
  intro h
  obtain ⟨m, h1, h2, -⟩ := h [.insert 5 6 0]
  have hm : m = [⟨5, 6, 0⟩] := by
    have : run false [Op.insert 5 6 0] = some [⟨5, 6, 0⟩] := by decide
    rw [this] at h1
    exact (Option.some.inj h1).symm
  obtain ⟨r, h3, -⟩ := h2 3
  rw [hm] at h3
  have : find false [(⟨5, 6, 0⟩ : Entry Nat)] 3 = none := by decide
  rw [this] at h3
  cases h3

/-- It also fails with the libstdc++ behaviour of `--begin()`: a range that encloses an
existing one is accepted, so indices belong to two ranges, and other indices are not found. -/
theorem C04_enclosing_violated : ¬ C04_statement true := by
  intro h
  obtain ⟨m, h1, h2, -⟩ := h [.insert 0 0 7, .insert 3 4 8, .insert 1 9 9]
  have hrun : run true [Op.insert 0 0 7, .insert 3 4 8, .insert 1 9 9]
      = some [⟨0, 0, 7⟩, ⟨1, 9, 9⟩, ⟨3, 4, 8⟩] := by decide
  have hm : m = [⟨0, 0, 7⟩, ⟨1, 9, 9⟩, ⟨3, 4, 8⟩] := by
    rw [hrun] at h1
    exact (Option.some.inj h1).symm
  obtain ⟨r, h3, -, h4⟩ := h2 5
  rw [hm] at h3
  have h5 : find true [(⟨0, 0, 7⟩ : Entry Nat), ⟨1, 9, 9⟩, ⟨3, 4, 8⟩] 5 = some none := by decide
  rw [h5] at h3
  cases h3
  refine h4 rfl (1, 9, 9) ?_ (by decide)
  exact Or.inr rfl

/-- The call does not insert a range that encloses one of `m`. -/
def NotEnclosing (m : List (Entry T)) : Op T → Prop
  | .insert lo hi _ => ∀ e ∈ m, ¬ (lo < e.lo ∧ e.hi < hi)
  | .erase _ => True

/-- No insertion of the history encloses a range present at that time. -/
def NoEnclosing (w : Bool) : List (Op T) → List (Entry T) → Prop
  | [], _ => True
  | op :: ops, m =>
    NotEnclosing m op ∧
    ∀ m', step w m op = some m' → NoEnclosing w ops m'

/-- The map represents the set of ranges. -/
def Repr (m : List (Entry T)) (s : Int × Int × T → Prop) : Prop :=
  WF m ∧ ∀ x, s x ↔ ∃ e ∈ m, x = (e.lo, e.hi, e.val)

theorem step_repr {w : Bool} {m m' : List (Entry T)} {s : Int × Int × T → Prop} {op : Op T}
    (hr : Repr m s) (hs : step w m op = some m')
    (henc : NotEnclosing m op) : Repr m' (specStep s (succeeded w m op) op) := by
  obtain ⟨hw, hsm⟩ := hr
  cases op with
  | insert lo hi v =>
    simp only [step, Option.map_eq_some_iff, Prod.exists] at hs
    obtain ⟨b, m1, hins, rfl⟩ := hs
    simp only [specStep, succeeded, hins]
    cases b with
    | false =>
      rw [insert_false hins]
      exact ⟨hw, hsm⟩
    | true =>
      obtain ⟨-, -, hw', A, B, rfl, rfl⟩ := insert_ok hw hins henc
      refine ⟨hw', fun x => ?_⟩
      simp only [if_true, hsm]
      constructor
      · rintro (⟨e, he, rfl⟩ | rfl)
        · exact ⟨e, by simp only [List.mem_append, List.mem_cons] at he ⊢; tauto, rfl⟩
        · exact ⟨⟨lo, hi, v⟩, by simp, rfl⟩
      · rintro ⟨e, he, rfl⟩
        simp only [List.mem_append, List.mem_cons] at he
        rcases he with he | rfl | he
        · exact Or.inl ⟨e, by simp [he], rfl⟩
        · exact Or.inr rfl
        · exact Or.inl ⟨e, by simp [he], rfl⟩
  | erase k =>
    obtain ⟨hw', hmem⟩ := erase_wf hw hs
    refine ⟨hw', fun x => ?_⟩
    simp only [specStep, hsm]
    constructor
    · rintro ⟨⟨e, he, rfl⟩, hno⟩
      exact ⟨e, (hmem e).mpr ⟨he, hno⟩, rfl⟩
    · rintro ⟨e, he, rfl⟩
      obtain ⟨h1, h2⟩ := (hmem e).mp he
      exact ⟨⟨e, h1, rfl⟩, h2⟩

theorem run_repr {w : Bool} : ∀ (ops : List (Op T)) (m m' : List (Entry T)) (s : Int × Int × T → Prop),
    Repr m s → NoEnclosing w ops m → ops.foldlM (step w) m = some m' → Repr m' (specRun w ops m s) := by
  intro ops
  induction ops with
  | nil => intro m m' s hr _ h; cases h; exact hr
  | cons op ops ih =>
    intro m m' s hr hn h
    rw [List.foldlM_cons] at h
    cases hs : step w m op with
    | none => rw [hs] at h; cases h
    | some m1 =>
      rw [hs] at h
      simp only [specRun, hs]
      exact ih m1 m' _ (step_repr hr hs hn.1) (hn.2 m1 hs) h

theorem repr_noOverlap {m : List (Entry T)} {s : Int × Int × T → Prop} (hr : Repr m s) : NoOverlap s := by
  intro x y key hx hy h1 h2 h3 h4
  obtain ⟨e, he, rfl⟩ := (hr.2 x).mp hx
  obtain ⟨e', he', rfl⟩ := (hr.2 y).mp hy
  have := find_mem (w := true) hr.1 he h1 h2
  rw [find_mem (w := true) hr.1 he' h3 h4] at this
  cases this
  rfl

theorem repr_lookup {w : Bool} {m : List (Entry T)} {s : Int × Int × T → Prop} (hr : Repr m s) (key : Int)
    (hk : w = true ∨ m = [] ∨ ∃ e ∈ m, e.lo ≤ key) :
    ∃ r, find w m key = some r ∧
    (∀ e, r = some e → s (e.lo, e.hi, e.val) ∧ e.lo ≤ key ∧ key ≤ e.hi) ∧
    (r = none → ∀ x, s x → ¬ (x.1 ≤ key ∧ key ≤ x.2.1)) := by
  by_cases hex : ∃ e ∈ m, e.lo ≤ key ∧ key ≤ e.hi
  · obtain ⟨e, he, h1, h2⟩ := hex
    refine ⟨some e, find_mem hr.1 he h1 h2, ?_, by simp⟩
    rintro e' h
    cases h
    exact ⟨(hr.2 _).mpr ⟨e, he, rfl⟩, h1, h2⟩
  · have hno : ∀ e ∈ m, ¬ (e.lo ≤ key ∧ key ≤ e.hi) := fun e he h1 => hex ⟨e, he, h1⟩
    refine ⟨none, ?_, by simp, ?_⟩
    · rw [find_not_mem hr.1 hno, if_neg]
      rintro ⟨h1, h2, h3⟩
      rcases hk with h4 | h4 | ⟨e, he, h4⟩
      · rw [h3] at h4; cases h4
      · exact h1 h4
      · have := h2 e he; omega
    · rintro - x hx ⟨h1, h2⟩
      obtain ⟨e, he, rfl⟩ := (hr.2 x).mp hx
      exact hno e he ⟨h1, h2⟩

/-- Exactly when `find` is undefined on a well-formed map. -/
theorem C04_find_undefined_iff (m : List (Entry T)) (h : WF m) (key : Int) :
    find false m key = none ↔ m ≠ [] ∧ ∀ e ∈ m, key < e.lo := by
  by_cases hex : ∃ e ∈ m, e.lo ≤ key ∧ key ≤ e.hi
  · obtain ⟨e, he, h1, h2⟩ := hex
    rw [find_mem h he h1 h2]
    simp only [reduceCtorEq, false_iff, not_and, not_forall]
    intro _
    exact ⟨e, he, by omega⟩
  · rw [find_not_mem h (fun e he h1 => hex ⟨e, he, h1⟩)]
    by_cases h2 : m ≠ [] ∧ ∀ e ∈ m, key < e.lo
    · rw [if_pos ⟨h2.1, h2.2, rfl⟩]; exact ⟨fun _ => h2, fun _ => rfl⟩
    · rw [if_neg (fun h3 => h2 ⟨h3.1, h3.2.1⟩)]; simp only [reduceCtorEq, false_iff]; exact h2

/-- With the libstdc++ behaviour of `--begin()`, for every history in which no
insertion encloses a present range, lookups are right for every key and ranges never overlap. -/
theorem C04_lookup_partial (ops : List (Op T)) (hne : NoEnclosing true ops []) :
    ∃ m, run true ops = some m ∧ LookupRight true m (specRun true ops [] (fun _ => False)) ∧
      NoOverlap (specRun true ops [] (fun _ => False)) := by
  have hrun : ∀ (ops : List (Op T)) (m : List (Entry T)) (s : Int × Int × T → Prop), Repr m s →
      NoEnclosing true ops m → ∃ m', ops.foldlM (step true) m = some m' := by
    intro ops
    induction ops with
    | nil => intro m s _ _; exact ⟨m, rfl⟩
    | cons op ops ih =>
      intro m s hr hn
      have hfind : ∀ key, ∃ r, find true m key = some r := fun key =>
        let ⟨r, h, _⟩ := repr_lookup (w := true) hr key (Or.inl rfl); ⟨r, h⟩
      have : ∃ m1, step true m op = some m1 := by
        cases op with
        | insert lo hi v =>
          simp only [step, insert]
          obtain ⟨r1, h1⟩ := hfind lo
          obtain ⟨r2, h2⟩ := hfind hi
          rw [h1, h2]
          repeat' split
          all_goals first | exact ⟨_, rfl⟩ | simp_all
        | erase k =>
          obtain ⟨r, h⟩ := hfind k
          simp only [step, erase, h]
          cases r <;> exact ⟨_, rfl⟩
      obtain ⟨m1, h1⟩ := this
      obtain ⟨m2, h2⟩ := ih m1 _ (step_repr hr h1 hn.1) (hn.2 m1 h1)
      exact ⟨m2, by rw [List.foldlM_cons, h1]; exact h2⟩
  have hinit : Repr ([] : List (Entry T)) (fun _ => False) := ⟨⟨by simp, by simp⟩, by simp⟩
  obtain ⟨m, hm⟩ := hrun ops [] _ hinit hne
  have hr := run_repr ops [] m _ hinit hne hm
  exact ⟨m, hm, fun key => repr_lookup hr key (Or.inl rfl), repr_noOverlap hr⟩

/-- The insertions made by a data store: every column block is appended behind the last. -/
def appends : List (Nat × T) → Int → List (Op T)
  | [], _ => []
  | (c, v) :: bs, n => .insert n (n + c - 1) v :: appends bs (n + c)

/-- The ranges of these blocks. -/
def ranges : List (Nat × T) → Int → List (Entry T)
  | [], _ => []
  | (c, v) :: bs, n => ⟨n, n + c - 1, v⟩ :: ranges bs (n + c)

theorem ranges_ge : ∀ (bs : List (Nat × T)) (n : Int), ∀ e ∈ ranges bs n, n ≤ e.lo := by
  intro bs
  induction bs with
  | nil => intro n e he; simp [ranges] at he
  | cons b bs ih =>
    intro n e he
    rcases List.mem_cons.mp he with rfl | he
    · exact Int.le_refl n
    · have := ih _ e he
      have : (0 : Int) ≤ b.1 := by omega
      omega

theorem ranges_wf : ∀ (bs : List (Nat × T)) (n : Int), (∀ b ∈ bs, 0 < b.1) → WF (ranges bs n) := by
  intro bs
  induction bs with
  | nil => intro n _; exact ⟨by simp [ranges], by simp [ranges]⟩
  | cons b bs ih =>
    intro n hpos
    obtain ⟨h1, h2⟩ := ih (n + b.1) (fun x hx => hpos x (by simp [hx]))
    have hb := hpos b (by simp)
    refine ⟨?_, ?_⟩
    · intro e he
      rcases List.mem_cons.mp he with rfl | he
      · show n ≤ n + b.1 - 1; omega
      · exact h1 e he
    · refine List.pairwise_cons.mpr ⟨?_, h2⟩
      intro e he
      have := ranges_ge bs _ e he
      show n + b.1 - 1 < e.lo
      omega

theorem append_run : ∀ (bs : List (Nat × T)) (n : Int) (m : List (Entry T)), (∀ b ∈ bs, 0 < b.1) → WF m →
    (∀ e ∈ m, e.hi < n) → (appends bs n).foldlM (step false) m = some (m ++ ranges bs n) := by
  intro bs
  induction bs with
  | nil => intro n m _ _ _; simp [appends, ranges]
  | cons b bs ih =>
    intro n m hpos hw hlt
    have hb := hpos b (by simp)
    have hfind : ∀ key, n ≤ key → find false m key = some none := by
      intro key hk
      rw [find_not_mem hw (fun e he h1 => by have := hlt e he; omega), if_neg]
      rintro ⟨h1, h2, -⟩
      obtain ⟨e, he⟩ := List.exists_mem_of_ne_nil m h1
      have := h2 e he
      have := hlt e he
      have := hw.1 e he
      omega
    have hs := split_before (A := m) (B := []) (lo := n) (hi := n + b.1 - 1)
      (by
        intro e he
        have := hlt e he
        have := hw.1 e he
        rw [less_eq]; omega) (by simp)
    rw [List.append_nil] at hs
    have hstep : step false m (.insert n (n + b.1 - 1) b.2) = some (m ++ [⟨n, n + b.1 - 1, b.2⟩]) := by
      simp only [step, insert]
      rw [if_neg (by omega), hfind n (by omega), hfind (n + b.1 - 1) (by omega), hs.1, hs.2]
      rfl
    rw [appends, List.foldlM_cons, hstep]
    have hw' : WF (m ++ [⟨n, n + b.1 - 1, b.2⟩]) := by
      refine ⟨?_, ?_⟩
      · intro e he
        rcases List.mem_append.mp he with he | he
        · exact hw.1 e he
        · rw [List.mem_singleton] at he; subst he; show n ≤ n + b.1 - 1; omega
      · rw [List.pairwise_append]
        refine ⟨hw.2, by simp, ?_⟩
        intro e he x hx
        rw [List.mem_singleton] at hx
        subst hx
        exact hlt e he
    have := ih (n + b.1) (m ++ [⟨n, n + b.1 - 1, b.2⟩]) (fun x hx => hpos x (by simp [hx])) hw'
      (by
        intro e he
        rcases List.mem_append.mp he with he | he
        · have := hlt e he; omega
        · rw [List.mem_singleton] at he; subst he; show n + b.1 - 1 < n + b.1; omega)
    simp only [Option.bind_eq_bind, Option.bind_some]
    rw [this, ranges, List.append_assoc]
    rfl

/-- Without any assumption on `--begin()`: for a map built as a data store builds it
(blocks of at least one column appended from column 0 on) every lookup of a
non-negative column is defined and right. -/
theorem C04_store_lookup_partial (bs : List (Nat × T)) (hpos : ∀ b ∈ bs, 0 < b.1) :
    run false (appends bs 0) = some (ranges bs 0) ∧
    ∀ key : Int, 0 ≤ key → ∃ r, find false (ranges bs 0) key = some r ∧
      (∀ e, r = some e → e ∈ ranges bs 0 ∧ e.lo ≤ key ∧ key ≤ e.hi) ∧
      (r = none → ∀ e ∈ ranges bs 0, ¬ (e.lo ≤ key ∧ key ≤ e.hi)) := by
  have h1 := append_run bs 0 [] hpos ⟨by simp, by simp⟩ (by simp)
  refine ⟨h1, ?_⟩
  intro key hk
  have hw := ranges_wf bs 0 hpos
  by_cases hex : ∃ e ∈ ranges bs 0, e.lo ≤ key ∧ key ≤ e.hi
  · obtain ⟨e, he, h2, h3⟩ := hex
    refine ⟨some e, find_mem hw he h2 h3, ?_, by simp⟩
    rintro e' h
    cases h
    exact ⟨he, h2, h3⟩
  · have hno : ∀ e ∈ ranges bs 0, ¬ (e.lo ≤ key ∧ key ≤ e.hi) := fun e he h2 => hex ⟨e, he, h2⟩
    refine ⟨none, ?_, by simp, fun _ => hno⟩
    rw [find_not_mem hw hno, if_neg]
    rintro ⟨h2, h3, -⟩
    cases bs with
    | nil => exact h2 rfl
    | cons b bs =>
      have := h3 _ (List.mem_cons_self)
      simp only at this
      omega

example : run false (appends [(2, 'a'), (1, 'b'), (3, 'c')] 0)
    = some [⟨0, 1, 'a'⟩, ⟨2, 2, 'b'⟩, ⟨3, 5, 'c'⟩] ∧
    find false [⟨0, 1, 'a'⟩, ⟨2, 2, 'b'⟩, ⟨3, 5, 'c'⟩] 4 = some (some ⟨3, 5, 'c'⟩) ∧
    find false [⟨0, 1, 'a'⟩, ⟨2, 2, 'b'⟩, ⟨3, 5, 'c'⟩] 6 = some none := by decide

/-- A history with erasures that satisfies the hypothesis. -/
example : NoEnclosing true [.insert 0 3 'a', .insert 10 12 'b', .insert 4 9 'c', .erase 11, .insert 10 20 'd'] [] ∧
    run true [.insert 0 3 'a', .insert 10 12 'b', .insert 4 9 'c', .erase 11, .insert 10 20 'd']
      = some [⟨0, 3, 'a'⟩, ⟨4, 9, 'c'⟩, ⟨10, 20, 'd'⟩] := by
  refine ⟨?_, by decide⟩
  refine ⟨by simp [NotEnclosing], fun m1 h1 => ⟨?_, fun m2 h2 => ⟨?_, fun m3 h3 => ⟨trivial, fun m4 h4 => ⟨?_, fun _ _ => trivial⟩⟩⟩⟩⟩ <;>
  (first | (obtain rfl := Option.some.inj (h1.symm.trans (by decide : _ = some [⟨0, 3, 'a'⟩]))) | skip) <;>
  (first | (obtain rfl := Option.some.inj (h2.symm.trans (by decide : _ = some [⟨0, 3, 'a'⟩, ⟨10, 12, 'b'⟩]))) | skip) <;>
  (first | (obtain rfl := Option.some.inj (h3.symm.trans (by decide : _ = some [⟨0, 3, 'a'⟩, ⟨4, 9, 'c'⟩, ⟨10, 12, 'b'⟩]))) | skip) <;>
  (first | (obtain rfl := Option.some.inj (h4.symm.trans (by decide : _ = some [⟨0, 3, 'a'⟩, ⟨4, 9, 'c'⟩]))) | skip) <;>
  simp [NotEnclosing]

end Verif.IntervalMap
