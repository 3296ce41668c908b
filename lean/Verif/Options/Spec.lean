import Verif.Options.Proof

/-!
# What the properties of options speak about, and lemmas on it
-/

namespace Verif.Options

/-! ## Strings that differ only in case and blanks -/

/-- The six blanks: tab, newline, vertical tab, form feed, carriage return and space. -/
def Blank (w : UInt8) : Prop := w ∈ ([9, 10, 11, 12, 13, 32] : List UInt8)

theorem blank_iff (w : UInt8) : Blank w ↔ isSpace w = true := by
  have h : ∀ n : Fin 256, (UInt8.ofFin n) ∈ ([9, 10, 11, 12, 13, 32] : List UInt8) ↔
      isSpace (UInt8.ofFin n) = true := by decide +kernel
  simpa [Blank] using h w.toFin

/-- `a` and `b` differ only in letter case and in leading, trailing or repeated blanks (any white
space counting as a blank). -/
inductive Alike : Str → Str → Prop
  | refl (s) : Alike s s
  | symm {a b} : Alike a b → Alike b a
  | trans {a b c} : Alike a b → Alike b c → Alike a c
  /-- an upper-case letter against its lower-case one -/
  | case (x y : Str) (c : UInt8) (h : 65 ≤ c ∧ c ≤ 90) : Alike (x ++ c :: y) (x ++ (c + 32) :: y)
  /-- a leading blank -/
  | lead (w : UInt8) (h : Blank w) (s) : Alike (w :: s) s
  /-- a trailing blank -/
  | trail (w : UInt8) (h : Blank w) (s) : Alike (s ++ [w]) s
  /-- a repeated blank -/
  | rep (x y : Str) (w w' : UInt8) (h : Blank w) (h' : Blank w') :
      Alike (x ++ w :: w' :: y) (x ++ w :: y)
  /-- one blank for another -/
  | blank (x y : Str) (w w' : UInt8) (h : Blank w) (h' : Blank w') :
      Alike (x ++ w :: y) (x ++ w' :: y)

theorem lower_upper {c : UInt8} (h : 65 ≤ c ∧ c ≤ 90) : lower c = c + 32 := by
  simp [lower, h.1, h.2]

theorem lower_add {c : UInt8} (h : 65 ≤ c ∧ c ≤ 90) : lower (c + 32) = c + 32 := by
  rw [← lower_upper h, lower_lower]

theorem Alike.prep {a b : Str} (h : Alike a b) : prepStr a = prepStr b := by
  induction h with
  | refl => rfl
  | symm _ ih => exact ih.symm
  | trans _ _ h1 h2 => exact h1.trans h2
  | case x y c h =>
    rw [prepStr_eq, prepStr_eq, ← tidy_map_lower, ← tidy_map_lower]
    simp only [List.map_append, List.map_cons, lower_upper h, lower_add h]
  | lead w h s => rw [blank_iff] at h; rw [prepStr_eq, prepStr_eq, tidy_cons_space h]
  | trail w h s => rw [blank_iff] at h; rw [prepStr_eq, prepStr_eq, tidy_snoc_space h]
  | rep x y w w' h h' =>
    rw [blank_iff] at h h'
    rw [prepStr_eq, prepStr_eq, tidy, tidy, scan_append, scan_append]
    simp only [List.foldl_cons]
    rw [step_space_space _ h h']
  | blank x y w w' h h' =>
    rw [blank_iff] at h h'
    rw [prepStr_eq, prepStr_eq, tidy, tidy, scan_append, scan_append]
    simp only [List.foldl_cons]
    rw [step_space_eq _ h' h]

/-- `Alike` after which more text can be appended. -/
def AlikeR (a b : Str) : Prop := ∀ t, Alike (a ++ t) (b ++ t)

theorem AlikeR.snoc {a b : Str} (h : AlikeR a b) (c : UInt8) : AlikeR (a ++ [c]) (b ++ [c]) := by
  intro t; simpa using h (c :: t)

theorem AlikeR.trans {a b c : Str} (h : AlikeR a b) (h' : AlikeR b c) : AlikeR a c :=
  fun t => (h t).trans (h' t)

theorem alikeR_scan (s : Str) : AlikeR s ((scan s).1 ++ pend (scan s).2) := by
  refine List.reverseRecOn (motive := fun s => AlikeR s ((scan s).1 ++ pend (scan s).2)) s ?_ ?_
  · intro t; exact .refl _
  · intro s c ih
    have he : scan (s ++ [c]) = step (scan s) c := by rw [scan_append]; rfl
    rw [he]
    refine (ih.snoc c).trans ?_
    generalize scan s = st
    obtain ⟨out, p⟩ := st
    intro t
    by_cases hc : isSpace c
    · have hc' : Blank c := (blank_iff c).2 hc
      by_cases ho : out = []
      · subst ho
        have : step (([] : Str), p) c = ([], false) := by simp [step, hc]
        rw [this]
        cases p
        · simpa [pend] using Alike.lead c hc' t
        · have h32 : Blank 32 := (blank_iff _).2 (by decide)
          simpa [pend] using (Alike.lead 32 h32 (c :: t)).trans (Alike.lead c hc' t)
      · have : step (out, p) c = (out, true) := by simp [step, hc, ho]
        rw [this]
        have h32 : Blank 32 := (blank_iff _).2 (by decide)
        cases p
        · simpa [pend] using Alike.blank out t c 32 hc' h32
        · simpa [pend] using Alike.rep out t 32 c h32 hc'
    · cases p <;> simp [step, hc, pend] <;> exact .refl _

theorem alike_tidy (s : Str) : Alike s (tidy s) := by
  have h := alikeR_scan s []
  simp only [List.append_nil] at h
  refine h.trans ?_
  cases hp : (scan s).2
  · simp only [pend, Bool.false_eq_true, if_false, List.append_nil]; exact Alike.refl _
  · exact .trail 32 ((blank_iff _).2 (by decide)) _

theorem alike_map_lower (x s : Str) : Alike (x ++ s) (x ++ s.map lower) := by
  induction s generalizing x with
  | nil => exact .refl _
  | cons c s ih =>
    have h1 : Alike (x ++ c :: s) (x ++ c :: s.map lower) := by
      simpa using ih (x ++ [c])
    refine h1.trans ?_
    by_cases h : 65 ≤ c ∧ c ≤ 90
    · have := Alike.case x (s.map lower) c h
      rw [List.map_cons, lower_upper h]; exact this
    · have : lower c = c := by
        simp only [lower]
        rw [if_neg (by simpa using h)]
      rw [List.map_cons, this]; exact .refl _

theorem alike_prep (s : Str) : Alike s (prepStr s) := by
  rw [prepStr_eq]
  exact (alike_tidy s).trans (by simpa using alike_map_lower [] (tidy s))

/-! ## Bounds -/

/-- The extended number a decoded real stands for; none for NaN. -/
def FP.val : FP → Option (WithBot (WithTop Int))
  | .nan => none
  | .ninf => some ⊥
  | .pinf => some ((⊤ : WithTop Int) : WithBot (WithTop Int))
  | .fin k => some (((k : Int) : WithTop Int) : WithBot (WithTop Int))

/-- Numeric types whose comparisons are those of the numbers meant. -/
class Numeric (α : Type) extends Ops α where
  val : α → Option (WithBot (WithTop Int))
  lt_iff (a b : α) : lt a b = true ↔ ∃ x y, val a = some x ∧ val b = some y ∧ x < y
  le_iff (a b : α) : le a b = true ↔ ∃ x y, val a = some x ∧ val b = some y ∧ x ≤ y
  nan_iff (a : α) : isNaN a = true ↔ val a = none

instance : Numeric Int where
  val k := some (((k : Int) : WithTop Int) : WithBot (WithTop Int))
  lt_iff a b := by simp [Ops.lt]
  le_iff a b := by simp [Ops.le]
  nan_iff a := by simp [Ops.isNaN]

theorem FP.lt_iff (a b : FP) :
    a.lt b = true ↔ ∃ x y, a.val = some x ∧ b.val = some y ∧ x < y := by
  cases a <;> cases b <;> simp [FP.lt, FP.val]
  exact WithBot.coe_lt_coe.2 (WithTop.coe_lt_top _)

theorem FP.le_iff (a b : FP) :
    a.le b = true ↔ ∃ x y, a.val = some x ∧ b.val = some y ∧ x ≤ y := by
  cases a <;> cases b <;> simp [FP.le, FP.val]

theorem FP.nan_iff (a : FP) : a = .nan ↔ a.val = none := by cases a <;> simp [FP.val]

instance : Numeric F32 where
  val x := (F32.dec x).val
  lt_iff a b := FP.lt_iff _ _
  le_iff a b := FP.le_iff _ _
  nan_iff a := by
    rw [← FP.nan_iff]; simp only [Ops.isNaN, beq_iff_eq]

instance : Numeric F64 where
  val x := (F64.dec x).val
  lt_iff a b := FP.lt_iff _ _
  le_iff a b := FP.le_iff _ _
  nan_iff a := by
    rw [← FP.nan_iff]; simp only [Ops.isNaN, beq_iff_eq]

/-- `a < b` as numbers: neither is NaN. -/
def NLt {α} [Numeric α] (a b : α) : Prop :=
  ∃ x y, Numeric.val a = some x ∧ Numeric.val b = some y ∧ x < y

/-- `a ≤ b` as numbers. -/
def NLe {α} [Numeric α] (a b : α) : Prop :=
  ∃ x y, Numeric.val a = some x ∧ Numeric.val b = some y ∧ x ≤ y

/-- The value of a numeric option is within the bounds the option was registered with. -/
def Num.InBounds {α} [Numeric α] (o : Num α) : Prop :=
  (o.lbound = .greaterthan → NLt o.lower o.value) ∧
  (o.lbound = .greaterequal → NLe o.lower o.value) ∧
  (o.ubound = .lessthan → NLt o.value o.upper) ∧
  (o.ubound = .lessequal → NLe o.value o.upper)

/-- The bounds an option has are numbers. -/
def Num.Bounded {α} [Numeric α] (o : Num α) : Prop :=
  (o.lbound ≠ .minf → Numeric.val o.lower ≠ none) ∧ (o.ubound ≠ .pinf → Numeric.val o.upper ≠ none)

theorem quickCheck_ok {α} [Numeric α] (l : α) (lb : LB) (u : α) (ub : UB) (v : α) :
    quickCheck l lb u ub v = .ok ↔
      ¬ (lb = .greaterthan ∧ NLe v l) ∧ ¬ (lb = .greaterequal ∧ NLt v l) ∧
      ¬ (ub = .lessthan ∧ NLe u v) ∧ ¬ (ub = .lessequal ∧ NLt u v) := by
  have h1 : NLe v l ↔ Ops.le v l = true := (Numeric.le_iff v l).symm
  have h2 : NLt v l ↔ Ops.lt v l = true := (Numeric.lt_iff v l).symm
  have h3 : NLe u v ↔ Ops.le u v = true := (Numeric.le_iff u v).symm
  have h4 : NLt u v ↔ Ops.lt u v = true := (Numeric.lt_iff u v).symm
  rw [h1, h2, h3, h4]
  unfold quickCheck
  cases lb <;> cases ub <;> cases Ops.le v l <;> cases Ops.lt v l <;> cases Ops.le u v <;>
    cases Ops.lt u v <;> simp

theorem not_nle {α} [Numeric α] {a b : α} (ha : Numeric.val a ≠ none) (hb : Numeric.val b ≠ none)
    (h : ¬ NLe a b) : NLt b a := by
  obtain ⟨x, hx⟩ := Option.ne_none_iff_exists'.1 ha
  obtain ⟨y, hy⟩ := Option.ne_none_iff_exists'.1 hb
  refine ⟨y, x, hy, hx, not_le.1 fun h' => h ⟨x, y, hx, hy, h'⟩⟩

theorem not_nlt {α} [Numeric α] {a b : α} (ha : Numeric.val a ≠ none) (hb : Numeric.val b ≠ none)
    (h : ¬ NLt a b) : NLe b a := by
  obtain ⟨x, hx⟩ := Option.ne_none_iff_exists'.1 ha
  obtain ⟨y, hy⟩ := Option.ne_none_iff_exists'.1 hb
  refine ⟨y, x, hy, hx, not_lt.1 fun h' => h ⟨x, y, hx, hy, h'⟩⟩

theorem inBounds_of_ok {α} [Numeric α] (o : Num α) (hb : o.Bounded)
    (hv : Numeric.val o.value ≠ none)
    (h : quickCheck o.lower o.lbound o.upper o.ubound o.value = .ok) : o.InBounds := by
  obtain ⟨h1, h2, h3, h4⟩ := (quickCheck_ok _ _ _ _ _).1 h
  refine ⟨fun e => ?_, fun e => ?_, fun e => ?_, fun e => ?_⟩
  · exact not_nle hv (hb.1 (by rw [e]; simp)) fun h' => h1 ⟨e, h'⟩
  · exact not_nlt hv (hb.1 (by rw [e]; simp)) fun h' => h2 ⟨e, h'⟩
  · exact not_nle (hb.2 (by rw [e]; simp)) hv fun h' => h3 ⟨e, h'⟩
  · exact not_nlt (hb.2 (by rw [e]; simp)) hv fun h' => h4 ⟨e, h'⟩

theorem Num.set_ok {α} [Ops α] (o : Num α) (v : α) (b : By) (h : (o.set v b).1 = .ok) :
    quickCheck o.lower o.lbound o.upper o.ubound v = .ok ∧
      (o.set v b).2 = { o with value := v, setby := b } := by
  unfold Num.set at *; dsimp only at *
  have e : validate o.lower o.lbound o.upper o.ubound v false
      = quickCheck o.lower o.lbound o.upper o.ubound v := by simp [validate]
  rw [e] at h ⊢
  by_cases h1 : quickCheck o.lower o.lbound o.upper o.ubound v ≠ .ok
  · rw [if_pos h1] at h; exact absurd h h1
  · rw [if_neg h1]; exact ⟨not_not.1 h1, rfl⟩

/-- Either refused with the option untouched, or accepted. -/
theorem Num.set_cases {α} [Ops α] (o : Num α) (v : α) (b : By) :
    (o.set v b).2 = o ∨ (o.set v b).1 = .ok := by
  by_cases h : (o.set v b).1 = .ok
  · exact .inr h
  · exact .inl (Num.set_refused _ _ _ h)

/-- What is fixed when a numeric option is registered. -/
def Num.frame {α} (o : Num α) : α × LB × α × UB := (o.lower, o.lbound, o.upper, o.ubound)

/-- What is fixed when an option is registered: its type, bounds and labels. -/
inductive Frame
  | int (f : Int × LB × Int × UB) | f32 (f : F32 × LB × F32 × UB) | f64 (f : F64 × LB × F64 × UB)
  | bool | str (labels : List (Str × Int)) (strict : Bool)

def Opt.frame : Opt → Frame
  | .int o => .int o.frame
  | .f32 o => .f32 o.frame
  | .f64 o => .f64 o.frame
  | .bool .. => .bool
  | .str o => .str o.labels o.strict

theorem Num.set_frame {α} [Ops α] (o : Num α) (v : α) (b : By) : (o.set v b).2.frame = o.frame := by
  rcases o.set_cases v b with h | h
  · rw [h]
  · rw [(o.set_ok v b h).2]; rfl

theorem StrOpt.set_frame (o : StrOpt) (v : Str) (b : By) :
    (o.set v b).2.labels = o.labels ∧ (o.set v b).2.strict = o.strict := by
  unfold StrOpt.set; repeat' split
  all_goals exact ⟨rfl, rfl⟩

theorem Opt.set_frame (o : Opt) (v : Val) (b : By) : (o.set v b).2.frame = o.frame := by
  cases o <;> cases v <;> try rfl
  · exact congrArg Frame.int (Num.set_frame _ _ _)
  · exact congrArg Frame.f32 (Num.set_frame _ _ _)
  · exact congrArg Frame.f64 (Num.set_frame _ _ _)
  · next o v =>
    obtain ⟨h1, h2⟩ := StrOpt.set_frame o v b
    show Frame.str (o.set v b).2.labels (o.set v b).2.strict = Frame.str o.labels o.strict
    rw [h1, h2]

/-- Within bounds, for options of any type (only numbers have bounds). -/
def Opt.InBounds : Opt → Prop
  | .int o => o.InBounds
  | .f32 o => o.InBounds
  | .f64 o => o.InBounds
  | _ => True

/-- The value is NaN. -/
def Opt.IsNaN : Opt → Prop
  | .f32 o => Numeric.val o.value = none
  | .f64 o => Numeric.val o.value = none
  | _ => False

def Opt.Bounded : Opt → Prop
  | .int o => o.Bounded
  | .f32 o => o.Bounded
  | .f64 o => o.Bounded
  | _ => True

/-- A value offered is NaN. -/
def Val.IsNaN : Val → Prop
  | .f32 v => Numeric.val v = none
  | .f64 v => Numeric.val v = none
  | _ => False

theorem Num.bounded_of_frame {α} [Numeric α] {o o' : Num α} (h : o'.frame = o.frame)
    (hb : o.Bounded) : o'.Bounded := by
  simp only [Num.frame, Prod.mk.injEq] at h
  obtain ⟨h1, h2, h3, h4⟩ := h
  unfold Num.Bounded at *; rw [h1, h2, h3, h4]; exact hb

theorem Num.set_inv {α} [Numeric α] (o : Num α) (v : α) (b : By) (hb : o.Bounded) :
    (o.set v b).2 = o ∨ (o.set v b).2.InBounds ∨
      (Numeric.val v = none ∧ (o.set v b).2.value = v) := by
  rcases o.set_cases v b with h | h
  · exact .inl h
  · obtain ⟨h1, h2⟩ := o.set_ok v b h
    by_cases hv : Numeric.val v = none
    · exact .inr (.inr ⟨hv, by rw [h2]⟩)
    · refine .inr (.inl ?_)
      rw [h2]
      exact inBounds_of_ok { o with value := v, setby := b } hb hv h1

theorem Opt.set_inv (o : Opt) (v : Val) (b : By) (hb : o.Bounded) :
    (o.set v b).2 = o ∨ (o.set v b).2.InBounds ∨ (v.IsNaN ∧ (o.set v b).2.IsNaN) := by
  cases o <;> cases v <;> try exact .inl rfl
  · next o v =>
    rcases o.set_inv v b hb with h | h | h
    · exact .inl (congrArg Opt.int h)
    · exact .inr (.inl h)
    · simp [Numeric.val] at h
  · next o v =>
    rcases o.set_inv v b hb with h | h | h
    · exact .inl (congrArg Opt.f32 h)
    · exact .inr (.inl h)
    · refine .inr (.inr ⟨h.1, ?_⟩)
      show Numeric.val (o.set v b).2.value = none
      rw [h.2]; exact h.1
  · next o v =>
    rcases o.set_inv v b hb with h | h | h
    · exact .inl (congrArg Opt.f64 h)
    · exact .inr (.inl h)
    · refine .inr (.inr ⟨h.1, ?_⟩)
      show Numeric.val (o.set v b).2.value = none
      rw [h.2]; exact h.1
  · exact .inr (.inl trivial)
  · exact .inr (.inl trivial)

theorem Opt.bounded_of_frame {o o' : Opt} (h : o'.frame = o.frame) (hb : o.Bounded) : o'.Bounded := by
  cases o <;> cases o' <;> simp only [Opt.frame, Frame.int.injEq, Frame.f32.injEq, Frame.f64.injEq,
    reduceCtorEq] at h <;> first | trivial | exact Num.bounded_of_frame h hb

/-! ## What a call does to a registry -/

/-- A call to `set` either leaves the registry as it was or replaces one option by what its own
`set` made of it. -/
theorem Registry.set_shape (r : Registry) (name : Str) (v : Val) (b : By) :
    ((r.set name v b).1 ≠ .ok ∧ (r.set name v b).2 = r) ∨
    ∃ k o, r.readonly = false ∧ resolve r.entries name = some k ∧ find r.entries k = some o ∧
      o.ty = v.ty ∧ (o.set v b).1 = .ok ∧
      r.set name v b = (.ok, { r with entries := put r.entries k (o.set v b).2 }) := by
  unfold Registry.set
  cases hr : r.readonly
  · simp only [Bool.false_eq_true, if_false]
    cases hk : resolve r.entries name with
    | none => exact .inl ⟨by simp, rfl⟩
    | some k =>
      obtain ⟨o, ho⟩ := find_resolve hk
      simp only [ho]
      by_cases ht : o.ty ≠ v.ty
      · rw [if_pos ht]; exact .inl ⟨by simp, rfl⟩
      · rw [if_neg ht]
        by_cases hs : (o.set v b).1 = .ok
        · exact .inr ⟨k, o, trivial, rfl, ho, not_not.1 ht, hs, by rw [hs]⟩
        · refine .inl ⟨hs, ?_⟩
          simp only
          rw [Opt.set_refused o v b hs, put_self _ _ _ ho, ← hr]
  · simp only [if_true]; exact .inl ⟨by simp, trivial⟩

theorem find_set (r : Registry) (name : Str) (v : Val) (b : By) (k : Str) :
    find (r.set name v b).2.entries k = find r.entries k ∨
    ∃ o, find r.entries k = some o ∧ find (r.set name v b).2.entries k = some (o.set v b).2 := by
  rcases r.set_shape name v b with ⟨-, h⟩ | ⟨k', o, -, -, ho, -, -, h⟩
  · rw [h]; exact .inl rfl
  · rw [h]
    by_cases e : k = k'
    · subst e; exact .inr ⟨o, ho, find_put_self _ _ _ _ ho⟩
    · exact .inl (find_put_ne _ _ _ _ e)

theorem find_op (r : Registry) (op : Op) (k : Str) :
    find (op.run r).2.entries k = find r.entries k ∨
    ∃ o n v b, op = .set n v b ∧ find r.entries k = some o ∧
      find (op.run r).2.entries k = some (o.set v b).2 := by
  cases op with
  | set n v b =>
    rcases find_set r n v b k with h | ⟨o, h1, h2⟩
    · exact .inl h
    · exact .inr ⟨o, n, v, b, rfl, h1, h2⟩
  | lock => exact .inl rfl
  | unlock => exact .inl rfl

theorem runOps_append (r : Registry) (a b : List Op) :
    runOps r (a ++ b) = runOps (runOps r a) b := by simp [runOps]

theorem runOps_cons (r : Registry) (op : Op) (ops : List Op) :
    runOps r (op :: ops) = runOps (op.run r).2 ops := rfl

theorem find_runOps_frame (r : Registry) (ops : List Op) (k : Str) :
    (find (runOps r ops).entries k).map Opt.frame = (find r.entries k).map Opt.frame := by
  induction ops generalizing r with
  | nil => rfl
  | cons op ops ih =>
    rw [runOps_cons, ih]
    rcases find_op r op k with h | ⟨o, n, v, b, -, h1, h2⟩
    · rw [h]
    · rw [h1, h2]; simp [Opt.set_frame]

theorem isSome_find_runOps (r : Registry) (ops : List Op) (k : Str) :
    (find (runOps r ops).entries k).isSome = (find r.entries k).isSome := by
  have := congrArg Option.isSome (find_runOps_frame r ops k)
  simpa using this

theorem resolve_runOps (r : Registry) (ops : List Op) (name : Str) :
    resolve (runOps r ops).entries name = resolve r.entries name := by
  simp [resolve, isSome_find_runOps]

end Verif.Options
