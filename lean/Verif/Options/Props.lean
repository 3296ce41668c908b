import Verif.Options.Spec
import Verif.Options.Names

/-!
# C09, C10, C11, C47, C48: options
-/

namespace Verif.Options

/-! A small registry used by the examples: a real in `(0, ∞)`, an integer in `[1, 10]`, a
categorical and a free-form string. -/

def exOpts : Registry where
  readonly := false
  entries :=
    [(bytes "alpha", .f64 ⟨0x3FF0000000000000#64, 0#64, .greaterthan, 0#64, .pinf, .dflt⟩),
     (bytes "n_components", .int ⟨1, 1, .greaterequal, 10, .lessequal, .dflt⟩),
     (bytes "storage order", .str ⟨bytes "column-major",
        [(bytes "column-major", 1), (bytes "row-major", 0)], false, .dflt⟩),
     (bytes "delimiter", .str ⟨bytes ",", [], false, .dflt⟩)]

/-! ## C09 -/

/-- **C09, first part, literally**: after an accepted set the value read back is the value given. -/
def C09_statement : Prop :=
  ∀ (r r' : Registry) (name : Str) (v : Val) (b : By),
    r.set name v b = (.ok, r') → r'.get name v.ty = (.ok, some v)

/-- A label spelt with other capitals or blanks is accepted, and read back as the label. -/
theorem C09_violated : ¬ C09_statement := by
  intro h
  have h1 := h exOpts (exOpts.set (bytes "storage order") (.str (bytes " Row-Major")) .user).2
    (bytes "storage order") (.str (bytes " Row-Major")) .user (by decide +kernel)
  revert h1; decide +kernel

/-- What a value `v` accepted by the option `o` is read back as. -/
def ReadAs (o : Opt) (v w : Val) : Prop :=
  match o, v with
  | .str o, .str s =>
    ∃ l, w = .str l ∧
      (o.labels ≠ [] → (∃ id, (l, id) ∈ o.labels) ∧
        ((∃ id, (s, id) ∈ o.labels) → l = s) ∧ Alike s l) ∧
      (o.labels = [] → (o.strict = false → l = s) ∧ Alike s l)
  | _, v => w = v

theorem findLabel_some {ls : List (Str × Int)} {s : Str} (h : (findLabel ls s).isSome) :
    ∃ id, (s, id) ∈ ls := by
  unfold findLabel at h
  rw [Option.isSome_map] at h
  obtain ⟨p, hp⟩ := Option.isSome_iff_exists.1 h
  have h1 := List.find?_some hp
  have h2 := List.mem_of_find?_eq_some hp
  simp only [decide_eq_true_eq] at h1
  exact ⟨p.2, by rw [← h1]; exact h2⟩

theorem findLabel_of_mem {ls : List (Str × Int)} {s : Str} {id : Int} (h : (s, id) ∈ ls) :
    (findLabel ls s).isSome := by
  unfold findLabel
  rw [Option.isSome_map, List.find?_isSome]
  exact ⟨_, h, by simp⟩

theorem StrOpt.set_readAs (o : StrOpt) (s : Str) (b : By) (h : (o.set s b).1 = .ok) :
    ReadAs (.str o) (.str s) (.str (o.set s b).2.value) := by
  refine ⟨_, rfl, ?_⟩
  unfold StrOpt.set at *
  by_cases hl : o.labels ≠ []
  · rw [if_pos hl] at h ⊢
    by_cases h1 : (findLabel o.labels s).isSome
    · rw [if_pos h1]
      exact ⟨fun _ => ⟨findLabel_some h1, fun _ => rfl, .refl _⟩, fun e => absurd e hl⟩
    · rw [if_neg h1] at h ⊢
      by_cases h2 : (findLabel o.labels (prepStr s)).isSome
      · rw [if_pos h2]
        exact ⟨fun _ => ⟨findLabel_some h2, fun ⟨id, hid⟩ => absurd (findLabel_of_mem hid) h1,
          alike_prep s⟩, fun e => absurd e hl⟩
      · rw [if_neg h2] at h; simp at h
  · rw [if_neg hl]
    refine ⟨fun e => absurd e hl, fun _ => ?_⟩
    cases hs : o.strict
    · simp only [Bool.false_eq_true, if_false]; exact ⟨fun _ => trivial, .refl _⟩
    · simp only [if_true]; exact ⟨fun e => by simp at e, alike_prep s⟩

theorem Opt.set_readAs (o : Opt) (v : Val) (b : By) (ht : o.ty = v.ty) (h : (o.set v b).1 = .ok) :
    ReadAs o v (o.set v b).2.get := by
  cases o <;> cases v <;> first | (simp [Opt.ty, Val.ty] at ht; done) | skip
  · exact congrArg (fun o : Num Int => Val.int o.value) (Num.set_ok _ _ _ h).2
  · exact congrArg (fun o : Num F32 => Val.f32 o.value) (Num.set_ok _ _ _ h).2
  · exact congrArg (fun o : Num F64 => Val.f64 o.value) (Num.set_ok _ _ _ h).2
  · rfl
  · exact StrOpt.set_readAs _ _ _ h

/-- **C09, first part, as it holds** for every registry, name and value: after an accepted set the
option is read back with the value given.  Only strings can come back spelt otherwise: a categorical
option returns one of its labels, the string itself if that is a label, and in any case a label that
differs from it only in case and blanks. -/
theorem C09_read_back (r r' : Registry) (name : Str) (v : Val) (b : By)
    (h : r.set name v b = (.ok, r')) :
    ∃ k o w, resolve r.entries name = some k ∧ find r.entries k = some o ∧
      r'.get name v.ty = (.ok, some w) ∧ ReadAs o v w := by
  rcases r.set_shape name v b with ⟨h1, -⟩ | ⟨k, o, -, hk, ho, ht, hs, he⟩
  · rw [h] at h1; exact absurd rfl h1
  · rw [h] at he
    have hr : r' = { r with entries := put r.entries k (o.set v b).2 } := congrArg Prod.snd he
    refine ⟨k, o, (o.set v b).2.get, hk, ho, ?_, Opt.set_readAs o v b ht hs⟩
    rw [hr]
    unfold Registry.get
    simp only [resolve_put, hk, find_put_self _ _ _ _ ho, Opt.set_ty, ht]
    rw [if_neg (by simp)]

/-- **C09, first part, where it holds literally**: numbers, free-form strings, and labels spelt as
they were registered. -/
theorem C09_read_back_partial (r r' : Registry) (name : Str) (v : Val) (b : By)
    (h : r.set name v b = (.ok, r'))
    (hv : ∀ s, v = .str s → ∀ k o, resolve r.entries name = some k →
      find r.entries k = some (.str o) →
      (o.labels = [] ∧ o.strict = false) ∨ ∃ id, (s, id) ∈ o.labels) :
    r'.get name v.ty = (.ok, some v) := by
  obtain ⟨k, o, w, hk, ho, hg, hw⟩ := C09_read_back r r' name v b h
  rw [hg]
  congr 2
  cases o with
  | str o =>
    cases v with
    | str s =>
      obtain ⟨l, rfl, hl1, hl2⟩ := hw
      rcases hv s rfl k o hk ho with ⟨h1, h2⟩ | ⟨id, hid⟩
      · rw [(hl2 h1).1 h2]
      · rw [(hl1 (fun e => by rw [e] at hid; simp at hid)).2.1 ⟨id, hid⟩]
    | _ => exact hw
  | _ => exact hw

/-- **C09, second part**: a refused set leaves the whole registry as it was, whatever the reason. -/
theorem C09_refused (r : Registry) (name : Str) (v : Val) (b : By)
    (h : (r.set name v b).1 ≠ .ok) : (r.set name v b).2 = r := by
  rcases r.set_shape name v b with ⟨-, h1⟩ | ⟨k, o, -, -, -, -, -, he⟩
  · exact h1
  · rw [he] at h; exact absurd rfl h

/-- **C09, third part**: a set, accepted or not, leaves every other option as it was: its value, key,
bounds, labels and origin. -/
theorem C09_others (r : Registry) (name : Str) (v : Val) (b : By) (k : Str)
    (h : resolve r.entries name ≠ some k) :
    find (r.set name v b).2.entries k = find r.entries k := by
  rcases r.set_shape name v b with ⟨-, h1⟩ | ⟨k', o, -, hk, -, -, -, he⟩
  · rw [h1]
  · rw [he]; exact find_put_ne _ _ _ _ fun e => h (e ▸ hk)

/-- The same through the getters: a name that addresses another option reads the same before and
after. -/
theorem C09_others_read (r : Registry) (name other : Str) (v : Val) (b : By) (t : Ty)
    (h : resolve r.entries other ≠ resolve r.entries name) :
    (r.set name v b).2.get other t = r.get other t ∧
      (r.set name v b).2.getKey other = r.getKey other := by
  have hres : resolve (r.set name v b).2.entries other = resolve r.entries other :=
    resolve_runOps r [.set name v b] other
  unfold Registry.get Registry.getKey
  rw [hres]
  cases hk : resolve r.entries other with
  | none => exact ⟨rfl, rfl⟩
  | some k =>
    simp only [C09_others r name v b k (fun e => h (by rw [hk, e]))]
    exact ⟨trivial, trivial⟩

theorem history_same (r : Registry) (pre post : List Op) (name : Str) (v : Val) (b : By)
    (hpost : ∀ a c n w b', post = a ++ .set n w b' :: c →
      resolve r.entries n ≠ resolve r.entries name ∨
      ((runOps r (pre ++ .set name v b :: a)).set n w b').1 ≠ .ok) (t : Ty) :
    (runOps r (pre ++ .set name v b :: post)).get name t =
      ((runOps r pre).set name v b).2.get name t := by
  induction post using List.reverseRecOn with
  | nil => rw [runOps_append]; rfl
  | append_singleton post op ih =>
    rw [← ih fun a c n w b' e => hpost a (c ++ [op]) n w b' (by rw [e]; simp)]
    have e : pre ++ Op.set name v b :: (post ++ [op]) = (pre ++ Op.set name v b :: post) ++ [op] := by
      simp
    rw [e, runOps_append]
    generalize hs : runOps r (pre ++ Op.set name v b :: post) = s
    have hres : ∀ n, resolve s.entries n = resolve r.entries n := fun n => by
      rw [← hs]; exact resolve_runOps _ _ _
    show (op.run s).2.get name t = s.get name t
    cases op with
    | lock => rfl
    | unlock => rfl
    | set n w b' =>
      rcases hpost post [] n w b' rfl with h | h
      · exact (C09_others_read s n name w b' t (by rw [hres, hres]; exact fun e => h e.symm)).1
      · rw [hs] at h
        show (s.set n w b').2.get name t = s.get name t
        rw [C09_refused s n w b' h]

/-- **C09 over histories**: after any sequence of calls an option is read back with the value of
the last accepted set addressing it.  `pre` and `post` are arbitrary; the calls in `post` may set
other options, be refused, lock and unlock. -/
theorem C09_history (r : Registry) (pre post : List Op) (name : Str) (v : Val) (b : By)
    (hacc : ((runOps r pre).set name v b).1 = .ok)
    (hpost : ∀ a c n w b', post = a ++ .set n w b' :: c →
      resolve r.entries n ≠ resolve r.entries name ∨
      ((runOps r (pre ++ .set name v b :: a)).set n w b').1 ≠ .ok) :
    ∃ k o w, resolve r.entries name = some k ∧ find (runOps r pre).entries k = some o ∧
      (runOps r (pre ++ .set name v b :: post)).get name v.ty = (.ok, some w) ∧ ReadAs o v w := by
  obtain ⟨k, o, w, h1, h2, h3, h4⟩ := C09_read_back (runOps r pre) _ name v b
    (show (runOps r pre).set name v b = (.ok, ((runOps r pre).set name v b).2) by
      rw [← hacc])
  rw [resolve_runOps] at h1
  exact ⟨k, o, w, h1, h2, by rw [history_same r pre post name v b hpost, h3], h4⟩

/-- With no accepted set the option keeps the value it was registered with. -/
theorem C09_history_none (r : Registry) (ops : List Op) (name : Str)
    (h : ∀ a c n w b, ops = a ++ .set n w b :: c →
      resolve r.entries n ≠ resolve r.entries name ∨ ((runOps r a).set n w b).1 ≠ .ok) (t : Ty) :
    (runOps r ops).get name t = r.get name t := by
  induction ops using List.reverseRecOn with
  | nil => rfl
  | append_singleton ops op ih =>
    rw [← ih fun a c n w b e => h a (c ++ [op]) n w b (by rw [e]; simp), runOps_append]
    generalize hs : runOps r ops = s
    have hres : ∀ n, resolve s.entries n = resolve r.entries n := fun n => by
      rw [← hs]; exact resolve_runOps _ _ _
    show (op.run s).2.get name t = s.get name t
    cases op with
    | lock => rfl
    | unlock => rfl
    | set n w b =>
      rcases h ops [] n w b rfl with h | h
      · exact (C09_others_read s n name w b t (by rw [hres, hres]; exact fun e => h e.symm)).1
      · rw [hs] at h
        show (s.set n w b).2.get name t = s.get name t
        rw [C09_refused s n w b h]

/-- A locked registry accepts nothing. -/
theorem C09_locked (r : Registry) (name : Str) (v : Val) (b : By) (h : r.readonly = true) :
    r.set name v b = (.locked, r) := by simp [Registry.set, h]

/-- **C09 at the public functions**: what `da_options_set` accepts, `da_options_get` on the same
handle returns. -/
theorem C09_public {M : Type} (refresh : M → M) (h h' : Handle M) (name : Str) (v : Val)
    (hs : daSet refresh h name v = (.ok, h')) (hv : ∀ s, v ≠ .str s) :
    daGet h' name v.ty = (.ok, some v) := by
  unfold daSet at hs
  cases hp : precisionOk h.single v
  · rw [hp] at hs; simp at hs
  · rw [hp] at hs
    simp only [Bool.not_true, Bool.false_eq_true, if_false] at hs
    cases hr : h.opts.set name v .user with
    | mk s r =>
      rw [hr] at hs
      simp only [Prod.mk.injEq] at hs
      obtain ⟨rfl, rfl⟩ := hs
      unfold daGet
      dsimp only
      rw [if_neg]
      · exact C09_read_back_partial _ _ name v .user hr fun s e => absurd e (hv s)
      · cases v <;> simp_all [precisionOk, Val.ty]

/-- A refused `da_options_set` leaves every option of the handle as it was. -/
theorem C09_public_refused {M : Type} (refresh : M → M) (h : Handle M) (name : Str) (v : Val)
    (hs : (daSet refresh h name v).1 ≠ .ok) : (daSet refresh h name v).2.opts = h.opts := by
  unfold daSet at *
  split
  · rfl
  · next hp =>
    rw [if_neg hp] at hs
    exact C09_refused _ _ _ _ hs

/-- One call of each kind: set twice, refuse a value out of bounds, set another, lock. -/
example :
    let ops : List Op := [.set (bytes "n_components") (.int 3) .user,
      .set (bytes "N_Components ") (.int 7) .user, .set (bytes "n_components") (.int 11) .user,
      .set (bytes "delimiter") (.str (bytes ";")) .user, .lock,
      .set (bytes "n_components") (.int 2) .user]
    (runOps exOpts ops).get (bytes "n_components") .int = (.ok, some (.int 7)) ∧
      (runOps exOpts ops).get (bytes "delimiter") .str = (.ok, some (.str (bytes ";"))) ∧
      (runOps exOpts ops).get (bytes "alpha") .f64 = (.ok, some (.f64 0x3FF0000000000000#64)) := by
  decide +kernel

/-! ## C10 -/

/-- Every option of the registry is within its bounds. -/
def AllInBounds (r : Registry) : Prop := ∀ k o, find r.entries k = some o → o.InBounds

/-- Every option was constructed with bounds that are numbers. -/
def AllBounded (r : Registry) : Prop := ∀ k o, find r.entries k = some o → o.Bounded

/-- **C10**: started from options within their bounds, no history of calls leaves one outside the
bounds it was registered with. -/
def C10_statement : Prop :=
  ∀ (r : Registry) (ops : List Op), AllBounded r → AllInBounds r →
    AllInBounds (runOps r ops)

theorem Num.constructed {α} [Numeric α] {l u d : α} {lb : LB} {ub : UB} {o : Num α}
    (h : Num.mk? l lb u ub d = some o) : o.Bounded ∧ o.InBounds ∧ o.frame = (l, lb, u, ub) := by
  unfold Num.mk? at h
  split at h
  · next hv =>
    cases h
    have hn : ∀ x : α, Ops.isNaN x = false → Numeric.val x ≠ none := fun x hx e => by
      rw [(Numeric.nan_iff x).2 e] at hx; cases hx
    unfold validate at hv
    simp only [if_true] at hv
    repeat' split at hv
    all_goals first | (cases hv; done) | skip
    next h1 h2 h3 h4 =>
    have hu : Ops.isNaN u = false := by cases h : Ops.isNaN u <;> simp_all
    have hl : Ops.isNaN l = false := by cases h : Ops.isNaN l <;> simp_all
    have hd : Ops.isNaN d = false := by cases h : Ops.isNaN d <;> simp_all
    have hb : Num.Bounded (⟨d, l, lb, u, ub, .dflt⟩ : Num α) := ⟨fun _ => hn l hl, fun _ => hn u hu⟩
    exact ⟨hb, inBounds_of_ok _ hb (hn d hd) hv, rfl⟩
  · cases h

/-- What the constructor accepts is within bounds that are numbers, so the hypotheses of C10 hold of
every newly registered numeric option. -/
theorem C10_registered {α} [Numeric α] {l u d : α} {lb : LB} {ub : UB} {o : Num α}
    (h : Num.mk? l lb u ub d = some o) : o.Bounded ∧ o.InBounds ∧ o.value = d ∧
      o.lower = l ∧ o.lbound = lb ∧ o.upper = u ∧ o.ubound = ub := by
  obtain ⟨h1, h2, -⟩ := Num.constructed h
  unfold Num.mk? at h
  split at h
  · cases h; exact ⟨h1, h2, rfl, rfl, rfl, rfl, rfl⟩
  · cases h

theorem runOps_inv (P : Opt → Prop) (r : Registry) (ops : List Op) (hb : AllBounded r)
    (h0 : ∀ k o, find r.entries k = some o → P o)
    (hstep : ∀ (o : Opt) (n : Str) (v : Val) (b : By), Op.set n v b ∈ ops → o.Bounded → P o →
      P (o.set v b).2) :
    ∀ k o, find (runOps r ops).entries k = some o → P o := by
  induction ops generalizing r with
  | nil => exact h0
  | cons op ops ih =>
    rw [runOps_cons]
    refine ih _ ?_ ?_ fun o n v b hm => hstep o n v b (List.mem_cons_of_mem _ hm)
    · intro k o ho
      rcases find_op r op k with h | ⟨o', n, v, b, -, h1, h2⟩
      · exact hb k o (h ▸ ho)
      · rw [h2] at ho; cases ho
        exact Opt.bounded_of_frame (Opt.set_frame _ _ _) (hb k o' h1)
    · intro k o ho
      rcases find_op r op k with h | ⟨o', n, v, b, rfl, h1, h2⟩
      · exact h0 k o (h ▸ ho)
      · rw [h2] at ho; cases ho
        exact hstep o' n v b List.mem_cons_self (hb k o' h1) (h0 k o' h1)

/-- NaN passes the range check of `set`, which asks `validate` not to look for it. -/
theorem C10_violated : ¬ C10_statement := by
  intro h
  let o : Num F64 := ⟨0x3FF0000000000000#64, 0#64, .greaterthan, 0#64, .pinf, .dflt⟩
  have hmk : Num.mk? (0#64 : F64) .greaterthan 0#64 .pinf 0x3FF0000000000000#64 = some o := by
    decide +kernel
  let r : Registry := ⟨false, [(bytes "alpha", .f64 o)]⟩
  have hf : ∀ k x, find r.entries k = some x → x = .f64 o := by
    intro k x hx
    simp only [r, find] at hx
    split at hx
    · cases hx; rfl
    · cases hx
  obtain ⟨h1, h2, -⟩ := Num.constructed hmk
  have h3 := h r [.set (bytes "alpha") (.f64 0x7FF8000000000000#64) .user]
    (fun k x hx => by rw [hf k x hx]; exact h1) (fun k x hx => by rw [hf k x hx]; exact h2)
    (bytes "alpha")
    (.f64 ⟨0x7FF8000000000000#64, 0#64, .greaterthan, 0#64, .pinf, .user⟩) (by decide +kernel)
  obtain ⟨x, y, -, hy, -⟩ := h3.1 rfl
  have h4 : Numeric.val (0x7FF8000000000000#64 : F64) = none := by
    rw [← Numeric.nan_iff]; decide +kernel
  rw [h4] at hy; cases hy

/-- **C10, as far as it holds, for every history**: afterwards every numeric option is within the
bounds it was registered with or is a real option holding NaN; the bounds are those registered. -/
theorem C10_extent (r : Registry) (ops : List Op) (hb : AllBounded r) (h0 : AllInBounds r) (k : Str)
    (o : Opt) (ho : find (runOps r ops).entries k = some o) :
    (o.InBounds ∨ o.IsNaN) ∧ ∃ o₀, find r.entries k = some o₀ ∧ o.frame = o₀.frame := by
  refine ⟨?_, ?_⟩
  · refine runOps_inv (fun o => o.InBounds ∨ o.IsNaN) r ops hb (fun k o h => .inl (h0 k o h)) ?_ k o ho
    intro o n v b _ hbo hP
    rcases Opt.set_inv o v b hbo with h | h | h
    · rw [h]; exact hP
    · exact .inl h
    · exact .inr h.2
  · have := find_runOps_frame r ops k
    rw [ho] at this
    cases h : find r.entries k with
    | none => rw [h] at this; simp at this
    | some o₀ => rw [h] at this; exact ⟨o₀, rfl, by simpa using this⟩

/-- **C10, partial**: it holds for every history in which no NaN is offered; in particular for all
integer options. -/
theorem C10_partial (r : Registry) (ops : List Op) (hb : AllBounded r) (h0 : AllInBounds r)
    (hn : ∀ n v b, Op.set n v b ∈ ops → ¬ v.IsNaN) : AllInBounds (runOps r ops) := by
  refine runOps_inv (fun o => o.InBounds) r ops hb h0 ?_
  intro o n v b hm hbo hP
  rcases Opt.set_inv o v b hbo with h | h | h
  · rw [h]; exact hP
  · exact h
  · exact absurd h.1 (hn n v b hm)

/-- Integer options are always within their bounds, whatever is offered to other options. -/
theorem C10_integers (r : Registry) (ops : List Op) (hb : AllBounded r) (h0 : AllInBounds r) (k : Str)
    (o : Num Int) (ho : find (runOps r ops).entries k = some (.int o)) :
    (o.lbound = .greaterthan → o.lower < o.value) ∧ (o.lbound = .greaterequal → o.lower ≤ o.value) ∧
      (o.ubound = .lessthan → o.value < o.upper) ∧ (o.ubound = .lessequal → o.value ≤ o.upper) := by
  rcases (C10_extent r ops hb h0 k _ ho).1 with h | h
  · simpa [Opt.InBounds, Num.InBounds, NLt, NLe, Numeric.val] using h
  · exact h.elim

/-- The decoding gives 1.5, -0, the smallest positive number and infinity their values, and the
check refuses what is out of bounds: `0 < x` refuses -0 and -1.5 and accepts 1.5 and infinity. -/
example :
    F64.dec 0x3FF8000000000000#64 = .fin (3 * 2 ^ 1073) ∧ F64.dec 0x8000000000000000#64 = .fin 0 ∧
    F64.dec 1#64 = .fin 1 ∧ F64.dec 0x7FF0000000000000#64 = .pinf ∧
    F32.dec 0xBFC00000#32 = .fin (-3 * 2 ^ 148) ∧
    (exOpts.set (bytes "alpha") (.f64 0x8000000000000000#64) .user).1 = .invalidValue ∧
    (exOpts.set (bytes "alpha") (.f64 0xBFF8000000000000#64) .user).1 = .invalidValue ∧
    (exOpts.set (bytes "alpha") (.f64 0x3FF8000000000000#64) .user).1 = .ok ∧
    (exOpts.set (bytes "alpha") (.f64 0x7FF0000000000000#64) .user).1 = .ok ∧
    (exOpts.set (bytes "n_components") (.int 0) .user).1 = .invalidValue ∧
    (exOpts.set (bytes "n_components") (.int 10) .user).1 = .ok := by
  decide +kernel

/-! ## C11 -/

/-- **C11**: normalising twice is normalising once. -/
theorem C11_idempotent (s : Str) : prepStr (prepStr s) = prepStr s := prepStr_prepStr s

/-- **C11**: two strings normalise to the same exactly when they differ only in letter case and in
leading, trailing or repeated blanks. -/
theorem C11_normal_form (a b : Str) : prepStr a = prepStr b ↔ Alike a b := by
  refine ⟨fun h => ?_, Alike.prep⟩
  have := alike_prep b
  rw [← h] at this
  exact (alike_prep a).trans this.symm

/-- Keys are in normal form. -/
def TidyKeys (r : Registry) : Prop := ∀ k, (find r.entries k).isSome → prepStr k = k

theorem resolve_tidy {r : Registry} (h : TidyKeys r) (a : Str) :
    resolve r.entries a = if (find r.entries (prepStr a)).isSome then some (prepStr a) else none := by
  unfold resolve
  split
  · next h1 => rw [h a h1, if_pos h1]
  · rfl

/-- **C11**: names that differ only in case and blanks address the same option in every registry
whose own names are tidy: setting, reading and reading the key all agree. -/
theorem C11_same_option (r : Registry) (h : TidyKeys r) (a b : Str) (hab : Alike a b) :
    resolve r.entries a = resolve r.entries b ∧
    (∀ v by_, r.set a v by_ = r.set b v by_) ∧ (∀ t, r.get a t = r.get b t) ∧
      r.getKey a = r.getKey b := by
  have e : resolve r.entries a = resolve r.entries b := by
    rw [resolve_tidy h, resolve_tidy h, hab.prep]
  refine ⟨e, fun v by_ => ?_, fun t => ?_, ?_⟩
  · simp only [Registry.set, e]
  · simp only [Registry.get, e]
  · simp only [Registry.getKey, e]

/-- And only such names do. -/
theorem C11_other_option (r : Registry) (h : TidyKeys r) (a b k : Str)
    (ha : resolve r.entries a = some k) (hb : resolve r.entries b = some k) : Alike a b := by
  rw [resolve_tidy h] at ha hb
  split at ha
  · split at hb
    · cases ha
      rw [← C11_normal_form]
      exact (Option.some.inj hb).symm
    · cases hb
  · cases ha

/-- All names the library registers are tidy. -/
theorem C11_library_names : ∀ s ∈ libraryNames, prepStr (bytes s) = bytes s := by
  decide +kernel

theorem find_append (es : List (Str × Opt)) (k k' : Str) (o : Opt) :
    (find (es ++ [(k, o)]) k').isSome → (find es k').isSome ∨ k' = k := by
  induction es with
  | nil =>
    intro h
    simp only [List.nil_append, find] at h
    split at h
    · next e => exact .inr e.symm
    · simp at h
  | cons e es ih =>
    obtain ⟨n, x⟩ := e
    simp only [List.cons_append, find]
    split
    · exact fun _ => .inl rfl
    · exact ih

theorem find_erase (es : List (Str × Opt)) (k k' : Str) :
    (find (erase es k) k').isSome → (find es k').isSome := by
  induction es with
  | nil => exact id
  | cons e es ih =>
    obtain ⟨n, x⟩ := e
    unfold erase
    split
    · intro h; simp only [find]; split
      · rfl
      · exact h
    · simp only [find]
      split
      · exact id
      · exact ih

theorem tidy_register (r : Registry) (h : TidyKeys r) (name : Str) (o : Opt) (ow : Bool)
    (hn : prepStr name = name) : TidyKeys (r.register name o ow).2 := by
  unfold Registry.register
  have he : TidyKeys { r with entries := if ow then erase r.entries name else r.entries } := by
    intro k hk
    dsimp only at hk
    split at hk
    · exact h k (find_erase _ _ _ hk)
    · exact h k hk
  by_cases h1 : r.readonly = true
  · rw [if_pos h1]; exact h
  · rw [if_neg h1]
    by_cases h2 : ow = true ∧ find r.entries name = none
    · rw [if_pos h2]; exact h
    · rw [if_neg h2]
      dsimp only
      by_cases h3 : (find (if ow then erase r.entries name else r.entries) name).isSome
      · rw [if_pos h3]; exact he
      · rw [if_neg h3]
        intro k hk
        rcases find_append _ _ _ _ hk with h4 | rfl
        · exact he k h4
        · exact hn

/-- **C11 for the registries of the library**: however options are registered under the library's
names and whatever is set afterwards, names that differ only in case and blanks address the same
option. -/
theorem C11_library (regs : List (String × Opt × Bool)) (hr : ∀ x ∈ regs, x.1 ∈ libraryNames)
    (ops : List Op) (a b : Str) (hab : Alike a b) :
    let r := runOps (regs.foldl (fun (r : Registry) x => (r.register (bytes x.1) x.2.1 x.2.2).2)
      ⟨false, []⟩) ops
    resolve r.entries a = resolve r.entries b ∧
    (∀ v by_, r.set a v by_ = r.set b v by_) ∧ (∀ t, r.get a t = r.get b t) ∧
      r.getKey a = r.getKey b := by
  refine C11_same_option _ ?_ a b hab
  have h1 : ∀ (regs : List (String × Opt × Bool)) (r0 : Registry), (∀ x ∈ regs, x.1 ∈ libraryNames) →
      TidyKeys r0 → TidyKeys (regs.foldl
        (fun (r : Registry) x => (r.register (bytes x.1) x.2.1 x.2.2).2) r0) := by
    intro regs
    induction regs with
    | nil => intro r0 _ h; exact h
    | cons x xs ih =>
      intro r0 hx h
      exact ih _ (fun y hy => hx y (List.mem_cons_of_mem _ hy))
        (tidy_register r0 h _ _ _ (C11_library_names _ (hx x List.mem_cons_self)))
  intro k hk
  rw [isSome_find_runOps] at hk
  exact h1 regs ⟨false, []⟩ hr (by intro k hk; simp [find] at hk) k hk

/-- `"  Storage\tORDER "` and `"storage order"`; a registered name with a capital, which no library
name has, could not be reached by its lower-case spelling. -/
example : prepStr (bytes "  Storage\tORDER ") = bytes "storage order" ∧
    Alike (bytes "  Storage\tORDER ") (bytes "storage order") ∧
    (exOpts.get (bytes "  Storage\tORDER ") .str).1 = .ok ∧
    ((⟨false, [(bytes "Alpha", .bool true .dflt)]⟩ : Registry).get (bytes "alpha") .bool).1
      = .notFound := by
  refine ⟨by decide +kernel, (C11_normal_form _ _).1 (by decide +kernel), by decide +kernel,
    by decide +kernel⟩

/-! ## C47: a refused option change and the fitted model -/

/-- **C47**: a call to `da_options_set` that is refused leaves the handle as it was: its options and
its fitted model. -/
def C47_statement : Prop :=
  ∀ (M : Type) (refresh : M → M) (h : Handle M) (name : Str) (v : Val),
    (daSet refresh h name v).1 ≠ .ok → (daSet refresh h name v).2 = h

/-- The sub-handle is refreshed before the option is looked up, so a misspelt name is enough to lose
a fitted model. -/
theorem C47_violated : ¬ C47_statement := by
  intro h
  have := h Bool (fun _ => false) ⟨false, exOpts, true⟩ (bytes "no such option") (.int 1)
    (by decide +kernel)
  have h2 := congrArg Handle.model this
  revert h2; decide +kernel

/-- Exactly what a refused call does: nothing to the options, and `refresh` to the model unless the
call was made with the wrong precision. -/
theorem C47_extent {M : Type} (refresh : M → M) (h : Handle M) (name : Str) (v : Val)
    (hs : (daSet refresh h name v).1 ≠ .ok) :
    (daSet refresh h name v).2 =
      if precisionOk h.single v then { h with model := refresh h.model } else h := by
  have ho := C09_public_refused refresh h name v hs
  unfold daSet at *
  cases hp : precisionOk h.single v
  · simp
  · rw [hp] at hs ho
    simp only [Bool.not_true, Bool.false_eq_true, if_false] at hs ho ⊢
    rw [ho]; rfl

/-- **C47, partial**: it holds for sub-handles whose `refresh` does nothing (PCA, kernel PCA,
approximate neighbours, the base class), and for a call with the wrong precision. -/
theorem C47_partial {M : Type} (refresh : M → M) (h : Handle M) (name : Str) (v : Val)
    (hs : (daSet refresh h name v).1 ≠ .ok)
    (hr : refresh h.model = h.model ∨ precisionOk h.single v = false) :
    (daSet refresh h name v).2 = h := by
  rw [C47_extent refresh h name v hs]
  rcases hr with hr | hr
  · rw [hr]; split <;> rfl
  · rw [hr]; rfl

/-- A refused call on a double handle with a single-precision value. -/
example : (daSet (fun _ => false) ⟨false, exOpts, true⟩ (bytes "alpha") (.f32 0#32)).1 = .wrongType ∧
    (daSet (fun _ => false) ⟨false, exOpts, true⟩ (bytes "alpha") (.f32 0#32)).2.model = true := by
  decide +kernel

/-! ## C48: reading a string option into the caller's buffer -/

/-- **C48**: given the capacity of the buffer, or less, the getter of string options writes only
inside it. -/
def C48_statement : Prop :=
  ∀ (r : Registry) (name buf : Str) (lvalue : Int), lvalue ≤ buf.length →
    (daGetStr r name buf lvalue).status ≠ .ub

/-- A negative length passes the check, since it is converted to an unsigned type first. -/
theorem C48_violated : ¬ C48_statement := by
  intro h
  exact h exOpts (bytes "storage order") [0, 0] (-1) (by decide) (by decide +kernel)

/-- **C48, partial**: it holds for every non-negative length (below 2^64), and then the outcome is
determined: the value and a terminating NUL at the front of the buffer and nothing else changed, or a
refusal that reports the length needed and leaves the buffer alone. -/
theorem C48_partial (r : Registry) (name buf : Str) (lvalue : Int) (h0 : 0 ≤ lvalue)
    (h1 : lvalue < 2 ^ 64) (h : lvalue ≤ buf.length) :
    (daGetStr r name buf lvalue).status ≠ .ub ∧
    (daGetStr r name buf lvalue).buf.length = buf.length ∧
    ∀ v, r.get name .str = (.ok, some (.str v)) →
      if (v.length : Int) < lvalue then
        (daGetStr r name buf lvalue).status = .ok ∧
        (daGetStr r name buf lvalue).buf.take (v.length + 1) = v ++ [0] ∧
        (daGetStr r name buf lvalue).buf.drop (v.length + 1) = buf.drop (v.length + 1)
      else daGetStr r name buf lvalue = ⟨.invalidInput, v.length + 1, buf⟩ := by
  have ht : toSize lvalue = lvalue.toNat := by
    unfold toSize; congr 1; exact Int.emod_eq_of_lt h0 h1
  have hstat : (r.get name .str).1 ≠ .ub := by
    unfold Registry.get
    repeat' split
    all_goals simp
  cases hg : r.get name .str with
  | mk s o =>
    rw [hg] at hstat
    have hother : ∀ (x : StrOut), x = ⟨s, lvalue, buf⟩ → x.status ≠ .ub ∧
        x.buf.length = buf.length := by
      rintro x rfl; exact ⟨hstat, rfl⟩
    by_cases hv : ∃ v, s = .ok ∧ o = some (.str v)
    · obtain ⟨v, rfl, rfl⟩ := hv
      have hd : daGetStr r name buf lvalue =
          if v.length ≥ toSize lvalue then ⟨.invalidInput, v.length + 1, buf⟩
          else if v.length + 1 > buf.length then ⟨.ub, lvalue, buf⟩
          else ⟨.ok, lvalue, overwrite buf (v ++ [0])⟩ := by
        unfold daGetStr; rw [hg]
      rw [hd, ht]
      by_cases hl : v.length ≥ lvalue.toNat
      · rw [if_pos hl]
        refine ⟨by simp, rfl, fun w hw => ?_⟩
        simp only [Prod.mk.injEq, Option.some.injEq, Val.str.injEq, true_and] at hw
        subst hw
        rw [if_neg (by omega)]
      · rw [if_neg hl, if_neg (by omega)]
        refine ⟨by simp, ?_, fun w hw => ?_⟩
        · simp only [overwrite, List.length_append, List.length_drop, List.length_singleton]
          omega
        · simp only [Prod.mk.injEq, Option.some.injEq, Val.str.injEq, true_and] at hw
          subst hw
          rw [if_pos (by omega)]
          refine ⟨rfl, ?_, ?_⟩
          · simp only [overwrite]
            rw [List.take_append_of_le_length (by simp), List.take_of_length_le (by simp)]
          · simp only [overwrite]
            rw [List.drop_append_of_le_length (by simp)]
            simp
    · have hd : daGetStr r name buf lvalue = ⟨s, lvalue, buf⟩ := by
        unfold daGetStr; rw [hg]
        split
        · next v heq =>
          simp only [Prod.mk.injEq] at heq
          exact absurd ⟨v, heq.1, heq.2⟩ hv
        · next s' o' hne heq =>
          simp only [Prod.mk.injEq] at heq
          rw [heq.1]
      refine ⟨(hother _ hd).1, (hother _ hd).2, fun v hw => ?_⟩
      simp only [Prod.mk.injEq] at hw
      exact absurd ⟨v, hw.1, hw.2⟩ hv

example : daGetStr exOpts (bytes "Delimiter") [7, 7, 7] 3 = ⟨.ok, 3, [44, 0, 7]⟩ ∧
    daGetStr exOpts (bytes "storage order") [7, 7, 7] 3 = ⟨.invalidInput, 13, [7, 7, 7]⟩ := by
  decide +kernel

/-- The key of a categorical option can always be read: if every categorical option starts with one
of its labels, no history of calls makes `labels.at` throw. -/
theorem C09_key_readable (r : Registry) (ops : List Op) (name : Str)
    (h0 : ∀ k o, find r.entries k = some (.str o) → o.labels ≠ [] → (findLabel o.labels o.value).isSome) :
    ((runOps r ops).getKey name).1 ≠ .throws := by
  let P : Opt → Prop := fun o => ∀ s, o = .str s → s.labels ≠ [] → (findLabel s.labels s.value).isSome
  have key : ∀ (ops : List Op) (r : Registry), (∀ k o, find r.entries k = some o → P o) →
      ∀ k o, find (runOps r ops).entries k = some o → P o := by
    intro ops
    induction ops with
    | nil => intro r h; exact h
    | cons op ops ih =>
      intro r h
      rw [runOps_cons]
      refine ih _ ?_
      intro k o ho
      rcases find_op r op k with e | ⟨o', n, v, b, -, h1, h2⟩
      · exact h k o (e ▸ ho)
      · rw [h2] at ho; cases ho
        intro s hs hl
        have hP := h k o' h1
        by_cases hacc : (o'.set v b).1 = .ok
        · cases o' <;> cases v <;> first | (simp [Opt.set] at hs; done) | (simp [Opt.set] at hacc; done) | skip
          next o' v =>
          simp only [Opt.set, Opt.str.injEq] at hs
          subst hs
          have hlab := (StrOpt.set_frame o' v b).1
          rw [hlab] at hl ⊢
          obtain ⟨l, hl1, hl2, -⟩ := StrOpt.set_readAs o' v b hacc
          obtain ⟨⟨id, hid⟩, -⟩ := hl2 hl
          rw [Val.str.inj hl1]
          exact findLabel_of_mem hid
        · rw [Opt.set_refused _ _ _ hacc] at hs
          exact hP s hs hl
  have hfin := key ops r (fun k o ho s hs hl => h0 k s (hs ▸ ho) hl)
  unfold Registry.getKey
  cases hk : resolve (runOps r ops).entries name with
  | none => simp
  | some k =>
    obtain ⟨o, ho⟩ := find_resolve hk
    simp only [ho]
    have hPo := hfin k o ho
    cases o with
    | str s =>
      simp only
      by_cases hl : s.labels ≠ []
      · rw [if_pos hl]
        obtain ⟨id, hid⟩ := Option.isSome_iff_exists.1 (hPo s rfl hl)
        rw [hid]; simp
      · rw [if_neg hl]; simp
    | _ => simp

end Verif.Options
