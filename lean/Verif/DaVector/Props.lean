/- Property C17: the growable vector behaves as a list and stays inside its block. -/
import Verif.DaVector.Model
namespace Verif.DaVector

variable {α : Type}

/-! #### Specification: a vector is a list -/

/-- What one call does to the list a reader sees.  `resize` beyond the end leaves the new
elements unspecified. -/
def ListStep (l : List (Option α)) (op : Op α) (l' : List (Option α)) : Prop :=
  match op with
  | .pushBack x => l' = l ++ [some x]
  | .append xs => l' = l ++ xs.map some
  | .appendSelf => l' = l ++ l
  | .resize n => l'.length = n ∧ ∀ i, i < n → i < l.length → l'[i]? = l[i]?
  | .reserve _ => l' = l
  | .clear => l' = []
  | .setAt i x => l' = l.set i (some x)

/-- The caller's only obligation: indexed writes are inside the vector. -/
def Legal (l : List (Option α)) : Op α → Prop
  | .setAt i _ => i < l.length
  | _ => True

/-- `l'` is a list reachable from `l` through the calls `h`, all of them legal, tracing the
sequence of intermediate lists. -/
inductive ListRun : List (Option α) → List (Op α) → List (Option α) → Prop
  | nil (l) : ListRun l [] l
  | cons {l l1 l' op h} (hleg : Legal l op) (hs : ListStep l op l1) (hr : ListRun l1 h l') :
      ListRun l (op :: h) l'

/-- Every call is legal whatever the unspecified elements are: indexed writes are below the
size that the list has at that point. -/
def LegalRun : Nat → List (Op α) → Prop
  | _, [] => True
  | n, .pushBack _ :: h => LegalRun (n + 1) h
  | n, .append xs :: h => LegalRun (n + xs.length) h
  | n, .appendSelf :: h => LegalRun (n + n) h
  | _, .resize m :: h => LegalRun m h
  | n, .reserve _ :: h => LegalRun n h
  | _, .clear :: h => LegalRun 0 h
  | n, .setAt i _ :: h => i < n ∧ LegalRun n h

/-! #### Invariant -/

/-- The block has `cap` cells, the size fits, the capacity is not zero. -/
def WF (v : Vec α) : Prop := v.data.length = v.cap ∧ v.size ≤ v.cap ∧ 0 < v.cap

theorem growTo_spec (cap n : Nat) (h : 0 < cap) :
    ∃ c, growTo cap n = some c ∧ n ≤ c ∧ cap ≤ c ∧ (c < 2 * n ∨ c = cap) := by
  induction cap using growTo.induct (n := n) with
  | case1 cap h1 h2 ih =>
    obtain ⟨c, hc, a, b, d⟩ := ih (by omega)
    refine ⟨c, ?_, a, by omega, by omega⟩
    rw [growTo, if_pos h1, if_pos h2, hc]
  | case2 cap h1 h2 => omega
  | case3 cap h1 => exact ⟨cap, by rw [growTo, if_neg h1], by omega, by omega, by omega⟩

theorem memcpy_grow {v : Vec α} (hv : WF v) {c : Nat} (hc : v.size ≤ c) :
    memcpy (malloc c) 0 v.data v.size =
      some (v.data.take v.size ++ List.replicate (c - v.size) none) := by
  obtain ⟨h1, h2, _⟩ := hv
  simp [memcpy, malloc, hc]
  omega

/-- The growth step of `push_back` and `append`: same contents, room for more. -/
theorem grown_ok {v : Vec α} (hv : WF v) {c : Nat} (hc : v.size ≤ c) (hc0 : 0 < c) :
    let w : Vec α := { v with data := v.data.take v.size ++ List.replicate (c - v.size) none, cap := c }
    WF w ∧ w.contents = v.contents := by
  obtain ⟨h1, h2, h3⟩ := hv
  refine ⟨⟨by simp; omega, hc, hc0⟩, ?_⟩
  simp only [Vec.contents]
  rw [List.take_append_of_le_length (by simp; omega), List.take_of_length_le (by simp; omega)]

theorem contents_length {v : Vec α} (hv : WF v) : v.contents.length = v.size := by
  obtain ⟨h1, h2, _⟩ := hv
  simp [Vec.contents]; omega

theorem store_ok {v : Vec α} (hv : WF v) (h : v.size < v.cap) (x : α) :
    ∃ d, store v.data v.size (some x) = some d ∧ WF { v with data := d, size := v.size + 1 } ∧
      Vec.contents { v with data := d, size := v.size + 1 } = v.contents ++ [some x] := by
  obtain ⟨h1, h2, h3⟩ := hv
  refine ⟨v.data.set v.size (some x), by simp [store]; omega, ⟨by simpa using h1, by simp; omega, h3⟩, ?_⟩
  simp only [Vec.contents]
  rw [List.take_add_one, List.take_set_of_le (Nat.le_refl _)]
  simp [h1, h]

theorem memcpy_ok {v : Vec α} (hv : WF v) (src : List (Option α)) (n : Nat)
    (h : v.size + n ≤ v.cap) (hn : n ≤ src.length) :
    ∃ d, memcpy v.data v.size src n = some d ∧ WF { v with data := d, size := v.size + n } ∧
      Vec.contents { v with data := d, size := v.size + n } = v.contents ++ src.take n := by
  obtain ⟨h1, h2, h3⟩ := hv
  refine ⟨v.data.take v.size ++ src.take n ++ v.data.drop (v.size + n), ?_, ⟨?_, h, h3⟩, ?_⟩
  · rw [memcpy, if_pos ⟨by omega, hn⟩]
  · simp; omega
  · simp only [Vec.contents]
    rw [List.take_append_of_le_length (by simp; omega), List.take_of_length_le (by simp; omega)]

theorem pushBack_ok {v : Vec α} (hv : WF v) (x : α) :
    ∃ v', v.pushBack x = some v' ∧ WF v' ∧ v'.contents = v.contents ++ [some x] := by
  unfold Vec.pushBack
  by_cases h : v.size = v.cap
  · obtain ⟨_, _, h3⟩ := id hv
    have hg := grown_ok hv (c := v.cap * 2) (by omega) (by omega)
    obtain ⟨d, hd, hw, hcont⟩ := store_ok hg.1 (by simp; omega) x
    rw [if_pos h]
    refine ⟨_, ?_, hw, by rw [hcont, hg.2]⟩
    simp only at hd
    simp [memcpy_grow hv (c := v.cap * 2) (by omega), hd]
  · obtain ⟨_, h2, _⟩ := id hv
    obtain ⟨d, hd, hw, hcont⟩ := store_ok hv (by omega) x
    rw [if_neg h]
    exact ⟨_, by simp [hd], hw, hcont⟩

theorem append_ok {v : Vec α} (hv : WF v) (src : List (Option α)) (n : Nat) (hn : n ≤ src.length) :
    ∃ v', v.append src n = some v' ∧ WF v' ∧ v'.contents = v.contents ++ src.take n := by
  unfold Vec.append
  obtain ⟨_, h2, h3⟩ := id hv
  by_cases h : v.size + n > v.cap
  · obtain ⟨c, hc, a, b, _⟩ := growTo_spec v.cap (v.size + n) h3
    have hg := grown_ok hv (c := c) (by omega) (by omega)
    obtain ⟨d, hd, hw, hcont⟩ := memcpy_ok hg.1 src n (by simp; omega) hn
    rw [if_pos h]
    refine ⟨_, ?_, hw, by rw [hcont, hg.2]⟩
    simp only at hd
    simp [hc, memcpy_grow hv (c := c) (by omega), hd]
  · obtain ⟨d, hd, hw, hcont⟩ := memcpy_ok hv src n (by omega) hn
    rw [if_neg h]
    exact ⟨_, by simp [hd], hw, hcont⟩

theorem appendSelf_ok {v : Vec α} (hv : WF v) :
    ∃ v', v.appendSelf = some v' ∧ WF v' ∧ v'.contents = v.contents ++ v.contents := by
  unfold Vec.appendSelf
  obtain ⟨h1, h2, h3⟩ := id hv
  by_cases h : v.size + v.size > v.cap
  · obtain ⟨c, hc, a, b, _⟩ := growTo_spec v.cap (v.size + v.size) h3
    have hg := grown_ok hv (c := c) (by omega) (by omega)
    obtain ⟨d, hd, hw, hcont⟩ := memcpy_ok hg.1
      (v.data.take v.size ++ List.replicate (c - v.size) none) v.size (by simp; omega) (by simp; omega)
    rw [if_pos h]
    refine ⟨_, ?_, hw, ?_⟩
    · simp only at hd
      simp [hc, memcpy_grow hv (c := c) (by omega), hd]
    · rw [hcont, hg.2, List.take_append_of_le_length (by simp; omega),
        List.take_of_length_le (by simp; omega)]
      rfl
  · obtain ⟨d, hd, hw, hcont⟩ := memcpy_ok hv v.data v.size (by omega) (by omega)
    rw [if_neg h]
    exact ⟨_, by simp [hd], hw, hcont⟩

theorem growCap_ok {v : Vec α} (hv : WF v) (n : Nat) :
    ∃ v', v.growCap n = some v' ∧ WF v' ∧ v'.contents = v.contents ∧ v'.size = v.size ∧ n ≤ v'.cap := by
  unfold Vec.growCap
  obtain ⟨h1, h2, h3⟩ := id hv
  by_cases h : n > v.cap
  · obtain ⟨c, hc, a, b, _⟩ := growTo_spec v.cap n h3
    have hg := grown_ok hv (c := c) (by omega) (by omega)
    rw [if_pos h]
    by_cases hs : v.size > 0
    · refine ⟨_, ?_, hg.1, hg.2, rfl, a⟩
      simp [hc, hs, memcpy_grow hv (c := c) (by omega)]
    · refine ⟨{ v with data := malloc c, cap := c }, by simp [hc, hs],
        ⟨by simp [malloc], by simp; omega, by simp; omega⟩, ?_, rfl, a⟩
      have : v.size = 0 := by omega
      simp [Vec.contents, this]
  · rw [if_neg h]
    exact ⟨v, rfl, hv, rfl, rfl, by omega⟩

/-- One legal call never leaves the block, keeps the invariant, and does what a list does. -/
theorem step_ok {v : Vec α} (hv : WF v) (op : Op α) (hleg : Legal v.contents op) :
    ∃ v', step v op = some v' ∧ WF v' ∧ ListStep v.contents op v'.contents := by
  cases op with
  | pushBack x => exact pushBack_ok hv x
  | append xs =>
    obtain ⟨v', a, b, c⟩ := append_ok hv (xs.map some) xs.length (by simp)
    refine ⟨v', a, b, ?_⟩
    show v'.contents = _
    rw [c, List.take_of_length_le (by simp)]
  | appendSelf => exact appendSelf_ok hv
  | resize n =>
    obtain ⟨v', a, b, c, d, e⟩ := growCap_ok hv n
    have hw : WF { v' with size := n } := ⟨b.1, e, b.2.2⟩
    refine ⟨{ v' with size := n }, by simp [step, Vec.resize, a], hw, contents_length hw, ?_⟩
    intro i hi hil
    rw [← c]
    rw [← c, contents_length b] at hil
    simp [Vec.contents, hi, hil]
  | reserve n =>
    obtain ⟨v', a, b, c, _⟩ := growCap_ok hv n
    exact ⟨v', a, b, c⟩
  | clear =>
    exact ⟨_, rfl, ⟨by simp [Vec.clear, malloc], by simp [Vec.clear], by simp [Vec.clear, initCapacity]⟩,
      by simp [ListStep, Vec.clear, Vec.contents]⟩
  | setAt i x =>
    obtain ⟨h1, h2, h3⟩ := id hv
    have hi : i < v.size := by
      have : i < v.contents.length := hleg
      rwa [contents_length hv] at this
    refine ⟨{ v with data := v.data.set i (some x) }, by simp [step, Vec.setAt, store, show i < v.data.length by omega],
      ⟨by simpa using h1, h2, h3⟩, ?_⟩
    simp [ListStep, Vec.contents, List.take_set]

theorem wf_new : WF (Vec.new : Vec α) := by
  refine ⟨by simp [Vec.new, malloc], by simp [Vec.new], by simp [Vec.new, initCapacity]⟩

theorem legal_of_legalRun {l : List (Option α)} {op : Op α} {h : List (Op α)}
    (hl : LegalRun l.length (op :: h)) : Legal l op := by
  cases op <;> simp [Legal]
  exact hl.1

theorem legalRun_step {l l' : List (Option α)} {op : Op α} {h : List (Op α)}
    (hl : LegalRun l.length (op :: h)) (hs : ListStep l op l') : LegalRun l'.length h := by
  cases op <;> simp only [ListStep] at hs
  case resize n => rw [hs.1]; exact hl
  case setAt i x => subst hs; simpa using hl.2
  all_goals subst hs; simpa [LegalRun] using hl

theorem run_ok (h : List (Op α)) : ∀ (v : Vec α), WF v → LegalRun v.size h →
    ∃ v', run v h = some v' ∧ WF v' ∧ ListRun v.contents h v'.contents := by
  induction h with
  | nil => exact fun v hv _ => ⟨v, rfl, hv, .nil _⟩
  | cons op h ih =>
    intro v hv hl
    rw [← contents_length hv] at hl
    obtain ⟨v1, a, b, c⟩ := step_ok hv op (legal_of_legalRun hl)
    obtain ⟨v', d, e, f⟩ := ih v1 b (by rw [← contents_length b]; exact legalRun_step hl c)
    exact ⟨v', by simp [run, a, d], e, .cons (legal_of_legalRun hl) c f⟩

/-! #### C17 -/

/-- C17.  Any history of `push_back`, `append` (also of the vector to itself), `resize`,
`reserve`, `clear` and in-range element writes on a new vector completes without touching
memory outside the block, and the reader sees what a list would hold after the same calls. -/
theorem C17_vector_refines_list (history : List (Op α)) (h : LegalRun 0 history) :
    ∃ v, run Vec.new history = some v ∧ v.size ≤ v.data.length ∧ v.contents.length = v.size ∧
      ListRun [] history v.contents := by
  obtain ⟨v, a, b, c⟩ := run_ok history Vec.new wf_new h
  refine ⟨v, a, by have := b.1; have := b.2.1; omega, contents_length b, ?_⟩
  simpa [Vec.contents, Vec.new] using c

/-- C17.  Without `resize` the contents are a function of the history: every element is the
one a list would have, none is uninitialised. -/
def listOf : List (Op α) → List α → List α
  | [], l => l
  | .pushBack x :: h, l => listOf h (l ++ [x])
  | .append xs :: h, l => listOf h (l ++ xs)
  | .appendSelf :: h, l => listOf h (l ++ l)
  | .resize n :: h, l => listOf h (l.take n)
  | .reserve _ :: h, l => listOf h l
  | .clear :: h, _ => listOf h []
  | .setAt i x :: h, l => listOf h (l.set i x)

/-- Every `resize` in the history shrinks or keeps the size. -/
def NoGrow : Nat → List (Op α) → Prop
  | _, [] => True
  | n, .pushBack _ :: h => NoGrow (n + 1) h
  | n, .append xs :: h => NoGrow (n + xs.length) h
  | n, .appendSelf :: h => NoGrow (n + n) h
  | n, .resize m :: h => m ≤ n ∧ NoGrow m h
  | n, .reserve _ :: h => NoGrow n h
  | _, .clear :: h => NoGrow 0 h
  | n, .setAt _ _ :: h => NoGrow n h

theorem listRun_det {l : List (Option α)} {h : List (Op α)} {l' : List (Option α)}
    (hr : ListRun l h l') : ∀ k : List α, l = k.map some → NoGrow k.length h →
      l' = (listOf h k).map some := by
  induction hr with
  | nil l => intro k hk _; exact hk
  | cons hleg hs hr ih =>
    rename_i l l1 l' op h
    intro k hk hn
    subst hk
    cases op <;> simp only [ListStep] at hs <;> simp only [NoGrow] at hn <;> simp only [listOf]
    case resize n =>
      refine ih (k.take n) ?_ (by rw [List.length_take, Nat.min_eq_left hn.1]; exact hn.2)
      apply List.ext_getElem?
      intro i
      by_cases hi : i < n
      · rw [hs.2 i hi (by simp; omega)]
        simp [hi]
      · rw [List.getElem?_eq_none (by omega), List.getElem?_eq_none (by simp; omega)]
    all_goals exact ih _ (by simp [hs, List.map_set]) (by simpa using hn)

/-- C17.  As long as `resize` never grows the vector, the contents are exactly the list
computed by the same calls. -/
theorem C17_vector_contents (history : List (Op α)) (h : LegalRun 0 history)
    (hn : NoGrow 0 history) :
    ∃ v, run Vec.new history = some v ∧ v.contents = (listOf history []).map some := by
  obtain ⟨v, a, _, _, c⟩ := C17_vector_refines_list history h
  exact ⟨v, a, listRun_det c [] rfl hn⟩

/-- C17.  Copy assignment gives an equal and equally usable vector, whatever the target held. -/
theorem C17_copy (history more : List (Op α)) (h : LegalRun 0 (history ++ more)) (target v : Vec α)
    (hv : run Vec.new history = some v) :
    ∃ w w', target.assign v = some w ∧ w.contents = v.contents ∧ w.size = v.size ∧
      run w more = some w' ∧ ListRun v.contents more w'.contents := by
  have hsplit : ∀ (h1 h2 : List (Op α)) (l l' : List (Option α)), LegalRun l.length (h1 ++ h2) →
      ListRun l h1 l' → LegalRun l.length h1 ∧ LegalRun l'.length h2 := by
    intro h1 h2
    induction h1 with
    | nil => intro l l' a b; cases b; exact ⟨trivial, a⟩
    | cons op h1 ih =>
      intro l l' a b
      cases b with
      | cons hleg hs hr =>
        have := ih _ _ (legalRun_step (h := h1 ++ h2) a hs) hr
        refine ⟨?_, this.2⟩
        cases op <;> simp only [ListStep] at hs <;> simp only [LegalRun]
        case resize n => rw [← hs.1]; exact this.1
        case setAt i x => subst hs; exact ⟨hleg, by simpa using this.1⟩
        all_goals subst hs; simpa using this.1
  have hpre : ∀ (h1 h2 : List (Op α)) (n : Nat), LegalRun n (h1 ++ h2) → LegalRun n h1 := by
    intro h1 h2
    induction h1 with
    | nil => intro n _; trivial
    | cons op h1 ih =>
      intro n a
      cases op <;> simp only [List.cons_append, LegalRun] at a ⊢
      case setAt i x => exact ⟨a.1, ih _ a.2⟩
      all_goals exact ih _ a
  obtain ⟨v', a, b, c⟩ := run_ok history Vec.new wf_new (hpre _ _ _ h)
  rw [hv] at a; cases a
  have c' : ListRun [] history v.contents := by simpa [Vec.contents, Vec.new] using c
  have hl := (hsplit history more [] v.contents h c').2
  have hg := grown_ok b (c := v.cap) b.2.1 b.2.2
  have hass : target.assign v = some { v with data := v.data.take v.size ++ List.replicate (v.cap - v.size) none } := by
    simp [Vec.assign, b.2.2, memcpy_grow b b.2.1]
  obtain ⟨w', d, e, f⟩ := run_ok more _ hg.1 (by rw [contents_length b] at hl; exact hl)
  exact ⟨_, w', hass, hg.2, rfl, d, by rw [hg.2] at f; exact f⟩

/-- C17 finding.  A vector that was moved from cannot be used again until it is cleared:
`push_back` writes outside its (empty) block and the growth loops never end. -/
theorem C17_moved_from_unusable (x : α) (xs : List α) (n : Nat) (hn : 0 < n) (hx : xs ≠ []) :
    (Vec.movedFrom : Vec α).pushBack x = none ∧
    (Vec.movedFrom : Vec α).append (xs.map some) xs.length = none ∧
    (Vec.movedFrom : Vec α).resize n = none ∧ (Vec.movedFrom : Vec α).reserve n = none := by
  have hg : ∀ m, 0 < m → growTo 0 m = none := by intro m hm; rw [growTo]; simp [hm]
  have hxs : 0 < xs.length := List.length_pos_iff.mpr hx
  refine ⟨?_, ?_, ?_, ?_⟩
  · simp [Vec.pushBack, Vec.movedFrom, memcpy, malloc, store]
  · simp [Vec.append, Vec.movedFrom, hg _ hxs, hxs]
  · simp [Vec.resize, Vec.growCap, Vec.movedFrom, hg _ hn, hn]
  · simp [Vec.reserve, Vec.growCap, Vec.movedFrom, hg _ hn, hn]

/-- C17.  `clear` makes any vector, moved-from ones included, a new one. -/
theorem C17_clear_restores (v : Vec α) : v.clear = Vec.new := rfl

/-- C17 finding.  Pushing an element of the vector itself is undefined exactly when the
vector is full. -/
theorem C17_push_own_element (history : List (Op α)) (h : LegalRun 0 history) (v : Vec α)
    (hv : run Vec.new history = some v) (i : Nat) (hi : i < v.size) :
    (v.pushBackOwn i = none ↔ v.size = v.cap) ∧
    (∀ v', v.pushBackOwn i = some v' → v'.contents = v.contents ++ [v.contents.getD i none]) := by
  obtain ⟨v', a, ⟨h1, h2, h3⟩, _⟩ := run_ok history Vec.new wf_new h
  rw [hv] at a; cases a
  unfold Vec.pushBackOwn
  by_cases hf : v.size = v.cap
  · simp [hf]
  · rw [if_neg hf, if_pos (by omega)]
    have hlt : v.size < v.data.length := by omega
    simp only [store, hlt, if_true]
    refine ⟨by simp [hf], ?_⟩
    intro v' hv'
    simp only [Option.pure_def, Option.bind_eq_bind, Option.bind_some, Option.some.injEq] at hv'
    subst hv'
    simp only [Vec.contents]
    rw [List.take_add_one, List.take_set_of_le (Nat.le_refl _)]
    simp [hlt, List.getD_eq_getElem?_getD, hi]

-- non-trivial histories meeting the hypotheses, one of them growing the block twice
example : LegalRun 0 ([.pushBack 1, .append (List.range 100), .setAt 5 9, .appendSelf, .resize 3] : List (Op Nat)) := by
  simp [LegalRun]
example : NoGrow 0 ([.pushBack 1, .append (List.range 100), .setAt 5 9, .appendSelf, .resize 3] : List (Op Nat)) := by
  simp [NoGrow]
example : (run Vec.new ([.pushBack 1, .append [7, 8], .setAt 1 9, .appendSelf, .resize 4] : List (Op Nat))).map Vec.contents
    = some [some 1, some 9, some 8, some 1] := by decide

end Verif.DaVector
