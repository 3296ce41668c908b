import Verif.CsvTable.Model
import Mathlib.Data.List.Basic
import Mathlib.Tactic.Ring

namespace Verif.CsvTable
variable {W α H : Type}

theorem cellIndex_lt (o : Order) {nr f r k : Nat} (hr : r < nr) (hk : k < f) :
    cellIndex o nr f r k < f * nr := by
  cases o with
  | rowMajor =>
    simp only [cellIndex]
    have : (r + 1) * f ≤ nr * f := Nat.mul_le_mul_right _ hr
    have e : (r + 1) * f = r * f + f := by ring
    have e2 : f * nr = nr * f := by ring
    omega
  | colMajor =>
    simp only [cellIndex]
    have : (k + 1) * nr ≤ f * nr := Nat.mul_le_mul_right _ hk
    have e : (k + 1) * nr = k * nr + nr := by ring
    omega

theorem divmod_inj {a b n x y : Nat} (ha : a < n) (hb : b < n) (h : a + x * n = b + y * n) :
    a = b ∧ x = y := by
  have h1 : (a + x * n) % n = a := by rw [Nat.add_mul_mod_self_right, Nat.mod_eq_of_lt ha]
  have h2 : (b + y * n) % n = b := by rw [Nat.add_mul_mod_self_right, Nat.mod_eq_of_lt hb]
  have hab : a = b := by rw [← h1, ← h2, h]
  refine ⟨hab, ?_⟩
  have : x * n = y * n := by omega
  exact Nat.eq_of_mul_eq_mul_right (by omega) this

theorem cellIndex_inj (o : Order) {nr f r k r' k' : Nat} (hr : r < nr) (hk : k < f) (hr' : r' < nr)
    (hk' : k' < f) (h : cellIndex o nr f r k = cellIndex o nr f r' k') : r = r' ∧ k = k' := by
  cases o with
  | rowMajor => have := divmod_inj hk hk' h; exact ⟨this.2, this.1⟩
  | colMajor => exact divmod_inj hr hr' h

/-- Folding over a range while nothing fails. -/
theorem foldlM_inv {σ ε : Type} (f : σ → Nat → Except ε σ) (P : Nat → σ → Prop) (Good : Nat → Prop)
    (a : Nat) : ∀ (m : Nat) (s : σ), P a s →
    (∀ k s, a ≤ k → k < a + m → P k s → Good k → ∃ s', f s k = .ok s' ∧ P (k + 1) s') →
    (∀ k, a ≤ k → k < a + m → Good k) →
    ∃ s', (List.range' a m).foldlM f s = .ok s' ∧ P (a + m) s' := by
  intro m
  induction m generalizing a with
  | zero => intro s hs _ _; exact ⟨s, rfl, hs⟩
  | succ m ih =>
    intro s hs hstep hgood
    obtain ⟨s1, h1, h2⟩ := hstep a s (Nat.le_refl _) (by omega) hs (hgood a (Nat.le_refl _) (by omega))
    obtain ⟨s2, h3, h4⟩ := ih (a + 1) s1 h2 (fun k s h5 h6 => hstep k s (by omega) (by omega))
      (fun k h5 h6 => hgood k (by omega) (by omega))
    refine ⟨s2, ?_, by rw [show a + (m + 1) = a + 1 + m by omega]; exact h4⟩
    rw [List.range'_succ, List.foldlM_cons, h1]
    exact h3

/-- If the fold succeeds every step was good. -/
theorem foldlM_good {σ ε : Type} (f : σ → Nat → Except ε σ) (P : Nat → σ → Prop) (Good : Nat → Prop)
    (a : Nat) : ∀ (m : Nat) (s s' : σ), P a s →
    (∀ k s s', a ≤ k → k < a + m → P k s → f s k = .ok s' → Good k ∧ P (k + 1) s') →
    (List.range' a m).foldlM f s = .ok s' →
    (∀ k, a ≤ k → k < a + m → Good k) ∧ P (a + m) s' := by
  intro m
  induction m generalizing a with
  | zero =>
    intro s s' hs _ h
    cases h
    exact ⟨fun k h1 h2 => absurd h2 (by omega), hs⟩
  | succ m ih =>
    intro s s' hs hstep h
    rw [List.range'_succ, List.foldlM_cons] at h
    cases h1 : f s a with
    | error e => rw [h1] at h; cases h
    | ok s1 =>
      rw [h1] at h
      obtain ⟨h2, h3⟩ := hstep a s s1 (Nat.le_refl _) (by omega) hs h1
      obtain ⟨h4, h5⟩ := ih (a + 1) s1 s' h3 (fun k s s' h5 h6 => hstep k s s' (by omega) (by omega)) h
      refine ⟨fun k hk1 hk2 => ?_, by rw [show a + (m + 1) = a + 1 + m by omega]; exact h5⟩
      by_cases hk : k = a
      · rw [hk]; exact h2
      · exact h4 k (by omega) (by omega)

/-- The failure of a fold comes from one of its steps. -/
theorem foldlM_error {σ ε : Type} (f : σ → Nat → Except ε σ) (P : Nat → σ → Prop) (e : ε)
    (a : Nat) : ∀ (m : Nat) (s : σ), P a s →
    (∀ k s s', a ≤ k → k < a + m → P k s → f s k = .ok s' → P (k + 1) s') →
    (List.range' a m).foldlM f s = .error e →
    ∃ k s, a ≤ k ∧ k < a + m ∧ P k s ∧ f s k = .error e := by
  intro m
  induction m generalizing a with
  | zero => intro s _ _ h; cases h
  | succ m ih =>
    intro s hs hstep h
    rw [List.range'_succ, List.foldlM_cons] at h
    cases h1 : f s a with
    | error e' =>
      rw [h1] at h
      cases h
      exact ⟨a, s, Nat.le_refl _, by omega, hs, h1⟩
    | ok s1 =>
      rw [h1] at h
      obtain ⟨k, s2, h2, h3, h4⟩ := ih (a + 1) s1 (hstep a s s1 (Nat.le_refl _) (by omega) hs h1)
        (fun k s s' h5 h6 => hstep k s s' (by omega) (by omega)) h
      exact ⟨k, s2, by omega, by omega, h4⟩

/-! ### The tokens of a list of lines -/

theorem tok_start (ls : List (List W)) {i : Nat} (hi : i < ls.length) :
    (tokOf ls).lineStart[i]? = some (ls.take i).flatten.length := by
  simp [tokOf, hi]

theorem tok_word (ls : List (List W)) {i : Nat} (hi : i < ls.length) {k : Nat} (hk : k < ls[i].length) :
    (tokOf ls).words[(ls.take i).flatten.length + k]? = some ls[i][k] := by
  have h : ls.flatten = (ls.take i).flatten ++ (ls[i] ++ (ls.drop (i + 1)).flatten) := by
    conv_lhs => rw [← List.take_append_drop i ls, List.flatten_append]
    rw [List.drop_eq_getElem_cons hi, List.flatten_cons]
  simp only [tokOf]
  rw [h, List.getElem?_append_right (by omega)]
  rw [show (ls.take i).flatten.length + k - (ls.take i).flatten.length = k by omega,
    List.getElem?_append_left hk]
  exact List.getElem?_eq_getElem hk

theorem tok_fields (ls : List (List W)) {i : Nat} (hi : i < ls.length) :
    (tokOf ls).lineFields[i]? = some ls[i].length := by
  simp [tokOf, hi]

/-- The value stored for a word. -/
def cellVal (c : Cfg W α H) (w : W) : α :=
  match c.num w with
  | some v => v
  | none => c.missing

/-- Lines up to (not including) `i`, and the first `k` cells of line `i`, are stored. -/
structure Inv (c : Cfg W α H) (ls : List (List W)) (lines first f i k : Nat) (st : List α × Bool) : Prop where
  len : st.1.length = f * (lines - first)
  val : ∀ i' k' (hi : i' < ls.length) (hk : k' < ls[i'].length), first ≤ i' → k' < f → i' < lines →
    (i' < i ∨ (i' = i ∧ k' < k)) →
    st.1[cellIndex c.order (lines - first) f (i' - first) k']? = some (cellVal c ls[i'][k'])
  miss : st.2 = true ↔ ∃ i' k', ∃ (hi : i' < ls.length) (hk : k' < ls[i'].length), first ≤ i' ∧ k' < f ∧
    i' < lines ∧ (i' < i ∨ (i' = i ∧ k' < k)) ∧ c.num ls[i'][k'] = none

theorem cellStep_eq (c : Cfg W α H) (ls : List (List W)) {lines first f i k : Nat}
    (_hl : lines ≤ ls.length) (h1 : first ≤ i) (h2 : i < lines) (hi : i < ls.length)
    (hf : ls[i].length = f) (hk : k < f)
    {st : List α × Bool} (hinv : Inv c ls lines first f i k st) :
    ∃ st', Inv c ls lines first f i (k + 1) st' ∧
      cellStep c (tokOf ls) lines first f i k st =
        if c.num (ls[i]'hi)[k] = none ∧ c.warnMissing = false then .error .parse else .ok st' := by
  have hidx : cellIndex c.order (lines - first) f (i - first) k < st.1.length := by
    rw [hinv.len]; exact cellIndex_lt _ (by omega) hk
  refine ⟨(st.1.set (cellIndex c.order (lines - first) f (i - first) k) (cellVal c (ls[i]'hi)[k]),
    st.2 || (c.num (ls[i]'hi)[k]).isNone), ?_, ?_⟩
  · refine ⟨by simpa using hinv.len, ?_, ?_⟩
    · intro i' k' hi' hk' h3 h4 h5 h6
      by_cases he : i' = i ∧ k' = k
      · obtain ⟨rfl, rfl⟩ := he
        exact List.getElem?_set_self hidx
      · rw [List.getElem?_set_ne]
        · apply hinv.val i' k' hi' hk' h3 h4 h5
          omega
        · intro heq
          have := cellIndex_inj c.order (by omega) hk (by omega) h4 heq
          exact he ⟨by omega, by omega⟩
    · simp only [Bool.or_eq_true, hinv.miss, Option.isNone_iff_eq_none]
      constructor
      · rintro (⟨i', k', hi', hk', a1, a2, a3, a4, a5⟩ | h)
        · exact ⟨i', k', hi', hk', a1, a2, a3, by omega, a5⟩
        · exact ⟨i, k, hi, by omega, h1, hk, h2, by omega, h⟩
      · rintro ⟨i', k', hi', hk', a1, a2, a3, a4, a5⟩
        by_cases he : i' = i ∧ k' = k
        · obtain ⟨rfl, rfl⟩ := he; exact Or.inr a5
        · exact Or.inl ⟨i', k', hi', hk', a1, a2, a3, by omega, a5⟩
  · unfold cellStep
    rw [tok_start ls hi]
    simp only
    rw [tok_word ls hi (by omega)]
    simp only
    rw [if_pos hidx]
    cases hn : c.num (ls[i]'hi)[k] with
    | some v => simp [cellVal, hn]
    | none => cases hw : c.warnMissing <;> simp [cellVal, hn]

theorem range_eq (n : Nat) : List.range n = List.range' 0 n := List.range_eq_range'

/-- A line is acceptable. -/
def GoodLine (c : Cfg W α H) (ls : List (List W)) (f i : Nat) : Prop :=
  ∃ hi : i < ls.length, ls[i].length = f ∧ (c.warnMissing = true ∨ ∀ w ∈ ls[i], c.num w ≠ none)

theorem Inv.next {c : Cfg W α H} {ls : List (List W)} {lines first f i : Nat} {st : List α × Bool}
    (hi : i < ls.length) (_hf : ls[i].length = f) (h : Inv c ls lines first f i f st) :
    Inv c ls lines first f (i + 1) 0 st := by
  refine ⟨h.len, ?_, ?_⟩
  · intro i' k' hi' hk' h1 h2 h3 h4
    exact h.val i' k' hi' hk' h1 h2 h3 (by omega)
  · rw [h.miss]
    constructor
    · rintro ⟨i', k', hi', hk', a1, a2, a3, a4, a5⟩
      exact ⟨i', k', hi', hk', a1, a2, a3, by omega, a5⟩
    · rintro ⟨i', k', hi', hk', a1, a2, a3, a4, a5⟩
      exact ⟨i', k', hi', hk', a1, a2, a3, by omega, a5⟩

theorem lineStep_good (c : Cfg W α H) (ls : List (List W)) {lines first f i : Nat}
    (hl : lines ≤ ls.length) (h1 : first ≤ i) (h2 : i < lines)
    {st : List α × Bool} (hinv : Inv c ls lines first f i 0 st) (hg : GoodLine c ls f i) :
    ∃ st', lineStep c (tokOf ls) lines first f i st = .ok st' ∧ Inv c ls lines first f (i + 1) 0 st' := by
  obtain ⟨hi, hf, hnum⟩ := hg
  unfold lineStep
  rw [tok_fields ls hi]
  simp only
  rw [if_neg (by simpa using hf), hf, range_eq]
  obtain ⟨s', h3, h4⟩ := foldlM_inv (fun st k => cellStep c (tokOf ls) lines first f i k st)
    (fun k st => Inv c ls lines first f i k st) (fun _ => True) 0 f st hinv
    (by
      intro k s _ hk hs _
      have hk' : k < f := by omega
      obtain ⟨st', h5, h6⟩ := cellStep_eq c ls hl h1 h2 hi hf hk' hs
      refine ⟨st', ?_, h5⟩
      rw [h6, if_neg]
      rintro ⟨h7, h8⟩
      rcases hnum with h9 | h9
      · rw [h8] at h9; cases h9
      · exact h9 _ (List.getElem_mem _) h7)
    (fun _ _ _ => trivial)
  rw [Nat.zero_add] at h4
  exact ⟨s', h3, h4.next hi hf⟩

theorem lineStep_ok (c : Cfg W α H) (ls : List (List W)) {lines first f i : Nat}
    (hl : lines ≤ ls.length) (h1 : first ≤ i) (h2 : i < lines)
    {st st' : List α × Bool} (hinv : Inv c ls lines first f i 0 st)
    (h : lineStep c (tokOf ls) lines first f i st = .ok st') :
    GoodLine c ls f i ∧ Inv c ls lines first f (i + 1) 0 st' := by
  have hi : i < ls.length := by omega
  unfold lineStep at h
  rw [tok_fields ls hi] at h
  simp only at h
  by_cases hf : ls[i].length = f
  · rw [if_neg (by simpa using hf), hf, range_eq] at h
    obtain ⟨h3, h4⟩ := foldlM_good (fun st k => cellStep c (tokOf ls) lines first f i k st)
      (fun k st => Inv c ls lines first f i k st)
      (fun k => ∀ hk : k < ls[i].length, c.num (ls[i]'hi)[k] = none → c.warnMissing = true) 0 f st st' hinv
      (by
        intro k s s' _ hk hs hok
        have hk' : k < f := by omega
        obtain ⟨st', h5, h6⟩ := cellStep_eq c ls hl h1 h2 hi hf hk' hs
        simp only [h6] at hok
        by_cases hc : c.num (ls[i]'hi)[k] = none ∧ c.warnMissing = false
        · rw [if_pos hc] at hok; cases hok
        · rw [if_neg hc] at hok
          cases hok
          refine ⟨fun _ h7 => ?_, h5⟩
          cases hw : c.warnMissing with
          | true => rfl
          | false => exact absurd ⟨h7, hw⟩ hc) h
    rw [Nat.zero_add] at h4
    refine ⟨⟨hi, hf, ?_⟩, h4.next hi hf⟩
    by_cases hw : c.warnMissing = true
    · exact Or.inl hw
    · right
      intro w hwm hn
      obtain ⟨k, hk, rfl⟩ := List.mem_iff_getElem.mp hwm
      exact hw (h3 k (Nat.zero_le _) (by omega) hk hn)
  · rw [if_pos (by simpa using hf)] at h
    cases h

theorem lineStep_not_ub (c : Cfg W α H) (ls : List (List W)) {lines first f i : Nat}
    (hl : lines ≤ ls.length) (h1 : first ≤ i) (h2 : i < lines)
    {st : List α × Bool} (hinv : Inv c ls lines first f i 0 st) :
    lineStep c (tokOf ls) lines first f i st ≠ .error .ub := by
  have hi : i < ls.length := by omega
  unfold lineStep
  rw [tok_fields ls hi]
  simp only
  by_cases hf : ls[i].length = f
  · rw [if_neg (by simpa using hf), hf, range_eq]
    intro h
    obtain ⟨k, s, _, hk, hs, he⟩ := foldlM_error (fun st k => cellStep c (tokOf ls) lines first f i k st)
      (fun k st => Inv c ls lines first f i k st) .ub 0 f st hinv
      (by
        intro k s s' _ hk hs hok
        obtain ⟨st', h5, h6⟩ := cellStep_eq c ls hl h1 h2 hi hf (by omega) hs
        simp only [h6] at hok
        split at hok
        · cases hok
        · cases hok; exact h5) h
    obtain ⟨st', h5, h6⟩ := cellStep_eq c ls hl h1 h2 hi hf (by omega) hs
    simp only [h6] at he
    split at he <;> cases he
  · rw [if_pos (by simpa using hf)]
    simp

/-- The whole loop. -/
def fillLoop (c : Cfg W α H) (ls : List (List W)) (lines first f : Nat) : Except Stop (List α × Bool) :=
  (List.range' first (lines - first)).foldlM
    (fun st i => lineStep c (tokOf ls) lines first f i st)
    (List.replicate (f * (lines - first)) c.zero, false)

theorem inv_init (c : Cfg W α H) (ls : List (List W)) (lines first f : Nat) :
    Inv c ls lines first f first 0 (List.replicate (f * (lines - first)) c.zero, false) := by
  refine ⟨by simp, ?_, ?_⟩
  · intro i' k' _ _ h1 _ _ h4; omega
  · simp only [Bool.false_eq_true, false_iff]
    rintro ⟨i', k', _, _, a1, _, _, a4, _⟩; omega

theorem fillLoop_good (c : Cfg W α H) (ls : List (List W)) {lines first f : Nat}
    (hl : lines ≤ ls.length) (hfl : first ≤ lines)
    (hg : ∀ i, first ≤ i → i < lines → GoodLine c ls f i) :
    ∃ st, fillLoop c ls lines first f = .ok st := by
  obtain ⟨s', h, _⟩ := foldlM_inv (fun st i => lineStep c (tokOf ls) lines first f i st)
    (fun i st => Inv c ls lines first f i 0 st) (fun i => GoodLine c ls f i) first (lines - first) _
    (inv_init c ls lines first f)
    (fun i s h1 h2 h3 h4 => lineStep_good c ls hl h1 (by omega) h3 h4)
    (fun i h1 h2 => hg i h1 (by omega))
  exact ⟨s', h⟩

theorem fillLoop_ok (c : Cfg W α H) (ls : List (List W)) {lines first f : Nat}
    (hl : lines ≤ ls.length) (hfl : first ≤ lines) {st : List α × Bool}
    (h : fillLoop c ls lines first f = .ok st) :
    (∀ i, first ≤ i → i < lines → GoodLine c ls f i) ∧ Inv c ls lines first f lines 0 st := by
  obtain ⟨h1, h2⟩ := foldlM_good (fun st i => lineStep c (tokOf ls) lines first f i st)
    (fun i st => Inv c ls lines first f i 0 st) (fun i => GoodLine c ls f i) first (lines - first) _ _
    (inv_init c ls lines first f)
    (fun i s s' h1 h2 h3 h4 => lineStep_ok c ls hl h1 (by omega) h3 h4) h
  refine ⟨fun i h3 h4 => h1 i h3 (by omega), ?_⟩
  rw [show first + (lines - first) = lines by omega] at h2
  exact h2

theorem fillLoop_not_ub (c : Cfg W α H) (ls : List (List W)) {lines first f : Nat}
    (hl : lines ≤ ls.length) : fillLoop c ls lines first f ≠ .error .ub := by
  intro h
  obtain ⟨i, s, h1, h2, h3, h4⟩ := foldlM_error (fun st i => lineStep c (tokOf ls) lines first f i st)
    (fun i st => Inv c ls lines first f i 0 st) .ub first (lines - first) _
    (inv_init c ls lines first f)
    (fun i s s' h1 h2 h3 h4 => (lineStep_ok c ls hl h1 (by omega) h3 h4).2) h
  exact lineStep_not_ub c ls hl h1 (by omega) h3 h4

end Verif.CsvTable
