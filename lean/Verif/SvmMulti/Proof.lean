import Verif.SvmMulti.Model
import Mathlib.Tactic.Linarith

/-
Lemmas about the collection of the one-versus-one results.
-/
namespace Verif.SvmMulti

/-! ### Counting -/

/-- Number of `x < m` with `p x`. -/
def cnt (p : Nat → Bool) (m : Nat) : Nat := ((List.range m).filter p).length

theorem cnt_succ (p : Nat → Bool) (m : Nat) : cnt p (m + 1) = cnt p m + if p m then 1 else 0 := by
  unfold cnt
  rw [List.range_succ, List.filter_append, List.length_append]
  by_cases h : p m <;> simp [h]

theorem cnt_zero (p : Nat → Bool) : cnt p 0 = 0 := rfl

theorem cnt_mono (p : Nat → Bool) {a b : Nat} (h : a ≤ b) : cnt p a ≤ cnt p b := by
  induction b with
  | zero => rw [Nat.le_zero.1 h]
  | succ b ih =>
    rcases Nat.lt_or_ge a (b + 1) with h1 | h1
    · rw [cnt_succ]; have := ih (by omega); omega
    · rw [Nat.le_antisymm h h1]

theorem cnt_lt (p : Nat → Bool) {x m : Nat} (hx : x < m) (hp : p x = true) : cnt p x < cnt p m := by
  have h1 := cnt_mono p (show x + 1 ≤ m by omega)
  rw [cnt_succ, if_pos hp] at h1
  omega

theorem cnt_inj (p : Nat → Bool) {x z : Nat} (hx : p x = true) (hz : p z = true)
    (h : cnt p x = cnt p z) : x = z := by
  rcases Nat.lt_trichotomy x z with h1 | h1 | h1
  · have := cnt_lt p h1 hx; omega
  · exact h1
  · have := cnt_lt p h1 hz; omega

theorem cnt_surj (p : Nat → Bool) (m r : Nat) (h : r < cnt p m) :
    ∃ x, x < m ∧ p x = true ∧ cnt p x = r := by
  induction m with
  | zero => simp [cnt_zero] at h
  | succ m ih =>
    rw [cnt_succ] at h
    by_cases h1 : r < cnt p m
    · obtain ⟨x, a, b, c⟩ := ih h1
      exact ⟨x, by omega, b, c⟩
    · by_cases hp : p m = true
      · rw [if_pos hp] at h
        exact ⟨m, by omega, hp, by omega⟩
      · rw [if_neg hp] at h; omega

theorem cnt_congr {p q : Nat → Bool} {m : Nat} (h : ∀ x, x < m → p x = q x) : cnt p m = cnt q m := by
  induction m with
  | zero => rfl
  | succ m ih => rw [cnt_succ, cnt_succ, ih fun x hx => h x (by omega), h m (by omega)]

theorem cnt_false {p : Nat → Bool} {m : Nat} (h : ∀ x, p x = false) : cnt p m = 0 := by
  induction m with
  | zero => rfl
  | succ m ih => rw [cnt_succ, ih, h m]; rfl

/-- Marking one more entry. -/
theorem cnt_mark (p q : Nat → Bool) (x m : Nat) (hx : x < m) (hq : q x = false) (hp : p x = true)
    (h : ∀ z, z ≠ x → p z = q z) : cnt p m = cnt q m + 1 := by
  induction m with
  | zero => omega
  | succ m ih =>
    rw [cnt_succ, cnt_succ]
    by_cases hm : x = m
    · subst hm
      rw [cnt_congr (q := q) (fun z hz => h z (by omega)), hp, hq]
      simp
    · rw [ih (by omega), h m (by omega)]
      omega

theorem filter_get (p : Nat → Bool) {x m : Nat} (hx : x < m) (hp : p x = true) :
    ((List.range m).filter p)[cnt p x]? = some x := by
  induction m with
  | zero => omega
  | succ m ih =>
    rw [List.range_succ, List.filter_append]
    by_cases h : x = m
    · subst h
      rw [List.getElem?_append_right (by exact le_refl _)]
      simp [cnt, hp]
    · have := cnt_lt p (show x < m by omega) hp
      rw [List.getElem?_append_left (by exact this)]
      exact ih (by omega)

/-- A loop over the positions of a filtered range as a loop over the range. -/
theorem foldlM_positions {σ : Type} (p : Nat → Bool) (f : σ → Nat → Option σ) (s : σ) (m : Nat) :
    (List.range (cnt p m)).foldlM f s =
      (List.range m).foldlM (fun s x => if p x then f s (cnt p x) else some s) s := by
  induction m with
  | zero => rfl
  | succ m ih =>
    rw [List.range_succ (n := m), List.foldlM_append, ← ih, cnt_succ]
    by_cases h : p m = true
    · rw [if_pos h, List.range_succ, List.foldlM_append]
      simp [h]
    · rw [if_neg h]
      simp [h]

/-- Loops over a range with an invariant that always succeed. -/
theorem foldlM_range {σ : Type} (f : σ → Nat → Option σ) (I : Nat → σ → Prop) (m : Nat) (s : σ)
    (h0 : I 0 s) (hs : ∀ k s, k < m → I k s → ∃ s', f s k = some s' ∧ I (k + 1) s') :
    ∃ s', (List.range m).foldlM f s = some s' ∧ I m s' := by
  induction m with
  | zero => exact ⟨s, rfl, h0⟩
  | succ m ih =>
    obtain ⟨s1, e1, i1⟩ := ih fun k s hk => hs k s (by omega)
    obtain ⟨s2, e2, i2⟩ := hs m s1 (by omega) i1
    refine ⟨s2, ?_, i2⟩
    rw [List.range_succ, List.foldlM_append, e1]
    simp [e2]

/-! ### Columns -/

theorem startCol_succ (per : Nat → Nat) (c : Nat) : startCol per (c + 1) = startCol per c + per c := by
  simp [startCol, List.range_succ]

theorem startCol_mono (per : Nat → Nat) {a b : Nat} (h : a ≤ b) : startCol per a ≤ startCol per b := by
  induction b with
  | zero => rw [Nat.le_zero.1 h]
  | succ b ih =>
    rcases Nat.lt_or_ge a (b + 1) with h1 | h1
    · rw [startCol_succ]; have := ih (by omega); omega
    · rw [Nat.le_antisymm h h1]

/-- Entries of `p` with label `c`. -/
def ofClass (p : Nat → Bool) (y : Nat → Nat) (c : Nat) : Nat → Bool := fun x => p x && decide (y x = c)

theorem ofClass_iff {p : Nat → Bool} {y : Nat → Nat} {c x : Nat} :
    ofClass p y c x = true ↔ p x = true ∧ y x = c := by simp [ofClass]

/-- Column of sample `x`. -/
def col (p : Nat → Bool) (y : Nat → Nat) (per : Nat → Nat) (x : Nat) : Nat :=
  startCol per (y x) + cnt (ofClass p y (y x)) x

structure Counts (nrow K : Nat) (y : Nat → Nat) (g : Gather) : Prop where
  nsv : g.nsv = cnt g.isSv nrow
  per : ∀ c, g.per c = cnt (ofClass g.isSv y c) nrow
  lab : ∀ x, x < nrow → y x < K

theorem startCol_total (nrow K : Nat) (p : Nat → Bool) (y : Nat → Nat) (hy : ∀ x, x < nrow → y x < K) :
    startCol (fun c => cnt (ofClass p y c) nrow) K = cnt p nrow := by
  induction nrow with
  | zero =>
    have : ∀ L, startCol (fun c => cnt (ofClass p y c) 0) L = 0 := by
      intro L
      induction L with
      | zero => rfl
      | succ L ih => rw [startCol_succ, ih]; rfl
    exact this K
  | succ m ih =>
    rw [cnt_succ, ← ih fun x hx => hy x (by omega)]
    have hm := hy m (by omega)
    have key : ∀ L, startCol (fun c => cnt (ofClass p y c) (m + 1)) L =
        startCol (fun c => cnt (ofClass p y c) m) L + if y m < L then (if p m then 1 else 0) else 0 := by
      intro L
      induction L with
      | zero => rfl
      | succ L ihL =>
        rw [startCol_succ, startCol_succ, ihL, cnt_succ]
        have e : ofClass p y L m = (p m && decide (y m = L)) := rfl
        rw [e]
        rcases Nat.lt_trichotomy (y m) L with h1 | h1 | h1
        · have h2 : y m < L + 1 := by omega
          have h3 : y m ≠ L := by omega
          simp only [h1, h2, h3, if_true, decide_false, Bool.and_false, Bool.false_eq_true, if_false]
          omega
        · simp only [h1, Nat.lt_irrefl, Nat.lt_add_one, if_true, if_false, decide_true, Bool.and_true]
          omega
        · have h2 : ¬ y m < L + 1 := by omega
          have h3 : ¬ y m < L := by omega
          have h4 : y m ≠ L := by omega
          simp only [h2, h3, h4, if_false, decide_false, Bool.and_false, Bool.false_eq_true]
          omega
    rw [key K, if_pos hm]

variable {nrow K : Nat} {y : Nat → Nat} {g : Gather}

theorem Counts.total (h : Counts nrow K y g) : startCol g.per K = g.nsv := by
  rw [h.nsv, ← startCol_total nrow K g.isSv y h.lab]
  congr 1
  funext c
  exact h.per c

theorem Counts.col_block (h : Counts nrow K y g) {x : Nat} (hx : x < nrow) (hs : g.isSv x = true) :
    startCol g.per (y x) ≤ col g.isSv y g.per x ∧ col g.isSv y g.per x < startCol g.per (y x + 1) := by
  rw [startCol_succ, h.per]
  have := cnt_lt (ofClass g.isSv y (y x)) hx (ofClass_iff.2 ⟨hs, rfl⟩)
  unfold col
  omega

theorem Counts.col_lt (h : Counts nrow K y g) {x : Nat} (hx : x < nrow) (hs : g.isSv x = true) :
    col g.isSv y g.per x < g.nsv := by
  have h1 := (h.col_block hx hs).2
  have h2 := startCol_mono g.per (show y x + 1 ≤ K from h.lab x hx)
  rw [h.total] at h2
  omega

theorem Counts.col_mono (h : Counts nrow K y g) {x z : Nat} (hx : x < nrow) (hz : z < nrow)
    (hsx : g.isSv x = true) (hsz : g.isSv z = true) (hlt : y x < y z ∨ (y x = y z ∧ x < z)) :
    col g.isSv y g.per x < col g.isSv y g.per z := by
  rcases hlt with h1 | ⟨h1, h2⟩
  · have a := (h.col_block hx hsx).2
    have b := (h.col_block hz hsz).1
    have c := startCol_mono g.per (show y x + 1 ≤ y z from h1)
    omega
  · have := cnt_lt (ofClass g.isSv y (y x)) h2 (ofClass_iff.2 ⟨hsx, rfl⟩)
    unfold col
    rw [← h1]
    omega

theorem Counts.col_inj (h : Counts nrow K y g) {x z : Nat} (hx : x < nrow) (hz : z < nrow)
    (hsx : g.isSv x = true) (hsz : g.isSv z = true) (he : col g.isSv y g.per x = col g.isSv y g.per z) :
    x = z := by
  by_contra hne
  rcases Nat.lt_trichotomy (y x) (y z) with h1 | h1 | h1
  · have := h.col_mono hx hz hsx hsz (Or.inl h1); omega
  · rcases Nat.lt_or_gt_of_ne hne with h2 | h2
    · have := h.col_mono hx hz hsx hsz (Or.inr ⟨h1, h2⟩); omega
    · have := h.col_mono hz hx hsz hsx (Or.inr ⟨h1.symm, h2⟩); omega
  · have := h.col_mono hz hx hsz hsx (Or.inl h1); omega

theorem startCol_find (per : Nat → Nat) (k L : Nat) (h : k < startCol per L) :
    ∃ c, c < L ∧ startCol per c ≤ k ∧ k < startCol per (c + 1) := by
  induction L with
  | zero => simp [startCol] at h
  | succ L ih =>
    by_cases h1 : k < startCol per L
    · obtain ⟨c, a, b⟩ := ih h1
      exact ⟨c, by omega, b⟩
    · exact ⟨L, by omega, by omega, h⟩

theorem Counts.col_surj (h : Counts nrow K y g) {k : Nat} (hk : k < g.nsv) :
    ∃ x, x < nrow ∧ g.isSv x = true ∧ col g.isSv y g.per x = k := by
  rw [← h.total] at hk
  obtain ⟨c, hc, h1, h2⟩ := startCol_find g.per k K hk
  rw [startCol_succ, h.per] at h2
  obtain ⟨x, hx, hp, he⟩ := cnt_surj (ofClass g.isSv y c) nrow (k - startCol g.per c) (by omega)
  obtain ⟨hs, hy⟩ := ofClass_iff.1 hp
  refine ⟨x, hx, hs, ?_⟩
  unfold col
  rw [hy, he]
  omega

/-! ### Support indexes -/

theorem index_loop (h : Counts nrow K y g) (index0 : Nat → Nat) :
    ∃ r, (List.range nrow).foldlM (indexOne g.nsv g.isSv y) (startCol g.per, index0) = some r ∧
      ∀ x, x < nrow → g.isSv x = true → r.2 (col g.isSv y g.per x) = x := by
  obtain ⟨r, e, i⟩ := foldlM_range (indexOne g.nsv g.isSv y)
    (fun m s => m ≤ nrow → (∀ c, s.1 c = startCol g.per c + cnt (ofClass g.isSv y c) m) ∧
      ∀ x, x < m → g.isSv x = true → s.2 (col g.isSv y g.per x) = x) nrow (startCol g.per, index0)
    (fun _ => ⟨fun c => by simp [cnt_zero], fun x hx => by omega⟩)
    (by
      intro m s hm hi
      obtain ⟨i1, i2⟩ := hi (by omega)
      unfold indexOne
      by_cases hs : g.isSv m = true
      · rw [if_pos hs]
        have hcol : s.1 (y m) = col g.isSv y g.per m := by rw [i1]; rfl
        have hlt := h.col_lt hm hs
        rw [hcol, put, if_pos hlt]
        refine ⟨_, rfl, fun _ => ⟨?_, ?_⟩⟩
        · intro c
          show (if c = y m then s.1 c + 1 else s.1 c) = _
          rw [cnt_succ, i1]
          by_cases hc : c = y m
          · rw [if_pos hc, if_pos (ofClass_iff.2 ⟨hs, hc.symm⟩)]; omega
          · rw [if_neg hc, if_neg (by rw [ofClass_iff]; exact fun h => hc h.2.symm)]; omega
        · intro x hx hsx
          show (if col g.isSv y g.per x = col g.isSv y g.per m then m else _) = x
          by_cases he : col g.isSv y g.per x = col g.isSv y g.per m
          · rw [if_pos he]
            exact (h.col_inj (by omega) hm hsx hs he).symm
          · rw [if_neg he]
            have : x ≠ m := fun hxm => he (by rw [hxm])
            exact i2 x (by omega) hsx
      · rw [if_neg hs]
        refine ⟨s, rfl, fun _ => ⟨?_, ?_⟩⟩
        · intro c
          rw [cnt_succ, i1, if_neg (by rw [ofClass_iff]; exact fun h => hs h.1)]
          omega
        · intro x hx hsx
          have : x ≠ m := fun hxm => hs (by rw [← hxm]; exact hsx)
          exact i2 x (by omega) hsx)
  exact ⟨r, e, (i (le_refl _)).2⟩

/-! ### Coefficients -/

variable {F : Type} [Field F] [LinearOrder F]

/-- Rows of classes `i` and `j`. -/
def inPair (y : Nat → Nat) (i j : Nat) : Nat → Bool := fun r => decide (y r = i) || decide (y r = j)

/-- A classifier as `set_data` creates it, with any results. -/
structure Made (nrow : Nat) (y : Nat → Nat) (i j : Nat) (c : Clf F) : Prop where
  pos : c.pos = i
  neg : c.neg = j
  idx : c.idx = (List.range nrow).filter (inPair y i j)
  isPos : c.isPos = c.idx.map fun r => decide (y r = i)

omit [Field F] [LinearOrder F] in
theorem Made.get {i j : Nat} {c : Clf F} (h : Made nrow y i j c) {x : Nat} (hx : x < nrow)
    (hp : inPair y i j x = true) :
    c.idx.getD (cnt (inPair y i j) x) 0 = x ∧
    c.isPos.getD (cnt (inPair y i j) x) false = decide (y x = i) := by
  have e := filter_get (inPair y i j) hx hp
  rw [← h.idx] at e
  constructor
  · simp [List.getD, e]
  · simp [List.getD, h.isPos, e]

omit [Field F] [LinearOrder F] in
theorem Made.length {i j : Nat} {c : Clf F} (h : Made nrow y i j c) :
    c.idx.length = cnt (inPair y i j) nrow := by rw [h.idx]; rfl

theorem addr_eq {d a b r s : Nat} (hr : r < d) (hs : s < d) (h : d * a + r = d * b + s) : a = b ∧ r = s := by
  have h1 : (d * a + r) / d = a := by
    rw [Nat.mul_add_div (by omega), Nat.div_eq_of_lt hr]; rfl
  have h2 : (d * b + s) / d = b := by
    rw [Nat.mul_add_div (by omega), Nat.div_eq_of_lt hs]; rfl
  have h3 : a = b := by rw [← h1, ← h2, h]
  exact ⟨h3, by rw [h3] at h; omega⟩

theorem addr_lt {d a r n : Nat} (hr : r < d) (ha : a < n) : d * a + r < d * n := by
  have : d * (a + 1) ≤ d * n := Nat.mul_le_mul_left d ha
  rw [Nat.mul_add] at this
  omega

omit [Field F] [LinearOrder F] in
/-- One classifier writes the multipliers of its support vectors into one row per class
and nothing else. -/
theorem fill_clf (h : Counts nrow K y g) {i j : Nat} (hij : i ≠ j) {c : Clf F} (hc : Made nrow y i j c)
    (rows : Nat → Nat) (coef : Nat → F) (hri : rows i < K - 1) (hrj : rows j < K - 1) :
    ∃ r, fillClf K g.nsv g.isSv g.per (rows, coef) c = some r ∧
      (∀ k, r.1 k = if k = i ∨ k = j then rows k + 1 else rows k) ∧
      (∀ x, x < nrow → g.isSv x = true → (y x = i ∨ y x = j) →
        r.2 ((K - 1) * col g.isSv y g.per x + rows (y x)) = c.alpha (cnt (inPair y i j) x)) ∧
      (∀ x q, x < nrow → g.isSv x = true → q < K - 1 → ((y x = i ∨ y x = j) → q ≠ rows (y x)) →
        r.2 ((K - 1) * col g.isSv y g.per x + q) = coef ((K - 1) * col g.isSv y g.per x + q)) := by
  obtain ⟨r, e, hr⟩ := foldlM_range
    (fun s x => if inPair y i j x then
      fillOne K g.nsv g.isSv c (rows i) (rows j) s (cnt (inPair y i j) x) else some s)
    (fun m (s : Fill F) => m ≤ nrow →
      s.ci = startCol g.per i + cnt (ofClass g.isSv y i) m ∧
      s.cj = startCol g.per j + cnt (ofClass g.isSv y j) m ∧
      (∀ x, x < m → g.isSv x = true → (y x = i ∨ y x = j) →
        s.coef ((K - 1) * col g.isSv y g.per x + rows (y x)) = c.alpha (cnt (inPair y i j) x)) ∧
      (∀ x q, x < nrow → g.isSv x = true → q < K - 1 →
        ((y x = i ∨ y x = j) → q = rows (y x) → m ≤ x) →
        s.coef ((K - 1) * col g.isSv y g.per x + q) = coef ((K - 1) * col g.isSv y g.per x + q)))
    nrow { ci := startCol g.per i, cj := startCol g.per j, coef := coef }
    (fun _ => ⟨rfl, rfl, fun x hx => by omega, fun _ _ _ _ _ _ => rfl⟩)
    (by
      intro m s hm hi
      obtain ⟨i1, i2, i3, i4⟩ := hi (by omega)
      by_cases hp : inPair y i j m = true
      · rw [if_pos hp]
        obtain ⟨g1, g2⟩ := hc.get hm hp
        have hp' : y m = i ∨ y m = j := by simpa [inPair] using hp
        unfold fillOne
        rw [g1, g2]
        by_cases hs : g.isSv m = true
        · rw [if_pos hs]
          have hlt := h.col_lt hm hs
          have hrow : rows (y m) < K - 1 := by rcases hp' with h | h <;> rw [h] <;> assumption
          have haddr : (K - 1) * col g.isSv y g.per m + rows (y m) < (K - 1) * g.nsv := addr_lt hrow hlt
          have fin : ∀ (cf : Nat → F),
              cf = (fun z => if z = (K - 1) * col g.isSv y g.per m + rows (y m) then
                c.alpha (cnt (inPair y i j) m) else s.coef z) →
              (∀ x, x < m + 1 → g.isSv x = true → (y x = i ∨ y x = j) →
                cf ((K - 1) * col g.isSv y g.per x + rows (y x)) = c.alpha (cnt (inPair y i j) x)) ∧
              (∀ x q, x < nrow → g.isSv x = true → q < K - 1 →
                ((y x = i ∨ y x = j) → q = rows (y x) → m + 1 ≤ x) →
                cf ((K - 1) * col g.isSv y g.per x + q) =
                  coef ((K - 1) * col g.isSv y g.per x + q)) := by
            intro cf hcf
            subst hcf
            constructor
            · intro x hx hsx hyx
              have hrx : rows (y x) < K - 1 := by rcases hyx with h | h <;> rw [h] <;> assumption
              by_cases hxm : x = m
              · subst hxm; simp
              · show (if _ then _ else _) = _
                rw [if_neg]
                · exact i3 x (by omega) hsx hyx
                · intro he
                  exact hxm (h.col_inj (by omega) hm hsx hs (addr_eq hrx hrow he).1)
            · intro x q hx hsx hq hne
              show (if _ then _ else _) = _
              rw [if_neg]
              · exact i4 x q hx hsx hq fun a b => by have := hne a b; omega
              · intro he
                obtain ⟨he1, he2⟩ := addr_eq hq hrow he
                have hxm := h.col_inj hx hm hsx hs he1
                subst hxm
                have := hne hp' he2
                omega
          by_cases hi' : y m = i
          · have hj' : y m ≠ j := fun h => hij (by rw [← hi', h])
            have hcol : s.ci = col g.isSv y g.per m := by rw [i1, col, hi']
            rw [hi'] at haddr
            simp only [hi', decide_true, if_true, put, hcol, if_pos haddr, Option.bind_eq_bind,
              Option.bind_some]
            refine ⟨_, rfl, fun _ => ⟨?_, ?_, fin _ (by rw [hi'])⟩⟩
            · show _ + 1 = _
              rw [cnt_succ, if_pos (ofClass_iff.2 ⟨hs, hi'⟩), ← hcol, i1]; omega
            · show s.cj = _
              rw [cnt_succ, if_neg (by rw [ofClass_iff]; exact fun h => hj' h.2), i2]; omega
          · have hj' : y m = j := by rcases hp' with h | h; exact absurd h hi'; exact h
            have hcol : s.cj = col g.isSv y g.per m := by rw [i2, col, hj']
            rw [hj'] at haddr
            have hji : ¬ j = i := fun h => hij h.symm
            simp only [hj', hji, decide_false, Bool.false_eq_true, if_false, put, hcol, if_pos haddr,
              Option.bind_eq_bind, Option.bind_some]
            refine ⟨_, rfl, fun _ => ⟨?_, ?_, fin _ (by rw [hj'])⟩⟩
            · show s.ci = _
              rw [cnt_succ, if_neg (by rw [ofClass_iff]; exact fun h => hi' h.2), i1]; omega
            · show _ + 1 = _
              rw [cnt_succ, if_pos (ofClass_iff.2 ⟨hs, hj'⟩), ← hcol, i2]; omega
        · rw [if_neg hs]
          refine ⟨s, rfl, fun _ => ⟨?_, ?_, ?_, ?_⟩⟩
          · rw [cnt_succ, if_neg (by rw [ofClass_iff]; exact fun h => hs h.1), i1]; omega
          · rw [cnt_succ, if_neg (by rw [ofClass_iff]; exact fun h => hs h.1), i2]; omega
          · intro x hx hsx hyx
            have : x ≠ m := fun hxm => hs (by rw [← hxm]; exact hsx)
            exact i3 x (by omega) hsx hyx
          · intro x q hx hsx hq hne
            exact i4 x q hx hsx hq fun a b => by have := hne a b; omega
      · rw [if_neg hp]
        have hp' : ¬ (y m = i ∨ y m = j) := by simpa [inPair] using hp
        refine ⟨s, rfl, fun _ => ⟨?_, ?_, ?_, ?_⟩⟩
        · rw [cnt_succ, if_neg (by rw [ofClass_iff]; exact fun h => hp' (Or.inl h.2)), i1]; omega
        · rw [cnt_succ, if_neg (by rw [ofClass_iff]; exact fun h => hp' (Or.inr h.2)), i2]; omega
        · intro x hx hsx hyx
          have : x ≠ m := fun hxm => hp' (by rw [← hxm]; exact hyx)
          exact i3 x (by omega) hsx hyx
        · intro x q hx hsx hq hne
          exact i4 x q hx hsx hq fun a b => by have := hne a b; omega)
  obtain ⟨_, _, h3, h4⟩ := hr (le_refl _)
  refine ⟨(fun k => if k = c.pos ∨ k = c.neg then rows k + 1 else rows k, r.coef), ?_, ?_, h3, ?_⟩
  · unfold fillClf
    rw [hc.length, foldlM_positions]
    simp only [hc.pos, hc.neg]
    rw [e]
    rfl
  · intro k
    show (if k = c.pos ∨ k = c.neg then rows k + 1 else rows k) = _
    rw [hc.pos, hc.neg]
  · intro x q hx hsx hq hne
    exact h4 x q hx hsx hq fun a b => absurd b (hne a)

/-- The rows of the pairs before `(i, j)` are filled. -/
structure Filled (nrow K : Nat) (y : Nat → Nat) (g : Gather) (G : Nat → Nat → Clf F) (i j : Nat)
    (s : (Nat → Nat) × (Nat → F)) : Prop where
  rows : ∀ c, c < K → s.1 c = if c < i then K - 1 else if c = i then j - 1 else
    i + if c < j then 1 else 0
  done : ∀ a b, a < b → b < K → (a < i ∨ (a = i ∧ b < j)) → ∀ x, x < nrow → g.isSv x = true →
    (y x = a → s.2 ((K - 1) * col g.isSv y g.per x + (b - 1)) = (G a b).alpha (cnt (inPair y a b) x)) ∧
    (y x = b → s.2 ((K - 1) * col g.isSv y g.per x + a) = (G a b).alpha (cnt (inPair y a b) x))

omit [Field F] [LinearOrder F] in
theorem fill_step (h : Counts nrow K y g) {G : Nat → Nat → Clf F}
    (hG : ∀ a b, a < b → b < K → Made nrow y a b (G a b)) {i j : Nat} (hij : i < j) (hj : j < K)
    {s : (Nat → Nat) × (Nat → F)} (hs : Filled nrow K y g G i j s) :
    ∃ s', fillClf K g.nsv g.isSv g.per s (G i j) = some s' ∧ Filled nrow K y g G i (j + 1) s' := by
  have ri : s.1 i = j - 1 := by rw [hs.rows i (by omega)]; simp
  have rj : s.1 j = i := by
    rw [hs.rows j hj, if_neg (by omega), if_neg (by omega), if_neg (by omega)]; rfl
  obtain ⟨r, e, h1, h2, h3⟩ := fill_clf h (show i ≠ j by omega) (hG i j hij hj) s.1 s.2
    (by rw [ri]; omega) (by rw [rj]; omega)
  refine ⟨r, e, ?_, ?_⟩
  · intro c hc
    rw [h1, hs.rows c hc]
    by_cases c1 : c < i
    · rw [if_pos c1, if_pos c1, if_neg (by omega)]
    · rw [if_neg c1, if_neg c1]
      by_cases c2 : c = i
      · rw [if_pos c2, if_pos c2, if_pos (Or.inl c2)]; omega
      · rw [if_neg c2, if_neg c2]
        by_cases c3 : c = j
        · rw [if_pos (Or.inr c3), if_neg (by omega), if_pos (by omega)]
        · rw [if_neg (by omega)]
          by_cases c4 : c < j
          · rw [if_pos c4, if_pos (by omega)]
          · rw [if_neg c4, if_neg (by omega)]
  · intro a b hab hb hlt x hx hsx
    by_cases he : a = i ∧ b = j
    · obtain ⟨rfl, rfl⟩ := he
      constructor
      · intro hy
        have := h2 x hx hsx (Or.inl hy)
        rw [hy, ri] at this
        exact this
      · intro hy
        have := h2 x hx hsx (Or.inr hy)
        rw [hy, rj] at this
        exact this
    · have hold := hs.done a b hab hb (by omega) x hx hsx
      constructor
      · intro hy
        rw [h3 x (b - 1) hx hsx (by omega)]
        · exact hold.1 hy
        · rw [hy]
          rintro (h | h)
          · rw [h, ri]; omega
          · rw [h, rj]; omega
      · intro hy
        rw [h3 x a hx hsx (by omega)]
        · exact hold.2 hy
        · rw [hy]
          rintro (h | h)
          · rw [h, ri]; omega
          · rw [h, rj]; omega

omit [Field F] [LinearOrder F] in
theorem fill_all (h : Counts nrow K y g) {G : Nat → Nat → Clf F}
    (hG : ∀ a b, a < b → b < K → Made nrow y a b (G a b)) (coef0 : Nat → F) :
    ∃ s, ((pairs K).map fun p => G p.1 p.2).foldlM (fillClf K g.nsv g.isSv g.per) (fun _ => 0, coef0) =
      some s ∧
      ∀ a b, a < b → b < K → ∀ x, x < nrow → g.isSv x = true →
        (y x = a → s.2 ((K - 1) * col g.isSv y g.per x + (b - 1)) = (G a b).alpha (cnt (inPair y a b) x)) ∧
        (y x = b → s.2 ((K - 1) * col g.isSv y g.per x + a) = (G a b).alpha (cnt (inPair y a b) x)) := by
  have inner : ∀ i L s, i + 1 + L ≤ K → Filled nrow K y g G i (i + 1) s →
      ∃ s', ((List.range' (i + 1) L).map fun j => G i j).foldlM (fillClf K g.nsv g.isSv g.per) s =
        some s' ∧ Filled nrow K y g G i (i + 1 + L) s' := by
    intro i L s
    induction L with
    | zero => exact fun _ hs => ⟨s, rfl, hs⟩
    | succ L ih =>
      intro hL hs
      obtain ⟨s1, e1, f1⟩ := ih (by omega) hs
      obtain ⟨s2, e2, f2⟩ := fill_step h hG (show i < i + 1 + L by omega) (by omega) f1
      refine ⟨s2, ?_, f2⟩
      rw [List.range'_concat, List.map_append, List.foldlM_append, e1]
      simp [e2]
  have outer : ∀ I, I ≤ K → ∃ s,
      (((List.range I).flatMap fun i => (List.range' (i + 1) (K - (i + 1))).map fun j => (i, j)).map
        fun p => G p.1 p.2).foldlM (fillClf K g.nsv g.isSv g.per) (fun _ => 0, coef0) = some s ∧
      Filled nrow K y g G I (I + 1) s := by
    intro I
    induction I with
    | zero =>
      intro _
      refine ⟨_, rfl, ?_, ?_⟩
      · intro c hc
        show 0 = _
        rw [if_neg (by omega)]
        by_cases c0 : c = 0
        · rw [if_pos c0]
        · rw [if_neg c0, if_neg (by omega)]
      · intro a b _ _ hlt; omega
    | succ I ih =>
      intro hI
      obtain ⟨s1, e1, f1⟩ := ih (by omega)
      obtain ⟨s2, e2, f2⟩ := inner I (K - (I + 1)) s1 (by omega) f1
      refine ⟨s2, ?_, ?_, ?_⟩
      · rw [List.range_succ, List.flatMap_append, List.map_append, List.foldlM_append, e1]
        simp only [Option.bind_eq_bind, Option.bind_some, List.flatMap_cons, List.flatMap_nil,
          List.append_nil, List.map_map]
        exact e2
      · intro c hc
        rw [f2.rows c hc]
        by_cases c1 : c < I
        · rw [if_pos c1, if_pos (by omega)]
        · rw [if_neg c1]
          by_cases c2 : c = I
          · rw [if_pos c2, if_pos (by omega)]; omega
          · rw [if_neg c2, if_pos (by omega), if_neg (by omega)]
            by_cases c3 : c = I + 1
            · rw [if_pos c3]; omega
            · rw [if_neg c3, if_neg (by omega)]
      · intro a b hab hb hlt x hx hsx
        exact f2.done a b hab hb (by omega) x hx hsx
  obtain ⟨s, e, f⟩ := outer K (le_refl _)
  exact ⟨s, e, fun a b hab hb x hx hsx => f.done a b hab hb (by omega) x hx hsx⟩

/-! ### Gathering -/

omit [Field F] [LinearOrder F] in
theorem gatherOne_counts (h : Counts nrow K y g) (c : Clf F) (cls s : Nat)
    (hx : c.idx.getD s 0 < nrow) (hc : y (c.idx.getD s 0) = cls) :
    Counts nrow K y (gatherOne c cls g s) ∧
    ∀ z, (gatherOne c cls g s).isSv z = true ↔ (g.isSv z = true ∨ z = c.idx.getD s 0) := by
  unfold gatherOne
  generalize c.idx.getD s 0 = x at *
  simp only
  by_cases hs : g.isSv x = true
  · rw [if_pos hs]
    refine ⟨h, fun z => ⟨Or.inl, ?_⟩⟩
    rintro (h | h)
    · exact h
    · rw [h]; exact hs
  · rw [if_neg hs]
    have hs' : g.isSv x = false := by simpa using hs
    refine ⟨⟨?_, ?_, h.lab⟩, ?_⟩
    · show g.nsv + 1 = _
      rw [h.nsv]
      exact (cnt_mark _ _ x nrow hx hs' (by simp) (fun z hz => by simp [hz])).symm
    · intro k
      show (if k = cls then g.per k + 1 else g.per k) = _
      rw [h.per]
      by_cases hk : k = cls
      · rw [if_pos hk]
        refine (cnt_mark _ _ x nrow hx (by simp [ofClass, hs']) (by simp [ofClass, hc, hk])
          (fun z hz => by simp [ofClass, hz])).symm
      · rw [if_neg hk]
        refine cnt_congr fun z hz => ?_
        by_cases hzx : z = x
        · subst hzx
          have : y z ≠ k := fun h => hk (by rw [← h, hc])
          simp [ofClass, this]
        · simp [ofClass, hzx]
    · intro z
      by_cases hz : z = x <;> simp [hz]

omit [Field F] [LinearOrder F] in
theorem gatherList_counts (c : Clf F) (cls : Nat) (l : List Nat) :
    ∀ g, Counts nrow K y g → (∀ s, s ∈ l → c.idx.getD s 0 < nrow ∧ y (c.idx.getD s 0) = cls) →
    Counts nrow K y (l.foldl (gatherOne c cls) g) ∧
    ∀ z, (l.foldl (gatherOne c cls) g).isSv z = true ↔
      (g.isSv z = true ∨ ∃ s, s ∈ l ∧ z = c.idx.getD s 0) := by
  induction l with
  | nil => intro g h _; exact ⟨h, fun z => by simp⟩
  | cons t l ih =>
    intro g h hl
    obtain ⟨a, b⟩ := gatherOne_counts h c cls t (hl t (by simp)).1 (hl t (by simp)).2
    obtain ⟨a', b'⟩ := ih _ a fun s hs => hl s (by simp [hs])
    refine ⟨a', fun z => ?_⟩
    rw [List.foldl_cons, b', b]
    simp only [List.mem_cons, exists_eq_or_imp, or_assoc]

/-- Support positions of a classifier are in their class. -/
def CleanSup (nrow : Nat) (y : Nat → Nat) (c : Clf F) : Prop :=
  (∀ s, s ∈ c.supPos → c.idx.getD s 0 < nrow ∧ y (c.idx.getD s 0) = c.pos) ∧
  ∀ s, s ∈ c.supNeg → c.idx.getD s 0 < nrow ∧ y (c.idx.getD s 0) = c.neg

omit [Field F] [LinearOrder F] in
theorem gather_counts (cs : List (Clf F)) (hy : ∀ x, x < nrow → y x < K)
    (hc : ∀ c, c ∈ cs → CleanSup nrow y c) :
    Counts nrow K y (gather cs) ∧ ∀ z, (gather cs).isSv z = true ↔
      ∃ c, c ∈ cs ∧ ∃ s, (s ∈ c.supPos ∨ s ∈ c.supNeg) ∧ z = c.idx.getD s 0 := by
  have key : ∀ (cs : List (Clf F)) (g : Gather), Counts nrow K y g → (∀ c, c ∈ cs → CleanSup nrow y c) →
      Counts nrow K y (cs.foldl (fun g c =>
        let g := c.supPos.foldl (gatherOne c c.pos) g
        c.supNeg.foldl (gatherOne c c.neg) g) g) ∧
      ∀ z, (cs.foldl (fun g c =>
        let g := c.supPos.foldl (gatherOne c c.pos) g
        c.supNeg.foldl (gatherOne c c.neg) g) g).isSv z = true ↔ (g.isSv z = true ∨
        ∃ c, c ∈ cs ∧ ∃ s, (s ∈ c.supPos ∨ s ∈ c.supNeg) ∧ z = c.idx.getD s 0) := by
    intro cs
    induction cs with
    | nil => intro g h _; exact ⟨h, fun z => by simp⟩
    | cons c cs ih =>
      intro g h hc
      obtain ⟨h1, h2⟩ := hc c (by simp)
      obtain ⟨a1, b1⟩ := gatherList_counts c c.pos c.supPos g h h1
      obtain ⟨a2, b2⟩ := gatherList_counts c c.neg c.supNeg _ a1 h2
      obtain ⟨a3, b3⟩ := ih _ a2 fun c' hc' => hc c' (by simp [hc'])
      refine ⟨a3, fun z => ?_⟩
      rw [List.foldl_cons, b3, b2, b1]
      constructor
      · rintro (((h | ⟨s, hs, e⟩) | ⟨s, hs, e⟩) | ⟨c', hc', r⟩)
        · exact Or.inl h
        · exact Or.inr ⟨c, by simp, s, Or.inl hs, e⟩
        · exact Or.inr ⟨c, by simp, s, Or.inr hs, e⟩
        · exact Or.inr ⟨c', by simp [hc'], r⟩
      · rintro (h | ⟨c', hc', s, hs, e⟩)
        · exact Or.inl (Or.inl (Or.inl h))
        · rcases List.mem_cons.1 hc' with rfl | hc'
          · rcases hs with hs | hs
            · exact Or.inl (Or.inl (Or.inr ⟨s, hs, e⟩))
            · exact Or.inl (Or.inr ⟨s, hs, e⟩)
          · exact Or.inr ⟨c', hc', s, hs, e⟩
  obtain ⟨a, b⟩ := key cs { isSv := fun _ => false, nsv := 0, per := fun _ => 0 }
    ⟨by
      show 0 = cnt (fun _ => false) nrow
      exact (cnt_false fun _ => rfl).symm, fun c => by
      show 0 = cnt (ofClass (fun _ => false) y c) nrow
      exact (cnt_false fun _ => rfl).symm, hy⟩ hc
  refine ⟨a, fun z => ?_⟩
  have := b z
  simpa [gather] using this

/-! ### The classifiers of `set_data` -/

theorem mem_pairs {K a b : Nat} : (a, b) ∈ pairs K ↔ a < b ∧ b < K := by
  simp only [pairs, List.mem_flatMap, List.mem_range, List.mem_map, List.mem_range'_1, Prod.mk.injEq]
  constructor
  · rintro ⟨i, hi, j, hj, rfl, rfl⟩
    omega
  · intro h
    exact ⟨a, by omega, b, by omega, rfl, rfl⟩

theorem mapM_some {α β : Type} {f : α → Option β} {l : List α} {r : List β} (h : l.mapM f = some r)
    (G : α → β) (hG : ∀ x ∈ l, ∀ z, f x = some z → G x = z) : r = l.map G ∧ ∀ x ∈ l, f x = some (G x) := by
  induction l generalizing r with
  | nil => simp at h; subst h; simp
  | cons x l ih =>
    simp only [List.mapM_cons, Option.bind_eq_bind, Option.pure_def, Option.bind_eq_some_iff,
      Option.some.injEq] at h
    obtain ⟨z, hz, zs, hzs, rfl⟩ := h
    obtain ⟨a, b⟩ := ih hzs fun x hx => hG x (by simp [hx])
    have hx := hG x (by simp) z hz
    refine ⟨by rw [List.map_cons, hx, ← a], ?_⟩
    intro w hw
    rcases List.mem_cons.1 hw with rfl | hw
    · rw [hz, hx]
    · exact b w hw

/-- The classifier of classes `a` and `b` before training. -/
def fresh (F : Type) [Field F] (nrow : Nat) (y : Nat → Nat) (a b : Nat) : Clf F :=
  { pos := a, neg := b, idx := (List.range nrow).filter (inPair y a b)
    isPos := ((List.range nrow).filter (inPair y a b)).map fun r => decide (y r = a)
    alpha := fun _ => 0 }

omit [LinearOrder F] in
theorem setData_eq {cs : List (Clf F)} (h : setData nrow K y = some cs) :
    cs = (pairs K).map fun p => fresh F nrow y p.1 p.2 := by
  refine (mapM_some h (fun p => fresh F nrow y p.1 p.2) ?_).1
  intro p _ z hz
  unfold makeClf at hz
  simp only at hz
  split at hz
  · cases hz
  · exact Option.some.inj hz

theorem setData_compute {cs : List (Clf F)} (h : setData nrow K y = some cs) (epsilon : F)
    (a : Nat → Nat → F) (mult : Nat → Nat → Nat → F)
    (hm : ∀ k p, (pairs K)[k]? = some p → a k = mult p.1 p.2) :
    (cs.mapIdx fun k c => setSv epsilon (a k) c) =
      (pairs K).map fun p => setSv epsilon (mult p.1 p.2) (fresh F nrow y p.1 p.2) := by
  rw [setData_eq h]
  refine List.ext_getElem? fun k => ?_
  rw [List.getElem?_mapIdx, List.getElem?_map, List.getElem?_map]
  rcases e : (pairs K)[k]? with _ | p
  · rfl
  · simp [hm k p e]

theorem setSv_made {i j : Nat} {c : Clf F} (h : Made nrow y i j c) (epsilon : F) (a : Nat → F) :
    Made nrow y i j (setSv epsilon a c) := ⟨h.pos, h.neg, h.idx, h.isPos⟩

omit [LinearOrder F] in
theorem fresh_made (a b : Nat) : Made nrow y a b (fresh F nrow y a b) := ⟨rfl, rfl, rfl, rfl⟩

/-- Positions of the support vectors of a classifier that is trained for the first time. -/
theorem fresh_sup (a b : Nat) (epsilon : F) (m : Nat → F) :
    let c := setSv epsilon m (fresh F nrow y a b)
    CleanSup nrow y c ∧ ∀ z, (∃ s, (s ∈ c.supPos ∨ s ∈ c.supNeg) ∧ z = c.idx.getD s 0) ↔
      (z < nrow ∧ (y z = a ∨ y z = b) ∧ epsilon < |m (cnt (inPair y a b) z)|) := by
  intro c
  have hmade : Made nrow y a b c := setSv_made (fresh_made a b) epsilon m
  have sup : ∀ q : Nat → Bool, overwrite ((List.range c.idx.length).filter q)
      (resize (0 + ((List.range c.idx.length).filter q).length) []) =
      (List.range c.idx.length).filter q := by
    intro q
    simp [overwrite, resize]
  have hpos : c.supPos = (List.range c.idx.length).filter fun l =>
      decide (epsilon < |m l|) && c.isPos.getD l false := sup _
  have hneg : c.supNeg = (List.range c.idx.length).filter fun l =>
      decide (epsilon < |m l|) && !c.isPos.getD l false := sup _
  have inv : ∀ s, s < c.idx.length → ∃ x, x < nrow ∧ inPair y a b x = true ∧ cnt (inPair y a b) x = s := by
    intro s hs
    rw [hmade.length] at hs
    exact cnt_surj _ _ _ hs
  have hin : ∀ x, inPair y a b x = true ↔ (y x = a ∨ y x = b) := by intro x; simp [inPair]
  refine ⟨⟨?_, ?_⟩, ?_⟩
  · intro s hs
    rw [hpos, List.mem_filter, List.mem_range] at hs
    obtain ⟨x, hx, hp, rfl⟩ := inv s hs.1
    obtain ⟨g1, g2⟩ := hmade.get hx hp
    rw [g1]
    have h2 := hs.2
    rw [g2] at h2
    simp only [Bool.and_eq_true, decide_eq_true_eq] at h2
    exact ⟨hx, h2.2⟩
  · intro s hs
    rw [hneg, List.mem_filter, List.mem_range] at hs
    obtain ⟨x, hx, hp, rfl⟩ := inv s hs.1
    obtain ⟨g1, g2⟩ := hmade.get hx hp
    rw [g1]
    have h2 := hs.2
    rw [g2] at h2
    simp only [Bool.and_eq_true, decide_eq_true_eq, Bool.not_eq_true', decide_eq_false_iff_not] at h2
    refine ⟨hx, ?_⟩
    rcases (hin x).1 hp with h | h
    · exact absurd h h2.2
    · exact h
  · intro z
    constructor
    · rintro ⟨s, hs, rfl⟩
      have hs' : s < c.idx.length ∧ epsilon < |m s| := by
        rcases hs with h | h
        · rw [hpos, List.mem_filter, List.mem_range] at h
          simp only [Bool.and_eq_true, decide_eq_true_eq] at h
          exact ⟨h.1, h.2.1⟩
        · rw [hneg, List.mem_filter, List.mem_range] at h
          simp only [Bool.and_eq_true, decide_eq_true_eq] at h
          exact ⟨h.1, h.2.1⟩
      obtain ⟨x, hx, hp, rfl⟩ := inv s hs'.1
      obtain ⟨g1, g2⟩ := hmade.get hx hp
      rw [g1]
      exact ⟨hx, (hin x).1 hp, hs'.2⟩
    · rintro ⟨hz, hy, he⟩
      have hp := (hin z).2 hy
      obtain ⟨g1, g2⟩ := hmade.get hz hp
      refine ⟨cnt (inPair y a b) z, ?_, g1.symm⟩
      have hlt : cnt (inPair y a b) z < c.idx.length := by
        rw [hmade.length]; exact cnt_lt _ hz hp
      rw [hpos, hneg, List.mem_filter, List.mem_filter, List.mem_range, g2]
      by_cases hya : y z = a
      · left; simp [hlt, he, hya]
      · right; simp [hlt, he, hya]

end Verif.SvmMulti
