import Verif.Tsne.Csr

/-
The conditional probabilities of a row.
-/
namespace Verif.Tsne

set_option linter.unusedSectionVars false

open Moments (M Fault rd wr forUp divM ok_bind rd_ok wr_ok forUp_zero forUp_succ)
open Finset (range)

variable {K : Type} [Field K] [LinearOrder K] [IsStrictOrderedRing K]

/-- The list holds `v` at the positions from `o` to `o + k - 1`, and is as `l` elsewhere. -/
structure Holds (l : List K) (o k : Nat) (v : Nat → K) (l' : List K) : Prop where
  len : l'.length = l.length
  row : ∀ j < k, l'[o + j]? = some (v j)
  rest : ∀ p, (p < o ∨ o + k ≤ p) → l'[p]? = l[p]?

theorem Holds.trans {l l' l'' : List K} {o k : Nat} {v v' : Nat → K} (h : Holds l o k v l')
    (h' : Holds l' o k v' l'') : Holds l o k v' l'' :=
  ⟨h'.len.trans h.len, h'.row, fun p hp => (h'.rest p hp).trans (h.rest p hp)⟩

/-- A loop that writes the positions of the row one after the other. -/
theorem fill_ok {o k : Nat} (v : Nat → K) (f : Nat → List K → M (List K)) {l : List K}
    (hl : o + k ≤ l.length)
    (hf : ∀ j < k, ∀ l' : List K, l'.length = l.length → l'[o + j]? = l[o + j]? →
      f j l' = wr l' (o + j) (v j)) :
    ∃ l', forUp k f l = .ok l' ∧ Holds l o k v l' := by
  have key := forUp_inv k f l (fun m l' => l'.length = l.length ∧ (∀ j < m, l'[o + j]? = some (v j)) ∧
    ∀ p, (p < o ∨ o + m ≤ p) → l'[p]? = l[p]?) ⟨rfl, by simp, fun _ _ => rfl⟩ ?_
  · obtain ⟨l', h1, h2, h3, h4⟩ := key
    exact ⟨l', h1, h2, h3, h4⟩
  · intro j hj l' hI
    refine ⟨l'.set (o + j) (v j), ?_, by rw [List.length_set, hI.1], ?_, ?_⟩
    · rw [hf j hj l' hI.1 (hI.2.2 _ (Or.inr (Nat.le_refl _))), wr_ok _ (by omega)]
    · intro a ha
      rw [get_set (by omega)]
      by_cases he : a = j
      · rw [if_pos (by omega), he]
      · rw [if_neg (by omega)]; exact hI.2.1 a (by omega)
    · intro p hp
      rw [get_set (by omega), if_neg (by omega)]
      exact hI.2.2 p (by omega)

variable (exp log : K → K) (k : Nat) (d : Nat → K)

/-- The sum of the terms of bandwidth `b`, and the entropy that the code computes. -/
def mass (b : K) : K := ∑ j ∈ range k, exp (-b * d j)

def entropy (b : K) : K :=
  log (mass exp k d b) + b * (∑ j ∈ range k, d j * exp (-b * d j)) / mass exp k d b

variable {exp log k d}

theorem rowTerms_ok {sq : List K} {o : Nat} (hsq : ∀ j < k, sq[o + j]? = some (d j)) (b : K)
    {prob : List K} (hl : o + k ≤ prob.length) :
    ∃ l', rowTerms exp sq o k b prob =
        .ok (l', mass exp k d b, ∑ j ∈ range k, d j * exp (-b * d j)) ∧
      Holds prob o k (fun j => exp (-b * d j)) l' := by
  unfold rowTerms
  have key := forUp_inv k (fun j (r : List K × K × K) => do
    let d ← rd sq (o + j)
    let p := exp (-b * d)
    let prob ← wr r.1 (o + j) p
    .ok (prob, r.2.1 + p, r.2.2 + d * p)) (prob, 0, 0) (fun m r => Holds prob o m
      (fun j => exp (-b * d j)) r.1 ∧ r.2.1 = ∑ j ∈ range m, exp (-b * d j) ∧
      r.2.2 = ∑ j ∈ range m, d j * exp (-b * d j)) ⟨⟨rfl, by simp, fun _ _ => rfl⟩, by simp, by simp⟩ ?_
  · obtain ⟨r, h1, h2, h3, h4⟩ := key
    refine ⟨r.1, ?_, h2⟩
    rw [h1]
    unfold mass
    rw [← h3, ← h4]
  · intro j hj r hI
    have hlen := hI.1.len
    refine ⟨(r.1.set (o + j) (exp (-b * d j)), r.2.1 + exp (-b * d j), r.2.2 + d j * exp (-b * d j)),
      ?_, ⟨?_, ?_, ?_⟩, ?_, ?_⟩
    · simp only
      rw [rd_ok (hsq j hj), ok_bind, wr_ok _ (by omega), ok_bind]
    · rw [List.length_set, hlen]
    · intro a ha
      rw [get_set (by omega)]
      by_cases he : a = j
      · rw [if_pos (by omega), he]
      · rw [if_neg (by omega)]; exact hI.1.row a (by omega)
    · intro p hp
      rw [get_set (by omega), if_neg (by omega)]
      exact hI.1.rest p (by omega)
    · rw [Finset.sum_range_succ, hI.2.1]
    · rw [Finset.sum_range_succ, hI.2.2]

/-- Bandwidth `b` is too small: the distribution is too even. -/
def Even (exp log : K → K) (k : Nat) (d : Nat → K) (target tol b : K) : Prop :=
  0 < mass exp k d b ∧ target < entropy exp log k d b ∧ tol ≤ entropy exp log k d b - target

/-- Bandwidth `b` is too large: the distribution is too narrow, or all terms vanish. -/
def Narrow (exp log : K → K) (k : Nat) (d : Nat → K) (target tol b : K) : Prop :=
  mass exp k d b ≤ 0 ∨ entropy exp log k d b ≤ target ∧ tol ≤ target - entropy exp log k d b

/-- Bandwidth `b` gives the target. -/
def Hit (exp log : K → K) (k : Nat) (d : Nat → K) (target tol b : K) : Prop :=
  0 < mass exp k d b ∧ |entropy exp log k d b - target| < tol

/-- After the first `a` of `m` trials both ends were found, at a power of two and its double, and
each of the other trials has halved the bracket. -/
def Small (m : Nat) (l h : K) : Prop :=
  ∃ a, 2 ≤ a ∧ a ≤ m ∧ (h - l) * 2 ^ (m - a) ≤ l ∧ (2 ^ (a - 2) ≤ l ∨ h * 2 ^ (a - 2) ≤ 1)

theorem Small.half {m : Nat} {l h l' h' : K} (hs : Small m l h) (hw : (h' - l') * 2 = h - l) (hl : l ≤ l')
    (hh : h' ≤ h) : Small (m + 1) l' h' := by
  obtain ⟨a, h1, h2, h3, h4⟩ := hs
  refine ⟨a, h1, by omega, ?_, ?_⟩
  · rw [show m + 1 - a = m - a + 1 by omega, pow_succ']
    calc (h' - l') * (2 * 2 ^ (m - a)) = (h - l) * 2 ^ (m - a) := by rw [← hw]; ring
      _ ≤ l := h3
      _ ≤ l' := hl
  · rcases h4 with h4 | h4
    · exact Or.inl (h4.trans hl)
    · exact Or.inr (le_trans (mul_le_mul_of_nonneg_right hh (by positivity)) h4)

/-- The bracket after `m` trials. -/
structure Bracket (exp log : K → K) (k : Nat) (d : Nat → K) (target tol : K) (m : Nat) (s : Search K) :
    Prop where
  pos : 0 < s.beta
  lo : ∀ l, s.lo = some l → Even exp log k d target tol l ∧ 0 < l ∧ l < s.beta
  hi : ∀ h, s.hi = some h → Narrow exp log k d target tol h ∧ s.beta < h
  up : s.hi = none → s.beta = 2 ^ m
  down : s.lo = none → s.beta * 2 ^ m = 1
  /-- the next trial is in the middle, and the bracket is half of the one before -/
  mid : ∀ l h, s.lo = some l → s.hi = some h → s.beta = (l + h) / 2
  last : ∀ l, s.lo = some l → s.hi = none → s.beta = l * 2
  last' : ∀ h, s.hi = some h → s.lo = none → h = s.beta * 2
  width : ∀ l h, s.lo = some l → s.hi = some h → Small m l h
  begun : m = 0 → s.lo = none ∧ s.hi = none

theorem Bracket.start (target tol : K) (prob : List K) :
    Bracket exp log k d target tol 0 ⟨1, none, none, prob⟩ :=
  ⟨one_pos, by simp, by simp, by simp, by simp, by simp, by simp, by simp, by simp, by simp⟩

theorem Bracket.raise {target tol : K} {m : Nat} {s : Search K}
    (h : Bracket exp log k d target tol m s) (he : Even exp log k d target tol s.beta) (prob : List K) :
    Bracket exp log k d target tol (m + 1) (raise s prob) := by
  have hp := h.pos
  unfold Tsne.raise
  cases hh : s.hi with
  | none =>
    refine ⟨by simp only; linarith, ?_, by simp, ?_, by simp, by simp, ?_, by simp, by simp, by omega⟩
    · intro l hl
      simp only [Option.some.injEq] at hl
      subst hl
      exact ⟨he, hp, by simp only; linarith⟩
    · intro _
      simp only
      rw [h.up hh, pow_succ]
    · intro l hl _
      simp only [Option.some.injEq] at hl
      subst hl
      rfl
  | some b =>
    have hb := (h.hi b hh).2
    refine ⟨by simp only; linarith, ?_, ?_, by simp, by simp, ?_, by simp, by simp, ?_, by omega⟩
    · intro l hl
      simp only [Option.some.injEq] at hl
      subst hl
      exact ⟨he, hp, by simp only; linarith⟩
    · intro l hl
      simp only [Option.some.injEq] at hl
      subst hl
      exact ⟨(h.hi b hh).1, by simp only; linarith⟩
    · intro l u hl hu
      simp only [Option.some.injEq] at hl hu
      subst hl hu
      rfl
    · intro l u hl hu
      simp only [Option.some.injEq] at hl hu
      subst hl hu
      cases hlo : s.lo with
      | none =>
        have e1 := h.last' b hh hlo
        have e2 := h.down hlo
        have e3 : m ≠ 0 := fun h0 => by rw [(h.begun h0).2] at hh; cases hh
        match m, e2, e3 with
        | 0, _, e3 => exact absurd rfl e3
        | m + 1, e2, _ =>
          refine ⟨m + 2, by omega, by omega, ?_, Or.inr ?_⟩
          · rw [Nat.sub_self, pow_zero, mul_one, e1]; linarith
          · rw [e1, ← e2, show m + 2 - 2 = m by omega, pow_succ]; apply le_of_eq; ring
      | some a =>
        have e1 := h.mid a b hlo hh
        obtain ⟨_, a2, a3⟩ := h.lo a hlo
        exact (h.width a b hlo hh).half (by rw [e1]; ring) a3.le (le_refl _)

theorem Bracket.lower {target tol : K} {m : Nat} {s : Search K}
    (h : Bracket exp log k d target tol m s) (he : Narrow exp log k d target tol s.beta)
    (prob : List K) : Bracket exp log k d target tol (m + 1) (lower s prob) := by
  have hp := h.pos
  unfold Tsne.lower
  cases hh : s.lo with
  | none =>
    refine ⟨by simp only; linarith, by simp, ?_, by simp, ?_, by simp, by simp, ?_, by simp, by omega⟩
    · intro l hl
      simp only [Option.some.injEq] at hl
      subst hl
      exact ⟨he, by simp only; linarith⟩
    · intro _
      simp only
      have := h.down hh
      rw [← this, pow_succ]
      ring
    · intro l hl _
      simp only [Option.some.injEq] at hl
      subst hl
      simp only
      ring
  | some b =>
    obtain ⟨b1, b2, b3⟩ := h.lo b hh
    refine ⟨by simp only; linarith, ?_, ?_, by simp, by simp, ?_, by simp, by simp, ?_, by omega⟩
    · intro l hl
      simp only [Option.some.injEq] at hl
      subst hl
      exact ⟨b1, b2, by simp only; linarith⟩
    · intro l hl
      simp only [Option.some.injEq] at hl
      subst hl
      exact ⟨he, by simp only; linarith⟩
    · intro l u hl hu
      simp only [Option.some.injEq] at hl hu
      subst hl hu
      simp only
      ring
    · intro l u hl hu
      simp only [Option.some.injEq] at hl hu
      subst hl hu
      cases hhi : s.hi with
      | none =>
        have e1 := h.last b hh hhi
        have e2 := h.up hhi
        have e3 : m ≠ 0 := fun h0 => by rw [(h.begun h0).1] at hh; cases hh
        match m, e2, e3 with
        | 0, _, e3 => exact absurd rfl e3
        | m + 1, e2, _ =>
          refine ⟨m + 2, by omega, by omega, ?_, Or.inl ?_⟩
          · rw [Nat.sub_self, pow_zero, mul_one, e1]; linarith
          · rw [e1, pow_succ] at e2
            rw [show m + 2 - 2 = m by omega]; linarith
      | some a =>
        have e1 := h.mid b a hh hhi
        exact (h.width b a hh hhi).half (by rw [e1]; ring) (le_refl _) (h.hi a hhi).2.le

/-- The last bandwidth tried is an end of the bracket. -/
def Search.Tried (s : Search K) (b : K) : Prop := s.lo = some b ∨ s.hi = some b

theorem search_ok {sq : List K} {o : Nat} (hsq : ∀ j < k, sq[o + j]? = some (d j)) (target tol : K)
    {prob : List K} (hl : o + k ≤ prob.length) :
    ∀ (left m : Nat) (s : Search K), Bracket exp log k d target tol m s →
      (m = 0 ∧ s.prob = prob ∨ ∃ b, s.Tried b ∧ Holds prob o k (fun j => exp (-b * d j)) s.prob) →
      ∃ s', search exp log sq o k target tol left s = .ok s' ∧
        ((∃ b, 0 < b ∧ Hit exp log k d target tol b ∧ Holds prob o k (fun j => exp (-b * d j)) s'.prob) ∨
          Bracket exp log k d target tol (m + left) s' ∧ (m + left = 0 ∧ s'.prob = prob ∨
            ∃ b, s'.Tried b ∧ Holds prob o k (fun j => exp (-b * d j)) s'.prob)) := by
  intro left
  induction left with
  | zero => intro m s hb hs; exact ⟨s, rfl, Or.inr ⟨hb, hs⟩⟩
  | succ left ih =>
    intro m s hb hs
    unfold search
    have hbase : o + k ≤ s.prob.length := by
      rcases hs with h | ⟨b, _, h⟩
      · rw [h.2]; exact hl
      · rw [h.len]; exact hl
    have hfrom : ∀ {v : Nat → K} {l' : List K}, Holds s.prob o k v l' → Holds prob o k v l' := by
      intro v l' h
      rcases hs with hs | ⟨b, _, hs⟩
      · rw [← hs.2]; exact h
      · exact hs.trans h
    obtain ⟨l', t1, t2⟩ := rowTerms_ok (exp := exp) hsq s.beta hbase
    rw [t1, ok_bind]
    simp only
    have hlow : Narrow exp log k d target tol s.beta →
        ∃ s', search exp log sq o k target tol left (lower s l') = .ok s' ∧
        ((∃ b, 0 < b ∧ Hit exp log k d target tol b ∧ Holds prob o k (fun j => exp (-b * d j)) s'.prob) ∨
          Bracket exp log k d target tol (m + (left + 1)) s' ∧ (m + (left + 1) = 0 ∧ s'.prob = prob ∨
            ∃ b, s'.Tried b ∧ Holds prob o k (fun j => exp (-b * d j)) s'.prob)) := by
      intro hnar
      obtain ⟨s', q1, q2⟩ := ih (m + 1) (lower s l') (hb.lower hnar l')
        (Or.inr ⟨s.beta, Or.inr rfl, hfrom t2⟩)
      rw [show m + 1 + left = m + (left + 1) by omega] at q2
      exact ⟨s', q1, q2⟩
    by_cases h0 : mass exp k d s.beta ≤ 0
    · rw [if_pos h0]
      exact hlow (Or.inl h0)
    · rw [if_neg h0]
      have hpos := not_le.1 h0
      change ∃ s', (if |entropy exp log k d s.beta - target| < tol then _ else
        if entropy exp log k d s.beta > target then _ else _) = _ ∧ _
      by_cases h1 : |entropy exp log k d s.beta - target| < tol
      · rw [if_pos h1]
        exact ⟨_, rfl, Or.inl ⟨s.beta, hb.pos, ⟨hpos, h1⟩, hfrom t2⟩⟩
      · rw [if_neg h1]
        by_cases h2 : entropy exp log k d s.beta > target
        · rw [if_pos h2]
          have hev : Even exp log k d target tol s.beta := by
            refine ⟨hpos, h2, ?_⟩
            rw [abs_of_pos (by linarith)] at h1
            exact not_lt.1 h1
          obtain ⟨s', q1, q2⟩ := ih (m + 1) (raise s l') (hb.raise hev l')
            (Or.inr ⟨s.beta, Or.inl rfl, hfrom t2⟩)
          rw [show m + 1 + left = m + (left + 1) by omega] at q2
          exact ⟨s', q1, q2⟩
        · rw [if_neg h2]
          refine hlow (Or.inr ⟨not_lt.1 h2, ?_⟩)
          rw [abs_of_nonpos (by linarith [not_lt.1 h2])] at h1
          linarith [not_lt.1 h1]

/-- What is known about the bandwidth that is used: it gives the target, or it is an end of the
bracket after all iterations. -/
def Chosen (exp log : K → K) (k : Nat) (d : Nat → K) (target tol : K) (maxIter : Nat) (b : K) : Prop :=
  0 < b ∧ (Hit exp log k d target tol b ∨
    ∃ lo hi : Option K, (lo = some b ∨ hi = some b) ∧
      (∀ l, lo = some l → Even exp log k d target tol l) ∧
      (∀ h, hi = some h → Narrow exp log k d target tol h) ∧
      (∀ l h, lo = some l → hi = some h → l < h ∧ Small maxIter l h) ∧
      (hi = none → b * 2 = 2 ^ maxIter) ∧ (lo = none → b * 2 ^ maxIter = 2))

theorem rowProbabilities_ok (hexp : ∀ x, 0 ≤ exp x) {maxIter : Nat} (hm : 0 < maxIter) {tol tiny : K}
    (htiny : 0 < tiny) {sq : List K} {o : Nat} (hk : 0 < k) (hsq : ∀ j < k, sq[o + j]? = some (d j))
    (target : K) {prob : List K} (hl : o + k ≤ prob.length) :
    ∃ l' p, rowProbabilities exp log maxIter tol tiny sq o k target prob = .ok l' ∧
      Holds prob o k p l' ∧ (∀ j < k, 0 ≤ p j) ∧ ∑ j ∈ range k, p j = 1 ∧
      ∃ b, Chosen exp log k d target tol maxIter b ∧
        ((tiny ≤ mass exp k d b ∧ ∀ j < k, p j = exp (-b * d j) / mass exp k d b) ∨
          mass exp k d b < tiny ∧ ∀ j < k, p j = 1 / k) := by
  unfold rowProbabilities
  rw [if_neg (by omega)]
  obtain ⟨s, s1, s2⟩ := search_ok (exp := exp) (log := log) hsq target tol hl maxIter 0
    ⟨1, none, none, prob⟩ (Bracket.start target tol prob) (Or.inl ⟨rfl, rfl⟩)
  rw [s1, ok_bind]
  obtain ⟨b, hb, hh⟩ : ∃ b, Chosen exp log k d target tol maxIter b ∧
      Holds prob o k (fun j => exp (-b * d j)) s.prob := by
    rcases s2 with ⟨b, b1, b2, b3⟩ | ⟨br, h | ⟨b, b1, b2⟩⟩
    · exact ⟨b, ⟨b1, Or.inl b2⟩, b3⟩
    · omega
    · refine ⟨b, ⟨?_, Or.inr ⟨s.lo, s.hi, b1, fun l hl => (br.lo l hl).1, fun h hh => (br.hi h hh).1,
        fun l h hl hh => ⟨(br.lo l hl).2.2.trans (br.hi h hh).2, ?_⟩, ?_, ?_⟩⟩, b2⟩
      · rcases b1 with b1 | b1
        · exact (br.lo b b1).2.1
        · exact br.pos.trans (br.hi b b1).2
      · have := br.width l h hl hh
        rwa [Nat.zero_add] at this
      · intro hn
        rcases b1 with b1 | b1
        · have := br.up hn
          rw [Nat.zero_add] at this
          rw [← br.last b b1 hn, this]
        · rw [hn] at b1; cases b1
      · intro hn
        rcases b1 with b1 | b1
        · rw [hn] at b1; cases b1
        · have := br.down hn
          rw [Nat.zero_add] at this
          rw [br.last' b b1 hn, mul_right_comm, this, one_mul]
  have hmass : 0 ≤ mass exp k d b := Finset.sum_nonneg fun j _ => hexp _
  have hsum : forUp k (fun j a => do
      let p ← rd s.prob (o + j)
      .ok (a + p)) (0 : K) = .ok (mass exp k d b) := by
    have key := forUp_inv k (fun j a => do
      let p ← rd s.prob (o + j)
      .ok (a + p)) (0 : K) (fun m a => a = ∑ j ∈ range m, exp (-b * d j)) (by simp) ?_
    · obtain ⟨a, h1, h2⟩ := key
      rw [h1, h2]
      rfl
    · intro j hj a ha
      exact ⟨a + exp (-b * d j), by rw [rd_ok (hh.row j hj), ok_bind],
        by rw [Finset.sum_range_succ, ha]⟩
  rw [hsum, ok_bind]
  have hlen : o + k ≤ s.prob.length := by rw [hh.len]; exact hl
  by_cases ht : mass exp k d b ≥ tiny
  · rw [if_pos ht]
    have hpos : 0 < mass exp k d b := lt_of_lt_of_le htiny ht
    rw [divM_ok hpos.ne', ok_bind]
    obtain ⟨l', f1, f2⟩ := fill_ok (fun j => exp (-b * d j) * (1 / mass exp k d b)) (fun j prob => do
      let p ← rd prob (o + j)
      wr prob (o + j) (p * (1 / mass exp k d b))) hlen (by
        intro j hj l' _ h
        rw [rd_ok (h.trans (hh.row j hj)), ok_bind])
    refine ⟨l', _, f1, hh.trans f2, fun j _ => mul_nonneg (hexp _) (one_div_nonneg.2 hmass), ?_, b, hb,
      Or.inl ⟨ht, fun j _ => by rw [mul_one_div]⟩⟩
    rw [← Finset.sum_mul, mul_one_div]
    exact div_self hpos.ne'
  · rw [if_neg ht]
    have hk' : (k : K) ≠ 0 := by exact_mod_cast (show k ≠ 0 by omega)
    rw [divM_ok hk', ok_bind]
    obtain ⟨l', f1, f2⟩ := fill_ok (fun _ => 1 / (k : K)) (fun j prob => wr prob (o + j) (1 / (k : K))) hlen
      (fun j _ l' _ _ => rfl)
    refine ⟨l', _, f1, hh.trans f2, fun j _ => one_div_nonneg.2 (Nat.cast_nonneg k), ?_, b, hb,
      Or.inr ⟨not_le.1 ht, fun j _ => rfl⟩⟩
    rw [Finset.sum_const, Finset.card_range, nsmul_eq_mul, mul_one_div]
    exact div_self hk'

end Verif.Tsne
