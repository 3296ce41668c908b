/- Main lemmas about erase, find and canonical forms. -/
import Verif.IntervalSet.Proof2
namespace Verif.IntervalSet

theorem place' {P S : List Ivl} {x : Ivl} (h1 : ∀ p ∈ P, p.lower < x.lower)
    (h2 : ∀ q ∈ S, x.lower < q.lower) : setInsert x (P ++ S) = P ++ x :: S :=
  setInsert_mid P S x h1 h2

/-- Trimming the last interval before the range. -/
theorem trim_low {lb ub : Int} {P S : List Ivl} {a : Ivl} (hc : Canonical (P ++ a :: S))
    (ha : a.lower ≤ lb) (hau : a.upper < ub) (hlb : lb ≤ a.upper) :
    ∃ X, trim lb ub a (P ++ a :: S) = P ++ X ++ S ∧ Canonical (P ++ X ++ S) ∧
      (∀ k, Holds X k ↔ (a.lower ≤ k ∧ k ≤ a.upper) ∧ ¬ InRange lb ub k) ∧
      (∀ p ∈ P ++ X, p.upper < lb) := by
  have h1 := canonical_append.1 hc
  have h2 := canonical_cons.1 h1.2.1
  have haP : a ∉ P := by
    intro h; have := h1.2.2 a h a (by simp); omega
  have hPa : ∀ p ∈ P, p.upper + 1 < a.lower := fun p hp => h1.2.2 p hp a (by simp)
  unfold trim; dsimp only
  rw [erase_mid _ _ _ haP]
  rw [if_neg (show ¬ ub ≤ a.upper - 1 by omega)]
  by_cases h : lb ≥ a.lower + 1
  · refine ⟨[⟨a.lower, lb - 1⟩], ?_, ?_, ?_, ?_⟩
    · simp only [if_pos h, List.append_assoc, List.singleton_append]
      apply place'
      · intro p hp; have := hPa p hp; have := h1.1.1 p hp; dsimp; omega
      · intro q hq; have := h2.2.1 q hq; have := h2.1; dsimp; omega
    · have := (place (P := P) (S := S) (x := ⟨a.lower, lb - 1⟩) (by dsimp; omega) h1.1 h2.2.2 hPa (by
        intro q hq; have := h2.2.1 q hq; dsimp; omega)).2
      simpa using this
    · intro k; simp only [holds_single, InRange]; omega
    · intro p hp
      rcases List.mem_append.1 hp with hp | hp
      · have := hPa p hp; omega
      · simp only [List.mem_singleton] at hp; subst hp; dsimp; omega
  · refine ⟨[], ?_, ?_, ?_, ?_⟩
    · simp only [if_neg h, List.append_nil]
    · rw [List.append_nil]
      exact canonical_append.2 ⟨h1.1, h2.2.2, fun p hp q hq => h1.2.2 p hp q (by simp [hq])⟩
    · intro k; simp only [holds_nil, InRange, false_iff]; omega
    · intro p hp
      simp only [List.append_nil] at hp
      have := hPa p hp; omega

/-- Trimming the first interval after the range. -/
theorem trim_high {lb ub : Int} {P S : List Ivl} {b : Ivl} (hc : Canonical (P ++ b :: S))
    (hb : lb < b.lower) (hbu : ub ≤ b.upper) (hub : b.lower ≤ ub) :
    ∃ X, trim lb ub b (P ++ b :: S) = P ++ X ++ S ∧ Canonical (P ++ X ++ S) ∧
      (∀ k, Holds X k ↔ (b.lower ≤ k ∧ k ≤ b.upper) ∧ ¬ InRange lb ub k) := by
  have h1 := canonical_append.1 hc
  have h2 := canonical_cons.1 h1.2.1
  have hbP : b ∉ P := by
    intro h; have := h1.2.2 b h b (by simp); omega
  have hPb : ∀ p ∈ P, p.upper + 1 < b.lower := fun p hp => h1.2.2 p hp b (by simp)
  unfold trim; dsimp only
  rw [erase_mid _ _ _ hbP]
  rw [if_neg (show ¬ lb ≥ b.lower + 1 by omega)]
  by_cases h : ub ≤ b.upper - 1
  · refine ⟨[⟨ub + 1, b.upper⟩], ?_, ?_, ?_⟩
    · simp only [if_pos h, List.append_assoc, List.singleton_append]
      apply place'
      · intro p hp; have := hPb p hp; have := h1.1.1 p hp; dsimp; omega
      · intro q hq; have := h2.2.1 q hq; have := h2.1; dsimp; omega
    · have := (place (P := P) (S := S) (x := ⟨ub + 1, b.upper⟩) (by dsimp; omega) h1.1 h2.2.2 (by
        intro p hp; have := hPb p hp; dsimp; omega) h2.2.1).2
      simpa using this
    · intro k; simp only [holds_single, InRange]; omega
  · refine ⟨[], ?_, ?_, ?_⟩
    · simp only [if_neg h, List.append_nil]
    · rw [List.append_nil]
      exact canonical_append.2 ⟨h1.1, h2.2.2, fun p hp q hq => h1.2.2 p hp q (by simp [hq])⟩
    · intro k; simp only [holds_nil, InRange, false_iff]; omega

/-- Trimming an interval that encloses the range. -/
theorem trim_inside {lb ub : Int} (hle : lb ≤ ub) {P S : List Ivl} {a : Ivl}
    (hc : Canonical (P ++ a :: S)) (ha : a.lower ≤ lb) (hau : ub ≤ a.upper) :
    ∃ X, trim lb ub a (P ++ a :: S) = P ++ X ++ S ∧ Canonical (P ++ X ++ S) ∧
      (∀ k, Holds X k ↔ (a.lower ≤ k ∧ k ≤ a.upper) ∧ ¬ InRange lb ub k) := by
  have h1 := canonical_append.1 hc
  have h2 := canonical_cons.1 h1.2.1
  have haP : a ∉ P := by
    intro h; have := h1.2.2 a h a (by simp); omega
  have hPa : ∀ p ∈ P, p.upper + 1 < a.lower := fun p hp => h1.2.2 p hp a (by simp)
  have hPl : ∀ p ∈ P, p.lower ≤ p.upper := h1.1.1
  have hPS : ∀ p ∈ P, ∀ q ∈ S, p.upper + 1 < q.lower := fun p hp q hq => h1.2.2 p hp q (by simp [hq])
  have cPS : Canonical (P ++ S) := canonical_append.2 ⟨h1.1, h2.2.2, hPS⟩
  unfold trim; dsimp only
  rw [erase_mid _ _ _ haP]
  by_cases hl : lb ≥ a.lower + 1
  · have e1 : setInsert ⟨a.lower, lb - 1⟩ (P ++ S) = P ++ ⟨a.lower, lb - 1⟩ :: S := by
      apply place'
      · intro p hp; have := hPa p hp; have := hPl p hp; dsimp; omega
      · intro q hq; have := h2.2.1 q hq; dsimp; omega
    have c1 := (place (P := P) (S := S) (x := ⟨a.lower, lb - 1⟩) (by dsimp; omega) h1.1 h2.2.2 hPa (by
        intro q hq; have := h2.2.1 q hq; dsimp; omega)).2
    by_cases hu : ub ≤ a.upper - 1
    · refine ⟨[⟨a.lower, lb - 1⟩, ⟨ub + 1, a.upper⟩], ?_, ?_, ?_⟩
      · simp only [if_pos hl, if_pos hu, e1]
        have : P ++ (⟨a.lower, lb - 1⟩ : Ivl) :: S = (P ++ [⟨a.lower, lb - 1⟩]) ++ S := by simp
        rw [this, place']
        · simp
        · intro p hp
          rcases List.mem_append.1 hp with hp | hp
          · have := hPa p hp; have := hPl p hp; dsimp; omega
          · simp only [List.mem_singleton] at hp; subst hp; dsimp; omega
        · intro q hq; have := h2.2.1 q hq; have := h2.1; dsimp; omega
      · have := (place (P := P ++ [⟨a.lower, lb - 1⟩]) (S := S) (x := ⟨ub + 1, a.upper⟩) (by dsimp; omega)
          (canonical_append.2 ⟨h1.1, canonical_single.2 (by dsimp; omega), by
            intro p hp q hq; simp only [List.mem_singleton] at hq; subst hq; have := hPa p hp; dsimp; omega⟩)
          h2.2.2 (by
            intro p hp
            rcases List.mem_append.1 hp with hp | hp
            · have := hPa p hp; dsimp; omega
            · simp only [List.mem_singleton] at hp; subst hp; dsimp; omega) h2.2.1).2
        simpa using this
      · intro k; simp only [holds_cons, holds_nil, InRange, or_false]; omega
    · refine ⟨[⟨a.lower, lb - 1⟩], ?_, by simpa using c1, ?_⟩
      · simp only [if_pos hl, if_neg hu, e1]; simp
      · intro k; simp only [holds_single, InRange]; omega
  · by_cases hu : ub ≤ a.upper - 1
    · refine ⟨[⟨ub + 1, a.upper⟩], ?_, ?_, ?_⟩
      · simp only [if_neg hl, if_pos hu]
        rw [place']
        · simp
        · intro p hp; have := hPa p hp; have := hPl p hp; dsimp; omega
        · intro q hq; have := h2.2.1 q hq; have := h2.1; dsimp; omega
      · have := (place (P := P) (S := S) (x := ⟨ub + 1, a.upper⟩) (by dsimp; omega) h1.1 h2.2.2 (by
          intro p hp; have := hPa p hp; dsimp; omega) h2.2.1).2
        simpa using this
      · intro k; simp only [holds_single, InRange]; omega
    · refine ⟨[], ?_, by simpa using cPS, ?_⟩
      · simp only [if_neg hl, if_neg hu]; simp
      · intro k; simp only [holds_nil, InRange, false_iff]; omega

/-- The two outcomes of `erase` on a canonical set: either the range strictly encloses
everything stored and nothing happens, or the result is the set difference. -/
theorem erase_cases {lb ub : Int} {s : List Ivl} (hle : lb ≤ ub) (hc : Canonical s) :
    (erase ⟨lb, ub⟩ s).1 = .success ∧ Canonical (erase ⟨lb, ub⟩ s).2 ∧
    (((∀ i ∈ s, lb < i.lower ∧ i.upper < ub) ∧ (erase ⟨lb, ub⟩ s).2 = s) ∨
     (((∃ i ∈ s, ¬ (lb < i.lower ∧ i.upper < ub))) ∧
       ∀ k, Holds (erase ⟨lb, ub⟩ s).2 k ↔ Holds s k ∧ ¬ InRange lb ub k)) := by
  rcases scan_shape lb ub s hc with ⟨P, M, S, h, hl, hu, hP, hM, hS⟩ | ⟨P, S, x, h, hl, hu, hx⟩
  · subst h
    have hs : scan lb ub (P ++ M ++ S) = (S.head?, P.getLast?) := Prod.ext hu hl
    have hm : ∀ k, Holds M k → InRange lb ub k := fun k => holds_range_of_mid hM
    have hPS := canonical_sub hc
    by_cases hboth : P = [] ∧ S = []
    · obtain ⟨rfl, rfl⟩ := hboth
      have e : erase ⟨lb, ub⟩ ([] ++ M ++ []) = (.success, [] ++ M ++ []) := by
        unfold erase
        simp only [if_neg (show ¬ ub < lb by omega), hs]
        simp
      rw [e]
      refine ⟨rfl, hc, Or.inl ⟨?_, rfl⟩⟩
      simpa using hM
    · have hne : ¬ (P.getLast? = S.head?) := by
        intro e
        cases hl' : P.getLast? with
        | none =>
          rw [hl'] at e
          exact hboth ⟨by simpa using hl', by simpa using e.symm⟩
        | some a =>
          rw [hl'] at e
          obtain ⟨P', rfl⟩ := getLast?_eq_some hl'
          obtain ⟨S', rfl⟩ := head?_eq_some e.symm
          have := hP a (by simp); have := hS a (by simp); omega
      have hex : ∃ i ∈ P ++ M ++ S, ¬ (lb < i.lower ∧ i.upper < ub) := by
        cases P with
        | cons p P => exact ⟨p, by simp, by have := hP p (by simp); omega⟩
        | nil =>
          cases S with
          | nil => exact absurd ⟨rfl, rfl⟩ hboth
          | cons q S => exact ⟨q, by simp, by have := hS q (by simp); omega⟩
      -- first part: trimming the lower interval
      have low : ∃ X, (match P.getLast? with
            | some a => if a.upper ≥ lb then trim lb ub a (P ++ S) else P ++ S
            | none => P ++ S) = X ++ S ∧ Canonical (X ++ S) ∧ (∀ p ∈ X, p.upper < lb) ∧
            (∀ k, Holds X k ↔ Holds P k ∧ ¬ InRange lb ub k) := by
        cases hl' : P.getLast? with
        | none =>
          have : P = [] := by simpa using hl'
          subst this
          exact ⟨[], rfl, hPS, by simp, by simp [holds_nil]⟩
        | some a =>
          obtain ⟨P', rfl⟩ := getLast?_eq_some hl'
          have ha := hP a (by simp)
          have hcP := canonical_append.1 (canonical_append.1 hPS).1
          have hPa : ∀ p ∈ P', p.upper + 1 < a.lower := fun p hp => hcP.2.2 p hp a (by simp)
          dsimp only
          by_cases hge : a.upper ≥ lb
          · rw [if_pos hge]
            have e0 : P' ++ [a] ++ S = P' ++ a :: S := by simp
            obtain ⟨X, h1, h2, h3, h4⟩ := trim_low (by rw [← e0]; exact hPS) ha.1 ha.2 hge
            rw [e0]
            refine ⟨P' ++ X, h1, h2, h4, fun k => ?_⟩
            rw [holds_append, holds_append, holds_single, h3]
            constructor
            · rintro (h | ⟨h, h'⟩)
              · refine ⟨Or.inl h, ?_⟩
                obtain ⟨p, hp, h5, h6⟩ := h
                have := hPa p hp
                unfold InRange; omega
              · exact ⟨Or.inr h, h'⟩
            · rintro ⟨h | h, h'⟩
              · exact Or.inl h
              · exact Or.inr ⟨h, h'⟩
          · rw [if_neg hge]
            refine ⟨P' ++ [a], rfl, hPS, ?_, ?_⟩
            · intro p hp
              rcases List.mem_append.1 hp with hp | hp
              · have := hPa p hp; have := hcP.2.1.1 a (by simp); omega
              · simp only [List.mem_singleton] at hp; subst hp; omega
            · intro k
              constructor
              · rintro ⟨p, hp, h5, h6⟩
                refine ⟨⟨p, hp, h5, h6⟩, ?_⟩
                rcases List.mem_append.1 hp with hp | hp
                · have := hPa p hp; have := hcP.2.1.1 a (by simp); unfold InRange; omega
                · simp only [List.mem_singleton] at hp; subst hp; unfold InRange; omega
              · exact fun h => h.1
      obtain ⟨X, hX1, hX2, hX3, hX4⟩ := low
      have e : (erase ⟨lb, ub⟩ (P ++ M ++ S)) = (.success, match S.head? with
          | some b => if b.lower ≤ ub then trim lb ub b (X ++ S) else X ++ S
          | none => X ++ S) := by
        unfold erase
        simp only [if_neg (show ¬ ub < lb by omega), hs, hne, decide_false, Bool.false_eq_true,
          if_false, eraseBetween_split hc hM hS]
        rw [← hX1]; rfl
      rw [e]
      refine ⟨rfl, ?_⟩
      have fin : Canonical (match S.head? with
          | some b => if b.lower ≤ ub then trim lb ub b (X ++ S) else X ++ S
          | none => X ++ S) ∧ ∀ k, Holds (match S.head? with
          | some b => if b.lower ≤ ub then trim lb ub b (X ++ S) else X ++ S
          | none => X ++ S) k ↔ Holds X k ∨ (Holds S k ∧ ¬ InRange lb ub k) := by
        cases hh : S.head? with
        | none =>
          have : S = [] := by simpa using hh
          subst this
          exact ⟨hX2, fun k => by rw [holds_append]; simp [holds_nil]⟩
        | some b =>
          obtain ⟨S', rfl⟩ := head?_eq_some hh
          have hb := hS b (by simp)
          have hcS := canonical_cons.1 (canonical_append.1 hX2).2.1
          dsimp only
          by_cases hge : b.lower ≤ ub
          · rw [if_pos hge]
            obtain ⟨Y, h1, h2, h3⟩ := trim_high hX2 hb.1 hb.2 hge
            rw [h1]
            refine ⟨h2, fun k => ?_⟩
            rw [holds_append, holds_append, h3, holds_cons]
            constructor
            · rintro ((h | h) | h)
              · exact Or.inl h
              · exact Or.inr ⟨Or.inl h.1, h.2⟩
              · refine Or.inr ⟨Or.inr h, ?_⟩
                obtain ⟨q, hq, h5, h6⟩ := h
                have := hcS.2.1 q hq; unfold InRange; omega
            · rintro (h | ⟨h | h, h'⟩)
              · exact Or.inl (Or.inl h)
              · exact Or.inl (Or.inr ⟨h, h'⟩)
              · exact Or.inr h
          · rw [if_neg hge]
            refine ⟨hX2, fun k => ?_⟩
            rw [holds_append]
            constructor
            · rintro (h | h)
              · exact Or.inl h
              · refine Or.inr ⟨h, ?_⟩
                obtain ⟨q, hq, h5, h6⟩ := h
                rcases List.mem_cons.1 hq with rfl | hq
                · unfold InRange; omega
                · have := hcS.2.1 q hq; have := hcS.1; unfold InRange; omega
            · rintro (h | h)
              · exact Or.inl h
              · exact Or.inr h.1
      refine ⟨fin.1, Or.inr ⟨hex, fun k => ?_⟩⟩
      rw [fin.2 k, hX4, holds_append, holds_append]
      have := hm k
      grind
  · subst h
    have hs : scan lb ub (P ++ x :: S) = (some x, some x) := Prod.ext hu hl
    obtain ⟨X, h1, h2, h3⟩ := trim_inside hle hc hx.1 hx.2
    have e : erase ⟨lb, ub⟩ (P ++ x :: S) = (.success, P ++ X ++ S) := by
      unfold erase
      simp only [if_neg (show ¬ ub < lb by omega), hs]
      simp only [decide_true, if_true, if_pos (show x.upper ≥ lb by omega), h1]
    rw [e]
    have c1 := canonical_append.1 hc
    have c2 := canonical_cons.1 c1.2.1
    refine ⟨rfl, h2, Or.inr ⟨⟨x, by simp, by omega⟩, fun k => ?_⟩⟩
    rw [holds_append, holds_append, holds_append, holds_cons, h3]
    constructor
    · rintro ((h | h) | h)
      · refine ⟨Or.inl h, ?_⟩
        obtain ⟨p, hp, h5, h6⟩ := h
        have := c1.2.2 p hp x (by simp); unfold InRange; omega
      · exact ⟨Or.inr (Or.inl h.1), h.2⟩
      · refine ⟨Or.inr (Or.inr h), ?_⟩
        obtain ⟨q, hq, h5, h6⟩ := h
        have := c2.2.1 q hq; unfold InRange; omega
    · rintro ⟨h | h | h, h'⟩
      · exact Or.inl (Or.inl h)
      · exact Or.inl (Or.inr ⟨h, h'⟩)
      · exact Or.inr h

/-- Two canonical lists holding the same indices are equal. -/
theorem canonical_ext : ∀ {s t : List Ivl}, Canonical s → Canonical t →
    (∀ k, Holds s k ↔ Holds t k) → s = t := by
  intro s
  induction s with
  | nil =>
    intro t _ ht h
    cases t with
    | nil => rfl
    | cons y t =>
      exact absurd ((h y.lower).2 ⟨y, by simp, Int.le_refl _, ht.1 y (by simp)⟩) holds_nil
  | cons x s ih =>
    intro t hs ht h
    cases t with
    | nil => exact absurd ((h x.lower).1 ⟨x, by simp, Int.le_refl _, hs.1 x (by simp)⟩) holds_nil
    | cons y t =>
      have cs := canonical_cons.1 hs
      have ct := canonical_cons.1 ht
      have below : ∀ {z : Ivl} {u : List Ivl}, (∀ b ∈ u, z.upper + 1 < b.lower) → ∀ k, k ≤ z.upper + 1 →
          ¬ Holds u k := by
        rintro z u hu k hk ⟨b, hb, h1, h2⟩
        have := hu b hb; omega
      have e1 : x.lower = y.lower := by
        have h1 := holds_cons.1 ((h x.lower).1 (holds_cons.2 (Or.inl ⟨Int.le_refl _, cs.1⟩)))
        have h2 := holds_cons.1 ((h y.lower).2 (holds_cons.2 (Or.inl ⟨Int.le_refl _, ct.1⟩)))
        have n1 := below ct.2.1 x.lower
        have n2 := below cs.2.1 y.lower
        rcases h1 with h1 | h1 <;> rcases h2 with h2 | h2
        · omega
        · by_cases hh : y.lower ≤ x.upper + 1
          · exact absurd h2 (n2 hh)
          · omega
        · by_cases hh : x.lower ≤ y.upper + 1
          · exact absurd h1 (n1 hh)
          · omega
        · by_cases hh : y.lower ≤ x.upper + 1
          · exact absurd h2 (n2 hh)
          · by_cases hh : x.lower ≤ y.upper + 1
            · exact absurd h1 (n1 hh)
            · omega
      have key : ∀ {x y : Ivl} {s t : List Ivl}, x.lower = y.lower → x.lower ≤ x.upper →
          (∀ b ∈ s, x.upper + 1 < b.lower) →
          (∀ k, Holds (x :: s) k ↔ Holds (y :: t) k) → y.upper ≤ x.upper := by
        intro x y s t e hx hs h
        by_cases hlt : x.upper < y.upper
        · have := (h (x.upper + 1)).2 (holds_cons.2 (Or.inl ⟨by omega, by omega⟩))
          rcases holds_cons.1 this with h1 | h1
          · omega
          · exact absurd h1 (below hs _ (by omega))
        · omega
      have e2 : x.upper = y.upper :=
        Int.le_antisymm (key e1.symm ct.1 ct.2.1 (fun k => (h k).symm)) (key e1 cs.1 cs.2.1 h)
      have exy : x = y := by cases x; cases y; simp_all
      subst exy
      rw [ih cs.2.2 ct.2.2 (fun k => ?_)]
      have hk := h k
      rw [holds_cons, holds_cons] at hk
      constructor
      · intro hh
        rcases hk.1 (Or.inr hh) with h1 | h1
        · exact absurd hh (below cs.2.1 k (by omega))
        · exact h1
      · intro hh
        rcases hk.2 (Or.inr hh) with h1 | h1
        · exact absurd hh (below ct.2.1 k (by omega))
        · exact h1

end Verif.IntervalSet
