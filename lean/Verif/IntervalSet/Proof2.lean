/- Main lemmas about insert, erase, find and canonical forms. -/
import Verif.IntervalSet.Proof
import Mathlib.Tactic.Common
namespace Verif.IntervalSet

theorem holds_single {x : Ivl} {k : Int} : Holds [x] k ↔ (x.lower ≤ k ∧ k ≤ x.upper) := by
  simp [Holds]

theorem canonical_single {x : Ivl} : Canonical [x] ↔ x.lower ≤ x.upper := by
  simp [Canonical]

theorem canonical_sub {P M S : List Ivl} (h : Canonical (P ++ M ++ S)) : Canonical (P ++ S) := by
  have h1 := canonical_append.1 h
  have h2 := canonical_append.1 h1.1
  exact canonical_append.2 ⟨h2.1, h1.2.1, fun x hx y hy => h1.2.2 x (by simp [hx]) y hy⟩

theorem holds_range_of_mid {lb ub : Int} {M : List Ivl}
    (hM : ∀ m ∈ M, lb < m.lower ∧ m.upper < ub) {k : Int} (h : Holds M k) : InRange lb ub k := by
  obtain ⟨m, hm, h1, h2⟩ := h
  have := hM m hm
  unfold InRange; omega

/-- Put `[lb,ub]` between two parts lying entirely below / above it. -/
theorem place {P S : List Ivl} {x : Ivl} (hx : x.lower ≤ x.upper) (hP : Canonical P) (hS : Canonical S)
    (h1 : ∀ p ∈ P, p.upper + 1 < x.lower) (h2 : ∀ q ∈ S, x.upper + 1 < q.lower) :
    setInsert x (P ++ S) = P ++ x :: S ∧ Canonical (P ++ x :: S) := by
  constructor
  · apply setInsert_mid
    · intro p hp; have := h1 p hp; have := hP.1 p hp; omega
    · intro q hq; have := h2 q hq; omega
  · rw [canonical_append, canonical_cons]
    refine ⟨hP, ⟨hx, h2, hS⟩, ?_⟩
    intro p hp y hy
    rcases List.mem_cons.1 hy with rfl | hy
    · exact h1 p hp
    · have := h1 p hp; have := h2 y hy; omega

theorem insert_split {lb ub : Int} {P M S : List Ivl} (hle : lb ≤ ub)
    (hc : Canonical (P ++ M ++ S))
    (hP : ∀ p ∈ P, p.lower ≤ lb ∧ p.upper < ub) (hM : ∀ m ∈ M, lb < m.lower ∧ m.upper < ub)
    (hS : ∀ x ∈ S, lb < x.lower ∧ ub ≤ x.upper)
    (hs : scan lb ub (P ++ M ++ S) = (S.head?, P.getLast?)) :
    (insert ⟨lb, ub⟩ (P ++ M ++ S)).1 = .success ∧
    Canonical (insert ⟨lb, ub⟩ (P ++ M ++ S)).2 ∧
    ∀ k, Holds (insert ⟨lb, ub⟩ (P ++ M ++ S)).2 k ↔ Holds (P ++ M ++ S) k ∨ InRange lb ub k := by
  have hPS := canonical_sub hc
  have hm : ∀ k, Holds M k → InRange lb ub k := fun k => holds_range_of_mid hM
  unfold insert
  simp only [if_neg (show ¬ ub < lb by omega), hs, eraseBetween_split hc hM hS]
  rw [if_neg]
  swap
  · simp only [Bool.or_eq_true, not_or]
    constructor
    · cases hl : P.getLast? with
      | none => simp
      | some a =>
        obtain ⟨P', rfl⟩ := getLast?_eq_some hl
        have := hP a (by simp)
        simp; omega
    · cases hh : S.head? with
      | none => simp
      | some b =>
        obtain ⟨S', rfl⟩ := head?_eq_some hh
        have := hS b (by simp)
        simp; omega
  simp only [holds_append]
  cases hl : P.getLast? with
  | none =>
    have : P = [] := by simpa using hl
    subst this
    simp only [List.nil_append]
    cases hh : S.head? with
    | none =>
      have : S = [] := by simpa using hh
      subst this
      simp only [setInsert, holds_single, canonical_single, true_and]
      refine ⟨hle, fun k => ?_⟩
      have := hm k
      simp only [holds_nil, false_or, or_false, InRange] at *
      constructor
      · intro h; exact Or.inr h
      · rintro (h | h)
        · exact this h
        · exact h
    | some b =>
      obtain ⟨S', rfl⟩ := head?_eq_some hh
      have hb := hS b (by simp)
      have hcS := canonical_cons.1 (show Canonical (b :: S') by simpa using hPS)
      by_cases hmerge : b.lower ≤ ub + 1
      · simp only [hmerge, ↓reduceIte, List.erase_cons_head, true_and]
        obtain ⟨e, hc'⟩ := place (P := []) (S := S') (x := ⟨lb, b.upper⟩) (by dsimp; omega) canonical_nil
          hcS.2.2 (by simp) hcS.2.1
        simp only [List.nil_append] at e hc'
        rw [e]
        refine ⟨hc', fun k => ?_⟩
        have := hm k
        simp only [holds_cons, holds_nil, InRange] at *
        grind
      · simp only [hmerge, ↓reduceIte, true_and]
        obtain ⟨e, hc'⟩ := place (P := []) (S := b :: S') (x := ⟨lb, ub⟩) hle canonical_nil
          (canonical_cons.2 hcS) (by simp) (by
            intro q hq
            rcases List.mem_cons.1 hq with rfl | hq
            · dsimp; omega
            · have := hcS.2.1 q hq; have := hcS.1; dsimp; omega)
        simp only [List.nil_append] at e hc'
        rw [e]
        refine ⟨hc', fun k => ?_⟩
        have := hm k
        simp only [holds_cons, holds_nil, InRange] at *
        grind
  | some a =>
    obtain ⟨P', rfl⟩ := getLast?_eq_some hl
    have ha := hP a (by simp)
    have hcP := canonical_append.1 (canonical_append.1 hPS).1
    have hcS := (canonical_append.1 hPS).2.1
    have hPa : ∀ p ∈ P', p.upper + 1 < a.lower := fun p hp => hcP.2.2 p hp a (by simp)
    have haa := canonical_single.1 hcP.2.1
    have haP : a ∉ P' := by
      intro h; have := hPa a h; omega
    have e0 : P' ++ [a] ++ S = P' ++ a :: S := by simp
    have haS : ∀ q ∈ S, a.upper + 1 < q.lower := fun q hq => (canonical_append.1 hPS).2.2 a (by simp) q hq
    have hPS' : ∀ p ∈ P', ∀ q ∈ S, p.upper + 1 < q.lower := fun p hp q hq =>
      (canonical_append.1 hPS).2.2 p (by simp [hp]) q hq
    by_cases hml : a.upper ≥ lb - 1
    · simp only [hml, ↓reduceIte, e0, erase_mid _ _ _ haP]
      cases hh : S.head? with
      | none =>
        have : S = [] := by simpa using hh
        subst this
        simp only [true_and]
        obtain ⟨e, hc'⟩ := place (P := P') (S := []) (x := ⟨a.lower, ub⟩) (by dsimp; omega) hcP.1
          canonical_nil hPa (by simp)
        rw [e]
        refine ⟨hc', fun k => ?_⟩
        have := hm k
        simp only [holds_append, holds_cons, holds_nil, InRange] at *
        grind
      | some b =>
        obtain ⟨S', rfl⟩ := head?_eq_some hh
        have hb := hS b (by simp)
        have hcS := canonical_cons.1 hcS
        have hbP : b ∉ P' := by
          intro h; have := hPS' b h b (by simp); omega
        by_cases hmerge : b.lower ≤ ub + 1
        · simp only [hmerge, ↓reduceIte, erase_mid _ _ _ hbP, true_and]
          obtain ⟨e, hc'⟩ := place (P := P') (S := S') (x := ⟨a.lower, b.upper⟩) (by dsimp; omega) hcP.1
            hcS.2.2 hPa hcS.2.1
          rw [e]
          refine ⟨hc', fun k => ?_⟩
          have := hm k
          simp only [holds_append, holds_cons, holds_nil, InRange] at *
          grind
        · simp only [hmerge, ↓reduceIte, true_and]
          obtain ⟨e, hc'⟩ := place (P := P') (S := b :: S') (x := ⟨a.lower, ub⟩) (by dsimp; omega) hcP.1
            (canonical_cons.2 hcS) hPa (by
            intro q hq
            rcases List.mem_cons.1 hq with rfl | hq
            · dsimp; omega
            · have := hcS.2.1 q hq; have := hcS.1; dsimp; omega)
          rw [e]
          refine ⟨hc', fun k => ?_⟩
          have := hm k
          simp only [holds_append, holds_cons, holds_nil, InRange] at *
          grind
    · simp only [hml, ↓reduceIte]
      have hPlb : ∀ p ∈ P' ++ [a], p.upper + 1 < lb := by
        intro p hp
        rcases List.mem_append.1 hp with hp | hp
        · have := hPa p hp; omega
        · simp only [List.mem_singleton] at hp; subst hp; omega
      cases hh : S.head? with
      | none =>
        have : S = [] := by simpa using hh
        subst this
        simp only [true_and]
        obtain ⟨e, hc'⟩ := place (P := P' ++ [a]) (S := []) (x := ⟨lb, ub⟩) hle (canonical_append.2 hcP)
          canonical_nil hPlb (by simp)
        rw [e]
        refine ⟨hc', fun k => ?_⟩
        have := hm k
        simp only [holds_append, holds_cons, holds_nil, InRange] at *
        grind
      | some b =>
        obtain ⟨S', rfl⟩ := head?_eq_some hh
        have hb := hS b (by simp)
        have hcS := canonical_cons.1 hcS
        have hbP : b ∉ P' ++ [a] := by
          intro h; have := hPlb b h; omega
        by_cases hmerge : b.lower ≤ ub + 1
        · simp only [hmerge, ↓reduceIte, erase_mid _ _ _ hbP, true_and]
          obtain ⟨e, hc'⟩ := place (P := P' ++ [a]) (S := S') (x := ⟨lb, b.upper⟩) (by dsimp; omega)
            (canonical_append.2 hcP) hcS.2.2 hPlb hcS.2.1
          rw [e]
          refine ⟨hc', fun k => ?_⟩
          have := hm k
          simp only [holds_append, holds_cons, holds_nil, InRange] at *
          grind
        · simp only [hmerge, ↓reduceIte, true_and]
          obtain ⟨e, hc'⟩ := place (P := P' ++ [a]) (S := b :: S') (x := ⟨lb, ub⟩) hle
            (canonical_append.2 hcP) (canonical_cons.2 hcS) hPlb (by
            intro q hq
            rcases List.mem_cons.1 hq with rfl | hq
            · dsimp; omega
            · have := hcS.2.1 q hq; have := hcS.1; dsimp; omega)
          rw [e]
          refine ⟨hc', fun k => ?_⟩
          have := hm k
          simp only [holds_append, holds_cons, holds_nil, InRange] at *
          grind

theorem insert_correct {lb ub : Int} {s : List Ivl} (hle : lb ≤ ub) (hc : Canonical s) :
    (insert ⟨lb, ub⟩ s).1 = .success ∧ Canonical (insert ⟨lb, ub⟩ s).2 ∧
    ∀ k, Holds (insert ⟨lb, ub⟩ s).2 k ↔ Holds s k ∨ InRange lb ub k := by
  rcases scan_shape lb ub s hc with ⟨P, M, S, h, hl, hu, hP, hM, hS⟩ | ⟨P, S, x, h, hl, hu, hx⟩
  · subst h
    exact insert_split hle hc hP hM hS (Prod.ext hu hl)
  · have hs : scan lb ub s = (some x, some x) := Prod.ext hu hl
    have e : insert ⟨lb, ub⟩ s = (.success, s) := by
      unfold insert
      simp only [if_neg (show ¬ ub < lb by omega), hs]
      rw [if_pos]; simp; omega
    rw [e]
    refine ⟨rfl, hc, fun k => ⟨Or.inl, ?_⟩⟩
    rintro (hk | hk)
    · exact hk
    · unfold InRange at hk
      exact ⟨x, by rw [h]; simp, by omega⟩

end Verif.IntervalSet
