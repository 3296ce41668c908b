/- Helper lemmas for the interval-set theorems. -/
import Verif.IntervalSet.Spec
namespace Verif.IntervalSet

theorem canonical_nil : Canonical [] := ⟨by simp, List.Pairwise.nil⟩

theorem canonical_cons {x : Ivl} {s : List Ivl} :
    Canonical (x :: s) ↔ x.lower ≤ x.upper ∧ (∀ b ∈ s, x.upper + 1 < b.lower) ∧ Canonical s := by
  simp only [Canonical, List.mem_cons, forall_eq_or_imp, List.pairwise_cons]
  constructor
  · rintro ⟨⟨h1, h2⟩, h3, h4⟩; exact ⟨h1, h3, h2, h4⟩
  · rintro ⟨h1, h3, h2, h4⟩; exact ⟨⟨h1, h2⟩, h3, h4⟩

theorem canonical_append {a b : List Ivl} :
    Canonical (a ++ b) ↔ Canonical a ∧ Canonical b ∧ ∀ x ∈ a, ∀ y ∈ b, x.upper + 1 < y.lower := by
  simp only [Canonical, List.mem_append, List.pairwise_append]
  constructor
  · rintro ⟨h1, h2, h3, h4⟩
    exact ⟨⟨fun i hi => h1 i (Or.inl hi), h2⟩, ⟨fun i hi => h1 i (Or.inr hi), h3⟩, h4⟩
  · rintro ⟨⟨h1, h2⟩, ⟨h3, h4⟩, h5⟩
    exact ⟨fun i hi => hi.elim (h1 i) (h3 i), h2, h4, h5⟩

theorem holds_nil {k : Int} : ¬ Holds [] k := by simp [Holds]

theorem holds_cons {x : Ivl} {s : List Ivl} {k : Int} :
    Holds (x :: s) k ↔ (x.lower ≤ k ∧ k ≤ x.upper) ∨ Holds s k := by
  simp [Holds]

theorem holds_append {a b : List Ivl} {k : Int} :
    Holds (a ++ b) k ↔ Holds a k ∨ Holds b k := by
  simp only [Holds, List.mem_append]
  constructor
  · rintro ⟨i, hi | hi, h⟩
    · exact Or.inl ⟨i, hi, h⟩
    · exact Or.inr ⟨i, hi, h⟩
  · rintro (⟨i, hi, h⟩ | ⟨i, hi, h⟩)
    · exact ⟨i, Or.inl hi, h⟩
    · exact ⟨i, Or.inr hi, h⟩

/-- The scan when every remaining element starts above `lb`. -/
theorem scanLoop_above (lb ub : Int) (T : List Ivl) (il : It) (hc : Canonical T)
    (hT : ∀ x ∈ T, lb < x.lower) :
    ∃ M S, T = M ++ S ∧ scanLoop lb ub T il = (S.head?, il) ∧
      (∀ m ∈ M, m.upper < ub) ∧ (∀ x ∈ S, ub ≤ x.upper) := by
  induction T with
  | nil => exact ⟨[], [], by simp [scanLoop]⟩
  | cons x xs ih =>
    rw [canonical_cons] at hc
    by_cases hx : x.upper < ub
    · obtain ⟨M, S, h1, h2, h3, h4⟩ := ih hc.2.2 (fun y hy => hT y (List.mem_cons_of_mem _ hy))
      refine ⟨x :: M, S, by simp [h1], ?_, ?_, h4⟩
      · rw [scanLoop.eq_def]
        simp only [hx, ↓reduceIte]
        clear ih h1
        cases xs with
        | nil => exact h2
        | cons y ys =>
          have := hT y (by simp)
          dsimp only
          rw [if_neg (by omega), h2]
      · intro m hm
        rcases List.mem_cons.1 hm with rfl | hm
        · exact hx
        · exact h3 m hm
    · refine ⟨[], x :: xs, rfl, by rw [scanLoop.eq_def]; simp [hx], by simp, ?_⟩
      intro y hy
      rcases List.mem_cons.1 hy with rfl | hy
      · omega
      · have h1 := hc.2.1 y hy
        have h2 := hc.2.2.1 y hy
        omega

/-- Result of the scan: the three parts of the set. -/
inductive ScanShape (lb ub : Int) (s : List Ivl) (iu il : It) : Prop
  | split (P M S : List Ivl) (h : s = P ++ M ++ S) (hl : il = P.getLast?) (hu : iu = S.head?)
      (hP : ∀ p ∈ P, p.lower ≤ lb ∧ p.upper < ub) (hM : ∀ m ∈ M, lb < m.lower ∧ m.upper < ub)
      (hS : ∀ x ∈ S, lb < x.lower ∧ ub ≤ x.upper)
  | inside (P S : List Ivl) (x : Ivl) (h : s = P ++ x :: S) (hl : il = some x) (hu : iu = some x)
      (hx : x.lower ≤ lb ∧ ub ≤ x.upper)

theorem scanLoop_shape (lb ub : Int) (T : List Ivl) : ∀ (x : Ivl), Canonical (x :: T) → x.lower ≤ lb →
    ScanShape lb ub (x :: T) (scanLoop lb ub (x :: T) (some x)).1 (scanLoop lb ub (x :: T) (some x)).2
      ∧ ∃ a, (scanLoop lb ub (x :: T) (some x)).2 = some a ∧ a.lower ≤ lb := by
  induction T with
  | nil =>
    intro x _ hx
    by_cases hu : x.upper < ub
    · refine ⟨.split [x] [] [] rfl ?_ ?_ ?_ (by simp) (by simp), x, ?_, hx⟩
      · simp [scanLoop, hu]
      · simp [scanLoop, hu]
      · intro p hp; simp only [List.mem_singleton] at hp; subst hp; exact ⟨hx, hu⟩
      · simp [scanLoop, hu]
    · refine ⟨.inside [] [] x rfl ?_ ?_ ⟨hx, by omega⟩, x, ?_, hx⟩ <;> simp [scanLoop, hu]
  | cons y ys ih =>
    intro x hc hx
    have hc' := canonical_cons.1 hc
    by_cases hu : x.upper < ub
    · by_cases hy : y.lower ≤ lb
      · have e : scanLoop lb ub (x :: y :: ys) (some x) = scanLoop lb ub (y :: ys) (some y) := by
          rw [scanLoop.eq_def]; simp [hu, hy]
        rw [e]
        obtain ⟨hs, a, ha, ha'⟩ := ih y hc'.2.2 hy
        refine ⟨?_, a, ha, ha'⟩
        rcases hs with ⟨P, M, S, h, hl, hu', hP, hM, hS⟩ | ⟨P, S, z, h, hl, hu', hz⟩
        · refine .split (x :: P) M S (by simp [h]) ?_ hu' ?_ hM hS
          · rw [hl]
            cases P with
            | nil => rw [ha] at hl; simp at hl
            | cons p P => simp [List.getLast?_cons_cons]
          · intro p hp
            rcases List.mem_cons.1 hp with rfl | hp
            · exact ⟨hx, hu⟩
            · exact hP p hp
        · exact .inside (x :: P) S z (by simp [h]) hl hu' hz
      · have e : scanLoop lb ub (x :: y :: ys) (some x) = scanLoop lb ub (y :: ys) (some x) := by
          rw [scanLoop.eq_def]; simp [hu, hy]
        rw [e]
        have hall : ∀ z ∈ y :: ys, lb < z.lower := by
          intro z hz
          rcases List.mem_cons.1 hz with rfl | hz
          · omega
          · have := (canonical_cons.1 hc'.2.2).2.1 z hz
            have := (canonical_cons.1 hc'.2.2).1
            omega
        obtain ⟨M, S, h1, h2, h3, h4⟩ := scanLoop_above lb ub (y :: ys) (some x) hc'.2.2 hall
        rw [h2]
        refine ⟨.split [x] M S (by simp [h1]) rfl rfl ?_ ?_ ?_, x, rfl, hx⟩
        · intro p hp; simp only [List.mem_singleton] at hp; subst hp; exact ⟨hx, hu⟩
        · intro m hm; exact ⟨hall m (by rw [h1]; simp [hm]), h3 m hm⟩
        · intro m hm; exact ⟨hall m (by rw [h1]; simp [hm]), h4 m hm⟩
    · have e : scanLoop lb ub (x :: y :: ys) (some x) = (some x, some x) := by
        rw [scanLoop.eq_def]; simp [hu]
      rw [e]
      exact ⟨.inside [] (y :: ys) x rfl rfl rfl ⟨hx, by omega⟩, x, rfl, hx⟩

theorem scan_shape (lb ub : Int) (s : List Ivl) (hc : Canonical s) :
    ScanShape lb ub s (scan lb ub s).1 (scan lb ub s).2 := by
  cases s with
  | nil => exact .split [] [] [] rfl rfl rfl (by simp) (by simp) (by simp)
  | cons x T =>
    by_cases hx : x.lower ≤ lb
    · obtain ⟨hs, a, ha, ha'⟩ := scanLoop_shape lb ub T x hc hx
      have e : (scan lb ub (x :: T)) = scanLoop lb ub (x :: T) (some x) := by
        unfold scan
        simp only [List.head?_cons, ha]
        rw [if_neg (by omega), ← ha]
      rw [e]; exact hs
    · have hc' := canonical_cons.1 hc
      have hall : ∀ z ∈ x :: T, lb < z.lower := by
        intro z hz
        rcases List.mem_cons.1 hz with rfl | hz
        · omega
        · have := hc'.2.1 z hz
          have := hc'.1
          omega
      obtain ⟨M, S, h1, h2, h3, h4⟩ := scanLoop_above lb ub (x :: T) (some x) hc hall
      have e : (scan lb ub (x :: T)) = (S.head?, none) := by
        unfold scan
        simp only [List.head?_cons, h2]
        rw [if_pos (by omega)]
      rw [e]
      refine .split [] M S (by simp [h1]) rfl rfl (by simp) ?_ ?_
      · intro m hm; exact ⟨hall m (by rw [h1]; simp [hm]), h3 m hm⟩
      · intro m hm; exact ⟨hall m (by rw [h1]; simp [hm]), h4 m hm⟩

theorem eraseUntil_skip (M S : List Ivl) (h : ∀ m ∈ M, some m ≠ S.head?) :
    eraseUntil S.head? (M ++ S) = S := by
  induction M with
  | nil => cases S <;> simp [eraseUntil]
  | cons m M ih =>
    have h1 := h m (by simp)
    simp only [List.cons_append, eraseUntil, if_neg h1]
    exact ih (fun m hm => h m (List.mem_cons_of_mem _ hm))

theorem eraseBetween_some (P R : List Ivl) (a : Ivl) (itU : It) (h : a ∉ P) :
    eraseBetween (some a) itU (P ++ a :: R) = P ++ a :: eraseUntil itU R := by
  induction P with
  | nil => simp [eraseBetween]
  | cons p P ih =>
    simp only [List.mem_cons, not_or] at h
    simp only [List.cons_append, eraseBetween]
    rw [if_neg (fun e => h.1 e.symm), ih h.2]

theorem eraseBetween_none (s : List Ivl) (itU : It) :
    eraseBetween none itU s = eraseUntil itU s := by
  cases s <;> simp [eraseBetween, eraseUntil]

theorem setInsert_mid (X Y : List Ivl) (x : Ivl)
    (hX : ∀ p ∈ X, p.lower < x.lower) (hY : ∀ q ∈ Y, x.lower < q.lower) :
    setInsert x (X ++ Y) = X ++ x :: Y := by
  induction X with
  | nil =>
    cases Y with
    | nil => rfl
    | cons q Y =>
      have := hY q (by simp)
      have h : x.lt q = true := by
        unfold Ivl.lt; rw [if_neg (by omega)]; simpa using this
      simp [setInsert, h]
  | cons p X ih =>
    have := hX p (by simp)
    have h : x.lt p = false := by
      unfold Ivl.lt; rw [if_neg (by omega)]; simp; omega
    have h' : p.lt x = true := by
      unfold Ivl.lt; rw [if_neg (by omega)]; simpa using this
    simp only [List.cons_append, setInsert, h, h', ↓reduceIte, Bool.false_eq_true]
    rw [ih (fun p hp => hX p (List.mem_cons_of_mem _ hp))]

theorem erase_mid (X Y : List Ivl) (a : Ivl) (h : a ∉ X) : (X ++ a :: Y).erase a = X ++ Y := by
  rw [List.erase_append_right _ h]; simp

theorem getLast?_eq_some {P : List Ivl} {a : Ivl} (h : P.getLast? = some a) :
    ∃ P', P = P' ++ [a] := by
  have := List.getLast?_eq_some_iff.1 h
  exact this

theorem head?_eq_some {S : List Ivl} {b : Ivl} (h : S.head? = some b) :
    ∃ S', S = b :: S' := by
  cases S with
  | nil => simp at h
  | cons x xs => simp at h; exact ⟨xs, by rw [h]⟩

/-- The part of a canonical list removed by the middle erase. -/
theorem eraseBetween_split {lb ub : Int} {P M S : List Ivl} (hc : Canonical (P ++ M ++ S))
    (hM : ∀ m ∈ M, lb < m.lower ∧ m.upper < ub) (hS : ∀ x ∈ S, lb < x.lower ∧ ub ≤ x.upper) :
    eraseBetween P.getLast? S.head? (P ++ M ++ S) = P ++ S := by
  have hMS : ∀ m ∈ M, some m ≠ S.head? := by
    intro m hm e
    obtain ⟨S', hS'⟩ := head?_eq_some e.symm
    have h1 := (hM m hm).2
    have h2 := (hS m (by rw [hS']; simp)).2
    omega
  cases hP : P.getLast? with
  | none =>
    have : P = [] := by simpa using hP
    subst this
    rw [eraseBetween_none]
    simpa using eraseUntil_skip M S hMS
  | some a =>
    obtain ⟨P', rfl⟩ := getLast?_eq_some hP
    have ha : a ∉ P' := by
      intro h
      have := (canonical_append.1 (canonical_append.1 (canonical_append.1 hc).1).1).2.2 a h a (by simp)
      have := (canonical_append.1 (canonical_append.1 hc).1).1.1 a (by simp)
      omega
    have e : P' ++ [a] ++ M ++ S = P' ++ a :: (M ++ S) := by simp
    rw [e, eraseBetween_some _ _ _ _ ha, eraseUntil_skip M S hMS]
    simp

end Verif.IntervalSet
