import Verif.IntervalMap.Model
import Mathlib.Data.List.Basic

namespace Verif.IntervalMap
variable {T : Type}

/-- The ranges are non-empty, disjoint and in order. -/
def WF (m : List (Entry T)) : Prop :=
  (∀ e ∈ m, e.lo ≤ e.hi) ∧ m.Pairwise (fun a b => a.hi < b.lo)

theorem split_before {A B : List (Entry T)} {lo hi : Int}
    (hA : ∀ e ∈ A, less e.lo e.hi lo hi = true) (hB : ∀ e ∈ B, less e.lo e.hi lo hi = false) :
    before (A ++ B) lo hi = A ∧ after (A ++ B) lo hi = B := by
  induction A with
  | nil =>
    cases B with
    | nil => exact ⟨rfl, rfl⟩
    | cons b B =>
      have := hB b (by simp)
      constructor
      · simp [before, this]
      · simp [after, this]
  | cons a A ih =>
    have ha := hA a (by simp)
    obtain ⟨h1, h2⟩ := ih (fun e he => hA e (by simp [he]))
    constructor
    · simp only [before, List.cons_append, List.takeWhile_cons, ha, if_true] at h1 ⊢
      rw [h1]
    · simp only [after, List.cons_append, List.dropWhile_cons, ha, if_true] at h2 ⊢
      exact h2

theorem less_eq {l1 h1 l2 h2 : Int} : less l1 h1 l2 h2 = true ↔ l1 < l2 ∨ (l1 = l2 ∧ h1 > h2) := by
  unfold less
  split <;> simp <;> omega

theorem less_false {l1 h1 l2 h2 : Int} : less l1 h1 l2 h2 = false ↔ l2 < l1 ∨ (l1 = l2 ∧ h1 ≤ h2) := by
  have := @less_eq l1 h1 l2 h2
  cases h : less l1 h1 l2 h2 with
  | true => rw [h] at this; simp only [true_iff] at this; simp; omega
  | false => rw [h] at this; simp only [Bool.false_eq_true, false_iff] at this; simp; omega

/-- Every list splits into a low and a high part relative to a key. -/
theorem wf_split {m : List (Entry T)} (h : WF m) (key : Int) :
    ∃ A B, m = A ++ B ∧ (∀ e ∈ A, e.lo ≤ key) ∧ (∀ e ∈ B, key < e.lo) := by
  obtain ⟨h1, h2⟩ := h
  induction m with
  | nil => exact ⟨[], [], rfl, by simp, by simp⟩
  | cons a m ih =>
    rw [List.pairwise_cons] at h2
    by_cases hk : a.lo ≤ key
    · obtain ⟨A, B, h3, h4, h5⟩ := ih (fun e he => h1 e (by simp [he])) h2.2
      exact ⟨a :: A, B, by simp [h3], by simpa [hk] using h4, h5⟩
    · refine ⟨[], a :: m, rfl, by simp, ?_⟩
      intro e he
      rcases List.mem_cons.mp he with rfl | he
      · omega
      · have := h2.1 e he
        have := h1 a (by simp)
        omega

theorem WF.append_left {A B : List (Entry T)} (h : WF (A ++ B)) : WF A :=
  ⟨fun e he => h.1 e (by simp [he]), (List.pairwise_append.mp h.2).1⟩

theorem find_mem {w : Bool} {m : List (Entry T)} (h : WF m) {key : Int} {e : Entry T} (he : e ∈ m)
    (h1 : e.lo ≤ key) (h2 : key ≤ e.hi) : find w m key = some (some e) := by
  obtain ⟨A, B, rfl⟩ := List.append_of_mem he
  obtain ⟨hle, hpw⟩ := h
  rw [List.pairwise_append, List.pairwise_cons] at hpw
  obtain ⟨-, ⟨hB, -⟩, hA⟩ := hpw
  have hAless : ∀ a ∈ A, less a.lo a.hi key key = true := by
    intro a ha
    have := hA a ha e (by simp)
    have := hle a (by simp [ha])
    rw [less_eq]; omega
  have hBless : ∀ b ∈ B, less b.lo b.hi key key = false := by
    intro b hb
    have := hB b hb
    rw [less_false]; omega
  have hne : (A ++ e :: B).isEmpty = false := by simp
  unfold find
  rw [hne]
  simp only [Bool.false_eq_true, if_false]
  by_cases hk : e.lo = key ∧ e.hi = key
  · have := split_before hAless (B := e :: B) (by
      intro b hb
      rcases List.mem_cons.mp hb with rfl | hb
      · rw [less_false]; omega
      · exact hBless b hb)
    rw [this.2]
    simp [hk]
  · have := split_before (A := A ++ [e]) (B := B) (lo := key) (hi := key) (by
      intro b hb
      rcases List.mem_append.mp hb with hb | hb
      · exact hAless b hb
      · rw [List.mem_singleton] at hb; subst hb; rw [less_eq]; omega) hBless
    rw [List.append_assoc, List.singleton_append] at this
    rw [this.1, this.2]
    have hcont : ¬ (key < e.lo ∨ key > e.hi) := by omega
    cases B with
    | nil => simp [hcont]
    | cons b B =>
      have := hB b (by simp)
      have hbk : ¬ (b.lo = key ∧ b.hi = key) := by omega
      simp [hbk, hcont]

theorem find_not_mem {w : Bool} {m : List (Entry T)} (h : WF m) {key : Int}
    (hno : ∀ e ∈ m, ¬ (e.lo ≤ key ∧ key ≤ e.hi)) :
    find w m key = if m ≠ [] ∧ (∀ e ∈ m, key < e.lo) ∧ w = false then none else some none := by
  by_cases hm : m = []
  · subst hm; simp [find]
  obtain ⟨A, B, rfl, hA, hB⟩ := wf_split h key
  have hAless : ∀ a ∈ A, less a.lo a.hi key key = true := by
    intro a ha
    have h1 := hA a ha
    have := hno a (by simp [ha])
    have := h.1 a (by simp [ha])
    rw [less_eq]; omega
  have hBless : ∀ b ∈ B, less b.lo b.hi key key = false := by
    intro b hb
    have := hB b hb
    rw [less_false]; omega
  have hs := split_before hAless hBless
  have hne : (A ++ B).isEmpty = false := by simpa using hm
  unfold find
  rw [hne]
  simp only [Bool.false_eq_true, if_false]
  rw [hs.1, hs.2]
  have hbk : ∀ b ∈ B, ¬ (b.lo = key ∧ b.hi = key) := fun b hb => by have := hB b hb; omega
  have hlast : ∀ a, A.getLast? = some a → (key < a.lo ∨ key > a.hi) := by
    intro a ha
    have ha' : a ∈ A := List.mem_of_getLast? ha
    have := hno a (by simp [ha'])
    omega
  have hif : (A ++ B ≠ [] ∧ (∀ e ∈ A ++ B, key < e.lo) ∧ w = false) ↔ (A = [] ∧ w = false) := by
    constructor
    · rintro ⟨-, h1, h2⟩
      refine ⟨?_, h2⟩
      cases A with
      | nil => rfl
      | cons a A =>
        have := hA a (by simp)
        have := h1 a (by simp)
        omega
    · rintro ⟨rfl, h2⟩
      exact ⟨hm, by simpa using hB, h2⟩
  simp only [hif]
  cases hg : A.getLast? with
  | none =>
    have hA0 : A = [] := by simpa using hg
    subst hA0
    cases B with
    | nil => simp at hm
    | cons b B =>
      have := hbk b (by simp)
      cases w <;> simp [this]
  | some a =>
    have hA0 : A ≠ [] := by rintro rfl; simp at hg
    have := hlast a hg
    cases B with
    | nil => simp [this, hA0]
    | cons b B =>
      have h2 := hbk b (by simp)
      simp [h2, this, hA0]

/-- What an accepted insertion does. -/
theorem insert_ok {w : Bool} {m : List (Entry T)} (h : WF m) {lo hi : Int} {v : T} {m' : List (Entry T)}
    (hins : insert w m lo hi v = some (true, m'))
    (henc : ∀ e ∈ m, ¬ (lo < e.lo ∧ e.hi < hi)) :
    lo ≤ hi ∧ (∀ e ∈ m, e.hi < lo ∨ hi < e.lo) ∧ WF m' ∧ ∃ A B, m = A ++ B ∧ m' = A ++ ⟨lo, hi, v⟩ :: B := by
  unfold insert at hins
  by_cases hlt : hi < lo
  · rw [if_pos hlt] at hins; simp at hins
  rw [if_neg hlt] at hins
  have hno : ∀ key, find w m key = some none → ∀ e ∈ m, ¬ (e.lo ≤ key ∧ key ≤ e.hi) := by
    intro key hf e he ⟨h1, h2⟩
    rw [find_mem h he h1 h2] at hf
    cases hf
  cases hf1 : find w m lo with
  | none => rw [hf1] at hins; simp at hins
  | some r1 =>
    rw [hf1] at hins
    cases r1 with
    | some e => simp at hins
    | none =>
      simp only at hins
      cases hf2 : find w m hi with
      | none => rw [hf2] at hins; simp at hins
      | some r2 =>
        rw [hf2] at hins
        cases r2 with
        | some e => simp at hins
        | none =>
          simp only at hins
          have hn1 := hno lo hf1
          have hn2 := hno hi hf2
          have hdis : ∀ e ∈ m, e.hi < lo ∨ hi < e.lo := by
            intro e he
            have := hn1 e he
            have := hn2 e he
            have := henc e he
            have := h.1 e he
            omega
          obtain ⟨A, B, hm, hA, hB⟩ := wf_split h lo
          have hA' : ∀ a ∈ A, a.hi < lo := by
            intro a ha
            have h1 := hA a ha
            have := hn1 a (by simp [hm, ha])
            omega
          have hB' : ∀ b ∈ B, hi < b.lo := by
            intro b hb
            have h1 := hB b hb
            have := hdis b (by simp [hm, hb])
            have := h.1 b (by simp [hm, hb])
            omega
          have hs := split_before (A := A) (B := B) (lo := lo) (hi := hi)
            (by
              intro a ha
              have h1 := hA' a ha
              have := h.1 a (by simp [hm, ha])
              rw [less_eq]; omega)
            (by
              intro b hb
              have h1 := hB b hb
              rw [less_false]; omega)
          rw [← hm] at hs
          rw [hs.1, hs.2] at hins
          have hm' : m' = A ++ ⟨lo, hi, v⟩ :: B := by
            cases B with
            | nil => simpa using hins.symm
            | cons b B =>
              have h1 := hB' b (by simp)
              have : ¬ (b.lo = lo ∧ b.hi = hi) := by omega
              simp only [List.head?_cons, if_neg this, Option.some.injEq, Prod.mk.injEq, true_and] at hins
              exact hins.symm
          refine ⟨by omega, hdis, ?_, A, B, hm, hm'⟩
          rw [hm']
          have hw := h
          rw [hm] at hw
          obtain ⟨h5, h6⟩ := hw
          rw [List.pairwise_append] at h6
          refine ⟨?_, ?_⟩
          · intro e he
            rcases List.mem_append.mp he with he | he
            · exact h5 e (by simp [he])
            · rcases List.mem_cons.mp he with rfl | he
              · show lo ≤ hi; omega
              · exact h5 e (by simp [he])
          · rw [List.pairwise_append, List.pairwise_cons]
            refine ⟨h6.1, ⟨fun b hb => hB' b hb, h6.2.1⟩, ?_⟩
            intro a ha b hb
            rcases List.mem_cons.mp hb with rfl | hb
            · exact hA' a ha
            · exact h6.2.2 a ha b hb

theorem insert_false {w : Bool} {m m' : List (Entry T)} {lo hi : Int} {v : T}
    (h : insert w m lo hi v = some (false, m')) : m' = m := by
  unfold insert at h
  repeat' split at h
  all_goals simp_all

theorem erase_wf {w : Bool} {m m' : List (Entry T)} (h : WF m) {key : Int} (he : erase w m key = some m') :
    WF m' ∧ ∀ e, e ∈ m' ↔ e ∈ m ∧ ¬ (e.lo ≤ key ∧ key ≤ e.hi) := by
  unfold erase at he
  by_cases hex : ∃ e ∈ m, e.lo ≤ key ∧ key ≤ e.hi
  · obtain ⟨e, hem, h1, h2⟩ := hex
    rw [find_mem h hem h1 h2] at he
    simp only [Option.some.injEq] at he
    subst he
    refine ⟨⟨fun x hx => h.1 x (List.mem_of_mem_filter hx), h.2.filter _⟩, ?_⟩
    intro x
    rw [List.mem_filter]
    constructor
    · rintro ⟨hx, hne⟩
      refine ⟨hx, ?_⟩
      rintro ⟨h3, h4⟩
      have h5 := find_mem (w := w) h hx h3 h4
      rw [find_mem h hem h1 h2] at h5
      cases h5
      simp at hne
    · rintro ⟨hx, hno⟩
      refine ⟨hx, ?_⟩
      simp only [Bool.not_eq_true', Bool.and_eq_false_iff, beq_eq_false_iff_ne]
      by_contra h3
      apply hno
      have : x.lo = e.lo ∧ x.hi = e.hi := by
        constructor
        · by_contra h4; exact h3 (Or.inl h4)
        · by_contra h4; exact h3 (Or.inr h4)
      omega
  · have hno : ∀ e ∈ m, ¬ (e.lo ≤ key ∧ key ≤ e.hi) := fun e he h1 => hex ⟨e, he, h1⟩
    rw [find_not_mem h hno] at he
    split at he
    · simp_all
    · rename_i heq
      simp only [Option.some.injEq] at he
      subst he
      exact ⟨h, fun e => ⟨fun h1 => ⟨h1, hno e h1⟩, fun h1 => h1.1⟩⟩
    · rename_i heq
      split at heq <;> cases heq

end Verif.IntervalMap
