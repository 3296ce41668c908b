import Verif.SvmMulti.Proof
import Mathlib.Algebra.BigOperators.Group.Finset.Basic
import Mathlib.Algebra.BigOperators.Intervals
import Mathlib.Algebra.Order.BigOperators.Group.Finset
import Mathlib.Data.Rat.Defs
import Mathlib.Algebra.Order.Field.Rat
import Mathlib.Tactic.FieldSimp
import Mathlib.Tactic.Positivity
import Mathlib.Tactic.Ring
import Mathlib.Tactic.NormNum

/-
C79: votes of the one-versus-one classifiers.
-/
namespace Verif.SvmMulti
open Finset

variable {F : Type} [Field F] [LinearOrder F]

/-- Class `c` wins against class `b`; `D a b` for `a < b` is the decision value of their
classifier, positive for class `a`. -/
def Beats (D : Nat → Nat → F) (c b : Nat) : Prop := if c < b then 0 < D c b else ¬ 0 < D b c

instance (D : Nat → Nat → F) (c b : Nat) : Decidable (Beats D c b) := by unfold Beats; infer_instance

theorem sum_pairs {M : Type} [AddCommMonoid M] (K : Nat) (f : Nat × Nat → M) :
    ((pairs K).map f).sum = ∑ a ∈ range K, ∑ b ∈ range K with a < b, f (a, b) := by
  have inner : ∀ a, a < K → (((List.range' (a + 1) (K - (a + 1))).map fun b => (a, b)).map f).sum =
      ∑ b ∈ range K with a < b, f (a, b) := by
    intro a ha
    have e : (range K).filter (fun b => a < b) = (List.range' (a + 1) (K - (a + 1))).toFinset := by
      ext b
      simp only [mem_filter, mem_range, List.mem_toFinset, List.mem_range'_1]
      omega
    rw [e, List.sum_toFinset _ (List.nodup_range' (step := 1) (by omega)), List.map_map]
    rfl
  have outer : ∀ I, I ≤ K → (((List.range I).flatMap fun i =>
      (List.range' (i + 1) (K - (i + 1))).map fun j => (i, j)).map f).sum =
      ∑ a ∈ range I, ∑ b ∈ range K with a < b, f (a, b) := by
    intro I
    induction I with
    | zero => intro _; simp
    | succ I ih =>
      intro hI
      rw [List.range_succ, List.flatMap_append, List.map_append, List.sum_append, ih (by omega),
        sum_range_succ, ← inner I (by omega)]
      simp
  exact outer K (le_refl _)

/-- A sum over all pairs of a value for the first and one for the second class,
restricted to the pairs with class `c`. -/
theorem sum_class {M : Type} [AddCommMonoid M] (K c : Nat) (hc : c < K) (u v : Nat → Nat → M) :
    (∑ a ∈ range K, ∑ b ∈ range K with a < b, ((if c = a then u a b else 0) + if c = b then v a b else 0)) =
      ∑ b ∈ range K with b ≠ c, if c < b then u c b else v b c := by
  have e1 : (∑ a ∈ range K, ∑ b ∈ range K with a < b, (if c = a then u a b else 0)) =
      ∑ b ∈ range K with c < b, u c b := by
    rw [sum_eq_single c]
    · exact sum_congr rfl fun b _ => by rw [if_pos rfl]
    · intro a _ ha
      exact sum_eq_zero fun b _ => if_neg (Ne.symm ha)
    · intro h; exact absurd (mem_range.2 hc) h
  have e2 : (∑ a ∈ range K, ∑ b ∈ range K with a < b, (if c = b then v a b else 0)) =
      ∑ a ∈ range K with a < c, v a c := by
    rw [sum_filter]
    refine sum_congr rfl fun a _ => ?_
    by_cases hac : a < c
    · rw [if_pos hac, sum_eq_single c]
      · rw [if_pos rfl]
      · intro b _ hb
        exact if_neg (Ne.symm hb)
      · intro h
        exact absurd (mem_filter.2 ⟨mem_range.2 hc, hac⟩) h
    · rw [if_neg hac]
      refine sum_eq_zero fun b hb => if_neg fun h => ?_
      rw [mem_filter] at hb
      rw [← h] at hb
      exact hac hb.2
  simp only [sum_add_distrib]
  rw [e1, e2]
  have e3 : (∑ b ∈ range K with b ≠ c, if c < b then u c b else v b c) =
      ∑ b ∈ range K, ((if c < b then u c b else 0) + if b < c then v b c else 0) := by
    rw [sum_filter]
    refine sum_congr rfl fun b _ => ?_
    rcases Nat.lt_trichotomy b c with h | h | h
    · rw [if_pos (by omega), if_neg (by omega), if_neg (by omega), if_pos h, zero_add]
    · rw [if_neg (by omega), if_neg (by omega), if_neg (by omega), zero_add]
    · rw [if_pos (by omega), if_pos h, if_pos h, if_neg (by omega), add_zero]
  rw [e3, sum_add_distrib, ← sum_filter, ← sum_filter]

omit [Field F] [LinearOrder F] in
theorem zipIdx_map {M : Type} (ps : List (Nat × Nat)) (d : Nat → F) (D : Nat → Nat → F)
    (hd : ∀ k p, ps[k]? = some p → d k = D p.1 p.2) (f : Nat × Nat → F → M) :
    ps.zipIdx.map (fun p => f p.1 (d p.2)) = ps.map fun p => f p (D p.1 p.2) := by
  refine List.ext_getElem? fun k => ?_
  rw [List.getElem?_map, List.getElem?_map, List.getElem?_zipIdx]
  rcases e : ps[k]? with _ | p
  · rfl
  · simp [hd k p e]

theorem votes_sum (ps : List (Nat × Nat)) (d : Nat → F) (c : Nat) :
    votes ps d c = (ps.zipIdx.map fun p => if c = (if 0 < d p.2 then p.1.1 else p.1.2) then 1 else 0).sum := by
  have key : ∀ (l : List ((Nat × Nat) × Nat)) (v : Nat → Nat),
      l.foldl (fun v p => fun c => if c = (if 0 < d p.2 then p.1.1 else p.1.2) then v c + 1 else v c) v c =
      v c + (l.map fun p => if c = (if 0 < d p.2 then p.1.1 else p.1.2) then 1 else 0).sum := by
    intro l
    induction l with
    | nil => intro v; rfl
    | cons p l ih =>
      intro v
      rw [List.foldl_cons, ih, List.map_cons, List.sum_cons]
      by_cases h : c = (if 0 < d p.2 then p.1.1 else p.1.2)
      · rw [if_pos h, if_pos h]; omega
      · rw [if_neg h, if_neg h]; omega
  rw [votes, key]
  omega

/-- The votes of class `c` are the number of classes against which it wins. -/
theorem C79_votes (K : Nat) (d : Nat → F) (D : Nat → Nat → F)
    (hd : ∀ k p, (pairs K)[k]? = some p → d k = D p.1 p.2) (c : Nat) (hc : c < K) :
    votes (pairs K) d c = (#{b ∈ range K | b ≠ c ∧ Beats D c b}) := by
  rw [votes_sum, zipIdx_map (pairs K) d D hd
    (fun p t => if c = (if 0 < t then p.1 else p.2) then 1 else 0), sum_pairs]
  have e : ∀ a ∈ range K, (∑ b ∈ range K with a < b,
      (if c = (if 0 < D (a, b).1 (a, b).2 then (a, b).1 else (a, b).2) then 1 else 0)) =
      ∑ b ∈ range K with a < b, ((if c = a then (if 0 < D a b then 1 else 0) else 0) +
        if c = b then (if 0 < D a b then 0 else 1) else 0) := by
    intro a _
    refine sum_congr rfl fun b hb => ?_
    have hab : a < b := (mem_filter.1 hb).2
    simp only
    by_cases h0 : 0 < D a b
    · simp only [if_pos h0, ite_self, add_zero]
    · simp only [if_neg h0, ite_self, zero_add]
  rw [sum_congr rfl e, sum_class K c hc, ← filter_filter, card_filter]
  refine sum_congr rfl fun b hb => ?_
  unfold Beats
  by_cases h : c < b
  · simp only [if_pos h]
  · simp only [if_neg h]
    by_cases h0 : 0 < D b c <;> simp [h0]

omit [LinearOrder F] in
theorem confidence_sum (ps : List (Nat × Nat)) (hne : ∀ p ∈ ps, p.1 ≠ p.2) (d : Nat → F) (c : Nat) :
    confidence ps d c = (ps.zipIdx.map fun p =>
      (if c = p.1.1 then d p.2 else 0) + if c = p.1.2 then -d p.2 else 0).sum := by
  have key : ∀ (l : List ((Nat × Nat) × Nat)), (∀ p ∈ l, p.1.1 ≠ p.1.2) → ∀ (v : Nat → F),
      l.foldl (fun s p => fun c =>
        let s1 := fun c => if c = p.1.1 then s c + d p.2 else s c
        if c = p.1.2 then s1 c - d p.2 else s1 c) v c =
      v c + (l.map fun p => (if c = p.1.1 then d p.2 else 0) + if c = p.1.2 then -d p.2 else 0).sum := by
    intro l
    induction l with
    | nil => intro _ v; simp
    | cons p l ih =>
      intro h v
      have hp := h p (by simp)
      rw [List.foldl_cons, ih (fun q hq => h q (by simp [hq])), List.map_cons, List.sum_cons]
      simp only
      by_cases h1 : c = p.1.1
      · have h2 : c ≠ p.1.2 := fun h => hp (h1 ▸ h)
        rw [if_pos h1, if_neg h2, if_neg h2, if_pos h1]; ring
      · rw [if_neg h1, if_neg h1]
        by_cases h2 : c = p.1.2
        · rw [if_pos h2, if_pos h2]; ring
        · rw [if_neg h2, if_neg h2]; ring
  rw [confidence, key]
  · simp
  · intro p hp
    exact hne p.1 (List.mem_zipIdx' hp |>.2 ▸ List.getElem_mem _)

omit [LinearOrder F] in
/-- The confidence of class `c`: its decision values against the other classes, with the
sign for `c`. -/
theorem C79_confidence (K : Nat) (d : Nat → F) (D : Nat → Nat → F)
    (hd : ∀ k p, (pairs K)[k]? = some p → d k = D p.1 p.2) (c : Nat) (hc : c < K) :
    confidence (pairs K) d c = ∑ b ∈ range K with b ≠ c, if c < b then D c b else -D b c := by
  rw [confidence_sum _ (fun p hp => ne_of_lt (mem_pairs.1 (show (p.1, p.2) ∈ pairs K from hp)).1),
    zipIdx_map (pairs K) d D hd (fun p t => (if c = p.1 then t else 0) + if c = p.2 then -t else 0),
    sum_pairs, sum_class K c hc (fun a b => D a b) (fun a b => -D a b)]

/-! ### Prediction -/

theorem argmax_spec (v : Nat → Nat) : ∀ k, 0 < k →
    (argmax v k).2 < k ∧ (argmax v k).1 = v (argmax v k).2 ∧ (∀ c, c < k → v c ≤ v (argmax v k).2) ∧
    ∀ c, c < (argmax v k).2 → v c < v (argmax v k).2 := by
  have key : ∀ k, (argmax v k).1 = 0 ∧ (argmax v k).2 = 0 ∧ (∀ c, c < k → v c = 0) ∨
      ((argmax v k).2 < k ∧ (argmax v k).1 = v (argmax v k).2 ∧ 0 < (argmax v k).1 ∧
        (∀ c, c < k → v c ≤ v (argmax v k).2) ∧ ∀ c, c < (argmax v k).2 → v c < v (argmax v k).2) := by
    intro k
    induction k with
    | zero => left; exact ⟨rfl, rfl, fun c hc => by omega⟩
    | succ k ih =>
      simp only [argmax]
      rcases e : argmax v k with ⟨m, i⟩
      rw [e] at ih
      simp only at ih ⊢
      by_cases h : m < v k
      · rw [if_pos h]
        right
        refine ⟨by simp, rfl, by simp; omega, ?_, ?_⟩
        · intro c hc
          simp only
          rcases ih with ⟨_, _, h0⟩ | ⟨_, hm, _, h3, _⟩
          · rcases Nat.lt_or_ge c k with hk | hk
            · rw [h0 c hk]; omega
            · rw [show c = k by omega]
          · rcases Nat.lt_or_ge c k with hk | hk
            · have := h3 c hk; omega
            · rw [show c = k by omega]
        · intro c hc
          simp only at hc ⊢
          rcases ih with ⟨_, _, h0⟩ | ⟨_, hm, _, h3, _⟩
          · rw [h0 c hc]; omega
          · have := h3 c hc; omega
      · rw [if_neg h]
        rcases ih with ⟨h1, h2, h0⟩ | ⟨h1, hm, hp, h3, h4⟩
        · left
          refine ⟨h1, h2, fun c hc => ?_⟩
          rcases Nat.lt_or_ge c k with hk | hk
          · exact h0 c hk
          · rw [show c = k by omega]; omega
        · right
          refine ⟨by simp only; omega, hm, hp, ?_, h4⟩
          intro c hc
          rcases Nat.lt_or_ge c k with hk | hk
          · exact h3 c hk
          · rw [show c = k by omega]; simp only; omega
  intro k hk
  rcases key k with ⟨h1, h2, h0⟩ | ⟨h1, h2, _, h3, h4⟩
  · rw [h1, h2]
    refine ⟨hk, (h0 0 hk).symm, fun c hc => by rw [h0 c hc]; omega, fun c hc => by omega⟩
  · exact ⟨h1, h2, h3, h4⟩

/-- The predicted class has the largest number of votes, and is the first one with it. -/
theorem C79_predict (K : Nat) (hK : 0 < K) (d : Nat → F) :
    predict K d < K ∧ (∀ c, c < K → votes (pairs K) d c ≤ votes (pairs K) d (predict K d)) ∧
    ∀ c, c < predict K d → votes (pairs K) d c < votes (pairs K) d (predict K d) := by
  obtain ⟨h1, _, h3, h4⟩ := argmax_spec (votes (pairs K) d) K hK
  exact ⟨h1, h3, h4⟩

/-- A class that wins against all others is predicted. -/
theorem C79_winner (K : Nat) (d : Nat → F) (D : Nat → Nat → F)
    (hd : ∀ k p, (pairs K)[k]? = some p → d k = D p.1 p.2) (c : Nat) (hc : c < K)
    (hw : ∀ b, b < K → b ≠ c → Beats D c b) : predict K d = c := by
  by_contra hne
  obtain ⟨h1, h2, _⟩ := C79_predict K (by omega) d
  have hlt : votes (pairs K) d (predict K d) < votes (pairs K) d c := by
    rw [C79_votes K d D hd c hc, C79_votes K d D hd _ h1]
    have e : ((range K).filter fun b => b ≠ c ∧ Beats D c b) = (range K).erase c := by
      ext b
      simp only [mem_filter, mem_range, mem_erase]
      constructor
      · rintro ⟨a, b, _⟩; exact ⟨b, a⟩
      · rintro ⟨a, b⟩; exact ⟨b, a, hw _ b a⟩
    have e' : ((range K).filter fun b => b ≠ predict K d ∧ Beats D (predict K d) b) ⊆
        ((range K).erase c).erase (predict K d) := by
      intro b
      simp only [mem_filter, mem_range, mem_erase]
      rintro ⟨hb, hbp, hbeat⟩
      refine ⟨hbp, ?_, hb⟩
      rintro rfl
      have := hw (predict K d) h1 hne
      unfold Beats at this hbeat
      rcases Nat.lt_or_gt_of_ne hne with h | h
      · rw [if_pos h] at hbeat
        rw [if_neg (by omega)] at this
        exact this hbeat
      · rw [if_pos h] at this
        rw [if_neg (by omega)] at hbeat
        exact hbeat this
    have hm : predict K d ∈ (range K).erase c := mem_erase.2 ⟨hne, mem_range.2 h1⟩
    rw [e]
    exact lt_of_le_of_lt (card_le_card e') (card_erase_lt_of_mem hm)
  have := h2 c hc
  omega

/-! ### One-versus-rest decision values -/

variable [IsStrictOrderedRing F]

/-- The confidence changes a decision value by less than a third, so that they are in the
order of the votes. -/
theorem C79_ovr_votes (K : Nat) (d : Nat → F) (c b : Nat)
    (h : votes (pairs K) d c < votes (pairs K) d b) :
    |ovr K d c - votes (pairs K) d c| < 1 / 3 ∧ ovr K d c < ovr K d b := by
  have key : ∀ t : F, |t / (3 * (|t| + 1))| < 1 / 3 := by
    intro t
    have h0 : 0 ≤ |t| := abs_nonneg t
    have h3 : (0 : F) < 3 * (|t| + 1) := by positivity
    rw [abs_div, abs_of_pos h3, div_lt_div_iff₀ h3 (by norm_num)]
    linarith
  have hc := key (confidence (pairs K) d c)
  have hb := key (confidence (pairs K) d b)
  constructor
  · unfold ovr; rw [add_sub_cancel_left]; exact hc
  · unfold ovr
    have hv : (votes (pairs K) d c : F) + 1 ≤ votes (pairs K) d b := by exact_mod_cast h
    have h1 := (abs_lt.1 hc).2
    have h2 := (abs_lt.1 hb).1
    linarith

/-- A class with the largest decision value has the largest number of votes. -/
theorem C79_ovr_max (K : Nat) (d : Nat → F) (c : Nat) (hmax : ∀ b, b < K → ovr K d b ≤ ovr K d c) :
    ∀ b, b < K → votes (pairs K) d b ≤ votes (pairs K) d c := by
  intro b hb
  by_contra h
  have := (C79_ovr_votes K d c b (by omega)).2
  have := hmax b hb
  linarith

/-- Full property: the class with the largest decision value is the predicted one. -/
def C79_ovr_statement (F : Type) [Field F] [LinearOrder F] : Prop :=
  ∀ (K : Nat) (d : Nat → F) (c : Nat), 2 < K → c < K → (∀ b, b < K → b ≠ c → ovr K d b < ovr K d c) →
    predict K d = c

/-- Violated when the votes are equal: three classes, each of which wins once. -/
theorem C79_ovr_violated : ¬ C79_ovr_statement ℚ := by
  intro h
  have := h 3 (fun k => [1, -1, 5].getD k 0) 1 (by decide) (by decide) (by decide +kernel)
  revert this
  decide +kernel

/-- It holds if the votes of the predicted class are not reached by any other. -/
theorem C79_ovr_partial (K : Nat) (d : Nat → F) (c : Nat) (hc : c < K)
    (hmax : ∀ b, b < K → ovr K d b ≤ ovr K d c)
    (huniq : ∀ b, b < K → b ≠ predict K d → votes (pairs K) d b < votes (pairs K) d (predict K d)) :
    predict K d = c := by
  by_contra hne
  have h1 := huniq c hc (Ne.symm hne)
  have h2 := C79_ovr_max K d c hmax (predict K d) (C79_predict K (by omega) d).1
  omega

/-! Four classes, class 2 wins against all. -/
example :
    let d : Nat → ℚ := fun k => [1, -2, 3, -1, 1, 2].getD k 0
    pairs 4 = [(0, 1), (0, 2), (0, 3), (1, 2), (1, 3), (2, 3)] ∧
    (List.range 4).map (votes (pairs 4) d) = [2, 1, 3, 0] ∧ predict 4 d = 2 ∧
    (List.range 4).map (confidence (pairs 4) d) = [2, -1, 5, -6] ∧
    ovr 4 d 2 = 3 + 5 / 18 := by decide +kernel

end Verif.SvmMulti
