import Verif.SvmProb.Model
import Verif.SvmMulti.Proof
import Mathlib.Algebra.BigOperators.Ring.Finset
import Mathlib.Algebra.BigOperators.Field
import Mathlib.Algebra.Order.BigOperators.Ring.Finset
import Mathlib.Data.List.Nodup
import Mathlib.Tactic.Linarith
import Mathlib.Tactic.LinearCombination
import Mathlib.Tactic.Ring
import Mathlib.Tactic.FieldSimp
import Mathlib.Tactic.Positivity

/-
Lemmas about the coupling of pairwise probabilities.
-/
namespace Verif.SvmProb

open Finset

variable {F : Type} [Field F] [LinearOrder F]

omit [LinearOrder F] in
theorem foldl_sum (f : Nat → F) (K : Nat) :
    (List.range K).foldl (fun s j => s + f j) 0 = ∑ j ∈ range K, f j := by
  induction K with
  | zero => rfl
  | succ n ih => rw [List.range_succ, List.foldl_append, ih, sum_range_succ]; rfl

/-! ### Pairwise probabilities -/

theorem pairs_nodup (K : Nat) : (SvmMulti.pairs K).Nodup := by
  unfold SvmMulti.pairs
  rw [List.nodup_flatMap]
  refine ⟨fun i _ => (List.nodup_range' (step := 1)).map fun a b h => (Prod.mk.inj h).2, ?_⟩
  refine (List.nodup_range (n := K)).imp ?_
  intro a b hab
  rw [Function.onFun, List.disjoint_left]
  intro x hx hy
  simp only [List.mem_map] at hx hy
  obtain ⟨u, _, rfl⟩ := hx
  obtain ⟨v, _, e⟩ := hy
  exact hab (Prod.mk.inj e).1.symm

/-- One pair. -/
def pairStep (s : Nat → F) (st : (Nat → Nat → F) × Nat) (p : Nat × Nat) : (Nat → Nat → F) × Nat :=
  (set (set st.1 p.1 p.2 (s st.2)) p.2 p.1 (1 - s st.2), st.2 + 1)

omit [LinearOrder F] in
theorem pairwise_eq (K : Nat) (s : Nat → F) :
    pairwise K s = (SvmMulti.pairs K).foldl (pairStep s) (fun _ _ => 0, 0) := by
  unfold pairwise SvmMulti.pairs
  rw [List.foldl_flatMap]
  congr 1
  funext st j
  rw [List.foldl_map]
  rfl

omit [LinearOrder F] in
theorem pairwise_list (s : Nat → F) (ps : List (Nat × Nat)) (hn : ps.Nodup) (hlt : ∀ p ∈ ps, p.1 < p.2) :
    (ps.foldl (pairStep s) (fun _ _ => 0, 0)).2 = ps.length ∧
    ∀ k a b, ps[k]? = some (a, b) →
      (ps.foldl (pairStep s) (fun _ _ => 0, 0)).1 a b = s k ∧
      (ps.foldl (pairStep s) (fun _ _ => 0, 0)).1 b a = 1 - s k := by
  induction ps using List.reverseRecOn with
  | nil => exact ⟨rfl, fun k a b h => by simp at h⟩
  | append_singleton ps q ih =>
    rw [List.nodup_append] at hn
    obtain ⟨i1, i2⟩ := ih hn.1 fun p hp => hlt p (by simp [hp])
    rw [List.foldl_append]
    generalize ps.foldl (pairStep s) (fun _ _ => 0, 0) = st at i1 i2
    have hq := hlt q (by simp)
    refine ⟨by simp [pairStep, i1], fun k a b h => ?_⟩
    show (pairStep s st q).1 a b = _ ∧ (pairStep s st q).1 b a = _
    unfold pairStep set
    simp only
    by_cases hk : k < ps.length
    · rw [List.getElem?_append_left hk] at h
      have hab := hlt (a, b) (by simp [List.mem_of_getElem? h])
      have hne : (a, b) ≠ q := hn.2.2 (a, b) (List.mem_of_getElem? h) q (by simp)
      have hne' : ¬ (a = q.1 ∧ b = q.2) := fun h => hne (Prod.ext h.1 h.2)
      simp only at hab
      rw [if_neg (by omega), if_neg hne', if_neg (by omega), if_neg (by omega)]
      exact i2 k a b h
    · have hk' : k = ps.length := by
        by_contra hc
        rw [List.getElem?_append_right (by omega), List.getElem?_eq_none (by simp; omega)] at h
        cases h
      subst hk'
      rw [List.getElem?_append_right (le_refl _)] at h
      simp only [Nat.sub_self, List.getElem?_cons_zero, Option.some.injEq] at h
      subst h
      simp only at hq
      rw [if_neg (by omega), if_pos ⟨rfl, rfl⟩, if_pos ⟨rfl, rfl⟩, i1]
      exact ⟨rfl, rfl⟩

omit [LinearOrder F] in
/-- The matrix of pairwise probabilities. -/
theorem pairwise_spec (K : Nat) (s : Nat → F) (k a b : Nat) (h : (SvmMulti.pairs K)[k]? = some (a, b)) :
    (pairwise K s).1 a b = s k ∧ (pairwise K s).1 b a = 1 - s k := by
  rw [pairwise_eq]
  exact (pairwise_list s _ (pairs_nodup K) fun p hp =>
    (SvmMulti.mem_pairs.1 (show (p.1, p.2) ∈ SvmMulti.pairs K from hp)).1).2 k a b h

/-! ### The matrix `Q` -/

omit [LinearOrder F] in
/-- What the matrix should be. -/
def qSpec (K : Nat) (r : Nat → Nat → F) (a b : Nat) : F :=
  if a = b then ∑ j ∈ range K with j ≠ a, r j a * r j a else -r b a * r a b

omit [LinearOrder F] in
theorem qRow_left (r Q : Nat → Nat → F) (t : Nat) (hQ : ∀ j, j < t → Q j t = -r t j * r j t) (m : Nat)
    (hm : m ≤ t) :
    let Q' := (List.range m).foldl (fun Q j =>
      let Q := set Q t t (Q t t + r j t * r j t)
      set Q t j (Q j t)) (set Q t t 0)
    (∀ a b, a ≠ t → Q' a b = Q a b) ∧ Q' t t = ∑ j ∈ range m, r j t * r j t ∧
      ∀ j, j < m → Q' t j = -r j t * r t j := by
  induction m with
  | zero =>
    refine ⟨fun a b h => ?_, ?_, fun j hj => by omega⟩
    · simp [set, h]
    · simp [set]
  | succ m ih =>
    obtain ⟨h1, h2, h3⟩ := ih (by omega)
    rw [List.range_succ, List.foldl_append]
    generalize (List.range m).foldl (fun Q j =>
      let Q := set Q t t (Q t t + r j t * r j t)
      set Q t j (Q j t)) (set Q t t 0) = P at h1 h2 h3
    simp only [List.foldl_cons, List.foldl_nil]
    refine ⟨fun a b h => ?_, ?_, fun j hj => ?_⟩
    · simp [set, h, h1 a b h]
    · have : m ≠ t := by omega
      simp only [set]
      rw [if_neg (by omega), if_pos ⟨trivial, trivial⟩, h2, sum_range_succ]
    · by_cases hjm : j = m
      · subst hjm
        have : j ≠ t := by omega
        simp only [set]
        rw [if_pos ⟨trivial, trivial⟩, if_neg (by omega), h1 j t this, hQ j (by omega)]
        ring
      · simp only [set]
        rw [if_neg (by omega), if_neg (by omega)]
        exact h3 j (by omega)

omit [LinearOrder F] in
theorem qRow_right (r Q : Nat → Nat → F) (t : Nat) (m : Nat) :
    let Q' := (List.range' (t + 1) m).foldl (fun Q j =>
      let Q := set Q t t (Q t t + r j t * r j t)
      set Q t j (-r j t * r t j)) Q
    (∀ a b, a ≠ t → Q' a b = Q a b) ∧ Q' t t = Q t t + ∑ j ∈ range m, r (t + 1 + j) t * r (t + 1 + j) t ∧
      (∀ j, j < t → Q' t j = Q t j) ∧
      ∀ j, t < j → j < t + 1 + m → Q' t j = -r j t * r t j := by
  induction m with
  | zero => exact ⟨fun _ _ _ => rfl, by simp, fun _ _ => rfl, fun j h1 h2 => by omega⟩
  | succ m ih =>
    obtain ⟨h1, h2, h3, h4⟩ := ih
    rw [List.range'_1_concat, List.foldl_append]
    generalize (List.range' (t + 1) m).foldl (fun Q j =>
      let Q := set Q t t (Q t t + r j t * r j t)
      set Q t j (-r j t * r t j)) Q = P at h1 h2 h3 h4
    simp only [List.foldl_cons, List.foldl_nil]
    refine ⟨fun a b h => ?_, ?_, fun j hj => ?_, fun j hj hj' => ?_⟩
    · simp [set, h, h1 a b h]
    · simp only [set]
      rw [if_neg (by omega), if_pos ⟨trivial, trivial⟩, h2, sum_range_succ]
      ring
    · simp only [set]
      rw [if_neg (by omega), if_neg (by omega), h3 j hj]
    · by_cases hjm : j = t + 1 + m
      · subst hjm
        simp [set]
      · simp only [set]
        rw [if_neg (by omega), if_neg (by omega)]
        exact h4 j hj (by omega)

omit [LinearOrder F] in
theorem sum_ne (K t : Nat) (ht : t < K) (f : Nat → F) :
    ∑ j ∈ range K with j ≠ t, f j = ∑ j ∈ range t, f j + ∑ j ∈ range (K - (t + 1)), f (t + 1 + j) := by
  have h : ∑ j ∈ range K, f j = ∑ j ∈ range (t + 1), f j + ∑ j ∈ range (K - (t + 1)), f (t + 1 + j) := by
    rw [← sum_range_add f (t + 1) (K - (t + 1))]
    congr 2
    omega
  have h2 := sum_filter_add_sum_filter_not (range K) (fun j => j ≠ t) f
  have h3 : ∑ j ∈ range K with ¬ j ≠ t, f j = f t := by
    have : ((range K).filter fun j => ¬ j ≠ t) = {t} := by
      ext j; simp only [mem_filter, mem_range, mem_singleton]; omega
    rw [this, sum_singleton]
  rw [h3, h, sum_range_succ] at h2
  linear_combination h2

theorem buildQ_spec (K : Nat) (r : Nat → Nat → F) (a b : Nat) (ha : a < K) (hb : b < K) :
    buildQ K r a b = qSpec K r a b := by
  have key : ∀ m, m ≤ K → ∀ a b, a < m → b < K →
      (List.range m).foldl (qRow K r) (fun _ _ => 0) a b = qSpec K r a b := by
    intro m
    induction m with
    | zero => intro _ a b h; omega
    | succ m ih =>
      intro hm a b ha hb
      rw [List.range_succ, List.foldl_append]
      have ih' := ih (by omega)
      generalize (List.range m).foldl (qRow K r) (fun _ _ => 0) = Q at ih'
      show qRow K r Q m a b = _
      obtain ⟨l1, l2, l3⟩ := qRow_left r Q m (fun j hj => by
        rw [ih' j m hj (by omega), qSpec, if_neg (by omega)]) m (le_refl _)
      unfold qRow
      simp only at l1 l2 l3 ⊢
      generalize (List.range m).foldl (fun Q j =>
        set (set Q m m (Q m m + r j m * r j m)) m j (set Q m m (Q m m + r j m * r j m) j m))
        (set Q m m 0) = P at l1 l2 l3 ⊢
      obtain ⟨r1, r2, r3, r4⟩ := qRow_right r P m (K - (m + 1))
      simp only at r1 r2 r3 r4
      generalize (List.range' (m + 1) (K - (m + 1))).foldl (fun Q j =>
        set (set Q m m (Q m m + r j m * r j m)) m j (-r j m * r m j)) P = R at r1 r2 r3 r4 ⊢
      by_cases ham : a = m
      · subst ham
        by_cases hab : a = b
        · subst hab
          rw [r2, l2, qSpec, if_pos rfl, sum_ne K a hb]
        · rw [qSpec, if_neg hab]
          by_cases hlt : b < a
          · rw [r3 b hlt, l3 b hlt]
          · exact r4 b (by omega) (by omega)
      · rw [r1 a b ham, l1 a b ham]
        exact ih' a b (by omega) hb
  exact key K (le_refl _) a b ha hb

/-! ### The quadratic form -/

/-- The matrices for which the iteration works. -/
structure Good (K : Nat) (Q : Nat → Nat → F) : Prop where
  two : 2 ≤ K
  symm : ∀ a b, a < K → b < K → Q a b = Q b a
  diag : ∀ a, a < K → 0 < Q a a
  off : ∀ a b, a < K → b < K → a ≠ b → Q a b < 0
  psd : ∀ p : Nat → F, 0 ≤ ∑ a ∈ range K, p a * ∑ b ∈ range K, Q a b * p b

variable [IsStrictOrderedRing F]

omit [LinearOrder F] [IsStrictOrderedRing F] in
/-- Twice the quadratic form is a sum of squares. -/
theorem quad_squares (K : Nat) (r : Nat → Nat → F) (p : Nat → F) :
    2 * ∑ a ∈ range K, p a * ∑ b ∈ range K, qSpec K r a b * p b =
      ∑ a ∈ range K, ∑ b ∈ range K with b ≠ a, (r b a * p a - r a b * p b) * (r b a * p a - r a b * p b) := by
  have e1 : ∀ a ∈ range K, p a * ∑ b ∈ range K, qSpec K r a b * p b =
      (∑ b ∈ range K with b ≠ a, r b a * r b a * (p a * p a)) -
        ∑ b ∈ range K with b ≠ a, r b a * r a b * (p a * p b) := by
    intro a ha
    have h2 := sum_filter_add_sum_filter_not (range K) (fun b => b ≠ a) (fun b => qSpec K r a b * p b)
    have h3 : ∑ b ∈ range K with ¬ b ≠ a, qSpec K r a b * p b = qSpec K r a a * p a := by
      have : ((range K).filter fun j => ¬ j ≠ a) = {a} := by
        ext j; simp only [mem_filter, mem_range, mem_singleton, not_not]
        exact ⟨fun h => h.2, fun h => ⟨h ▸ mem_range.1 ha, h⟩⟩
      rw [this, sum_singleton]
    rw [← h2, h3, mul_add]
    have h4 : p a * (qSpec K r a a * p a) = ∑ b ∈ range K with b ≠ a, r b a * r b a * (p a * p a) := by
      rw [qSpec, if_pos rfl, ← sum_mul]
      ring
    have h5 : p a * ∑ b ∈ range K with b ≠ a, qSpec K r a b * p b =
        -∑ b ∈ range K with b ≠ a, r b a * r a b * (p a * p b) := by
      rw [mul_sum, ← sum_neg_distrib]
      refine sum_congr rfl fun b hb => ?_
      rw [qSpec, if_neg (Ne.symm (mem_filter.1 hb).2)]
      ring
    rw [h4, h5]
    ring
  have e2 : ∑ a ∈ range K, ∑ b ∈ range K with b ≠ a, r a b * r a b * (p b * p b) =
      ∑ a ∈ range K, ∑ b ∈ range K with b ≠ a, r b a * r b a * (p a * p a) := by
    simp only [sum_filter]
    rw [sum_comm]
    refine sum_congr rfl fun a _ => sum_congr rfl fun b _ => ?_
    by_cases h : a = b
    · simp [h]
    · rw [if_pos h, if_pos (Ne.symm h)]
  rw [sum_congr rfl e1, sum_sub_distrib, two_mul]
  nth_rw 2 [← e2]
  rw [← sum_sub_distrib, ← sum_sub_distrib, ← sum_add_distrib]
  refine sum_congr rfl fun a _ => ?_
  rw [← sum_sub_distrib, ← sum_sub_distrib, ← sum_add_distrib]
  refine sum_congr rfl fun b _ => ?_
  ring

theorem psd_spec (K : Nat) (r : Nat → Nat → F) (p : Nat → F) :
    0 ≤ ∑ a ∈ range K, p a * ∑ b ∈ range K, qSpec K r a b * p b := by
  have h := quad_squares K r p
  have h2 : 0 ≤ ∑ a ∈ range K, ∑ b ∈ range K with b ≠ a,
      (r b a * p a - r a b * p b) * (r b a * p a - r a b * p b) :=
    sum_nonneg fun a _ => sum_nonneg fun b _ => mul_self_nonneg _
  rw [← h] at h2
  linarith

theorem good_spec {K : Nat} (hK : 2 ≤ K) (r : Nat → Nat → F)
    (hr : ∀ a b, a < K → b < K → a ≠ b → 0 < r a b) {Q : Nat → Nat → F}
    (hQ : ∀ a b, a < K → b < K → Q a b = qSpec K r a b) : Good K Q where
  two := hK
  symm a b ha hb := by
    rw [hQ a b ha hb, hQ b a hb ha, qSpec, qSpec]
    by_cases h : a = b
    · rw [h]
    · rw [if_neg h, if_neg (Ne.symm h)]; ring
  diag a ha := by
    rw [hQ a a ha ha, qSpec, if_pos rfl]
    refine sum_pos (fun j hj => ?_) ?_
    · rw [mem_filter, mem_range] at hj
      have := hr j a hj.1 ha hj.2
      positivity
    · by_cases h : a = 0
      · exact ⟨1, mem_filter.2 ⟨mem_range.2 (by omega), by omega⟩⟩
      · exact ⟨0, mem_filter.2 ⟨mem_range.2 (by omega), by omega⟩⟩
  off a b ha hb h := by
    rw [hQ a b ha hb, qSpec, if_neg h]
    have := mul_pos (hr b a hb ha (Ne.symm h)) (hr a b ha hb h)
    linarith
  psd p := by
    have := psd_spec K r p
    have e : ∑ a ∈ range K, p a * ∑ b ∈ range K, Q a b * p b =
        ∑ a ∈ range K, p a * ∑ b ∈ range K, qSpec K r a b * p b :=
      sum_congr rfl fun a ha => by
        rw [sum_congr rfl fun b hb => by rw [hQ a b (mem_range.1 ha) (mem_range.1 hb)]]
    rw [e]
    exact this

/-- State of the iteration. -/
structure Inv (K : Nat) (Q : Nat → Nat → F) (s : St F) : Prop where
  Qp : ∀ t, t < K → s.Qp t = ∑ j ∈ range K, Q t j * s.p j
  pQp : s.pQp = ∑ t ∈ range K, s.p t * s.Qp t
  one : ∑ t ∈ range K, s.p t = 1
  pos : ∀ t, t < K → 0 < s.p t

theorem updateOne_inv {K : Nat} {Q : Nat → Nat → F} (hQ : Good K Q) {s : St F} (hs : Inv K Q s) {t : Nat}
    (ht : t < K) : Inv K Q (updateOne K Q s t) ∧ (updateOne K Q s t).pQp ≤ s.pQp := by
  have hQt := hQ.diag t ht
  have hne : Q t t ≠ 0 := ne_of_gt hQt
  have hq0 : 0 ≤ s.pQp := by
    rw [hs.pQp, sum_congr rfl fun a ha => by rw [hs.Qp a (mem_range.1 ha)]]
    exact hQ.psd s.p
  unfold updateOne
  simp only [hne, if_false]
  generalize hd : (-s.Qp t + s.pQp) / Q t t = d
  have hd' : d * Q t t = -s.Qp t + s.pQp := by rw [← hd]; field_simp
  -- the new value of the probability before scaling
  have hpt : 0 < s.p t + d := by
    have e : (s.p t + d) * Q t t = s.pQp + ∑ j ∈ range K with j ≠ t, -Q t j * s.p j := by
      have h2 := sum_filter_add_sum_filter_not (range K) (fun b => b ≠ t) (fun b => Q t b * s.p b)
      have h3 : ∑ b ∈ range K with ¬ b ≠ t, Q t b * s.p b = Q t t * s.p t := by
        have : ((range K).filter fun j => ¬ j ≠ t) = {t} := by
          ext j; simp only [mem_filter, mem_range, mem_singleton, not_not]; omega
        rw [this, sum_singleton]
      rw [h3, ← hs.Qp t ht] at h2
      have h4 : ∑ j ∈ range K with j ≠ t, -Q t j * s.p j = -∑ j ∈ range K with j ≠ t, Q t j * s.p j := by
        rw [← sum_neg_distrib]
        exact sum_congr rfl fun _ _ => by ring
      rw [h4, add_mul, hd']
      linear_combination h2
    have h5 : 0 < ∑ j ∈ range K with j ≠ t, -Q t j * s.p j := by
      refine sum_pos (fun j hj => ?_) ?_
      · rw [mem_filter, mem_range] at hj
        have h1 := hQ.off t j ht hj.1 (Ne.symm hj.2)
        have h2 := hs.pos j hj.1
        exact mul_pos (by linarith) h2
      · have := hQ.two
        by_cases h : t = 0
        · exact ⟨1, mem_filter.2 ⟨mem_range.2 (by omega), by omega⟩⟩
        · exact ⟨0, mem_filter.2 ⟨mem_range.2 (by omega), by omega⟩⟩
    have h6 : 0 < (s.p t + d) * Q t t := by rw [e]; linarith
    exact (mul_pos_iff_of_pos_right hQt).1 h6
  have hsum : ∑ j ∈ range K, (if j = t then s.p j + d else s.p j) = 1 + d := by
    have : ∀ j ∈ range K, (if j = t then s.p j + d else s.p j) = s.p j + if j = t then d else 0 := by
      intro j _; split <;> simp
    rw [sum_congr rfl this, sum_add_distrib, hs.one, sum_ite_eq' (range K) t (fun _ => d)]
    rw [if_pos (mem_range.2 ht)]
  have hden : 0 < 1 + d := by
    rw [← hsum]
    refine sum_pos (fun j hj => ?_) ⟨t, mem_range.2 ht⟩
    split
    · rename_i h; rw [h]; exact hpt
    · exact hs.pos j (mem_range.1 hj)
  have hdne : (1 + d) ≠ 0 := ne_of_gt hden
  simp only [hdne, if_false]
  have hQp' : ∀ j, j < K → (s.Qp j + d * Q t j) / (1 + d) =
      ∑ l ∈ range K, Q j l * ((if l = t then s.p l + d else s.p l) / (1 + d)) := by
    intro j hj
    have : ∀ l ∈ range K, Q j l * ((if l = t then s.p l + d else s.p l) / (1 + d)) =
        (Q j l * s.p l + if l = t then Q j l * d else 0) / (1 + d) := by
      intro l _; split <;> ring
    rw [sum_congr rfl this, ← sum_div, sum_add_distrib, ← hs.Qp j hj,
      sum_ite_eq' (range K) t (fun l => Q j l * d), if_pos (mem_range.2 ht), hQ.symm j t hj ht]
    ring
  refine ⟨⟨?_, ?_, ?_, ?_⟩, ?_⟩
  · intro j hj
    simp only [hj, if_true]
    rw [hQp' j hj]
    exact sum_congr rfl fun l hl => by rw [if_pos (mem_range.1 hl)]
  · have : ∀ j ∈ range K, (if j < K then (if j = t then s.p j + d else s.p j) / (1 + d) else
        if j = t then s.p j + d else s.p j) *
        (if j < K then (s.Qp j + d * Q t j) / (1 + d) else s.Qp j) =
        (s.p j * s.Qp j + d * (Q t j * s.p j) + if j = t then d * (s.Qp j + d * Q t j) else 0) /
          ((1 + d) * (1 + d)) := by
      intro j hj
      rw [if_pos (mem_range.1 hj), if_pos (mem_range.1 hj)]
      split
      · field_simp
        try ring
      · field_simp
        try ring
    show _ = ∑ j ∈ range K, _
    rw [sum_congr rfl this, ← sum_div, sum_add_distrib, sum_add_distrib, ← hs.pQp, ← mul_sum, ← hs.Qp t ht,
      sum_ite_eq' (range K) t (fun j => d * (s.Qp j + d * Q t j)), if_pos (mem_range.2 ht)]
    ring
  · have : ∀ j ∈ range K, (if j < K then (if j = t then s.p j + d else s.p j) / (1 + d) else
        if j = t then s.p j + d else s.p j) = (if j = t then s.p j + d else s.p j) / (1 + d) :=
      fun j hj => if_pos (mem_range.1 hj)
    show ∑ j ∈ range K, _ = _
    rw [sum_congr rfl this, ← sum_div, hsum]
    exact div_self hdne
  · intro j hj
    simp only [hj, if_true]
    refine div_pos ?_ hden
    split
    · rename_i h; rw [h]; exact hpt
    · exact hs.pos j hj
  · rw [div_le_iff₀ (mul_pos hden hden)]
    have e : s.pQp * ((1 + d) * (1 + d)) - (s.pQp + d * (d * Q t t + 2 * s.Qp t)) =
        d * d * (Q t t + s.pQp) := by
      linear_combination (-2 * d) * hd'
    have : 0 ≤ d * d * (Q t t + s.pQp) := mul_nonneg (mul_self_nonneg d) (by linarith)
    linarith

omit [IsStrictOrderedRing F] in
theorem start_inv {K : Nat} {Q : Nat → Nat → F} {p : Nat → F} (h1 : ∑ t ∈ range K, p t = 1)
    (h0 : ∀ t, t < K → 0 < p t) :
    Inv K Q { p := p, Qp := (products K Q p).1, pQp := (products K Q p).2 } where
  Qp t _ := foldl_sum (fun j => Q t j * p j) K
  pQp := foldl_sum (fun t => p t * (products K Q p).1 t) K
  one := h1
  pos := h0

theorem updateList_inv {K : Nat} {Q : Nat → Nat → F} (hQ : Good K Q) (l : List Nat) :
    ∀ {s : St F}, Inv K Q s → (∀ t ∈ l, t < K) →
      Inv K Q (l.foldl (updateOne K Q) s) ∧ (l.foldl (updateOne K Q) s).pQp ≤ s.pQp := by
  induction l with
  | nil => intro s hs _; exact ⟨hs, le_refl _⟩
  | cons t l ih =>
    intro s hs hl
    obtain ⟨h1, h2⟩ := updateOne_inv hQ hs (hl t (by simp))
    obtain ⟨h3, h4⟩ := ih h1 fun t ht => hl t (by simp [ht])
    exact ⟨h3, h4.trans h2⟩

theorem updateAll_inv {K : Nat} {Q : Nat → Nat → F} (hQ : Good K Q) {p : Nat → F}
    (h1 : ∑ t ∈ range K, p t = 1) (h0 : ∀ t, t < K → 0 < p t) :
    ∑ t ∈ range K, updateAll K Q p t = 1 ∧ (∀ t, t < K → 0 < updateAll K Q p t) ∧
    ∑ a ∈ range K, updateAll K Q p a * ∑ b ∈ range K, Q a b * updateAll K Q p b ≤
      ∑ a ∈ range K, p a * ∑ b ∈ range K, Q a b * p b := by
  have hs := start_inv (Q := Q) h1 h0
  obtain ⟨h3, h4⟩ := updateList_inv hQ (List.range K) hs fun t ht => List.mem_range.1 ht
  refine ⟨h3.one, h3.pos, ?_⟩
  have e : ∀ s : St F, Inv K Q s → s.pQp = ∑ a ∈ range K, s.p a * ∑ b ∈ range K, Q a b * s.p b := by
    intro s h
    rw [h.pQp]
    exact sum_congr rfl fun a ha => by rw [h.Qp a (mem_range.1 ha)]
  rw [e _ h3, e _ hs] at h4
  exact h4

end Verif.SvmProb
