import Verif.Histogram.Model
import Mathlib.Tactic.Linarith
import Mathlib.Tactic.FieldSimp
import Mathlib.Tactic.Positivity

/-!
# Proofs about the histograms
-/

namespace Verif.Histogram

/-! ## Binary search -/

/-- The result separates the thresholds below the value from those above. -/
theorem binSearch_spec (ltThr : Nat → Bool) (hi : Nat)
    (mono : ∀ i j, i ≤ j → j < hi → ltThr i = true → ltThr j = true) (start end_ : Nat)
    (h1 : start ≤ end_) (h2 : end_ ≤ hi) (h3 : ∀ i, i < start → ltThr i = false)
    (h4 : ∀ i, end_ ≤ i → i < hi → ltThr i = true) :
    binSearch ltThr start end_ ≤ hi ∧ (∀ i, i < binSearch ltThr start end_ → ltThr i = false) ∧
      (∀ i, binSearch ltThr start end_ ≤ i → i < hi → ltThr i = true) := by
  fun_induction binSearch ltThr start end_ with
  | case1 start end_ h c ih =>
    exact ih (by omega) (by omega) h3 fun i a b => mono _ i a b c
  | case2 start end_ h c ih =>
    refine ih (by omega) h2 (fun i a => ?_) h4
    cases e : ltThr i with
    | false => rfl
    | true => exact absurd (mono i _ (by omega) (by omega) e) c
  | case3 start end_ h =>
    exact ⟨by omega, h3, fun i a b => h4 i (by omega) b⟩

/-! ## Thresholds in exact arithmetic -/

section
variable {V : Type} (close : V → V → Bool) (v : Nat → V)

theorem flatEnd_spec (t : Nat) : ∀ (k r : Nat), r ≤ flatEnd close v t k r ∧
    flatEnd close v t k r ≤ r + k ∧
    (flatEnd close v t k r < r + k → close (v t) (v (flatEnd close v t k r + 1)) = false) ∧
    (∀ i, r < i → i ≤ flatEnd close v t k r → close (v t) (v i) = true)
  | 0, r => by
    refine ⟨Nat.le_refl _, Nat.le_refl _, fun h => absurd h (Nat.lt_irrefl _), fun i a b => ?_⟩
    simp only [flatEnd] at b; omega
  | k + 1, r => by
    simp only [flatEnd]
    by_cases c : close (v t) (v (r + 1)) = true
    · rw [if_pos c]
      obtain ⟨a1, a2, a3, a4⟩ := flatEnd_spec t k (r + 1)
      refine ⟨by omega, by omega, fun h => a3 (by omega), fun i h1 h2 => ?_⟩
      by_cases e : i = r + 1
      · rw [e]; exact c
      · exact a4 i (by omega) h2
    · rw [if_neg c]
      exact ⟨Nat.le_refl _, by omega, fun _ => by simpa using c, fun i h1 h2 => by omega⟩
end

theorem round_ge (x : ℚ) (e : Int) (h : (e : ℚ) ≤ x) : e ≤ ⌊x + 1 / 2⌋ := by
  rw [Int.le_floor]; linarith

theorem round_le (x : ℚ) (e : Int) (h : x < e) : ⌊x + 1 / 2⌋ ≤ e := by
  rw [← Int.lt_add_one_iff, Int.floor_lt]; push_cast; linarith

theorem round_near (x : ℚ) : (⌊x + 1 / 2⌋ : ℚ) ≤ x + 1 / 2 := Int.floor_le _

/-- The inner loop ends, having increased `q` above its bound. -/
theorem skip_spec (s last : ℚ) (hs : 0 < s) (hl : last < 1) (m : Nat) (hm : (m : ℚ) * s = 1) :
    ∀ (sf k : Nat) (q : ℚ), (k : ℚ) * s ≤ q → m + 2 ≤ k + sf → 0 < sf →
    ∃ q', skip exact s last sf q = some q' ∧ last + s < q' ∧ q ≤ q' ∧
      (q ≤ last + s → q + s ≤ q')
  | 0, k, q, h1, h2, h3 => by omega
  | sf + 1, k, q, h1, h2, h3 => by
    simp only [skip, exact, decide_eq_true_eq]
    by_cases c : q ≤ last + s
    · rw [if_pos c]
      have hk : k ≤ m := by
        have : (k : ℚ) * s < (m + 1 : ℚ) * s := by linarith
        have := lt_of_mul_lt_mul_right this hs.le
        have : k < m + 1 := by exact_mod_cast this
        omega
      obtain ⟨q', e1, e2, e3, e4⟩ := skip_spec s last hs hl m hm sf (k + 1) (q + s)
        (by push_cast; linarith) (by omega) (by omega)
      exact ⟨q', e1, e2, by linarith, fun _ => e3⟩
    · rw [if_neg c]
      exact ⟨q, rfl, not_le.1 c, le_refl _, fun h => absurd h c⟩

/-- One round of the loop with a threshold produced: positions and quantile advance. -/
theorem round_step {V : Type} (close : V → V → Bool) (v : Nat → V) (n m sf : Nat) (hm : 2 ≤ m)
    (hn : 2 * m ≤ n) (hsf : m + 2 ≤ sf) (k : Nat) (q : ℚ) (hq : ((k : ℚ) + 1) / m ≤ q) (hq1 : q < 1) :
    let t := (exact.pos q n - 1).toNat
    let r := flatEnd close v t (n - 1 - t) t
    0 ≤ exact.pos q n - 1 ∧ t < n ∧
    ∃ q', nextQ exact (exact.step m) n t r sf q = some q' ∧ (r < n - 1 → ((k : ℚ) + 2) / m ≤ q' ∧
      ((r + 1 : Nat) : ℚ) + 1 ≤ q' * n) := by
  intro t r
  have hm0 : (0 : ℚ) < m := by exact_mod_cast (by omega : 0 < m)
  have hn0 : (0 : ℚ) < n := by exact_mod_cast (by omega : 0 < n)
  have hs : (0 : ℚ) < 1 / m := by positivity
  have hmn : 2 * (m : ℚ) ≤ n := by exact_mod_cast hn
  have hstep : 2 ≤ 1 / (m : ℚ) * n := by
    rw [div_mul_eq_mul_div, one_mul, le_div_iff₀ hm0]; exact hmn
  have hqn : 2 ≤ q * n := by
    have : 1 / (m : ℚ) ≤ q := le_trans (by
      rw [div_le_div_iff_of_pos_right hm0]
      have : (0 : ℚ) ≤ k := Nat.cast_nonneg _
      linarith) hq
    exact le_trans hstep (mul_le_mul_of_nonneg_right this hn0.le)
  have hqn1 : q * n < n := by
    have := mul_lt_mul_of_pos_right hq1 hn0
    linarith
  have hp : exact.pos q n = ⌊q * n + 1 / 2⌋ := rfl
  have p1 : 2 ≤ exact.pos q n := by rw [hp]; exact round_ge _ 2 (by exact_mod_cast hqn)
  have p2 : exact.pos q n ≤ n := by rw [hp]; exact round_le _ n (by exact_mod_cast hqn1)
  have p3 : (exact.pos q n : ℚ) ≤ q * n + 1 / 2 := by rw [hp]; exact round_near _
  have p4 : q * n < exact.pos q n + 1 / 2 := by
    rw [hp]
    have := Int.lt_floor_add_one (q * n + 1 / 2)
    linarith
  have ht : (t : Int) = exact.pos q n - 1 := by
    have : 0 ≤ exact.pos q n - 1 := by omega
    simp only [t]; omega
  have htq : (t : ℚ) = exact.pos q n - 1 := by exact_mod_cast ht
  obtain ⟨f1, f2, _, _⟩ := flatEnd_spec close v t (n - 1 - t) t
  have f1 : t ≤ r := f1
  have f2 : r ≤ t + (n - 1 - t) := f2
  have htn : t < n := by omega
  refine ⟨by omega, htn, ?_⟩
  unfold nextQ
  by_cases c : r ≠ t
  · rw [if_pos c]
    have hlast : exact.frac r n < 1 := by
      show (r : ℚ) / n < 1
      rw [div_lt_one hn0]
      exact_mod_cast (by omega : r < n)
    obtain ⟨q', e1, e2, e3, e4⟩ := skip_spec (exact.step m) (exact.frac r n) hs hlast m
      (by show (m : ℚ) * (1 / m) = 1; field_simp) sf 0 q (by
        simp only [Nat.cast_zero, zero_mul]
        by_contra h
        have := mul_neg_of_neg_of_pos (not_le.1 h) hn0
        linarith) (by omega) (by omega)
    refine ⟨q', e1, fun hr => ?_⟩
    have hle : q ≤ exact.frac r n + exact.step m := by
      show q ≤ (r : ℚ) / n + 1 / m
      have h1 : q * n ≤ r + 1 / 2 := by
        have : (t : ℚ) + 1 ≤ r := by exact_mod_cast (by omega : t + 1 ≤ r)
        linarith
      have h2 : q ≤ ((r : ℚ) + 1 / 2) / n := by rw [le_div_iff₀ hn0]; exact h1
      have h3 : (1 / 2 : ℚ) / n ≤ 1 / m := by
        rw [div_le_div_iff₀ hn0 hm0]; linarith
      rw [add_div] at h2
      linarith
    have e4 := e4 hle
    constructor
    · have : ((k : ℚ) + 2) / m = ((k : ℚ) + 1) / m + 1 / m := by rw [← add_div]; ring
      rw [this]
      exact le_trans (add_le_add hq (le_refl (1 / (m : ℚ)))) e4
    · have e2 : (r : ℚ) / n + 1 / m < q' := e2
      have := mul_lt_mul_of_pos_right e2 hn0
      rw [add_mul, div_mul_cancel₀ _ hn0.ne'] at this
      push_cast
      linarith
  · rw [if_neg c]
    have c : r = t := by simpa using c
    refine ⟨_, rfl, fun hr => ?_⟩
    show ((k : ℚ) + 2) / m ≤ q + 1 / m ∧ _ ≤ (q + 1 / (m : ℚ)) * n
    constructor
    · have : ((k : ℚ) + 2) / m = ((k : ℚ) + 1) / m + 1 / m := by rw [← add_div]; ring
      rw [this]; linarith
    · rw [c, add_mul]; push_cast; linarith

/-- The loop in exact arithmetic. -/
theorem loop_spec {V : Type} (close : V → V → Bool) (v : Nat → V) (n m sf : Nat) (hm : 2 ≤ m)
    (hn : 2 * m ≤ n) (hsf : m + 2 ≤ sf) :
    ∀ (fuel : Nat) (q : ℚ) (o : Out), m < fuel + o.at_.length + 1 → 0 < fuel →
    o.at_.length ≤ m - 1 → o.bad = false → ((o.at_.length : ℚ) + 1) / m ≤ q →
    (∀ e ∈ o.at_, ((e : Nat) : ℚ) + 1 ≤ q * n) → (∀ e ∈ o.at_, 0 < e ∧ e < n) →
    o.at_.Pairwise (fun a b => ∃ t, a ≤ t ∧ t < b ∧ close (v t) (v b) = false) →
    (∀ e ∈ o.at_, ∃ t, t < e ∧ close (v t) (v e) = false) →
    ∃ o', loop exact close v n m sf fuel q o = some o' ∧ o'.at_.length ≤ m - 1 ∧ o'.bad = false ∧
      (∀ e ∈ o'.at_, 0 < e ∧ e < n) ∧
      o'.at_.Pairwise (fun a b => ∃ t, a ≤ t ∧ t < b ∧ close (v t) (v b) = false) ∧
      (∀ e ∈ o'.at_, ∃ t, t < e ∧ close (v t) (v e) = false)
  | 0, _, _, _, h, _, _, _, _, _, _, _ => absurd h (Nat.lt_irrefl _)
  | fuel + 1, q, o, hf, _, hl, hb, hq, hlast, hin, hpw, hfst => by
    have hm0 : (0 : ℚ) < m := by exact_mod_cast (by omega : 0 < m)
    rw [loop]
    by_cases c : exact.le q (exact.limit (exact.step m)) = true
    · rw [if_pos c]
      have hq1 : q < 1 := by
        have c : q ≤ 1 - 1 / 1000 * (1 / (m : ℚ)) := by simpa [exact] using c
        have : (0 : ℚ) < 1 / m := by positivity
        linarith
      have hlen : o.at_.length + 1 < m := by
        have : ((o.at_.length : ℚ) + 1) / m < 1 := lt_of_le_of_lt hq hq1
        rw [div_lt_one hm0] at this
        exact_mod_cast this
      obtain ⟨a1, a2, q', a3, a4⟩ := round_step close v n m sf hm hn hsf o.at_.length q hq hq1
      rw [if_neg (by omega)]
      obtain ⟨f1, f2, f3, _⟩ := flatEnd_spec close v (exact.pos q n - 1).toNat
        (n - 1 - (exact.pos q n - 1).toNat) (exact.pos q n - 1).toNat
      dsimp only
      generalize ht : (exact.pos q n - 1).toNat = t at *
      generalize hr : flatEnd close v t (n - 1 - t) t = r at *
      by_cases d : n - 1 ≤ r
      · rw [if_pos d]
        exact ⟨o, rfl, hl, hb, hin, hpw, hfst⟩
      · rw [if_neg d, a3]
        dsimp only
        obtain ⟨b1, b2⟩ := a4 (by omega)
        have hclose := f3 (by omega)
        have hget : ∀ e ∈ o.at_, e ≤ t := by
          intro e he
          have h1 := round_ge (q * n) ((e : Int) + 1) (by push_cast; exact hlast e he)
          have h2 : exact.pos q n = ⌊q * n + 1 / 2⌋ := rfl
          omega
        apply loop_spec close v n m sf hm hn hsf fuel
        · simp only [List.length_append, List.length_singleton]; omega
        · omega
        · simp only [List.length_append, List.length_singleton]; omega
        · simp only [hb, Bool.false_or, decide_eq_false_iff_not]; omega
        · simp only [List.length_append, List.length_singleton]
          push_cast
          have : ((o.at_.length : ℚ) + 1 + 1) / m = (o.at_.length + 2) / m := by ring
          rw [this]; exact b1
        · intro e he
          rcases List.mem_append.1 he with he | he
          · have h1 := hget e he
            have : (e : ℚ) ≤ ((r + 1 : Nat) : ℚ) := by exact_mod_cast (by omega : e ≤ r + 1)
            linarith
          · rw [List.mem_singleton.1 he]; exact b2
        · intro e he
          rcases List.mem_append.1 he with he | he
          · exact hin e he
          · rw [List.mem_singleton.1 he]; omega
        · rw [List.pairwise_append]
          refine ⟨hpw, List.pairwise_singleton _ _, fun a ha b hb => ?_⟩
          rw [List.mem_singleton.1 hb]
          exact ⟨t, hget a ha, by omega, hclose⟩
        · intro e he
          rcases List.mem_append.1 he with he | he
          · exact hfst e he
          · rw [List.mem_singleton.1 he]
            exact ⟨t, by omega, hclose⟩
    · rw [if_neg c]
      exact ⟨o, rfl, hl, hb, hin, hpw, hfst⟩

/-! ## Fuel -/

theorem skip_mono {T} (A : Arith T) (s last : T) : ∀ (f : Nat) (q r : T),
    skip A s last f q = some r → ∀ g, f ≤ g → skip A s last g q = some r
  | 0, _, _, h => by cases h
  | f + 1, q, r, h => by
    intro g hg
    obtain ⟨g, rfl⟩ : ∃ g', g = g' + 1 := ⟨g - 1, by omega⟩
    rw [skip] at h ⊢
    by_cases c : A.le q (A.add last s) = true
    · rw [if_pos c] at h ⊢
      exact skip_mono A s last f _ r h g (by omega)
    · rw [if_neg c] at h ⊢
      exact h

theorem loop_mono {T V} (A : Arith T) (close : V → V → Bool) (v : Nat → V) (n m : Nat) :
    ∀ (f sf : Nat) (q : T) (o r : Out), loop A close v n m sf f q o = some r →
    ∀ g sg, f ≤ g → sf ≤ sg → loop A close v n m sg g q o = some r
  | 0, _, _, _, _, h => by cases h
  | f + 1, sf, q, o, r, h => by
    intro g sg hg hs
    obtain ⟨g, rfl⟩ : ∃ g', g = g' + 1 := ⟨g - 1, by omega⟩
    rw [loop] at h ⊢
    by_cases c : A.le q (A.limit (A.step m)) = true
    · rw [if_pos c] at h ⊢
      by_cases d : A.pos q n - 1 < 0
      · rw [if_pos d] at h ⊢; exact h
      · rw [if_neg d] at h ⊢
        dsimp only at h ⊢
        generalize (A.pos q n - 1).toNat = t at h ⊢
        generalize flatEnd close v t (n - 1 - t) t = e at h ⊢
        by_cases b : n - 1 ≤ e
        · rw [if_pos b] at h ⊢; exact h
        · rw [if_neg b] at h ⊢
          cases hn : nextQ A (A.step m) n t e sf q with
          | none => rw [hn] at h; cases h
          | some q' =>
            have : nextQ A (A.step m) n t e sg q = some q' := by
              unfold nextQ at hn ⊢
              by_cases k : e ≠ t
              · rw [if_pos k] at hn ⊢
                exact skip_mono A _ _ sf q q' hn sg hs
              · rw [if_neg k] at hn ⊢; exact hn
            rw [hn] at h
            rw [this]
            exact loop_mono A close v n m f sf q' _ r h g sg (by omega) hs
    · rw [if_neg c] at h ⊢; exact h

/-- The outcome does not depend on the fuel. -/
theorem thresholds_unique {T V} (A : Arith T) (close : V → V → Bool) (v : Nat → V)
    (n m f sf g sg : Nat) (o o' : Out) (h : thresholds A close v n m f sf = some o)
    (h' : thresholds A close v n m g sg = some o') : o = o' := by
  have h1 := loop_mono A close v n m f sf _ _ _ h (max f g) (max sf sg) (Nat.le_max_left _ _)
    (Nat.le_max_left _ _)
  have h2 := loop_mono A close v n m g sg _ _ _ h' (max f g) (max sf sg) (Nat.le_max_right _ _)
    (Nat.le_max_right _ _)
  rw [h1] at h2
  exact Option.some.inj h2

end Verif.Histogram
