import Verif.ApproxNn.Search
import Mathlib.Tactic.NormNum
import Mathlib.Tactic.Linarith
import Mathlib.Tactic.Ring

/-
The block sizes, and the candidates of a search in terms of the rows that were added.
-/
namespace Verif.ApproxNn

set_option linter.unusedSectionVars false

theorem sqrt_bounds {f B : Nat} : ∃ s : Nat, (Nat.sqrt (f * f + B) : Int) = f + s ∧ s * s + 2 * s * f ≤ B ∧
    B < (s + 1) * (s + 1) + 2 * (s + 1) * f := by
  have h1 : f ≤ Nat.sqrt (f * f + B) := Nat.le_sqrt.2 (by omega)
  have h2 := Nat.sqrt_le (f * f + B)
  have h4 := Nat.lt_succ_sqrt (f * f + B)
  obtain ⟨s, hs⟩ := Nat.exists_eq_add_of_le h1
  refine ⟨s, by rw [hs]; push_cast; ring, ?_, ?_⟩
  · rw [hs] at h2
    nlinarith
  · rw [hs] at h4
    simp only [Nat.succ_eq_add_one] at h4
    nlinarith

theorem blockSizes_zero {imax B f nq threads maxList : Nat} (hi : f * f + B ≤ imax) (hf : B < 2 * f + 1) :
    blockSizes imax B f nq threads maxList = .sizes 0 0 := by
  obtain ⟨s, h1, h2, h3⟩ := sqrt_bounds (f := f) (B := B)
  have hs : s = 0 := by
    rcases Nat.eq_zero_or_pos s with h | h
    · exact h
    · exfalso
      nlinarith
  subst hs
  have e : -(f : Int) + (Nat.sqrt (f * f + B) : Int) = 0 := by rw [h1]; simp
  have e1 : min (0 : Int) (max 1 ((nq / threads : Nat) : Int)) = 0 := by omega
  have e2 : min (0 : Int) (maxList : Int) = 0 := by omega
  simp only [blockSizes, if_neg (show ¬ f * f + B > imax by omega), e, e1, e2, lt_irrefl, if_false]

/-- A quotient as large as `a` when the numerator is large enough. -/
theorem tdiv_facts {n d : Int} (hn : 0 ≤ n) (hd : 0 < d) : n.tdiv d * d ≤ n ∧ ∀ a, a * d ≤ n → a ≤ n.tdiv d := by
  rw [Int.tdiv_eq_ediv_of_nonneg hn]
  exact ⟨Int.ediv_mul_le n (by omega), fun a ha => Int.le_ediv_of_mul_le hd ha⟩

theorem blockSizes_ok {imax B f nq threads maxList : Nat} (hi : f * f + B ≤ imax) (hf : 2 * f + 1 ≤ B) :
    ∃ q l : Int, blockSizes imax B f nq threads maxList = .sizes q l ∧ 1 ≤ q ∧ q ≤ max 1 ((nq / threads : Nat) : Int) ∧
      0 ≤ l ∧ l ≤ maxList ∧ (1 ≤ maxList → 1 ≤ l) ∧ q * l + (q + l) * f ≤ B := by
  obtain ⟨s, h1, h2, h3⟩ := sqrt_bounds (f := f) (B := B)
  have hs : 1 ≤ s := by
    rcases Nat.eq_zero_or_pos s with h | h
    · subst h
      omega
    · exact h
  have e : -(f : Int) + (Nat.sqrt (f * f + B) : Int) = s := by rw [h1]; ring
  obtain ⟨ub, hub⟩ : ∃ ub, ub = max (1 : Int) ((nq / threads : Nat) : Int) := ⟨_, rfl⟩
  have hub1 : 1 ≤ ub := by omega
  have hm0 : (0 : Int) ≤ maxList := by omega
  have hs' : (1 : Int) ≤ s := by omega
  have hf0 : (0 : Int) ≤ f := by omega
  have hB : (s : Int) * s + 2 * s * f ≤ B := by exact_mod_cast h2
  have fact : ∀ a : Int, 0 ≤ a → a < s → 0 ≤ (B : Int) - a * f ∧ 1 * (a + f) ≤ (B : Int) - a * f := by
    intro a h0 ha
    have : (a + 1) * (a + 1) ≤ (s : Int) * s := by nlinarith
    have : (a + 1) * f ≤ (s : Int) * f := by nlinarith
    have : 0 ≤ a * f := mul_nonneg h0 hf0
    have : 0 ≤ a * a := mul_nonneg h0 h0
    refine ⟨by nlinarith, by nlinarith⟩
  simp only [blockSizes, if_neg (show ¬ f * f + B > imax by omega), e, ← hub]
  obtain ⟨q0, hq0⟩ : ∃ q0, q0 = min (s : Int) ub := ⟨_, rfl⟩
  rw [← hq0]
  have hq01 : 1 ≤ q0 := by omega
  -- the number of vectors
  have hl : ∃ l : Int, (if q0 < (s : Int) then min (max 1 (((B : Int) - q0 * f).tdiv (q0 + f))) (maxList : Int)
      else min (s : Int) (maxList : Int)) = l ∧ 0 ≤ l ∧ l ≤ maxList ∧ (1 ≤ maxList → 1 ≤ l) ∧
      (s ≤ l → q0 * l + (q0 + l) * f ≤ B) := by
    by_cases h : q0 < s
    · rw [if_pos h]
      obtain ⟨a1, a2⟩ := fact q0 (by omega) h
      obtain ⟨d1, d2⟩ := tdiv_facts a1 (show 0 < q0 + (f : Int) by omega)
      obtain ⟨t, ht⟩ : ∃ t, t = ((B : Int) - q0 * f).tdiv (q0 + f) := ⟨_, rfl⟩
      rw [← ht] at d1 d2 ⊢
      have ht1 : 1 ≤ t := d2 1 a2
      refine ⟨_, rfl, by omega, by omega, by omega, ?_⟩
      intro _
      have hle : min (max 1 t) (maxList : Int) ≤ t := by omega
      have := mul_le_mul_of_nonneg_right hle (show 0 ≤ q0 + (f : Int) by omega)
      linarith
    · rw [if_neg h]
      refine ⟨_, rfl, by omega, by omega, by omega, ?_⟩
      intro hle
      have e1 : min (s : Int) (maxList : Int) = s := by omega
      have e2 : q0 = s := by omega
      rw [e1, e2]
      nlinarith
  obtain ⟨l, hl1, hl2, hl3, hl4, hl5⟩ := hl
  rw [hl1]
  by_cases h : l < s
  · rw [if_pos h]
    obtain ⟨a1, a2⟩ := fact l hl2 h
    by_cases hz : 0 < l + (f : Int)
    · obtain ⟨d1, d2⟩ := tdiv_facts a1 hz
      obtain ⟨t, ht⟩ : ∃ t, t = ((B : Int) - l * f).tdiv (l + f) := ⟨_, rfl⟩
      rw [← ht] at d1 d2 ⊢
      have ht1 : 1 ≤ t := d2 1 a2
      refine ⟨_, l, rfl, by omega, by omega, hl2, hl3, hl4, ?_⟩
      have hle : min (max 1 t) ub ≤ t := by omega
      have := mul_le_mul_of_nonneg_right hle hz.le
      linarith
    · have e1 : l = 0 := by omega
      have e2 : (f : Int) = 0 := by omega
      refine ⟨_, l, rfl, by omega, by omega, hl2, hl3, hl4, ?_⟩
      rw [e1, e2]
      simp
  · rw [if_neg h]
    exact ⟨q0, l, rfl, hq01, by omega, hl2, hl3, hl4, hl5 (by omega)⟩

variable {K : Type} [Field K] [LinearOrder K] [IsStrictOrderedRing K]

/-- What the index stores, list by list. -/
def ptsOf (rows : Nat → Nat → K) (near : Nat → Nat) (base N c : Nat) : List (Nat × (Nat → K)) :=
  (members near N c).map fun g => (base + g, rows g)

theorem Stores.points {eu : Bool} {F nlist : Nat} {rows : Nat → Nat → K} {near : Nat → Nat} {base N : Nat}
    {s : Index K} (h : Stores eu F nlist rows near base N s) : Points eu F nlist (ptsOf rows near base N) s := by
  refine ⟨?_, ?_, ?_, _, h.norms, ?_⟩
  · rw [h.sizes]
    simp [ptsOf]
  · rw [h.vecs]
    simp [ptsOf, List.flatMap_map]
  · rw [h.glob]
    simp [ptsOf]
  · intro he c _
    rw [if_pos he]
    simp [ptsOf]

theorem probed_perm (near : Nat → Nat) (S : List Nat) (N : Nat) : ∀ n,
    ((List.range n).flatMap fun c => if c ∈ S then members near N c else []).Perm
      ((List.range N).filter fun g => near g ∈ S ∧ near g < n) := by
  intro n
  induction n with
  | zero => simp
  | succ n ih =>
    rw [List.range_succ, List.flatMap_append]
    simp only [List.flatMap_cons, List.flatMap_nil, List.append_nil]
    refine (ih.append_right _).trans ?_
    have h := List.filter_append_perm (fun g => decide (near g < n))
      ((List.range N).filter fun g => near g ∈ S ∧ near g < n + 1)
    rw [List.filter_filter, List.filter_filter] at h
    refine List.Perm.trans (List.Perm.of_eq ?_) h
    congr 1
    · apply List.filter_congr
      intro g _
      rw [Bool.eq_iff_iff]
      simp only [decide_eq_true_eq, Bool.and_eq_true]
      exact ⟨fun h => ⟨h.2, h.1, by omega⟩, fun h => ⟨h.2.1, h.1⟩⟩
    · by_cases hn : n ∈ S
      · rw [if_pos hn]
        unfold members
        apply List.filter_congr
        intro g _
        rw [Bool.eq_iff_iff]
        simp
        constructor
        · intro h; exact ⟨by omega, by rw [h]; exact hn, by omega⟩
        · intro h; omega
      · rw [if_neg hn]
        symm
        rw [List.filter_eq_nil_iff]
        intro g _
        simp
        intro h1 h2
        have : near g ≠ n := fun e => hn (e ▸ h2)
        omega

/-- The candidates of a query, from the rows that were added. -/
theorem cands_perm {eu : Bool} {F nlist : Nat} {rows : Nat → Nat → K} {near : Nat → Nat} {base N : Nat}
    (hn : ∀ g < N, near g < nlist) (S : List Nat) (x : Nat → K) :
    (cands eu F nlist (ptsOf rows near base N) S x).Perm
      (((List.range N).filter fun g => near g ∈ S).map fun g => (base + g + 1, dist eu F x (rows g))) := by
  have e : cands eu F nlist (ptsOf rows near base N) S x =
      ((List.range nlist).flatMap fun c => if c ∈ S then members near N c else []).map
        fun g => (base + g + 1, dist eu F x (rows g)) := by
    unfold cands
    rw [List.map_flatMap]
    congr 1
    funext c
    by_cases h : c ∈ S
    · rw [if_pos h, if_pos h]
      simp [cand, ptsOf]
    · rw [if_neg h, if_neg h]
      rfl
  rw [e]
  apply List.Perm.map
  refine (probed_perm near S N nlist).trans (List.Perm.of_eq ?_)
  apply List.filter_congr
  intro g hg
  have := hn g (List.mem_range.1 hg)
  simp [this]

theorem Answer.perm {k : Nat} {inf : K} {C D row : List (Nat × K)} (h : Answer k inf C row) (p : C.Perm D) :
    Answer k inf D row := by
  obtain ⟨kept, rest, h1, h2, h3, h4, h5⟩ := h
  exact ⟨kept, rest, h1.trans p, h2, by rw [h3, p.length_eq], h4, h5⟩

theorem isProbes_all {nlist : Nat} {d : Nat → K} {S : List Nat} (h : IsProbes nlist nlist d S) : ∀ c < nlist, c ∈ S := by
  obtain ⟨h1, h2, h3, _⟩ := h
  have hsub : S.Subperm (List.range nlist) := List.subperm_of_subset h1 fun c hc => List.mem_range.2 (h3 c hc)
  have hp := hsub.perm_of_length_le (by simp [h2])
  intro c hc
  exact hp.mem_iff.2 (List.mem_range.2 hc)

end Verif.ApproxNn
