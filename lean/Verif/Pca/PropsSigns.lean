import Verif.Pca.Proof

set_option linter.unusedSectionVars false

/-
C175: the signs of U and VT.
-/
namespace Verif.Pca

open Finset
open Verif.Logistic (loop upd loop_inv upd_same upd_ne cell_inj)
open Verif.KernelPca (SignFixed)

variable {K : Type*} [Field K] [LinearOrder K] [IsStrictOrderedRing K]

theorem negate_at (n : Nat) (idx : Nat → Nat) (hinj : ∀ i i', i < n → i' < n → idx i = idx i' → i = i') (u : Nat → K) :
    (∀ i < n, (loop n u fun i u => upd u (idx i) (-u (idx i))) (idx i) = -u (idx i)) ∧
    ∀ c, (∀ i < n, c ≠ idx i) → (loop n u fun i u => upd u (idx i) (-u (idx i))) c = u c := by
  have key := loop_inv (fun k (w : Nat → K) => (∀ i < k, w (idx i) = -u (idx i)) ∧ ∀ c, (∀ i < k, c ≠ idx i) → w c = u c) n u
    (fun i u => upd u (idx i) (-u (idx i))) ⟨by omega, fun _ _ => rfl⟩ (by
      intro k w hk ⟨h1, h2⟩
      refine ⟨fun i hi => ?_, fun c hc => ?_⟩
      · by_cases e : i = k
        · subst e
          rw [upd_same, h2 (idx i) fun i' hi' e => by have := hinj i i' hk (by omega) e; omega]
        · rw [upd_ne _ _ fun e' => e (hinj i k (by omega) hk e'), h1 i (by omega)]
      · rw [upd_ne _ _ (hc k (by omega)), h2 c fun i hi => hc i (by omega)])
  exact key

theorem colMax_at (n ldu : Nat) (hn : 0 < n) (u : Nat → K) (j : Nat) :
    ∃ m < n, |u (m + ldu * j)| = |colMax n ldu u j| ∧ (∀ i < n, |u (i + ldu * j)| ≤ |colMax n ldu u j|) ∧
      (u (m + ldu * j) = colMax n ldu u j) := by
  have key := loop_inv (fun k (c : K) => (∀ i < k, |u (i + ldu * j)| ≤ |c|) ∧ (c = 0 ∨ ∃ m < k, u (m + ldu * j) = c)) n 0
    (fun i c => if |c| < |u (i + ldu * j)| then u (i + ldu * j) else c) ⟨by omega, .inl rfl⟩ (by
      intro k c hk ⟨h1, h2⟩
      by_cases h : |c| < |u (k + ldu * j)|
      · rw [if_pos h]
        refine ⟨fun i hi => ?_, .inr ⟨k, by omega, rfl⟩⟩
        by_cases e : i = k
        · rw [e]
        · exact (h1 i (by omega)).trans h.le
      · rw [if_neg h]
        refine ⟨fun i hi => ?_, ?_⟩
        · by_cases e : i = k
          · rw [e]; exact not_lt.1 h
          · exact h1 i (by omega)
        · rcases h2 with h2 | ⟨m, hm, h2⟩
          · exact .inl h2
          · exact .inr ⟨m, by omega, h2⟩)
  change (∀ i < n, |u (i + ldu * j)| ≤ |colMax n ldu u j|) ∧ (colMax n ldu u j = 0 ∨ ∃ m < n, u (m + ldu * j) = colMax n ldu u j) at key
  obtain ⟨h1, h2⟩ := key
  rcases h2 with h2 | ⟨m, hm, h2⟩
  · have h0 : u (0 + ldu * j) = colMax n ldu u j := by
      have := h1 0 hn
      rw [h2, abs_zero] at this
      rw [h2]
      exact abs_eq_zero.1 (le_antisymm this (abs_nonneg _))
    exact ⟨0, hn, by rw [h0], h1, h0⟩
  · exact ⟨m, hm, by rw [h2], h1, h2⟩

/-- Column c of U and row c of VT as they were, or both with the other sign. -/
def SameUpToSign (n p ldu ldvt c : Nat) (s t : (Nat → K) × (Nat → K)) : Prop :=
  ((∀ i < n, t.1 (i + ldu * c) = s.1 (i + ldu * c)) ∧ ∀ j < p, t.2 (c + ldvt * j) = s.2 (c + ldvt * j)) ∨
  ((∀ i < n, t.1 (i + ldu * c) = -s.1 (i + ldu * c)) ∧ ∀ j < p, t.2 (c + ldvt * j) = -s.2 (c + ldvt * j))

theorem flipSign_at {n p ldu ldvt : Nat} (hn : 0 < n) (hu : n ≤ ldu) {j : Nat} (hj : j < ldvt) (s : (Nat → K) × (Nat → K)) :
    SameUpToSign n p ldu ldvt j s (flipSign n p ldu ldvt j s) ∧ SignFixed n (fun i => (flipSign n p ldu ldvt j s).1 (i + ldu * j)) ∧
    ∀ c, c ≠ j → c < ldvt → (∀ i < n, (flipSign n p ldu ldvt j s).1 (i + ldu * c) = s.1 (i + ldu * c)) ∧
      ∀ l < p, (flipSign n p ldu ldvt j s).2 (c + ldvt * l) = s.2 (c + ldvt * l) := by
  obtain ⟨m, hm, -, h1, h2⟩ := colMax_at n ldu hn s.1 j
  have cu : ∀ i i' c c', i < n → i' < n → i + ldu * c = i' + ldu * c' → c = c' ∧ i = i' := fun i i' c c' hi hi' e =>
    cell_inj (ns := ldu) (by omega) (by omega) (by rw [Nat.mul_comm c, Nat.mul_comm c']; omega)
  have cv : ∀ c c' l l', c < ldvt → c' < ldvt → c + ldvt * l = c' + ldvt * l' → l = l' ∧ c = c' := fun c c' l l' hc hc' e =>
    cell_inj (ns := ldvt) hc hc' (by rw [Nat.mul_comm l, Nat.mul_comm l']; omega)
  unfold flipSign
  by_cases h : colMax n ldu s.1 j < 0
  · rw [if_pos h]
    obtain ⟨a1, a2⟩ := negate_at n (fun i => i + ldu * j) (fun i i' hi hi' e => (cu i i' j j hi hi' e).2) s.1
    obtain ⟨b1, b2⟩ := negate_at p (fun i => j + ldvt * i) (fun l l' _ _ e => (cv j j l l' hj hj e).1) s.2
    refine ⟨.inr ⟨a1, b1⟩, ⟨m, hm, ?_, fun i hi => ?_⟩, fun c hc hcl => ⟨fun i hi => ?_, fun l _ => ?_⟩⟩
    · refine le_of_le_of_eq ?_ (a1 m hm).symm
      rw [h2]
      exact (neg_pos.2 h).le
    · refine (le_of_eq (congrArg _ (a1 i hi))).trans (le_trans ?_ (le_of_eq (congrArg _ (a1 m hm).symm)))
      rw [abs_neg, abs_neg, h2]
      exact h1 i hi
    · exact a2 _ fun i' hi' e => hc (cu i i' c j hi hi' e).1
    · exact b2 _ fun l' _ e => hc (cv c j l l' hcl hj e).2
  · rw [if_neg h]
    refine ⟨.inl ⟨fun _ _ => rfl, fun _ _ => rfl⟩, ⟨m, hm, ?_, fun i hi => ?_⟩, fun c _ _ => ⟨fun _ _ => rfl, fun _ _ => rfl⟩⟩
    · show 0 ≤ s.1 (m + ldu * j)
      rw [h2]
      exact not_lt.1 h
    · show |s.1 (i + ldu * j)| ≤ |s.1 (m + ldu * j)|
      rw [h2]
      exact h1 i hi

/-! ### C175: the signs -/

/-- **C175.** Fixing the signs turns column c of U and row c of VT together or not at all, and afterwards one of the entries of the column with
the greatest absolute value is not negative; the rows of VT beyond the components asked for stay. -/
theorem C175_signs {n p ns ldu ldvt : Nat} (hn : 0 < n) (hu : n ≤ ldu) (hv : ns ≤ ldvt) (s : (Nat → K) × (Nat → K)) :
    (∀ c < ns, SameUpToSign n p ldu ldvt c s (fixSigns n p ns ldu ldvt s) ∧
      SignFixed n (fun i => (fixSigns n p ns ldu ldvt s).1 (i + ldu * c))) ∧
    ∀ c, ns ≤ c → c < ldvt → ∀ l < p, (fixSigns n p ns ldu ldvt s).2 (c + ldvt * l) = s.2 (c + ldvt * l) := by
  have key := loop_inv (fun k (t : (Nat → K) × (Nat → K)) =>
    (∀ c < k, SameUpToSign n p ldu ldvt c s t ∧ SignFixed n (fun i => t.1 (i + ldu * c))) ∧
    ∀ c, k ≤ c → c < ldvt → (∀ i < n, t.1 (i + ldu * c) = s.1 (i + ldu * c)) ∧ ∀ l < p, t.2 (c + ldvt * l) = s.2 (c + ldvt * l)) ns s
    (fun j s => flipSign n p ldu ldvt j s) ⟨by omega, fun _ _ _ => ⟨fun _ _ => rfl, fun _ _ => rfl⟩⟩ (by
      intro k t hk ⟨h1, h2⟩
      obtain ⟨f1, f2, f3⟩ := flipSign_at (p := p) hn hu (show k < ldvt by omega) t
      refine ⟨fun c hc => ?_, fun c hc hcl => ?_⟩
      · by_cases e : c = k
        · subst e
          obtain ⟨g1, g2⟩ := h2 c le_rfl (by omega)
          refine ⟨?_, f2⟩
          rcases f1 with ⟨x, y⟩ | ⟨x, y⟩
          · exact .inl ⟨fun i hi => (x i hi).trans (g1 i hi), fun l hl => (y l hl).trans (g2 l hl)⟩
          · exact .inr ⟨fun i hi => by rw [x i hi, g1 i hi], fun l hl => by rw [y l hl, g2 l hl]⟩
        · obtain ⟨g1, g2⟩ := f3 c e (by omega)
          obtain ⟨q1, m, hm, q2, q3⟩ := h1 c (by omega)
          refine ⟨?_, m, hm, ?_, fun i hi => ?_⟩
          · rcases q1 with ⟨x, y⟩ | ⟨x, y⟩
            · exact .inl ⟨fun i hi => (g1 i hi).trans (x i hi), fun l hl => (g2 l hl).trans (y l hl)⟩
            · exact .inr ⟨fun i hi => (g1 i hi).trans (x i hi), fun l hl => (g2 l hl).trans (y l hl)⟩
          · exact le_of_le_of_eq q2 (g1 m hm).symm
          · exact (le_of_eq (congrArg _ (g1 i hi))).trans ((q3 i hi).trans (le_of_eq (congrArg _ (g1 m hm).symm)))
      · obtain ⟨g1, g2⟩ := f3 c (by omega) hcl
        obtain ⟨r1, r2⟩ := h2 c (by omega) hcl
        exact ⟨fun i hi => (g1 i hi).trans (r1 i hi), fun l hl => (g2 l hl).trans (r2 l hl)⟩)
  exact ⟨key.1, fun c hc hcl => (key.2 c hc hcl).2⟩

/-- **C175.** So what the decomposition says stays true: data times row c of VT is the singular value times column c of U, and the product
of the factors is the same. -/
theorem C175_decomposition {n p ns ldu ldvt : Nat} (hn : 0 < n) (hu : n ≤ ldu) (hv : ns ≤ ldvt) (u vt sigma : Nat → K) (a : Nat → Nat → K)
    (h : ∀ c < ns, ∀ i < n, ∑ j ∈ range p, a i j * vt (c + ldvt * j) = sigma c * u (i + ldu * c)) :
    (∀ c < ns, ∀ i < n, ∑ j ∈ range p, a i j * (fixSigns n p ns ldu ldvt (u, vt)).2 (c + ldvt * j) =
      sigma c * (fixSigns n p ns ldu ldvt (u, vt)).1 (i + ldu * c)) ∧
    ∀ i < n, ∀ j < p, ∑ c ∈ range ns, (fixSigns n p ns ldu ldvt (u, vt)).1 (i + ldu * c) * sigma c *
      (fixSigns n p ns ldu ldvt (u, vt)).2 (c + ldvt * j) = ∑ c ∈ range ns, u (i + ldu * c) * sigma c * vt (c + ldvt * j) := by
  obtain ⟨hs, -⟩ := C175_signs (p := p) hn hu hv (u, vt)
  refine ⟨fun c hc i hi => ?_, fun i hi j hj => sum_congr rfl fun c hc => ?_⟩
  · rcases (hs c hc).1 with ⟨x, y⟩ | ⟨x, y⟩
    · rw [x i hi, sum_congr rfl fun j hj => by rw [y j (mem_range.1 hj)]]
      exact h c hc i hi
    · rw [x i hi, sum_congr rfl fun j hj => by rw [y j (mem_range.1 hj), mul_neg], sum_neg_distrib]
      show -(∑ j ∈ range p, a i j * vt (c + ldvt * j)) = sigma c * -u (i + ldu * c)
      rw [h c hc i hi, mul_neg]
  · rcases (hs c (mem_range.1 hc)).1 with ⟨x, y⟩ | ⟨x, y⟩
    · rw [x i hi, y j hj]
    · rw [x i hi, y j hj]
      ring

/-- Two components of two samples with three features; the first column of U has its greatest entry negative. -/
example : (List.range 4).map (fixSigns (K := ℚ) 2 3 2 2 2 (fun i => [1, -2, 3, -1].getD i 0, fun i => [1, 2, 3, 4, 5, 6].getD i 0)).1 = [-1, 2, 3, -1] ∧
    (List.range 6).map (fixSigns (K := ℚ) 2 3 2 2 2 (fun i => [1, -2, 3, -1].getD i 0, fun i => [1, 2, 3, 4, 5, 6].getD i 0)).2 =
      [-1, 2, -3, 4, -5, 6] := by decide +kernel

end Verif.Pca
