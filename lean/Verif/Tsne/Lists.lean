import Verif.Tsne.Model
import Verif.Moments.SumProof

/-
The lists of neighbours that t-SNE starts from.
-/
namespace Verif.Tsne

set_option linter.unusedSectionVars false

open Moments (M Fault rd wr forUp divM ok_bind rd_ok wr_ok forUp_zero forUp_succ)

variable {K : Type} [Field K] [LinearOrder K] [IsStrictOrderedRing K]

theorem forUp_inv {A : Type} (n : Nat) (f : Nat → A → M A) (s0 : A) (I : Nat → A → Prop) (h0 : I 0 s0)
    (hs : ∀ i < n, ∀ s, I i s → ∃ s', f i s = .ok s' ∧ I (i + 1) s') :
    ∃ s', forUp n f s0 = .ok s' ∧ I n s' := by
  induction n with
  | zero => exact ⟨s0, rfl, h0⟩
  | succ n ih =>
    obtain ⟨s, h1, h2⟩ := ih fun i hi => hs i (by omega)
    obtain ⟨s', h3, h4⟩ := hs n (by omega) s h2
    exact ⟨s', by rw [forUp_succ, h1, ok_bind, h3], h4⟩

theorem cell_eq {k r r' t t' : Nat} (ht : t < k) (ht' : t' < k) (h : r * k + t = r' * k + t') :
    r = r' ∧ t = t' := by
  have hk : 0 < k := by omega
  have h1 : (r * k + t) / k = r := by
    rw [Nat.mul_comm, Nat.mul_add_div hk, Nat.div_eq_of_lt ht, Nat.add_zero]
  have h2 : (r' * k + t') / k = r' := by
    rw [Nat.mul_comm, Nat.mul_add_div hk, Nat.div_eq_of_lt ht', Nat.add_zero]
  have h3 : r = r' := by rw [← h1, h, h2]
  subst h3
  exact ⟨rfl, by omega⟩

theorem cell_lt {n k r t : Nat} (hr : r < n) (ht : t < k) : r * k + t < n * k := by
  have h : (r + 1) * k ≤ n * k := Nat.mul_le_mul_right k hr
  rw [Nat.add_mul, Nat.one_mul] at h
  omega

theorem get_set {A : Type} {l : List A} {a b : Nat} {v : A} (h : a < l.length) :
    (l.set a v)[b]? = if b = a then some v else l[b]? := by
  rw [List.getElem?_set]
  by_cases he : a = b
  · rw [if_pos he, if_pos he.symm, if_pos (he ▸ h)]
  · rw [if_neg he, if_neg (fun h => he h.symm)]

/-- The sample at position `t` among all samples but `r`. -/
def other (r t : Nat) : Nat := if t < r then t else t + 1

theorem other_ne (r t : Nat) : other r t ≠ r := by unfold other; split <;> omega

/-- Whether the pair of the cell has been written when the loops are at `i` and `j`. -/
def Past (i j r t : Nat) : Prop :=
  min r (other r t) < i ∨ min r (other r t) = i ∧ max r (other r t) < j

/-- The lists of the exact method, as far as they are written. -/
def ListOk (n : Nat) (D : Nat → Nat → K) (P : Nat → Nat → Prop) (r : List Nat × List K) : Prop :=
  r.1.length = n * (n - 1) ∧ r.2.length = n * (n - 1) ∧ ∀ p < n, ∀ t < n - 1, P p t →
    r.1[p * (n - 1) + t]? = some (other p t) ∧
    r.2[p * (n - 1) + t]? = some (D (min p (other p t)) (max p (other p t)))

theorem distancesExact_ok {n : Nat} {dm : List K} {D : Nat → Nat → K}
    (hdm : ∀ i j, i < j → j < n → dm[i * n + j]? = some (D i j)) {r : List Nat × List K}
    (h1 : r.1.length = n * (n - 1)) (h2 : r.2.length = n * (n - 1)) :
    ∃ r', distancesExact n dm r = .ok r' ∧ ListOk n D (fun _ _ => True) r' := by
  unfold distancesExact
  simp only
  have key := forUp_inv n (fun i r => forUp (n - (i + 1)) (fun t r => do
    let j := i + 1 + t
    let d ← rd dm (i * n + j)
    let ind ← wr r.1 (i * (n - 1) + (j - 1)) j
    let sq ← wr r.2 (i * (n - 1) + (j - 1)) d
    let ind ← wr ind (j * (n - 1) + i) i
    let sq ← wr sq (j * (n - 1) + i) d
    .ok (ind, sq)) r) r (fun i => ListOk n D (Past i 0))
    ⟨h1, h2, fun p _ t _ h => by unfold Past at h; omega⟩ ?_
  · obtain ⟨r', hr, hI⟩ := key
    refine ⟨r', hr, hI.1, hI.2.1, fun p hp t ht _ => hI.2.2 p hp t ht (Or.inl ?_)⟩
    omega
  · intro i hi s hs
    have key := forUp_inv (n - (i + 1)) (fun t r => do
      let j := i + 1 + t
      let d ← rd dm (i * n + j)
      let ind ← wr r.1 (i * (n - 1) + (j - 1)) j
      let sq ← wr r.2 (i * (n - 1) + (j - 1)) d
      let ind ← wr ind (j * (n - 1) + i) i
      let sq ← wr sq (j * (n - 1) + i) d
      .ok (ind, sq)) s (fun t => ListOk n D (Past i (i + 1 + t))) ?_ ?_
    · obtain ⟨s', hs', hI⟩ := key
      refine ⟨s', hs', hI.1, hI.2.1, fun p hp t ht h => hI.2.2 p hp t ht ?_⟩
      unfold Past at h ⊢
      have : other p t < n := by unfold other; split <;> omega
      omega
    · refine ⟨hs.1, hs.2.1, fun p hp t ht h => hs.2.2 p hp t ht ?_⟩
      unfold Past at h ⊢
      have := other_ne p t
      omega
    · intro t ht s hs
      have ha : i * (n - 1) + (i + 1 + t - 1) < n * (n - 1) := cell_lt hi (by omega)
      have hb : (i + 1 + t) * (n - 1) + i < n * (n - 1) := cell_lt (by omega) (by omega)
      refine ⟨((s.1.set (i * (n - 1) + (i + 1 + t - 1)) (i + 1 + t)).set ((i + 1 + t) * (n - 1) + i) i,
          (s.2.set (i * (n - 1) + (i + 1 + t - 1)) (D i (i + 1 + t))).set ((i + 1 + t) * (n - 1) + i)
            (D i (i + 1 + t))), ?_, by simp only [List.length_set]; exact hs.1,
        by simp only [List.length_set]; exact hs.2.1, ?_⟩
      rotate_left
      · intro p hp q hq h
        rw [get_set (by rw [List.length_set, hs.1]; exact hb), get_set (by rw [hs.1]; exact ha),
          get_set (by rw [List.length_set, hs.2.1]; exact hb), get_set (by rw [hs.2.1]; exact ha)]
        by_cases e1 : p * (n - 1) + q = (i + 1 + t) * (n - 1) + i
        · obtain ⟨e, e'⟩ := cell_eq hq (by omega) e1
          rw [if_pos e1, if_pos e1]
          have ho : other p q = i := by unfold other; rw [if_pos (by omega)]; exact e'
          rw [ho, Nat.min_eq_right (by omega), Nat.max_eq_left (by omega), e]
          exact ⟨rfl, rfl⟩
        · rw [if_neg e1, if_neg e1]
          by_cases e2 : p * (n - 1) + q = i * (n - 1) + (i + 1 + t - 1)
          · obtain ⟨e, e'⟩ := cell_eq hq (by omega) e2
            rw [if_pos e2, if_pos e2]
            have ho : other p q = i + 1 + t := by unfold other; rw [if_neg (by omega)]; omega
            rw [ho, Nat.min_eq_left (by omega), Nat.max_eq_right (by omega), e]
            exact ⟨rfl, rfl⟩
          · rw [if_neg e2, if_neg e2]
            refine hs.2.2 p hp q hq ?_
            unfold Past at h ⊢
            rcases h with h | ⟨h, h'⟩
            · exact Or.inl h
            · refine Or.inr ⟨h, ?_⟩
              by_contra hc
              have hm : max p (other p q) = i + 1 + t := by omega
              unfold other at *
              by_cases hlt : q < p
              · rw [if_pos hlt] at h hm
                exact e1 (by rw [show p = i + 1 + t by omega, show q = i by omega])
              · rw [if_neg hlt] at h hm
                exact e2 (by rw [show p = i by omega, show q = i + 1 + t - 1 by omega])
      · simp only
        rw [rd_ok (hdm i (i + 1 + t) (by omega) (by omega)), ok_bind, wr_ok _ (by rw [hs.1]; exact ha),
          ok_bind, wr_ok _ (by rw [hs.2.1]; exact ha), ok_bind,
          wr_ok _ (by rw [List.length_set, hs.1]; exact hb), ok_bind,
          wr_ok _ (by rw [List.length_set, hs.2.1]; exact hb), ok_bind]

/-- Row `i` of the lists of the nearest neighbours is done: the neighbours other than `i` are there
in their order, and at most the last one of the `k + 1` is left out. -/
def RowDone (k : Nat) (J : Nat → Nat → Nat) (V : Nat → Nat → K) (r : List Nat × List K) (i : Nat) :
    Prop :=
  ∃ pos : Nat → Nat, (∀ t < k, ∀ u < t, pos u < pos t) ∧ (∀ t < k, pos t ≤ k) ∧
    (∀ p ≤ k, (∃ t < k, pos t = p) ∨ J i p = i ∨ p = k) ∧
    ∀ t < k, J i (pos t) ≠ i ∧ r.1[i * k + t]? = some (J i (pos t)) ∧
      r.2[i * k + t]? = some (V i (pos t) * V i (pos t))

theorem knnRow_ok {n k : Nat} {nind : List Nat} {ndist : List K} {J : Nat → Nat → Nat}
    {V : Nat → Nat → K} (hJ : ∀ i < n, ∀ p ≤ k, nind[i * (k + 1) + p]? = some (J i p))
    (hV : ∀ i < n, ∀ p ≤ k, ndist[i * (k + 1) + p]? = some (V i p))
    (hne : ∀ i < n, ∀ p ≤ k, ∀ q < p, J i q ≠ J i p) {i : Nat} (hi : i < n) {r : List Nat × List K}
    (h1 : r.1.length = n * k) (h2 : r.2.length = n * k) :
    ∃ r', knnRow k nind ndist i r = .ok r' ∧ r'.1.length = n * k ∧ r'.2.length = n * k ∧
      RowDone k J V r' i ∧
      ∀ p, (∀ t < k, p ≠ i * k + t) → r'.1[p]? = r.1[p]? ∧ r'.2[p]? = r.2[p]? := by
  unfold knnRow
  have key := forUp_inv (k + 1) (fun t (s : Nat × List Nat × List K) =>
    if s.1 < k then do
      let j ← rd nind (i * (k + 1) + t)
      if j = i then .ok s
      else do
        let ind ← wr s.2.1 (i * k + s.1) j
        let d ← rd ndist (i * (k + 1) + t)
        let sq ← wr s.2.2 (i * k + s.1) (d * d)
        .ok (s.1 + 1, ind, sq)
    else .ok s) (0, r) (fun t s => s.2.1.length = n * k ∧ s.2.2.length = n * k ∧ s.1 ≤ k ∧
      (∀ p, (∀ t < k, p ≠ i * k + t) → s.2.1[p]? = r.1[p]? ∧ s.2.2[p]? = r.2[p]?) ∧
      (s.1 = t ∨ s.1 + 1 = t ∧ (∃ p < t, J i p = i) ∨ s.1 = k ∧ t = k + 1) ∧
      ∃ pos : Nat → Nat, (∀ t < s.1, ∀ u < t, pos u < pos t) ∧ (∀ u < s.1, pos u < t) ∧
        (∀ p < t, (∃ u < s.1, pos u = p) ∨ J i p = i ∨ p = k) ∧
        ∀ u < s.1, J i (pos u) ≠ i ∧ s.2.1[i * k + u]? = some (J i (pos u)) ∧
          s.2.2[i * k + u]? = some (V i (pos u) * V i (pos u)))
    ⟨h1, h2, by omega, fun p _ => ⟨rfl, rfl⟩, Or.inl rfl, id, by simp, by simp, by simp, by simp⟩ ?_
  · obtain ⟨s, hs, hI⟩ := key
    rw [hs, ok_bind]
    obtain ⟨a1, a2, a3, a4, a5, pos, b1, b2, b3, b4⟩ := hI
    have hk : s.1 = k := by
      rcases a5 with h | ⟨h, _⟩ | ⟨h, _⟩ <;> omega
    rw [hk] at b1 b2 b3 b4
    exact ⟨_, rfl, a1, a2, ⟨pos, b1, fun t ht => by have := b2 t ht; omega,
      fun p hp => b3 p (by omega), b4⟩, a4⟩
  · intro t ht s hI
    obtain ⟨a1, a2, a3, a4, a5, pos, b1, b2, b3, b4⟩ := hI
    by_cases hf : s.1 < k
    · rw [if_pos hf, rd_ok (hJ i hi t (by omega)), ok_bind]
      by_cases he : J i t = i
      · rw [if_pos he]
        refine ⟨s, rfl, a1, a2, a3, a4, ?_, pos, b1, fun u hu => by have := b2 u hu; omega, ?_, b4⟩
        · rcases a5 with h | ⟨_, p, hp, h⟩ | ⟨h, _⟩
          · exact Or.inr (Or.inl ⟨by omega, t, by omega, he⟩)
          · exact absurd (h.trans he.symm) (hne i hi t (by omega) p hp)
          · omega
        · intro p hp
          by_cases hpt : p = t
          · rw [hpt]; exact Or.inr (Or.inl he)
          · exact b3 p (by omega)
      · rw [if_neg he]
        have hc : i * k + s.1 < n * k := cell_lt hi hf
        rw [wr_ok _ (by rw [a1]; exact hc), ok_bind, rd_ok (hV i hi t (by omega)), ok_bind,
          wr_ok _ (by rw [a2]; exact hc), ok_bind]
        refine ⟨_, rfl, by simp only [List.length_set]; exact a1, by simp only [List.length_set]; exact a2,
          hf, ?_, ?_, fun u => if u < s.1 then pos u else t, ?_, ?_, ?_, ?_⟩
        · intro p hp
          rw [get_set (by rw [a1]; exact hc), get_set (by rw [a2]; exact hc), if_neg (hp s.1 hf),
            if_neg (hp s.1 hf)]
          exact a4 p hp
        · rcases a5 with h | ⟨h, p, hp, h'⟩ | ⟨h, _⟩
          · exact Or.inl (by simp only; omega)
          · exact Or.inr (Or.inl ⟨by simp only; omega, p, by omega, h'⟩)
          · omega
        · intro u hu w hw
          simp only at hu
          simp only
          by_cases h : u < s.1
          · rw [if_pos h, if_pos (by omega)]; exact b1 u h w hw
          · rw [if_neg h, if_pos (by omega)]; exact b2 w (by omega)
        · intro u hu
          simp only at hu
          simp only
          by_cases h : u < s.1
          · rw [if_pos h]; have := b2 u h; omega
          · rw [if_neg h]; omega
        · intro p hp
          by_cases hpt : p = t
          · exact Or.inl ⟨s.1, by simp only; omega, by simp only; rw [if_neg (Nat.lt_irrefl _), hpt]⟩
          · rcases b3 p (by omega) with ⟨u, hu, h⟩ | h
            · exact Or.inl ⟨u, by simp only; omega, by simp only; rw [if_pos hu, h]⟩
            · exact Or.inr h
        · intro u hu
          simp only at hu
          simp only
          rw [get_set (by rw [a1]; exact hc), get_set (by rw [a2]; exact hc)]
          by_cases h : u < s.1
          · rw [if_pos h, if_neg (by omega), if_neg (by omega)]; exact b4 u h
          · rw [if_neg h, if_pos (by omega), if_pos (by omega)]; exact ⟨he, rfl, rfl⟩
    · rw [if_neg hf]
      refine ⟨s, rfl, a1, a2, a3, a4, ?_, pos, b1, fun u hu => by have := b2 u hu; omega, ?_, b4⟩
      · rcases a5 with h | ⟨h, h'⟩ | ⟨h, h'⟩ <;> [exact Or.inr (Or.inr ⟨by omega, by omega⟩); omega; omega]
      · intro p hp
        by_cases hpt : p = t
        · rcases a5 with h | ⟨h, h'⟩ | ⟨h, h'⟩
          · exact Or.inr (Or.inr (by omega))
          · omega
          · omega
        · exact b3 p (by omega)

theorem RowDone.congr {k : Nat} {J : Nat → Nat → Nat} {V : Nat → Nat → K} {r r' : List Nat × List K}
    {i : Nat} (h : RowDone k J V r i)
    (he : ∀ t < k, r'.1[i * k + t]? = r.1[i * k + t]? ∧ r'.2[i * k + t]? = r.2[i * k + t]?) :
    RowDone k J V r' i := by
  obtain ⟨pos, h1, h2, h3, h4⟩ := h
  refine ⟨pos, h1, h2, h3, fun t ht => ?_⟩
  rw [(he t ht).1, (he t ht).2]
  exact h4 t ht

theorem distancesKnn_ok {n k : Nat} {nind : List Nat} {ndist : List K} {J : Nat → Nat → Nat}
    {V : Nat → Nat → K} (hJ : ∀ i < n, ∀ p ≤ k, nind[i * (k + 1) + p]? = some (J i p))
    (hV : ∀ i < n, ∀ p ≤ k, ndist[i * (k + 1) + p]? = some (V i p))
    (hne : ∀ i < n, ∀ p ≤ k, ∀ q < p, J i q ≠ J i p) {r : List Nat × List K}
    (h1 : r.1.length = n * k) (h2 : r.2.length = n * k) :
    ∃ r', distancesKnn n k nind ndist r = .ok r' ∧ r'.1.length = n * k ∧ r'.2.length = n * k ∧
      ∀ i < n, RowDone k J V r' i := by
  unfold distancesKnn
  have key := forUp_inv n (fun i r => knnRow k nind ndist i r) r (fun m r =>
    r.1.length = n * k ∧ r.2.length = n * k ∧ ∀ i < m, RowDone k J V r i) ⟨h1, h2, by simp⟩ ?_
  · obtain ⟨r', hr, hI⟩ := key
    exact ⟨r', hr, hI⟩
  · intro i hi s hs
    obtain ⟨s', b1, b2, b3, b4, b5⟩ := knnRow_ok hJ hV hne hi hs.1 hs.2.1
    refine ⟨s', b1, b2, b3, fun a ha => ?_⟩
    by_cases he : a = i
    · rw [he]; exact b4
    · refine (hs.2.2 a (by omega)).congr fun t ht => b5 _ fun u hu h => he (cell_eq ht hu h).1

end Verif.Tsne
