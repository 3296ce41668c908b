import Verif.Partition.Model
import Mathlib.Logic.Equiv.Basic
import Mathlib.Data.List.Nodup
import Mathlib.Data.List.Range

/-!
# Proofs about the partition loop
-/

namespace Verif.Partition

/-- `f'` is `f` with the entries of `[lo, hi]` rearranged. -/
def Rearr (lo hi : Nat) (f f' : Nat → Nat) : Prop :=
  ∃ σ : Equiv.Perm Nat, (∀ i, ¬ (lo ≤ i ∧ i ≤ hi) → σ i = i) ∧ ∀ i, f' i = f (σ i)

theorem Rearr.refl (lo hi : Nat) (f : Nat → Nat) : Rearr lo hi f f :=
  ⟨Equiv.refl _, fun _ _ => rfl, fun _ => rfl⟩

theorem Rearr.trans {lo hi : Nat} {a b c : Nat → Nat} (h1 : Rearr lo hi a b) (h2 : Rearr lo hi b c) :
    Rearr lo hi a c := by
  obtain ⟨σ, f1, i1⟩ := h1
  obtain ⟨τ, f2, i2⟩ := h2
  refine ⟨τ.trans σ, fun i hi => ?_, fun i => ?_⟩
  · simp only [Equiv.trans_apply]; rw [f2 i hi, f1 i hi]
  · simp only [Equiv.trans_apply]; rw [i2, i1]

theorem swapAt_rearr {lo hi i j : Nat} (f : Nat → Nat) (h1 : lo ≤ i) (h2 : i ≤ hi) (h3 : lo ≤ j)
    (h4 : j ≤ hi) : Rearr lo hi f (swapAt f i j) := by
  refine ⟨Equiv.swap i j, fun k hk => ?_, fun k => ?_⟩
  · exact Equiv.swap_apply_of_ne_of_ne (by rintro rfl; exact hk ⟨h1, h2⟩)
      (by rintro rfl; exact hk ⟨h3, h4⟩)
  · unfold swapAt
    by_cases h1 : k = i
    · subst h1; rw [if_pos rfl, Equiv.swap_apply_left]
    · by_cases h2 : k = j
      · subst h2; rw [if_neg h1, if_pos rfl, Equiv.swap_apply_right]
      · rw [if_neg h1, if_neg h2, Equiv.swap_apply_of_ne_of_ne h1 h2]

theorem Rearr.outside {lo hi : Nat} {f f' : Nat → Nat} (h : Rearr lo hi f f') {i : Nat}
    (h1 : i < lo ∨ hi < i) : f' i = f i := by
  obtain ⟨σ, g, v⟩ := h
  rw [v, g i (by omega)]

theorem Rearr.perm {lo hi : Nat} {f f' : Nat → Nat} (h : Rearr lo hi f f') :
    ((List.range' lo (hi + 1 - lo)).map f').Perm ((List.range' lo (hi + 1 - lo)).map f) := by
  obtain ⟨σ, g, hv⟩ := h
  have e : (List.range' lo (hi + 1 - lo)).map f' =
      ((List.range' lo (hi + 1 - lo)).map σ).map f := by
    rw [List.map_map]
    apply List.map_congr_left
    intro i _
    simp [hv]
  rw [e]
  apply List.Perm.map
  have hmem : ∀ x, (lo ≤ σ x ∧ σ x ≤ hi) ↔ (lo ≤ x ∧ x ≤ hi) := by
    intro x
    constructor
    · intro h; by_contra hc; rw [g x hc] at h; exact hc h
    · intro h; by_contra hc
      have := g (σ x) hc
      rw [σ.injective this] at hc
      exact hc h
  have hr : ∀ a, a ∈ List.range' lo (hi + 1 - lo) ↔ lo ≤ a ∧ a ≤ hi := by
    intro a; rw [List.mem_range'_1]; omega
  rw [List.perm_ext_iff_of_nodup]
  · intro a
    simp only [List.mem_map, hr]
    constructor
    · rintro ⟨x, hx, rfl⟩; exact (hmem x).2 hx
    · intro ha
      refine ⟨σ.symm a, (hmem _).1 ?_, by simp⟩
      simpa using ha
  · exact (List.nodup_range').map σ.injective
  · exact List.nodup_range'

/-- The tests are opposite on every sample of the range. -/
def Opposite (L R : Nat → Bool) (samp : Nat → Nat) (lo hi : Nat) : Prop :=
  ∀ i, lo ≤ i → i ≤ hi → R (samp i) = !L (samp i)

theorem Opposite.rearr {L R : Nat → Bool} {f f' : Nat → Nat} {lo hi : Nat} (h : Opposite L R f lo hi)
    (hr : Rearr lo hi f f') : Opposite L R f' lo hi := by
  obtain ⟨σ, g, v⟩ := hr
  intro i h1 h2
  have : lo ≤ σ i ∧ σ i ≤ hi := by
    by_contra hc
    have := g (σ i) hc
    rw [σ.injective this] at hc
    exact hc ⟨h1, h2⟩
  rw [v]
  exact h _ this.1 this.2

/-- Rounds still needed. -/
def need (L : Nat → Bool) (samp : Nat → Nat) (head tail : Nat) : Nat :=
  2 * (tail - head) + if ¬ L (samp head) ∧ L (samp tail) then 1 else 0

theorem loop_spec (L R : Nat → Bool) (lo hi : Nat) : ∀ (fuel : Nat) (samp : Nat → Nat)
    (head tail : Nat), need L samp head tail < fuel → lo ≤ head → head ≤ tail → tail ≤ hi →
    Opposite L R samp lo hi →
    (∀ i, lo ≤ i → i < head → L (samp i) = true) →
    (∀ i, tail < i → i ≤ hi → L (samp i) = false) →
    (tail < hi → L (samp head) = false ∨ L (samp tail) = false) →
    ∃ r, loop L R fuel samp head tail = some r ∧ Rearr lo hi samp r.1 ∧
      lo ≤ r.2 ∧ r.2 ≤ hi ∧ (∀ i, lo ≤ i → i < r.2 → L (r.1 i) = true) ∧
      (∀ i, r.2 < i → i ≤ hi → L (r.1 i) = false) ∧ (r.2 < hi → L (r.1 r.2) = false)
  | 0, _, _, _, h, _, _, _, _, _, _, _ => absurd h (Nat.not_lt_zero _)
  | fuel + 1, samp, head, tail, h, h1, h2, h3, ho, hL, hR, hE => by
    rw [loop]
    by_cases c : head < tail
    · rw [if_pos c]
      by_cases cl : L (samp head) = true
      · rw [if_pos cl]
        refine loop_spec L R lo hi fuel samp (head + 1) tail ?_ (by omega) (by omega) h3 ho ?_ hR ?_
        · unfold need at h ⊢
          split <;> omega
        · intro i a b
          by_cases e : i = head
          · rw [e]; exact cl
          · exact hL i a (by omega)
        · intro ht
          rcases hE ht with e | e
          · rw [cl] at e; cases e
          · exact .inr e
      · rw [if_neg cl]
        have cl' : L (samp head) = false := by simpa using cl
        have hop := ho tail (by omega) h3
        by_cases cr : R (samp tail) = true
        · rw [if_pos cr]
          have clt : L (samp tail) = false := by rw [cr] at hop; simpa using hop
          refine loop_spec L R lo hi fuel samp head (tail - 1) ?_ h1 (by omega) (by omega) ho hL ?_ ?_
          · unfold need at h ⊢
            split <;> omega
          · intro i a b
            by_cases e : i = tail
            · rw [e]; exact clt
            · exact hR i (by omega) b
          · intro _; exact .inl cl'
        · rw [if_neg cr]
          have clt : L (samp tail) = true := by
            cases hb : L (samp tail) with
            | true => rfl
            | false => rw [hb] at hop; exact absurd hop cr
          have hr : Rearr lo hi samp (swapAt samp head tail) :=
            swapAt_rearr samp h1 (by omega) (by omega) h3
          have v1 : swapAt samp head tail head = samp tail := by simp [swapAt]
          have v2 : swapAt samp head tail tail = samp head := by
            have : ¬ tail = head := by omega
            simp [swapAt, this]
          have v3 : ∀ k, k ≠ head → k ≠ tail → swapAt samp head tail k = samp k := by
            intro k a b; simp [swapAt, a, b]
          obtain ⟨r, e1, e2, e3⟩ := loop_spec L R lo hi fuel (swapAt samp head tail) head tail
            (by
              unfold need at h ⊢
              rw [v1, v2, clt, cl']
              rw [clt, cl'] at h
              simp at h ⊢
              omega)
            h1 h2 h3 (ho.rearr hr)
            (fun i a b => by rw [v3 i (by omega) (by omega)]; exact hL i a b)
            (fun i a b => by rw [v3 i (by omega) (by omega)]; exact hR i a b)
            (fun _ => .inr (by rw [v2]; exact cl'))
          exact ⟨r, e1, hr.trans e2, e3⟩
    · rw [if_neg c]
      have e : head = tail := by omega
      subst e
      refine ⟨(samp, head), rfl, Rearr.refl _ _ _, h1, h3, hL, hR, fun hh => ?_⟩
      rcases hE hh with e | e <;> exact e

/-- What a partition does, for opposite tests. -/
theorem partition_spec (L R : Nat → Bool) (samp : Nat → Nat) (start end_ : Nat) (h : start ≤ end_)
    (ho : Opposite L R samp start end_) (fuel : Nat) (hf : 2 * (end_ - start) + 1 < fuel) :
    ∃ (samp' : Nat → Nat) (m : Int), partition L R fuel samp start end_ = some (samp', m) ∧
      Rearr start end_ samp samp' ∧ (start : Int) - 1 ≤ m ∧ m < end_ ∧
      (∀ i : Nat, start ≤ i → (i : Int) ≤ m → L (samp' i) = true) ∧
      (∀ i : Nat, m < (i : Int) → i ≤ end_ → (m + 1 < end_ ∨ i < end_) → L (samp' i) = false) := by
  obtain ⟨r, e1, e2, e3, e4, e5, e6, e7⟩ := loop_spec L R start end_ fuel samp start end_
    (by unfold need; split <;> omega) (Nat.le_refl _) h (Nat.le_refl _) ho
    (fun i a b => by omega) (fun i a b => by omega) (fun a => by omega)
  refine ⟨r.1, (r.2 : Int) - 1, by rw [partition, e1]; rfl, e2, by omega, by omega, ?_, ?_⟩
  · intro i a b; exact e5 i a (by omega)
  · intro i a b c
    by_cases e : i = r.2
    · rw [e]; exact e7 (by omega)
    · exact e6 i (by omega) b

end Verif.Partition
