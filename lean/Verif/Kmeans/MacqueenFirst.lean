import Verif.Kmeans.MacqueenRun

/-
The first labels of MacQueen's method.
-/
namespace Verif.Kmeans

open Verif.HalfBlas (put forUp)

variable {K : Type} [Field K] [LinearOrder K] [IsStrictOrderedRing K]

/-- What is compared for the label of sample `i` of a block. -/
def firstDist (c : LCfg K) (norms work : Nat → K) (i j : Nat) : K := if j = 0 then work i + norms 0 else work (i * (c.k + c.pad) + j) + norms j

omit [IsStrictOrderedRing K] in
theorem initLabel_closest (c : LCfg K) (norms work : Nat → K) (i : Nat) : mqInitLabel c norms work i = mqClosest c.k (firstDist c norms work i) := by
  unfold mqInitLabel mqClosest firstDist
  simp

/-- A sample is labelled nearest among the centres other than the first one, or with the first one; the first sample of a
block is labelled nearest. -/
def FirstOk (c : LCfg K) (C : Nat → K) (x l : Nat) : Prop :=
  l < c.k ∧ (l ≠ 0 → ∀ j < c.k, j ≠ 0 → score c C x l ≤ score c C x j) ∧ (x % c.bs = 0 → ∀ j < c.k, score c C x l ≤ score c C x j)

omit [IsStrictOrderedRing K] in
theorem initLabel_ok (c : LCfg K) (hk : 0 < c.k) (C norms work m : Nat → K) (off size i : Nat) (hi : i < size) (hoff : off % c.bs = 0) (hib : i < c.bs)
    (hn : ∀ j < c.k, norms j = if c.spherical then 0 else ∑ f ∈ Finset.range c.nf, C (j + f * c.k) * C (j + f * c.k))
    (hw : work = gemmBlock c C off size m) : FirstOk c C (off + i) (mqInitLabel c norms work i) := by
  rw [initLabel_closest]
  obtain ⟨h1, h2, _⟩ := closest_spec c.k hk (firstDist c norms work i)
  generalize mqClosest c.k (firstDist c norms work i) = l at h1 h2 ⊢
  have hsc : ∀ j < c.k, work (i * (c.k + c.pad) + j) + norms j = score c C (off + i) j := fun j hj => by
    rw [hw, gemm_spec c C off size m i hi j hj, hn j hj]
    rfl
  have hd : ∀ j < c.k, j ≠ 0 → firstDist c norms work i j = score c C (off + i) j := fun j hj h0 => by
    rw [firstDist, if_neg h0, hsc j hj]
  refine ⟨h1, fun hl j hj hj0 => ?_, fun hx j hj => ?_⟩
  · rw [← hd l h1 hl, ← hd j hj hj0]
    exact h2 j hj
  · have hi0 : i = 0 := by
      rw [Nat.add_mod, hoff, Nat.zero_add, Nat.mod_mod, Nat.mod_eq_of_lt hib] at hx
      exact hx
    have hall : ∀ j < c.k, firstDist c norms work i j = score c C (off + i) j := fun j hj => by
      by_cases h0 : j = 0
      · rw [h0, firstDist, if_pos rfl, ← hsc 0 hk, hi0, Nat.zero_mul]
      · exact hd j hj h0
    rw [← hall l h1, ← hall j hj]
    exact h2 j hj

/-- The labels of the samples before `m`, and what the blocks read. -/
structure FirstInv (c : LCfg K) (C norms : Nat → K) (m : Nat) (s : MSt K) : Prop where
  prev : s.prev = C
  norm : s.norms = norms
  lab : ∀ x < m, FirstOk c C x (s.curLab x)

omit [IsStrictOrderedRing K] in
theorem initBlock_first (c : LCfg K) (hk : 0 < c.k) (C norms : Nat → K) (off size : Nat) (hoff : off % c.bs = 0) (hsz : size ≤ c.bs)
    (hn : ∀ j < c.k, norms j = if c.spherical then 0 else ∑ f ∈ Finset.range c.nf, C (j + f * c.k) * C (j + f * c.k)) (s : MSt K)
    (h : FirstInv c C norms off s) : FirstInv c C norms (off + size) (mqInitBlock c off size s) := by
  unfold mqInitBlock
  have := forUp_inv (body := fun i s => mqInitSample c off i s) (s := { s with work := gemmBlock c s.prev off size s.work })
    (fun i s' => FirstInv c C norms (off + i) s' ∧ s'.work = gemmBlock c C off size s.work) size ⟨⟨h.prev, h.norm, h.lab⟩, by simp only; rw [h.prev]⟩ ?_
  · exact this.1
  · rintro i s' hi ⟨g, hw⟩
    refine ⟨⟨g.prev, g.norm, fun x hx => ?_⟩, hw⟩
    unfold mqInitSample
    simp only
    by_cases he : x = off + i
    · rw [he, put_same]
      exact initLabel_ok c hk C s'.norms s'.work s.work off size i hi hoff (by omega) (fun j hj => by rw [g.norm]; exact hn j hj) hw
    · rw [put_ne _ _ he]
      exact g.lab x (by omega)

omit [Field K] [LinearOrder K] [IsStrictOrderedRing K] in
/-- Where a block starts and ends. -/
theorem mqBlock_ends (c : LCfg K) (hbs : 0 < c.bs) (b : Nat) (hb : b < nBlocks c.n c.bs) :
    (mqBlock c b).1 = b * c.bs ∧ (mqBlock c b).2 ≤ c.bs ∧ (mqBlock c b).1 + (mqBlock c b).2 = if b + 1 = nBlocks c.n c.bs then c.n else (b + 1) * c.bs := by
  have hdiv := Nat.div_add_mod c.n c.bs
  have hlt := Nat.mod_lt c.n hbs
  have hmul : c.bs * (c.n / c.bs) = c.n / c.bs * c.bs := Nat.mul_comm _ _
  unfold mqBlock
  by_cases hlast : b = nBlocks c.n c.bs - 1 ∧ c.n % c.bs > 0
  · rw [if_pos hlast, if_pos (by omega)]
    have hnb : nBlocks c.n c.bs = c.n / c.bs + 1 := if_pos hlast.2
    have hbe : b = c.n / c.bs := by omega
    have := Nat.mod_le c.n c.bs
    refine ⟨?_, by simp only; omega, by simp only; omega⟩
    simp only
    rw [hbe]
    omega
  · rw [if_neg hlast]
    refine ⟨rfl, le_refl _, ?_⟩
    simp only
    rw [← Nat.succ_mul]
    by_cases he : b + 1 = nBlocks c.n c.bs
    · rw [if_pos he]
      have hz : ¬ c.n % c.bs > 0 := fun hh => hlast ⟨by omega, hh⟩
      have hnb : nBlocks c.n c.bs = c.n / c.bs := if_neg hz
      have : b.succ = c.n / c.bs := by omega
      rw [this]
      omega
    · rw [if_neg he]

omit [IsStrictOrderedRing K] in
theorem init_first (c : LCfg K) (hk : 0 < c.k) (hbs : 0 < c.bs) (s : MSt K) : ∀ i < c.n, FirstOk c s.cur i ((mqInit c s).curLab i) := by
  unfold mqInit
  simp only
  have hz := (forUp_put (fun i => i) (fun _ (_ : K) => (0 : K)) s.norms c.k (fun _ _ _ _ h => h)).1
  generalize forUp c.k (fun i m => put m i 0) s.norms = zero at hz ⊢
  have hrow := sumRows c.nf c.k (fun i f => s.cur (i + f * c.k) * s.cur (i + f * c.k)) zero
  have hprev := copy_spec (c.k * c.nf) s.cur s.prev
  generalize forUp c.k (fun i m => put m i 0) s.count = count0
  generalize forUp c.nf (fun f m => forUp c.k (fun i m => put m (i + f * c.k) 0) m) s.cur = cur0
  generalize forUp c.nf (fun f m => forUp c.k (fun i m => put m i (m i + s.cur (i + f * c.k) * s.cur (i + f * c.k))) m) zero = rows at hrow ⊢
  generalize forUp (c.k * c.nf) (fun i m => put m i (s.cur i)) s.prev = prev0 at hprev ⊢
  have hsame : SameC c prev0 s.cur := fun a ha f hf => hprev _ (pos_lt ha hf)
  have hn : ∀ j < c.k, (if c.spherical then zero else rows) j = if c.spherical then 0 else ∑ f ∈ Finset.range c.nf, prev0 (j + f * c.k) * prev0 (j + f * c.k) := fun j hj => by
    cases c.spherical
    · simp only [Bool.false_eq_true, if_false]
      rw [hrow j hj, hz j hj, zero_add]
      exact Finset.sum_congr rfl fun f hf => by rw [hsame j hj f (Finset.mem_range.mp hf)]
    · simp only [if_true]
      exact hz j hj
  generalize (if c.spherical then zero else rows) = nrm at hn ⊢
  have hlabs : ∀ r : MSt K, (mqInitScale c r).curLab = r.curLab := fun r => by unfold mqInitScale; split <;> rfl
  rw [hlabs]
  have := forUp_inv (body := fun b s => mqInitBlock c (mqBlock c b).1 (mqBlock c b).2 s) (s := { s with count := count0, prev := prev0, norms := nrm, cur := cur0 })
    (fun b r => FirstInv c prev0 nrm (if b = nBlocks c.n c.bs then c.n else b * c.bs) r) (nBlocks c.n c.bs) ?_ ?_
  · rw [if_pos rfl] at this
    intro i hi
    have h := this.lab i hi
    have hsc : ∀ j < c.k, score c prev0 i j = score c s.cur i j := fun j hj => by
      unfold score
      rw [Finset.sum_congr rfl fun f hf => by rw [hsame j hj f (Finset.mem_range.mp hf)],
        Finset.sum_congr (s₁ := Finset.range c.nf) rfl fun f hf => show prev0 (j + f * c.k) * prev0 (j + f * c.k) = s.cur (j + f * c.k) * s.cur (j + f * c.k) by rw [hsame j hj f (Finset.mem_range.mp hf)]]
    obtain ⟨h1, h2, h3⟩ := h
    refine ⟨h1, fun hl j hj hj0 => ?_, fun hx j hj => ?_⟩
    · rw [← hsc _ h1, ← hsc j hj]; exact h2 hl j hj hj0
    · rw [← hsc _ h1, ← hsc j hj]; exact h3 hx j hj
  · refine ⟨rfl, rfl, fun x hx => ?_⟩
    exfalso
    by_cases h0 : 0 = nBlocks c.n c.bs
    · rw [if_pos h0] at hx
      unfold nBlocks at h0
      split at h0
      · exact absurd h0.symm (Nat.succ_ne_zero _)
      · next hh =>
        have hdiv := Nat.div_add_mod c.n c.bs
        rw [← h0, Nat.eq_zero_of_not_pos hh, Nat.mul_zero] at hdiv
        omega
    · rw [if_neg h0, Nat.zero_mul] at hx
      omega
  · intro b r hb h
    obtain ⟨e1, e2, e3⟩ := mqBlock_ends c hbs b hb
    rw [if_neg (by omega), ← e1] at h
    rw [← e3]
    exact initBlock_first c hk prev0 nrm _ _ (by rw [e1]; exact Nat.mul_mod_left b c.bs) e2 hn r h

end Verif.Kmeans
