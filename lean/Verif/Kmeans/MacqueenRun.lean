import Verif.Kmeans.MacqueenProof

/-
The initialization and the iterations of MacQueen's method.
-/
namespace Verif.Kmeans

open Verif.HalfBlas (put forUp)

variable {K : Type} [Field K] [LinearOrder K] [IsStrictOrderedRing K]

/-! ### The initialization -/

omit [IsStrictOrderedRing K] in
theorem initLabel_lt (c : LCfg K) (hk : 0 < c.k) (norms work : Nat → K) (i : Nat) : mqInitLabel c norms work i < c.k := by
  unfold mqInitLabel
  simp only
  have := forUp_inv (body := fun j0 (r : Nat × K) => if work (i * (c.k + c.pad) + (j0 + 1)) + norms (j0 + 1) < r.2 then (j0 + 1, work (i * (c.k + c.pad) + (j0 + 1)) + norms (j0 + 1)) else r)
    (s := (0, work i + norms 0)) (fun m r => r.1 ≤ m) (c.k - 1) (le_refl _) ?_
  · omega
  · intro m r _ h
    split
    · exact le_refl _
    · omega

/-- The first `m` samples have been put into the sums. -/
structure Partly (c : LCfg K) (m : Nat) (s : MSt K) : Prop where
  lab : ∀ i < m, s.curLab i < c.k
  count : ∀ a < c.k, s.count a = (num m s.curLab a : Int)
  cur : ∀ a < c.k, ∀ f < c.nf, s.cur (a + f * c.k) = tot c m s.curLab a f

omit [IsStrictOrderedRing K] in
theorem initSample_partly (c : LCfg K) (hk : 0 < c.k) (off i : Nat) (s : MSt K) (h : Partly c (off + i) s) : Partly c (off + i + 1) (mqInitSample c off i s) := by
  unfold mqInitSample
  simp only
  have hl := initLabel_lt c hk s.norms s.work i
  generalize mqInitLabel c s.norms s.work i = l at hl ⊢
  have hsame : ∀ x ∈ Finset.range (off + i), put s.curLab (off + i) l x = s.curLab x := fun x hx => put_ne _ _ (by have := Finset.mem_range.mp hx; omega)
  refine ⟨fun x hx => ?_, fun a ha => ?_, fun a ha f hf => ?_⟩
  · simp only
    by_cases he : x = off + i
    · rw [he, put_same]; exact hl
    · rw [put_ne _ _ he]; exact h.lab x (by omega)
  · simp only
    unfold num
    rw [Finset.sum_range_succ, put_same, Finset.sum_congr rfl fun x hx => by rw [hsame x hx]]
    have := h.count a ha
    unfold num at this
    by_cases he : a = l
    · rw [he, put_same, if_pos rfl, ← he, this]; push_cast; rfl
    · rw [put_ne _ _ he, if_neg (Ne.symm he), this]; rfl
  · simp only
    rw [mqAdd_spec c (off + i) l hl s.cur a ha f hf, h.cur a ha f hf]
    unfold tot
    have he : ∑ x ∈ Finset.range (off + i), (if put s.curLab (off + i) l x = a then term c x f else 0) = ∑ x ∈ Finset.range (off + i), if s.curLab x = a then term c x f else 0 :=
      Finset.sum_congr rfl fun x hx => by rw [hsame x hx]
    rw [Finset.sum_range_succ, put_same, he]

omit [IsStrictOrderedRing K] in
theorem initBlock_partly (c : LCfg K) (hk : 0 < c.k) (off size : Nat) (s : MSt K) (h : Partly c off s) :
    Partly c (off + size) (mqInitBlock c off size s) ∧ (mqInitBlock c off size s).norms = s.norms := by
  unfold mqInitBlock
  refine forUp_inv (fun i s' => Partly c (off + i) s' ∧ s'.norms = s.norms) size ⟨⟨h.lab, h.count, h.cur⟩, rfl⟩ ?_
  rintro i s' _ ⟨h1, h2⟩
  exact ⟨initSample_partly c hk off i s' h1, h2⟩

omit [IsStrictOrderedRing K] in
theorem initBlocks_partly (c : LCfg K) (hk : 0 < c.k) (hbs : 0 < c.bs) (s : MSt K) (h : Partly c 0 s) :
    let r := forUp (nBlocks c.n c.bs) (fun b s => mqInitBlock c (mqBlock c b).1 (mqBlock c b).2 s) s
    Partly c c.n r ∧ r.norms = s.norms := by
  intro r
  have hdiv := Nat.div_add_mod c.n c.bs
  have hlt := Nat.mod_lt c.n hbs
  have hmul : c.bs * (c.n / c.bs) = c.n / c.bs * c.bs := Nat.mul_comm _ _
  have := forUp_inv (body := fun b s => mqInitBlock c (mqBlock c b).1 (mqBlock c b).2 s) (s := s)
    (fun b s' => Partly c (if b = nBlocks c.n c.bs then c.n else b * c.bs) s' ∧ s'.norms = s.norms) (nBlocks c.n c.bs) ⟨?_, rfl⟩ ?_
  · rw [if_pos rfl] at this
    exact this
  · by_cases h0 : 0 = nBlocks c.n c.bs
    · rw [if_pos h0]
      have hn : c.n = 0 := by
        unfold nBlocks at h0
        split at h0
        · exact absurd h0.symm (Nat.succ_ne_zero _)
        · next hh =>
          have hm : c.n % c.bs = 0 := Nat.eq_zero_of_not_pos hh
          rw [← h0, hm, Nat.mul_zero] at hdiv
          exact hdiv.symm
      rw [hn]
      exact h
    · rw [if_neg h0, Nat.zero_mul]
      exact h
  · rintro b s' hb ⟨h1, h2⟩
    rw [if_neg (by omega)] at h1
    have hblk := initBlock_partly c hk (mqBlock c b).1 (mqBlock c b).2 s' ?_
    · refine ⟨?_, hblk.2.trans h2⟩
      have hend : (mqBlock c b).1 + (mqBlock c b).2 = if b + 1 = nBlocks c.n c.bs then c.n else (b + 1) * c.bs := by
        unfold mqBlock
        by_cases hlast : b = nBlocks c.n c.bs - 1 ∧ c.n % c.bs > 0
        · rw [if_pos hlast, if_pos (by omega)]
          show c.n - c.n % c.bs + c.n % c.bs = c.n
          have := Nat.mod_le c.n c.bs
          omega
        · rw [if_neg hlast]
          show b * c.bs + c.bs = _
          rw [← Nat.succ_mul]
          by_cases he : b + 1 = nBlocks c.n c.bs
          · rw [if_pos he]
            have hz : ¬ c.n % c.bs > 0 := fun hh => hlast ⟨by omega, hh⟩
            have hnb : nBlocks c.n c.bs = c.n / c.bs := if_neg hz
            have : b.succ = c.n / c.bs := by omega
            rw [this]
            omega
          · rw [if_neg he]
      rw [← hend]
      exact hblk.1
    · have hstart : (mqBlock c b).1 = b * c.bs := by
        unfold mqBlock
        by_cases hlast : b = nBlocks c.n c.bs - 1 ∧ c.n % c.bs > 0
        · rw [if_pos hlast]
          show c.n - c.n % c.bs = b * c.bs
          have hnb : nBlocks c.n c.bs = c.n / c.bs + 1 := if_pos hlast.2
          have : b = c.n / c.bs := by omega
          rw [this]
          omega
        · rw [if_neg hlast]
      rw [hstart]
      exact h1

omit [LinearOrder K] [IsStrictOrderedRing K] in
theorem sumRows (nf k : Nat) (g : Nat → Nat → K) (w : Nat → K) : ∀ i < k,
    forUp nf (fun f m => forUp k (fun i m => put m i (m i + g i f)) m) w i = w i + ∑ f ∈ Finset.range nf, g i f := by
  intro i hi
  refine forUp_inv (body := fun f m => forUp k (fun i m => put m i (m i + g i f)) m) (s := w) (fun m (r : Nat → K) => r i = w i + ∑ f ∈ Finset.range m, g i f) nf (by simp) ?_
  intro m r _ h
  have hp := forUp_put (fun i => i) (fun i (v : K) => v + g i m) r k (fun _ _ _ _ h => h)
  rw [hp.1 i hi, h, Finset.sum_range_succ, add_assoc]

omit [IsStrictOrderedRing K] in
/-- The state after the initialization, from centres `C`: labels, counts and means agree, and `workc1` holds the norms of
`C` (unless spherical). -/
theorem init_spec (c : LCfg K) (hk : 0 < c.k) (hbs : 0 < c.bs) (s : MSt K) : MInv c (mqInit c s) ∧
    (c.spherical = false → ∀ a < c.k, (mqInit c s).norms a = ∑ f ∈ Finset.range c.nf, s.cur (a + f * c.k) * s.cur (a + f * c.k)) := by
  unfold mqInit
  simp only
  have hz := (forUp_put (fun i => i) (fun _ (_ : K) => (0 : K)) s.norms c.k (fun _ _ _ _ h => h)).1
  have hzc := (forUp_put (fun i => i) (fun _ (_ : Int) => (0 : Int)) s.count c.k (fun _ _ _ _ h => h)).1
  have hcol := cols_put c.nf c.k (fun _ (_ : K) => (0 : K)) s.cur
  generalize forUp c.k (fun i m => put m i 0) s.norms = zero at hz ⊢
  have hrow := sumRows c.nf c.k (fun i f => s.cur (i + f * c.k) * s.cur (i + f * c.k)) zero
  generalize forUp c.k (fun i m => put m i 0) s.count = count0 at hzc ⊢
  generalize forUp c.nf (fun f m => forUp c.k (fun i m => put m (i + f * c.k) 0) m) s.cur = cur0 at hcol ⊢
  generalize forUp c.nf (fun f m => forUp c.k (fun i m => put m i (m i + s.cur (i + f * c.k) * s.cur (i + f * c.k))) m) zero = rows at hrow ⊢
  generalize forUp (c.k * c.nf) (fun i m => put m i (s.cur i)) s.prev = prev0
  have hb := initBlocks_partly c hk hbs { s with count := count0, prev := prev0, norms := if c.spherical then zero else rows, cur := cur0 }
    ⟨fun i hi => by omega, fun a ha => by simp only; rw [hzc a ha]; rfl, fun a ha f hf => by simp only; rw [hcol a ha f hf]; rfl⟩
  simp only at hb
  generalize forUp (nBlocks c.n c.bs) (fun b s => mqInitBlock c (mqBlock c b).1 (mqBlock c b).2 s)
    { s with count := count0, prev := prev0, norms := if c.spherical then zero else rows, cur := cur0 } = r at hb ⊢
  obtain ⟨⟨hl, hc, hcu⟩, hn⟩ := hb
  unfold mqInitScale
  cases hsp : c.spherical
  · rw [hsp] at hn
    simp only [Bool.false_eq_true, if_false] at hn ⊢
    refine ⟨⟨hl, hc, fun a ha f hf => ?_⟩, fun _ a ha => ?_⟩
    · simp only
      rw [cols_put c.nf c.k (fun i (v : K) => if r.count i > 0 then v / (r.count i : K) else v) r.cur a ha f hf, hc a ha, hcu a ha f hf, centreOf_def, hsp]
      simp only [Bool.false_eq_true, if_false]
      by_cases hp : (num c.n r.curLab a : Int) > 0
      · rw [if_pos hp, show max 1 (num c.n r.curLab a) = num c.n r.curLab a by omega, div_eq_mul_one_div]
        push_cast
        rfl
      · rw [if_neg hp, tot_zero c _ _ _ _ (by omega), zero_mul]
    · rw [hn, hrow a ha, hz a ha, zero_add]
  · rw [hsp] at hn
    simp only [if_true] at hn ⊢
    refine ⟨⟨hl, hc, fun a ha f hf => ?_⟩, fun h => by cases h⟩
    simp only
    have h1 := sumRows c.nf c.k (fun i f => r.cur (i + f * c.k) * r.cur (i + f * c.k)) r.norms
    generalize forUp c.nf (fun f m => forUp c.k (fun i m => put m i (m i + r.cur (i + f * c.k) * r.cur (i + f * c.k))) m) r.norms = w1 at h1 ⊢
    have h2 := (forUp_put (fun i => i) (fun _ (v : K) => if c.sqrt v = 0 then 1 else 1 / c.sqrt v) w1 c.k (fun _ _ _ _ h => h)).1
    generalize forUp c.k (fun i m => put m i (if c.sqrt (m i) = 0 then 1 else 1 / c.sqrt (m i))) w1 = w2 at h2 ⊢
    rw [cols_put c.nf c.k (fun i (v : K) => v * w2 i) r.cur a ha f hf, h2 a ha, h1 a ha, hn, hz a ha, zero_add, hcu a ha f hf, centreOf_def, hsp, if_pos rfl]
    rw [Finset.sum_congr rfl fun f hf => by rw [hcu a ha f (Finset.mem_range.mp hf)]]

/-! ### One iteration -/

/-- The sum of the labels, which falls when a sample between two centres at the same distance moves. -/
def labSum (n : Nat) (lab : Nat → Nat) : Nat := ∑ i ∈ Finset.range n, lab i

theorem labSum_put (n : Nat) (lab : Nat → Nat) (i b : Nat) (hi : i < n) : labSum n (put lab i b) + lab i = labSum n lab + b := by
  unfold labSum
  rw [Finset.sum_eq_add_sum_sdiff_singleton_of_mem (Finset.mem_range.mpr hi), Finset.sum_eq_add_sum_sdiff_singleton_of_mem (Finset.mem_range.mpr hi) (fun i => lab i)]
  have hrest : ∑ x ∈ Finset.range n \ {i}, put lab i b x = ∑ x ∈ Finset.range n \ {i}, lab x :=
    Finset.sum_congr rfl fun x hx => put_ne _ _ (by simp at hx; exact hx.2)
  rw [hrest, put_same]
  omega

omit [LinearOrder K] [IsStrictOrderedRing K] in
theorem mqDist_eq (c : LCfg K) (cur norms : Nat → K) (i j : Nat) : mqDist c cur norms i j =
    if c.spherical then 1 - (if c.normalize then (∑ f ∈ Finset.range c.nf, sample c i f * cur (j + f * c.k)) * c.inv i else ∑ f ∈ Finset.range c.nf, sample c i f * cur (j + f * c.k))
    else far c cur i j - (∑ f ∈ Finset.range c.nf, sample c i f ^ 2) + (norms j - ∑ f ∈ Finset.range c.nf, cur (j + f * c.k) * cur (j + f * c.k)) := by
  unfold mqDist
  simp only [sumTo_eq, elem_sample, Nat.zero_add]
  cases hs : c.spherical
  · simp only [Bool.false_eq_true, if_false]
    rw [far_score, score]
    simp only [hs, Bool.false_eq_true, if_false]
    rw [Finset.sum_congr rfl fun f _ => mul_comm (sample c i f) _]
    ring
  · simp only [if_true]

/-- What the inverse norms must satisfy for spherical clustering: positive, or the sample is zero (safe_inv,
kmeans.hpp:46-48). -/
def InvOk (c : LCfg K) : Prop := c.spherical = true → c.normalize = true → ∀ i < c.n, 0 < c.inv i ∨ ∀ f < c.nf, sample c i f = 0

/-- With right norms the centre found is a nearest one. -/
theorem closest_far (c : LCfg K) (hk : 0 < c.k) (hv : InvOk c) (s : MSt K) (hn : c.spherical = false → MNorms c s) (i : Nat) (hi : i < c.n) :
    mqClosest c.k (mqDist c s.cur s.norms i) < c.k ∧ (∀ j < c.k, far c s.cur i (mqClosest c.k (mqDist c s.cur s.norms i)) ≤ far c s.cur i j) ∧
      (c.spherical = false → ∀ j < c.k, far c s.cur i j = far c s.cur i (mqClosest c.k (mqDist c s.cur s.norms i)) → mqClosest c.k (mqDist c s.cur s.norms i) ≤ j) := by
  obtain ⟨h1, h2, h3⟩ := closest_spec c.k hk (mqDist c s.cur s.norms i)
  generalize mqClosest c.k (mqDist c s.cur s.norms i) = b at h1 h2 h3 ⊢
  cases hsp : c.spherical
  · have hd : ∀ j < c.k, mqDist c s.cur s.norms i j = far c s.cur i j - (∑ f ∈ Finset.range c.nf, sample c i f ^ 2) := fun j hj => by
      rw [mqDist_eq, hsp, if_neg (by decide), hn hsp j hj, sub_self, add_zero]
    refine ⟨h1, fun j hj => ?_, fun _ j hj e => h3 j hj ?_⟩
    · have := h2 j hj
      rw [hd j hj, hd b h1] at this
      linarith
    · rw [hd j hj, hd b h1, e]
  · refine ⟨h1, fun j hj => ?_, fun h => by cases h⟩
    have := h2 j hj
    rw [mqDist_eq, mqDist_eq, hsp, if_pos rfl, if_pos rfl] at this
    unfold far
    rw [hsp, if_pos rfl, if_pos rfl]
    cases hnm : c.normalize
    · rw [hnm] at this
      simp only [Bool.false_eq_true, if_false] at this
      linarith
    · rw [hnm] at this
      simp only [if_true] at this
      rcases hv hsp hnm i hi with hp | hz
      · have h4 : (∑ f ∈ Finset.range c.nf, sample c i f * s.cur (j + f * c.k)) * c.inv i ≤ (∑ f ∈ Finset.range c.nf, sample c i f * s.cur (b + f * c.k)) * c.inv i := by linarith
        have := le_of_mul_le_mul_right h4 hp
        linarith
      · rw [Finset.sum_eq_zero fun f hf => by rw [hz f (Finset.mem_range.mp hf), zero_mul], Finset.sum_eq_zero fun f hf => by rw [hz f (Finset.mem_range.mp hf), zero_mul]]

/-- The order in which MacQueen's method goes down: the inertia, then the sum of the labels. -/
def Lower (c : LCfg K) (s' s : MSt K) : Prop :=
  inertia c s'.cur s'.curLab ≤ inertia c s.cur s.curLab ∧ (inertia c s'.cur s'.curLab < inertia c s.cur s.curLab ∨ labSum c.n s'.curLab < labSum c.n s.curLab)

/-- What one sample does. -/
structure Stepped (c : LCfg K) (i : Nat) (s s' : MSt K) : Prop where
  inv : MInv c s'
  prev : s'.prev = s.prev
  prevLab : s'.prevLab = s.prevLab
  step : s' = s ∧ s.curLab i = mqClosest c.k (mqDist c s.cur s.norms i) ∨
    Moved c i (mqClosest c.k (mqDist c s.cur s.norms i)) s s' ∧ s.curLab i ≠ mqClosest c.k (mqDist c s.cur s.norms i)

theorem sample_spec (c : LCfg K) (hk : 0 < c.k) (hr : RootOk c) (s : MSt K) (h : MInv c s) (i : Nat) (hi : i < c.n) : Stepped c i s (mqSample c true i s) := by
  unfold mqSample
  simp only [if_true]
  have hb := (closest_spec c.k hk (mqDist c s.cur s.norms i)).1
  by_cases hne : s.curLab i ≠ mqClosest c.k (mqDist c s.cur s.norms i)
  · rw [if_pos hne]
    have hm := move_spec c hr s h i _ hi hb hne
    exact ⟨hm.inv, hm.prev, hm.prevLab, Or.inr ⟨hm, hne⟩⟩
  · rw [if_neg hne]
    exact ⟨h, rfl, rfl, Or.inl ⟨rfl, not_not.mp hne⟩⟩

omit [IsStrictOrderedRing K] in
/-- Right norms stay right. -/
theorem stepped_norms (c : LCfg K) (hsp : c.spherical = false) {i : Nat} {s s' : MSt K} (h : Stepped c i s s') (hn : MNorms c s) : MNorms c s' := by
  rcases h.step with ⟨e, _⟩ | ⟨hm, _⟩
  · rw [e]; exact hn
  · intro j hj
    by_cases hab : j = s.curLab i ∨ j = mqClosest c.k (mqDist c s.cur s.norms i)
    · exact hm.norms hsp j hab
    · have ho := hm.other j hj (by tauto) (by tauto)
      rw [ho.1, hn j hj]
      exact Finset.sum_congr rfl fun f hf => by rw [ho.2 f (Finset.mem_range.mp hf)]

/-- A move lowers the inertia, or keeps it and lowers the label. -/
theorem stepped_lower (c : LCfg K) (hk : 0 < c.k) (hsp : c.spherical = false) {i : Nat} (hi : i < c.n) {s s' : MSt K} (hs : MInv c s) (h : Stepped c i s s') (hn : MNorms c s) :
    s' = s ∨ Lower c s' s := by
  rcases h.step with ⟨e, _⟩ | ⟨hm, hne⟩
  · exact Or.inl e
  · right
    have hv : InvOk c := fun h => by rw [hsp] at h; cases h
    obtain ⟨hb, hle, hfirst⟩ := closest_far c hk hv s (fun _ => hn) i hi
    generalize mqClosest c.k (mqDist c s.cur s.norms i) = b at hm hne hb hle hfirst
    have hfa := hle _ (hs.lab i hi)
    -- the new labels with the old centres
    have h1 : inertia c s.cur s'.curLab + far c s.cur i (s.curLab i) = inertia c s.cur s.curLab + far c s.cur i b := by
      rw [hm.lab]
      have hfar : ∀ j, far c s.cur i j = ∑ f ∈ Finset.range c.nf, (sample c i f - s.cur (j + f * c.k)) ^ 2 := fun j => by rw [far, hsp, if_neg (by decide)]
      unfold inertia
      rw [Finset.sum_eq_add_sum_sdiff_singleton_of_mem (Finset.mem_range.mpr hi), Finset.sum_eq_add_sum_sdiff_singleton_of_mem (Finset.mem_range.mpr hi) (fun i => ∑ f ∈ Finset.range c.nf, (sample c i f - s.cur (s.curLab i + f * c.k)) ^ 2)]
      have hrest : ∑ x ∈ Finset.range c.n \ {i}, ∑ f ∈ Finset.range c.nf, (sample c x f - s.cur (put s.curLab i b x + f * c.k)) ^ 2 =
          ∑ x ∈ Finset.range c.n \ {i}, ∑ f ∈ Finset.range c.nf, (sample c x f - s.cur (s.curLab x + f * c.k)) ^ 2 :=
        Finset.sum_congr rfl fun x hx => by rw [put_ne _ _ (by simp at hx; exact hx.2)]
      rw [hrest, put_same, hfar, hfar]
      ring
    have h2 := inertia_split c hsp s'.curLab h.inv.lab s.cur s'.cur h.inv.cur
    have h3 : 0 ≤ ∑ i ∈ Finset.range c.n, ∑ f ∈ Finset.range c.nf, (s'.cur (s'.curLab i + f * c.k) - s.cur (s'.curLab i + f * c.k)) ^ 2 :=
      Finset.sum_nonneg fun i _ => Finset.sum_nonneg fun f _ => sq_nonneg _
    refine ⟨by linarith, ?_⟩
    rcases lt_or_eq_of_le hfa with hlt | heq
    · left; linarith
    · right
      have := hfirst hsp _ (hs.lab i hi) heq.symm
      have hsum := labSum_put c.n s.curLab i b hi
      rw [hm.lab]
      omega

omit [IsStrictOrderedRing K] in
theorem lower_trans (c : LCfg K) {a b d : MSt K} (h1 : Lower c a b) (h2 : Lower c b d) : Lower c a d := by
  refine ⟨le_trans h1.1 h2.1, ?_⟩
  rcases h1.2 with h | h
  · exact Or.inl (lt_of_lt_of_le h h2.1)
  · rcases h2.2 with h' | h'
    · exact Or.inl (lt_of_le_of_lt h1.1 h')
    · exact Or.inr (by omega)

omit [Field K] [LinearOrder K] [IsStrictOrderedRing K] in
theorem copy_spec {R : Type} (m : Nat) (g : Nat → R) (s : Nat → R) : ∀ i < m, forUp m (fun i s => put s i (g i)) s i = g i :=
  (forUp_put (fun i => i) (fun i _ => g i) s m (fun _ _ _ _ h => h)).1

theorem pos_lt {k nf a f : Nat} (ha : a < k) (hf : f < nf) : a + f * k < k * nf := by
  have : (f + 1) * k ≤ nf * k := Nat.mul_le_mul_right k hf
  rw [Nat.succ_mul] at this
  rw [Nat.mul_comm k nf]
  omega

/-- The state before the first sample. -/
structure Copied (c : LCfg K) (s r : MSt K) : Prop where
  lab : ∀ i < c.n, r.curLab i = s.curLab i
  cur : SameC c r.cur s.cur
  count : r.count = s.count
  norms : r.norms = s.norms
  prev : r.prev = s.cur
  prevLab : r.prevLab = s.curLab

omit [Field K] [LinearOrder K] [IsStrictOrderedRing K] in
theorem copied (c : LCfg K) (s : MSt K) : Copied c s (mqCopy c (swapM s)) :=
  ⟨copy_spec c.n _ _, fun _ ha _ hf => copy_spec (c.k * c.nf) _ _ _ (pos_lt ha hf), rfl, rfl, rfl, rfl⟩

omit [IsStrictOrderedRing K] in
theorem copied_inv (c : LCfg K) {s r : MSt K} (h : Copied c s r) (hs : MInv c s) : MInv c r :=
  ⟨fun i hi => by rw [h.lab i hi]; exact hs.lab i hi, fun a ha => by rw [h.count, hs.count a ha, num_congr c.n h.lab],
    fun a ha f hf => by rw [h.cur a ha f hf, hs.cur a ha f hf, centreOf_congr c h.lab]⟩

omit [LinearOrder K] [IsStrictOrderedRing K] in
theorem copied_norms (c : LCfg K) {s r : MSt K} (h : Copied c s r) (hs : MNorms c s) : MNorms c r := fun a ha => by
  rw [h.norms, hs a ha]
  exact Finset.sum_congr rfl fun f hf => by rw [h.cur a ha f (Finset.mem_range.mp hf)]

/-- What one iteration does. -/
structure MIter (c : LCfg K) (s s' : MSt K) : Prop where
  inv : MInv c s'
  prevLab : s'.prevLab = s.curLab
  shift : ∀ a < c.k, ∀ f < c.nf, s'.prev (a + f * c.k) = s.cur (a + f * c.k) - s'.cur (a + f * c.k)

/-- A property of the states between samples carries over. -/
theorem iteration_mq (c : LCfg K) (hk : 0 < c.k) (hr : RootOk c) (s : MSt K) (hs : MInv c s) (P : Nat → MSt K → Prop)
    (h0 : P 0 (mqCopy c (swapM s))) (hP : ∀ i < c.n, ∀ r r' : MSt K, P i r → MInv c r → Stepped c i r r' → P (i + 1) r') :
    MIter c s (mqIteration c true (swapM s)) ∧ ∃ r, P c.n r ∧ MInv c r ∧ (mqIteration c true (swapM s)).cur = r.cur ∧ (mqIteration c true (swapM s)).curLab = r.curLab ∧
      (mqIteration c true (swapM s)).norms = r.norms ∧ (mqIteration c true (swapM s)).count = r.count := by
  unfold mqIteration
  simp only [if_true]
  have hc := copied c s
  generalize mqCopy c (swapM s) = r0 at hc h0 ⊢
  have := forUp_inv (body := fun i s => mqSample c true i s) (s := r0) (fun i r => P i r ∧ MInv c r ∧ r.prev = s.cur ∧ r.prevLab = s.curLab) c.n
    ⟨h0, copied_inv c hc hs, hc.prev, hc.prevLab⟩ ?_
  · generalize forUp c.n (fun i s => mqSample c true i s) r0 = r at this ⊢
    obtain ⟨p1, p2, p3, p4⟩ := this
    refine ⟨⟨⟨p2.lab, p2.count, p2.cur⟩, p4, fun a ha f hf => ?_⟩, r, p1, p2, rfl, rfl, rfl, rfl⟩
    simp only
    rw [(forUp_put (fun i => i) (fun i v => v - r.cur i) r.prev (c.k * c.nf) (fun _ _ _ _ h => h)).1 _ (pos_lt ha hf), p3]
  · rintro i r hi ⟨p1, p2, p3, p4⟩
    have hst := sample_spec c hk hr r p2 i hi
    exact ⟨hP i hi r _ p1 p2 hst, hst.inv, hst.prev.trans p3, hst.prevLab.trans p4⟩

/-! ### Iterations without a move -/

omit [LinearOrder K] [IsStrictOrderedRing K] in
theorem mqDist_congr (c : LCfg K) {C D : Nat → K} (h : SameC c C D) (norms : Nat → K) (i j : Nat) (hj : j < c.k) : mqDist c C norms i j = mqDist c D norms i j := by
  unfold mqDist
  simp only [sumTo_eq]
  rw [Finset.sum_congr rfl fun f hf => by rw [h j hj f (Finset.mem_range.mp hf)]]

omit [Field K] [IsStrictOrderedRing K] in
theorem closest_congr (k : Nat) (hk : 0 < k) {d d' : Nat → K} (h : ∀ j < k, d j = d' j) : mqClosest k d = mqClosest k d' := by
  obtain ⟨h1, h2, h3⟩ := closest_spec k hk d
  obtain ⟨g1, g2, g3⟩ := closest_spec k hk d'
  refine le_antisymm (h3 _ g1 ?_) (g3 _ h1 ?_)
  · refine le_antisymm ?_ (h2 _ g1)
    rw [h _ g1, h _ h1]
    exact g2 _ h1
  · refine le_antisymm ?_ (g2 _ h1)
    rw [← h _ g1, ← h _ h1]
    exact h2 _ g1

/-- Every sample has the label of the centre it would get. -/
def Settled (c : LCfg K) (s : MSt K) : Prop := ∀ i < c.n, s.curLab i = mqClosest c.k (mqDist c s.cur s.norms i)

omit [IsStrictOrderedRing K] in
theorem copied_settled (c : LCfg K) (hk : 0 < c.k) {s r : MSt K} (h : Copied c s r) : Settled c s ↔ Settled c r := by
  have : ∀ i, mqClosest c.k (mqDist c s.cur s.norms i) = mqClosest c.k (mqDist c r.cur r.norms i) := fun i => by
    rw [h.norms]
    exact closest_congr c.k hk fun j hj => (mqDist_congr c h.cur _ i j hj).symm
  unfold Settled
  constructor
  · intro hs i hi
    rw [h.lab i hi, hs i hi, this]
  · intro hs i hi
    rw [← h.lab i hi, hs i hi, this]

/-- After the samples before `i`: nothing has moved, or one of them has. -/
def Quiet (c : LCfg K) (s r0 : MSt K) (i : Nat) (r : MSt K) : Prop :=
  (∀ x < c.n, i ≤ x → r.curLab x = s.curLab x) ∧
  ((r = r0 ∧ ∀ x < i, r0.curLab x = mqClosest c.k (mqDist c r0.cur r0.norms x)) ∨ ∃ x < i, x < c.n ∧ r.curLab x ≠ s.curLab x)

omit [IsStrictOrderedRing K] in
theorem quiet_step (c : LCfg K) (s r0 : MSt K) (i : Nat) (hi : i < c.n) (r r' : MSt K) (h : Quiet c s r0 i r) (hst : Stepped c i r r') : Quiet c s r0 (i + 1) r' := by
  obtain ⟨h1, h2⟩ := h
  rcases hst.step with ⟨e, hlab⟩ | ⟨hm, hne⟩
  · subst e
    refine ⟨fun x hx h => h1 x hx (by omega), ?_⟩
    rcases h2 with ⟨e, h3⟩ | ⟨x, hx, hx2, hx3⟩
    · subst e
      refine Or.inl ⟨rfl, fun x hx => ?_⟩
      rcases Nat.lt_or_ge x i with h | h
      · exact h3 x h
      · rw [show x = i by omega]; exact hlab
    · exact Or.inr ⟨x, by omega, hx2, hx3⟩
  · refine ⟨fun x hx h => ?_, Or.inr ?_⟩
    · rw [hm.lab, put_ne _ _ (by omega)]
      exact h1 x hx (by omega)
    · refine ⟨i, by omega, hi, ?_⟩
      rw [hm.lab, put_same, ← h1 i hi (le_refl _)]
      exact Ne.symm hne

/-- An iteration that changes no label changes nothing, and every sample has the label it would get. -/
theorem unchanged_settled (c : LCfg K) (hk : 0 < c.k) (hr : RootOk c) (s : MSt K) (hs : MInv c s)
    (h : ∀ i < c.n, (mqIteration c true (swapM s)).curLab i = s.curLab i) :
    Settled c s ∧ Settled c (mqIteration c true (swapM s)) := by
  have hc := copied c s
  obtain ⟨_, r, ⟨_, hq⟩, _, e1, e2, e3, _⟩ := iteration_mq c hk hr s hs (Quiet c s (mqCopy c (swapM s)))
    ⟨fun x hx _ => hc.lab x hx, Or.inl ⟨rfl, fun x hx => by omega⟩⟩ fun i hi r r' h1 _ h3 => quiet_step c s _ i hi r r' h1 h3
  rw [e2] at h
  rcases hq with ⟨e, h3⟩ | ⟨x, _, hx2, hx3⟩
  · have h4 : Settled c (mqCopy c (swapM s)) := h3
    refine ⟨(copied_settled c hk hc).mpr h4, ?_⟩
    intro i hi
    rw [e1, e2, e3, e]
    exact h4 i hi
  · exact absurd (h x hx2) hx3

/-- When every sample has the label it would get, an iteration changes no label. -/
theorem settled_unchanged (c : LCfg K) (hk : 0 < c.k) (hr : RootOk c) (s : MSt K) (hs : MInv c s) (h : Settled c s) :
    ∀ i < c.n, (mqIteration c true (swapM s)).curLab i = s.curLab i := by
  have hc := copied c s
  have h0 := (copied_settled c hk hc).mp h
  obtain ⟨_, r, e, _, _, e2, _⟩ := iteration_mq c hk hr s hs (fun _ r => r = mqCopy c (swapM s)) rfl fun i hi r r' h1 _ h3 => by
    rcases h3.step with ⟨e, _⟩ | ⟨_, hne⟩
    · rw [e, h1]
    · subst h1
      exact absurd (h0 i hi) hne
  intro i hi
  rw [e2, e]
  exact hc.lab i hi

/-! ### The last labelling -/

omit [IsStrictOrderedRing K] in
theorem final_spec (c : LCfg K) (hk : 0 < c.k) (s : MSt K) : (mqFinal c s).cur = s.cur ∧ (mqFinal c s).norms = s.norms ∧ (mqFinal c s).count = s.count ∧
    ∀ i < c.n, (mqFinal c s).curLab i = mqClosest c.k (mqDist c s.cur s.norms i) := by
  unfold mqFinal mqIteration
  simp only [Bool.false_eq_true, if_false]
  have hc := copied c s
  generalize mqCopy c (swapM s) = r0 at hc ⊢
  have := forUp_inv (body := fun i s => mqSample c false i s) (s := r0)
    (fun i r => r.cur = r0.cur ∧ r.norms = r0.norms ∧ r.count = r0.count ∧ r.prev = r0.prev ∧ ∀ x < i, r.curLab x = mqClosest c.k (mqDist c r0.cur r0.norms x)) c.n
    ⟨rfl, rfl, rfl, rfl, fun x hx => by omega⟩ ?_
  · generalize forUp c.n (fun i s => mqSample c false i s) r0 = r at this ⊢
    obtain ⟨_, p2, p3, p4, p5⟩ := this
    refine ⟨p4.trans hc.prev, p2.trans hc.norms, p3.trans hc.count, fun i hi => ?_⟩
    refine (p5 i hi).trans ?_
    rw [hc.norms]
    exact closest_congr c.k hk fun j hj => mqDist_congr c hc.cur _ i j hj
  · rintro i r hi ⟨p1, p2, p3, p4, p5⟩
    unfold mqSample
    simp only [Bool.false_eq_true, if_false]
    rw [show mqDist c r.cur r.norms i = mqDist c r0.cur r0.norms i by rw [p1, p2]]
    by_cases hne : r.curLab i ≠ mqClosest c.k (mqDist c r0.cur r0.norms i)
    · rw [if_pos hne]
      refine ⟨p1, p2, p3, p4, fun x hx => ?_⟩
      simp only
      by_cases hx2 : x = i
      · rw [hx2, put_same]
      · rw [put_ne _ _ hx2]; exact p5 x (by omega)
    · rw [if_neg hne]
      refine ⟨p1, p2, p3, p4, fun x hx => ?_⟩
      rcases Nat.lt_or_ge x i with h | h
      · exact p5 x h
      · rw [show x = i by omega]; exact not_not.mp hne

/-! ### The sequence of states -/

/-- The state after `t` iterations. -/
def mqStates (c : LCfg K) (s : MSt K) : Nat → MSt K
  | 0 => mqInit c s
  | t + 1 => mqIteration c true (swapM (mqStates c s t))

theorem states_inv (c : LCfg K) (hk : 0 < c.k) (hbs : 0 < c.bs) (hr : RootOk c) (s : MSt K) (t : Nat) : MInv c (mqStates c s t) := by
  induction t with
  | zero => exact (init_spec c hk hbs s).1
  | succ t ih => exact (iteration_mq c hk hr _ ih (fun _ _ => True) trivial fun _ _ _ _ _ _ _ => trivial).1.inv

theorem states_prevLab (c : LCfg K) (hk : 0 < c.k) (hbs : 0 < c.bs) (hr : RootOk c) (s : MSt K) (t : Nat) : (mqStates c s (t + 1)).prevLab = (mqStates c s t).curLab :=
  (iteration_mq c hk hr _ (states_inv c hk hbs hr s t) (fun _ _ => True) trivial fun _ _ _ _ _ _ _ => trivial).1.prevLab

/-- `workc1[j]` is right, or it still holds the norm of the initial centre and the centre is the first mean. -/
def NormInv (c : LCfg K) (C0 M0 : Nat → K) (s : MSt K) : Prop := ∀ j < c.k,
  s.norms j = (∑ f ∈ Finset.range c.nf, s.cur (j + f * c.k) * s.cur (j + f * c.k)) ∨
  (s.norms j = (∑ f ∈ Finset.range c.nf, C0 (j + f * c.k) * C0 (j + f * c.k)) ∧ ∀ f < c.nf, s.cur (j + f * c.k) = M0 (j + f * c.k))

theorem states_norms (c : LCfg K) (hk : 0 < c.k) (hbs : 0 < c.bs) (hr : RootOk c) (hsp : c.spherical = false) (s : MSt K) (t : Nat) : NormInv c s.cur (mqInit c s).cur (mqStates c s t) := by
  induction t with
  | zero => exact fun j hj => Or.inr ⟨(init_spec c hk hbs s).2 hsp j hj, fun _ _ => rfl⟩
  | succ t ih =>
    have hi := states_inv c hk hbs hr s t
    generalize hq : mqStates c s t = q at ih hi
    have hc := copied c q
    obtain ⟨_, r, hr', _, e1, _, e3, _⟩ := iteration_mq c hk hr q hi (fun _ r => NormInv c s.cur (mqInit c s).cur r) (fun j hj => by
        rw [hc.norms, Finset.sum_congr rfl fun f hf => by rw [hc.cur j hj f (Finset.mem_range.mp hf)]]
        rcases ih j hj with h | ⟨h1, h2⟩
        · exact Or.inl h
        · exact Or.inr ⟨h1, fun f hf => by rw [hc.cur j hj f hf]; exact h2 f hf⟩) fun i _ r r' h1 _ h3 => by
      rcases h3.step with ⟨e, _⟩ | ⟨hm, _⟩
      · rw [e]; exact h1
      · intro j hj
        by_cases hab : j = r.curLab i ∨ j = mqClosest c.k (mqDist c r.cur r.norms i)
        · exact Or.inl (hm.norms hsp j hab)
        · have ho := hm.other j hj (by tauto) (by tauto)
          rw [ho.1, Finset.sum_congr rfl fun f hf => by rw [ho.2 f (Finset.mem_range.mp hf)]]
          rcases h1 j hj with h | ⟨h1, h2⟩
          · exact Or.inl h
          · exact Or.inr ⟨h1, fun f hf => by rw [ho.2 f hf]; exact h2 f hf⟩
    intro j hj
    have := hr' j hj
    change (mqIteration c true (swapM (mqStates c s t))).norms j = _ ∨ _
    rw [show mqStates c s (t + 1) = mqIteration c true (swapM q) by rw [← hq]; rfl, hq, e1, e3]
    exact this

/-- An iteration with right norms changes no label or goes down. -/
theorem iteration_lower (c : LCfg K) (hk : 0 < c.k) (hr : RootOk c) (hsp : c.spherical = false) (s : MSt K) (hs : MInv c s) (hn : MNorms c s) :
    MNorms c (mqIteration c true (swapM s)) ∧
    ((∀ i < c.n, (mqIteration c true (swapM s)).curLab i = s.curLab i) ∧ SameC c (mqIteration c true (swapM s)).cur s.cur ∨ Lower c (mqIteration c true (swapM s)) s) := by
  have hc := copied c s
  obtain ⟨_, r, ⟨h1, h2⟩, _, e1, e2, e3, _⟩ := iteration_mq c hk hr s hs (fun _ r => MNorms c r ∧ (r = mqCopy c (swapM s) ∨ Lower c r (mqCopy c (swapM s))))
    ⟨copied_norms c hc hn, Or.inl rfl⟩ fun i hi r r' h1 h2 h3 => by
      refine ⟨stepped_norms c hsp h3 h1.1, ?_⟩
      rcases stepped_lower c hk hsp hi h2 h3 h1.1 with e | hl
      · rw [e]; exact h1.2
      · rcases h1.2 with e | hl'
        · rw [e] at hl; exact Or.inr hl
        · exact Or.inr (lower_trans c hl hl')
  refine ⟨fun a ha => by rw [e1, e3]; exact h1 a ha, ?_⟩
  rw [e1, e2]
  have hlt : ∀ i < c.n, (mqCopy c (swapM s)).curLab i < c.k := fun i hi => by rw [hc.lab i hi]; exact hs.lab i hi
  rcases h2 with e | hl
  · rw [e]
    exact Or.inl ⟨hc.lab, hc.cur⟩
  · right
    unfold Lower at hl ⊢
    rw [e1, e2, ← inertia_congr c hc.cur hc.lab hlt, show labSum c.n s.curLab = labSum c.n (mqCopy c (swapM s)).curLab from
      Finset.sum_congr rfl fun i hi => (hc.lab i (Finset.mem_range.mp hi)).symm]
    exact hl

end Verif.Kmeans
