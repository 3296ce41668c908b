import Verif.Kmeans.EmptyProof
import Verif.Kmeans.PropsLloyd
import Mathlib.Data.Rat.Sqrt

/-
Property C91: what k-means does with clusters that have lost all their samples.
-/
namespace Verif.Kmeans

open Verif.HalfBlas (put forUp)

variable {K : Type} [Field K] [LinearOrder K] [IsStrictOrderedRing K]

/-- `C` is the mean of the samples with label `a`; for spherical clustering the sum of their unit vectors scaled to length
one. -/
def IsCentre (c : LCfg K) (lab : Nat → Nat) (a : Nat) (C : Nat → K) : Prop :=
  if c.spherical then ∃ q : K,
    ((c.sqrt (∑ f ∈ Finset.range c.nf, (∑ i ∈ lmembers c lab a, sample c i f * (if c.normalize then c.inv i else 1)) ^ 2) = 0 ∧ q = 1) ∨
      q * c.sqrt (∑ f ∈ Finset.range c.nf, (∑ i ∈ lmembers c lab a, sample c i f * (if c.normalize then c.inv i else 1)) ^ 2) = 1) ∧
    ∀ f < c.nf, C f = (∑ i ∈ lmembers c lab a, sample c i f * (if c.normalize then c.inv i else 1)) * q
  else ∀ f < c.nf, C f * ((lmembers c lab a).card : K) = ∑ i ∈ lmembers c lab a, sample c i f

/-- What the iteration before leaves: labels in range, and the centres of the clusters that have samples. -/
def EntryOk (c : LCfg K) (byRows : Bool) (s : ESt K) : Prop :=
  (∀ i < c.n, s.lab i < c.k) ∧ ∀ a < c.k, (lmembers c s.lab a).Nonempty → IsCentre c s.lab a fun f => s.cur (ecPos c byRows a f)

/-- **C91**: with at least as many samples as clusters, splitting leaves no empty cluster, right counts and right
centres. -/
def C91_statement : Prop := ∀ (K : Type) [Field K] [LinearOrder K] [IsStrictOrderedRing K] (c : LCfg K) (byRows : Bool) (s : ESt K), c.k ≤ c.n → EntryOk c byRows s →
  ∀ r split, handleEmpty c byRows false s = .ok r split → (∀ i < c.n, r.lab i < c.k) ∧
    ∀ a < c.k, (lmembers c r.lab a).Nonempty ∧ r.wi a = ((lmembers c r.lab a).card : Int) ∧ (split = true → r.count a = ((lmembers c r.lab a).card : Int)) ∧
      IsCentre c r.lab a fun f => r.cur (ecPos c byRows a f)

omit [Field K] [LinearOrder K] [IsStrictOrderedRing K] in
theorem num_card (c : LCfg K) (lab : Nat → Nat) (a : Nat) : num c.n lab a = (lmembers c lab a).card := by
  rw [lmembers, Finset.card_filter]; rfl

omit [Field K] [LinearOrder K] [IsStrictOrderedRing K] in
theorem num_ne (c : LCfg K) (lab : Nat → Nat) (a : Nat) : num c.n lab a ≠ 0 ↔ (lmembers c lab a).Nonempty := by
  rw [num_card, Finset.card_ne_zero]

omit [LinearOrder K] [IsStrictOrderedRing K] in
theorem tot_members (c : LCfg K) (lab : Nat → Nat) (a f : Nat) : tot c c.n lab a f = ∑ i ∈ lmembers c lab a, sample c i f * (if c.spherical && c.normalize then c.inv i else 1) :=
  centreOf_members c lab a f

omit [LinearOrder K] [IsStrictOrderedRing K] in
theorem isCentre_euclid (c : LCfg K) (hsp : c.spherical = false) (lab : Nat → Nat) (a : Nat) (C : Nat → K) :
    IsCentre c lab a C ↔ ∀ f < c.nf, C f * (num c.n lab a : K) = tot c c.n lab a f := by
  unfold IsCentre
  rw [if_neg (by rw [hsp]; decide)]
  refine forall₂_congr fun f _ => ?_
  rw [tot_members, num_card, hsp]
  simp

/-! ### No empty cluster, and the error -/

omit [IsStrictOrderedRing K] in
/-- **C91**, errors: with error handling the call fails exactly when some cluster has no sample; with splitting it never
fails.  Without an empty cluster nothing but `work_int1` changes, and no split is reported. -/
theorem C91_error (c : LCfg K) (byRows err : Bool) (s : ESt K) :
    (handleEmpty c byRows err s = .emptyClusters ↔ err = true ∧ ∃ a < c.k, lmembers c s.lab a = ∅) ∧
    ((∀ a < c.k, (lmembers c s.lab a).Nonempty) → ∃ wi, (∀ a < c.k, wi a = ((lmembers c s.lab a).card : Int)) ∧ handleEmpty c byRows err s = .ok { s with wi := wi } false) ∧
    ∀ r split, handleEmpty c byRows err s = .ok r split → (split = true ↔ ∃ a < c.k, lmembers c s.lab a = ∅) := by
  have hz := empty_exists c s.lab
  have hiff : (¬ ∀ a < c.k, num c.n s.lab a ≠ 0) ↔ ∃ a < c.k, lmembers c s.lab a = ∅ := by
    push Not
    refine exists_congr fun a => and_congr_right fun _ => ?_
    rw [num_card, Finset.card_eq_zero]
  by_cases h : ∀ a < c.k, num c.n s.lab a ≠ 0
  · have hres : handleEmpty c byRows err s = .ok { s with wi := ecCount c.n s.lab } false := by
      unfold handleEmpty
      simp only [hz.mpr h, if_true]
    have hno : ¬ ∃ a < c.k, lmembers c s.lab a = ∅ := fun he => hiff.mpr he h
    rw [hres]
    refine ⟨⟨(fun h' => by cases h'), fun h' => absurd h'.2 hno⟩, fun _ => ⟨ecCount c.n s.lab, fun a _ => by rw [ecCount_spec, num_card], rfl⟩, fun r split hr => ?_⟩
    cases hr
    exact ⟨(fun h' => by cases h'), fun h' => absurd h' hno⟩
  · have hex := hiff.mp h
    have hne : ¬ ecEmpty c.k (ecCount c.n s.lab) = 0 := fun h' => h (hz.mp h')
    cases err with
    | true =>
      have hres : handleEmpty c byRows true s = .emptyClusters := by
        unfold handleEmpty
        simp only [hne, if_true, if_false]
      rw [hres]
      refine ⟨⟨fun _ => ⟨rfl, hex⟩, fun _ => rfl⟩, fun h' => absurd (fun a ha => (num_ne c s.lab a).mpr (h' a ha)) h, (fun r split hr => by cases hr)⟩
    | false =>
      rw [handle_split c byRows s h]
      refine ⟨⟨(fun h' => by cases h'), (fun h' => by cases h'.1)⟩, fun h' => absurd (fun a ha => (num_ne c s.lab a).mpr (h' a ha)) h, fun r split hr => ?_⟩
      cases hr
      exact ⟨fun _ => hex, fun _ => rfl⟩

/-! ### Splitting -/

/-- One move of the splitting: sample `p` becomes the only sample of `a`, the lowest cluster without samples; `p` comes
from a cluster of at least two, and no sample of such a cluster is farther from the mean of its cluster. -/
def FarthestMove (c : LCfg K) (lab : Nat → Nat) (a p : Nat) (lab' : Nat → Nat) : Prop :=
  a < c.k ∧ lmembers c lab a = ∅ ∧ (∀ b < a, (lmembers c lab b).Nonempty) ∧ p < c.n ∧ 2 ≤ (lmembers c lab (lab p)).card ∧
  (∀ i < c.n, 2 ≤ (lmembers c lab (lab i)).card → ∀ m : Nat → Nat → K, (∀ b < c.k, (lmembers c lab b).Nonempty → IsCentre c lab b (m b)) →
    ∑ f ∈ Finset.range c.nf, (sample c i f - m (lab i) f) ^ 2 ≤ ∑ f ∈ Finset.range c.nf, (sample c p f - m (lab p) f) ^ 2) ∧
  lab' p = a ∧ ∀ i, i ≠ p → lab' i = lab i

theorem relocated_moves (c : LCfg K) (hsp : c.spherical = false) (lab : Nat → Nat) (hl : ∀ i < c.n, lab i < c.k) {lab' : Nat → Nat} (h : Relocated c lab lab') :
    Relation.ReflTransGen (fun l l' => ∃ a p, FarthestMove c l a p l') lab lab' := by
  induction h with
  | refl => exact Relation.ReflTransGen.refl
  | step l a p hr ha hz hlow hp hw hfar ih =>
    have hlt := (relocated_within c hsp lab hl hr).1
    refine Relation.ReflTransGen.tail ih ⟨a, p, ha, ?_, fun b hb => (num_ne c l b).mp (hlow b hb), hp, by rw [← num_card]; omega, fun i hi hw' m hm => ?_, put_same .., fun i hi => put_ne _ _ hi⟩
    · rw [← Finset.card_eq_zero, ← num_card]; exact hz
    · have hcen : ∀ i < c.n, ∀ f < c.nf, m (l i) f = centreOf c l (l i) f := fun i hi f hf => by
        have hpos := num_pos c.n l i hi
        have hm' := (isCentre_euclid c hsp l (l i) (m (l i))).mp (hm _ (hlt i hi) ((num_ne c l _).mp (by omega))) f hf
        have hnz : (num c.n l (l i) : K) ≠ 0 := Nat.cast_ne_zero.mpr (by omega)
        rw [centreOf_def, hsp, ← hm']
        simp only [Bool.false_eq_true, if_false]
        rw [show max 1 (num c.n l (l i)) = num c.n l (l i) by omega, mul_assoc, mul_one_div_cancel hnz, mul_one]
      have e : ∀ i < c.n, ∑ f ∈ Finset.range c.nf, (sample c i f - m (l i) f) ^ 2 = ∑ f ∈ Finset.range c.nf, (sample c i f - centreOf c l (l i) f) ^ 2 := fun i hi =>
        Finset.sum_congr rfl fun f hf => by rw [hcen i hi f (Finset.mem_range.mp hf)]
      rw [e i hi, e p hp]
      exact hfar i hi (by rw [num_card]; omega)

/-- **C91**, splitting for Euclidean distances, with any number of samples: labels in range, counts right, the centre of
every cluster that has samples is their mean; the labels come from moving farthest samples one after the other, and the
inertia has not grown.  No cluster is empty, unless no cluster has more than one sample; with at least as many samples as
clusters none is empty.  Missing from `C91_statement`: spherical clustering. -/
theorem C91_split_partial (c : LCfg K) (hsp : c.spherical = false) (byRows : Bool) (s : ESt K) (hs : EntryOk c byRows s) (r : ESt K) (split : Bool)
    (hr : handleEmpty c byRows false s = .ok r split) :
    (∀ i < c.n, r.lab i < c.k) ∧
    (∀ a < c.k, r.wi a = ((lmembers c r.lab a).card : Int) ∧ (split = true → r.count a = ((lmembers c r.lab a).card : Int)) ∧
      ((lmembers c r.lab a).Nonempty → IsCentre c r.lab a fun f => r.cur (ecPos c byRows a f))) ∧
    ((∀ a < c.k, (lmembers c r.lab a).Nonempty) ∨ ∀ a < c.k, (lmembers c r.lab a).card ≤ 1) ∧
    (c.k ≤ c.n → ∀ a < c.k, (lmembers c r.lab a).Nonempty) ∧
    Relation.ReflTransGen (fun l l' => ∃ a p, FarthestMove c l a p l') s.lab r.lab ∧
    ∑ i ∈ Finset.range c.n, ∑ f ∈ Finset.range c.nf, (sample c i f - r.cur (ecPos c byRows (r.lab i) f)) ^ 2 ≤
      ∑ i ∈ Finset.range c.n, ∑ f ∈ Finset.range c.nf, (sample c i f - s.cur (ecPos c byRows (s.lab i) f)) ^ 2 := by
  obtain ⟨hl, hm⟩ := hs
  by_cases h : ∀ a < c.k, num c.n s.lab a ≠ 0
  · obtain ⟨wi, hwi, hres⟩ := (C91_error c byRows false s).2.1 fun a ha => (num_ne c s.lab a).mp (h a ha)
    rw [hres] at hr
    cases hr
    have hall : ∀ a < c.k, (lmembers c s.lab a).Nonempty := fun a ha => (num_ne c s.lab a).mp (h a ha)
    exact ⟨hl, fun a ha => ⟨hwi a ha, (fun h' => by cases h'), hm a ha⟩, Or.inl hall, fun _ => hall, Relation.ReflTransGen.refl, le_refl _⟩
  · rw [handle_split c byRows s h] at hr
    have hcen : ∀ a < c.k, num c.n s.lab a ≠ 0 → ∀ f < c.nf, s.cur (ecPos c byRows a f) = centreOf c s.lab a f := fun a ha hn f hf => by
      have hm' := (isCentre_euclid c hsp s.lab a _).mp (hm a ha ((num_ne c s.lab a).mp hn)) f hf
      have hnz : (num c.n s.lab a : K) ≠ 0 := Nat.cast_ne_zero.mpr hn
      rw [centreOf_def, hsp, ← hm']
      simp only [Bool.false_eq_true, if_false]
      rw [show max 1 (num c.n s.lab a) = num c.n s.lab a by omega, mul_assoc, mul_one_div_cancel hnz, mul_one]
    have hinv := end_inv c hsp byRows s hl hcen
    have hfill := all_filled c byRows s.lab _ _ hinv
    cases hr
    have hcount : ∀ a < c.k, forUp c.k (fun a m => put m a ((ecEnd c byRows s).wi a)) (ecEnd c byRows s).count a = (ecEnd c byRows s).wi a := fun a ha =>
      (forUp_put (fun a => a) (fun a _ => (ecEnd c byRows s).wi a) (ecEnd c byRows s).count c.k (fun _ _ _ _ h => h)).1 a ha
    simp only
    generalize ecEnd c byRows s = t at hinv hfill hcount ⊢
    have hwn := relocated_within c hsp s.lab hl hinv.reloc
    refine ⟨hinv.inv.lab, fun a ha => ⟨?_, fun _ => ?_, fun hne => ?_⟩, ?_, fun hk a ha => (num_ne c t.lab a).mp (hfill hk a ha), relocated_moves c hsp s.lab hl hinv.reloc, ?_⟩
    · rw [hinv.inv.wi a ha, num_card]
    · rw [hcount a ha, hinv.inv.wi a ha, num_card]
    · exact (isCentre_euclid c hsp t.lab a _).mpr (hinv.inv.mean a ha ((num_ne c t.lab a).mpr hne))
    · cases hst : t.stop with
      | false => exact Or.inl fun a ha => (num_ne c t.lab a).mp (hinv.go hst a ha)
      | true => exact Or.inr fun a ha => by rw [← num_card]; exact hinv.stopped hst a ha
    · have e1 : ∑ i ∈ Finset.range c.n, ∑ f ∈ Finset.range c.nf, (sample c i f - t.cur (ecPos c byRows (t.lab i) f)) ^ 2 = within c t.lab :=
        Finset.sum_congr rfl fun i hi => Finset.sum_congr rfl fun f hf => by
          have hpos := num_pos c.n t.lab i (Finset.mem_range.mp hi)
          rw [mean_centre c hsp byRows t hinv.inv _ (hinv.inv.lab i (Finset.mem_range.mp hi)) (by omega) f (Finset.mem_range.mp hf)]
      have e2 : ∑ i ∈ Finset.range c.n, ∑ f ∈ Finset.range c.nf, (sample c i f - s.cur (ecPos c byRows (s.lab i) f)) ^ 2 = within c s.lab :=
        Finset.sum_congr rfl fun i hi => Finset.sum_congr rfl fun f hf => by
          have hpos := num_pos c.n s.lab i (Finset.mem_range.mp hi)
          rw [hcen _ (hl i (Finset.mem_range.mp hi)) (by omega) f (Finset.mem_range.mp hf)]
      rw [e1, e2]
      exact hwn.2

/-! ### Spherical clustering -/

omit [IsStrictOrderedRing K] in
/-- The scaled vector of its only sample is the centre of a cluster. -/
theorem isCentre_single (c : LCfg K) (hsp : c.spherical = true) (h0 : c.sqrt 0 = 0) (hpos : ∀ v, 0 < v → c.sqrt v ≠ 0) (hsq : ∀ v : K, 0 ≤ v * v) [AddLeftMono K] (lab : Nat → Nat) (a p : Nat) (C : Nat → K)
    (hm : lmembers c lab a = {p}) (hC : ∀ f < c.nf, C f = term c p f * unitBy c (term c p)) : IsCentre c lab a C := by
  unfold IsCentre
  rw [if_pos hsp]
  have ht : ∀ f, (∑ i ∈ lmembers c lab a, sample c i f * (if c.normalize then c.inv i else 1)) = term c p f := fun f => by
    rw [hm, Finset.sum_singleton]
    unfold term
    rw [hsp]
    cases c.normalize <;> simp
  simp only [ht]
  have hs : ∑ f ∈ Finset.range c.nf, term c p f ^ 2 = ∑ f ∈ Finset.range c.nf, term c p f * term c p f := Finset.sum_congr rfl fun f _ => sq _
  rw [hs]
  refine ⟨unitBy c (term c p), ?_, hC⟩
  unfold unitBy
  have hnn : 0 ≤ ∑ f ∈ Finset.range c.nf, term c p f * term c p f := Finset.sum_nonneg fun f _ => hsq _
  generalize ∑ f ∈ Finset.range c.nf, term c p f * term c p f = q at hnn
  by_cases hq : q > 0
  · rw [if_pos hq]
    exact Or.inr (one_div_mul_cancel (hpos q hq))
  · rw [if_neg hq, show q = 0 from le_antisymm (not_lt.mp hq) hnn]
    exact Or.inl ⟨h0, rfl⟩

/-- **C91**, splitting for spherical clustering: labels in range, counts right, a cluster that had samples keeps at least
one; a cluster that had none has none or one, and then the right centre; a cluster that has lost no sample keeps its
centre.  Missing from `C91_statement`: the centres of the clusters that samples are taken from, which are wrong
(`C91_violated`), and that no cluster stays empty. -/
theorem C91_spherical_partial (c : LCfg K) (hsp : c.spherical = true) (h0 : c.sqrt 0 = 0) (hpos : ∀ v, 0 < v → c.sqrt v ≠ 0) (byRows : Bool) (s : ESt K) (hs : EntryOk c byRows s)
    (r : ESt K) (split : Bool) (hr : handleEmpty c byRows false s = .ok r split) :
    (∀ i < c.n, r.lab i < c.k) ∧
    ∀ a < c.k, r.wi a = ((lmembers c r.lab a).card : Int) ∧ (split = true → r.count a = ((lmembers c r.lab a).card : Int)) ∧
      ((lmembers c s.lab a).Nonempty → (lmembers c r.lab a).Nonempty ∧ (lmembers c r.lab a).card ≤ (lmembers c s.lab a).card) ∧
      (lmembers c s.lab a = ∅ → lmembers c r.lab a = ∅ ∨ ∃ p, lmembers c r.lab a = {p} ∧ IsCentre c r.lab a fun f => r.cur (ecPos c byRows a f)) ∧
      ((lmembers c r.lab a).card = (lmembers c s.lab a).card → ∀ f < c.nf, r.cur (ecPos c byRows a f) = s.cur (ecPos c byRows a f)) := by
  obtain ⟨hl, _⟩ := hs
  by_cases h : ∀ a < c.k, num c.n s.lab a ≠ 0
  · obtain ⟨wi, hwi, hres⟩ := (C91_error c byRows false s).2.1 fun a ha => (num_ne c s.lab a).mp (h a ha)
    rw [hres] at hr
    cases hr
    exact ⟨hl, fun a ha => ⟨hwi a ha, (fun h' => by cases h'), fun h' => ⟨h', le_refl _⟩, fun h' => Or.inl h', fun _ _ _ => rfl⟩⟩
  · rw [handle_split c byRows s h] at hr
    obtain ⟨g1, g2⟩ := end_counts c byRows s hl
    have g3 := end_spherical c hsp byRows s hl
    cases hr
    have hcount : ∀ a < c.k, forUp c.k (fun a m => put m a ((ecEnd c byRows s).wi a)) (ecEnd c byRows s).count a = (ecEnd c byRows s).wi a := fun a ha =>
      (forUp_put (fun a => a) (fun a _ => (ecEnd c byRows s).wi a) (ecEnd c byRows s).count c.k (fun _ _ _ _ h => h)).1 a ha
    simp only at g3 ⊢
    generalize ecEnd c byRows s = t at g1 g2 g3 hcount ⊢
    refine ⟨g1, fun a ha => ?_⟩
    obtain ⟨k1, k2, k3⟩ := g3 a ha
    refine ⟨by rw [(g2 a ha).1, num_card], fun _ => by rw [hcount a ha, (g2 a ha).1, num_card], fun hne => ?_, fun he => ?_, fun he => k3 (by rw [num_card, num_card, he])⟩
    · have hne' := (num_ne c s.lab a).mpr hne
      exact ⟨(num_ne c t.lab a).mp ((g2 a ha).2 hne'), by rw [← num_card, ← num_card]; exact k2 hne'⟩
    · rcases k1 (by rw [num_card, he, Finset.card_empty]) with h' | ⟨h', p, hp, hpa, hpf⟩
      · exact Or.inl (by rw [← Finset.card_eq_zero, ← num_card]; exact h')
      · refine Or.inr ⟨p, ?_, ?_⟩
        · rw [num_card, Finset.card_eq_one] at h'
          obtain ⟨x, hx⟩ := h'
          have : p ∈ lmembers c t.lab a := by
            rw [lmembers, Finset.mem_filter, Finset.mem_range]; exact ⟨hp, hpa⟩
          rw [hx, Finset.mem_singleton] at this
          rw [hx, this]
        · refine isCentre_single c hsp h0 hpos (fun v => mul_self_nonneg v) t.lab a p _ ?_ hpf
          rw [num_card, Finset.card_eq_one] at h'
          obtain ⟨x, hx⟩ := h'
          have : p ∈ lmembers c t.lab a := by
            rw [lmembers, Finset.mem_filter, Finset.mem_range]; exact ⟨hp, hpa⟩
          rw [hx, Finset.mem_singleton] at this
          rw [hx, this]

/-- **C91**, splitting for spherical clustering of vectors of length at most one, with a root that is not too small: no
cluster is empty, unless no cluster has more than one sample; with at least as many samples as clusters none is empty.
Missing from `C91_statement`: the centres, see `C91_spherical_partial`. -/
theorem C91_filled_partial (c : LCfg K) (hsp : c.spherical = true) (hroot : ∀ v, 0 < v → v ≤ c.sqrt v * c.sqrt v)
    (hunit : ∀ i < c.n, ∑ f ∈ Finset.range c.nf, (sample c i f * (if c.normalize then c.inv i else 1)) ^ 2 ≤ 1) (byRows : Bool) (s : ESt K) (hs : EntryOk c byRows s)
    (r : ESt K) (split : Bool) (hr : handleEmpty c byRows false s = .ok r split) :
    ((∀ a < c.k, (lmembers c r.lab a).Nonempty) ∨ ∀ a < c.k, (lmembers c r.lab a).card ≤ 1) ∧ (c.k ≤ c.n → ∀ a < c.k, (lmembers c r.lab a).Nonempty) := by
  obtain ⟨hl, hm⟩ := hs
  have hu : ∀ i < c.n, ∑ f ∈ Finset.range c.nf, term c i f * term c i f ≤ 1 := fun i hi => by
    refine le_trans (le_of_eq (Finset.sum_congr rfl fun f _ => ?_)) (hunit i hi)
    unfold term
    rw [hsp]
    cases c.normalize <;> simp [sq]
  have hlen : ∀ a < c.k, num c.n s.lab a ≠ 0 → ∑ f ∈ Finset.range c.nf, s.cur (ecPos c byRows a f) * s.cur (ecPos c byRows a f) ≤ 1 := fun a ha hn => by
    have hc := hm a ha ((num_ne c s.lab a).mp hn)
    unfold IsCentre at hc
    rw [if_pos hsp] at hc
    obtain ⟨q, hq, hf⟩ := hc
    generalize hT : (fun f => ∑ i ∈ lmembers c s.lab a, sample c i f * (if c.normalize then c.inv i else 1)) = T at hq hf
    have hTf : ∀ f, (∑ i ∈ lmembers c s.lab a, sample c i f * (if c.normalize then c.inv i else 1)) = T f := fun f => congrFun hT f
    simp only [hTf] at hq hf
    have e : ∑ f ∈ Finset.range c.nf, s.cur (ecPos c byRows a f) * s.cur (ecPos c byRows a f) = (∑ f ∈ Finset.range c.nf, T f ^ 2) * (q * q) := by
      rw [Finset.sum_mul]
      refine Finset.sum_congr rfl fun f hf' => ?_
      rw [hf f (Finset.mem_range.mp hf')]
      ring
    rw [e]
    have hnn : 0 ≤ ∑ f ∈ Finset.range c.nf, T f ^ 2 := Finset.sum_nonneg fun f _ => sq_nonneg _
    generalize ∑ f ∈ Finset.range c.nf, T f ^ 2 = S at hq hnn
    rcases lt_or_eq_of_le hnn with hS | hS
    · have hr' := hroot S hS
      rcases hq with ⟨h1, _⟩ | h1
      · rw [h1] at hr'
        exfalso
        simp at hr'
        exact absurd hS (not_lt.mpr hr')
      · have : S * (q * q) ≤ (c.sqrt S * c.sqrt S) * (q * q) := mul_le_mul_of_nonneg_right hr' (mul_self_nonneg q)
        refine le_trans this (le_of_eq ?_)
        rw [show c.sqrt S * c.sqrt S * (q * q) = (q * c.sqrt S) * (q * c.sqrt S) by ring, h1, one_mul]
    · rw [← hS]
      simp
  have key : ∀ lab : Nat → Nat, (∀ i < c.n, lab i < c.k) → ((∀ a < c.k, num c.n lab a ≠ 0) ∨ ∀ a < c.k, num c.n lab a ≤ 1) →
      ((∀ a < c.k, (lmembers c lab a).Nonempty) ∨ ∀ a < c.k, (lmembers c lab a).card ≤ 1) ∧ (c.k ≤ c.n → ∀ a < c.k, (lmembers c lab a).Nonempty) := fun lab hlab hor => by
    refine ⟨hor.imp (fun h a ha => (num_ne c lab a).mp (h a ha)) fun h a ha => by rw [← num_card]; exact h a ha, fun hk a ha => (num_ne c lab a).mp ?_⟩
    rcases hor with h | h
    · exact h a ha
    · intro hz
      have htot := num_total c.n c.k lab hlab
      have hlt : ∑ b ∈ Finset.range c.k, num c.n lab b < ∑ b ∈ Finset.range c.k, 1 :=
        Finset.sum_lt_sum (fun b hb => h b (Finset.mem_range.mp hb)) ⟨a, Finset.mem_range.mpr ha, by omega⟩
      simp only [Finset.sum_const, Finset.card_range, smul_eq_mul, Nat.mul_one] at hlt
      omega
  by_cases h : ∀ a < c.k, num c.n s.lab a ≠ 0
  · obtain ⟨wi, hwi, hres⟩ := (C91_error c byRows false s).2.1 fun a ha => (num_ne c s.lab a).mp (h a ha)
    rw [hres] at hr
    cases hr
    exact key s.lab hl (Or.inl h)
  · rw [handle_split c byRows s h] at hr
    cases hr
    exact key _ (end_counts c byRows s hl).1 (end_filled c hsp hroot hu byRows s hl hlen)

/-! ### Examples -/

/-- The points (3/5, 4/5) and (3/5, -4/5) in one cluster, spherical clustering with two clusters. -/
def ecCfgS : LCfg ℚ := ⟨2, 2, 2, 2, 1, 0, true, false, true, false, none, fun v => if 0 < v ∧ Rat.sqrt v * Rat.sqrt v ≠ v then v + 1 else Rat.sqrt v, fun i => [3 / 5, 3 / 5, 4 / 5, -4 / 5].getD i 0, fun _ => 1⟩

def ecStS : ESt ℚ := ⟨fun i => [1, 7, 0, 7].getD i 0, fun _ => 0, fun _ => 9, fun _ => 9, fun _ => 9, true⟩

theorem ecS_entry : EntryOk ecCfgS false ecStS := by
  refine ⟨by decide, fun a ha hne => ?_⟩
  have h : a = 0 ∨ a = 1 := by change a < 2 at ha; omega
  rcases h with h | h
  · subst h
    unfold IsCentre
    rw [if_pos (show ecCfgS.spherical = true from rfl)]
    refine ⟨5 / 6, Or.inr (by decide +kernel), ?_⟩
    decide +kernel
  · subst h
    exfalso
    revert hne
    decide +kernel

/-- The cluster of the two samples loses the first; its centre should become the second, (3/5, -4/5), but becomes
proportional to 2 (1, 0) - (3/5, 4/5) = (7/5, -4/5). -/
theorem C91_violated : ¬ C91_statement := by
  intro h
  have hne : ¬ ∀ a < ecCfgS.k, num ecCfgS.n ecStS.lab a ≠ 0 := by decide +kernel
  obtain ⟨_, h⟩ := h ℚ ecCfgS false ecStS (by decide) ecS_entry _ _ (handle_split ecCfgS false ecStS hne)
  obtain ⟨_, _, _, h⟩ := h 0 (by decide)
  unfold IsCentre at h
  rw [if_pos (show ecCfgS.spherical = true from rfl)] at h
  obtain ⟨q, _, h⟩ := h
  have h0 := h 0 (by decide)
  have h1 := h 1 (by decide)
  have e0 : (∑ i ∈ lmembers ecCfgS (ecEnd ecCfgS false ecStS).lab 0, sample ecCfgS i 0 * (if ecCfgS.normalize then ecCfgS.inv i else 1)) = 3 / 5 := by decide +kernel
  have e1 : (∑ i ∈ lmembers ecCfgS (ecEnd ecCfgS false ecStS).lab 0, sample ecCfgS i 1 * (if ecCfgS.normalize then ecCfgS.inv i else 1)) = -4 / 5 := by decide +kernel
  simp only at h0 h1
  rw [e0] at h0
  rw [e1] at h1
  have hbad : (ecEnd ecCfgS false ecStS).cur (ecPos ecCfgS false 0 0) * 4 ≠ (ecEnd ecCfgS false ecStS).cur (ecPos ecCfgS false 0 1) * -3 := by decide +kernel
  exact hbad (by rw [h0, h1]; ring)

/-- In the same run the other things are right. -/
example : let r := ecEnd ecCfgS false ecStS
    ([r.lab 0, r.lab 1], [r.wi 0, r.wi 1], [r.cur 1, r.cur 3]) = ([1, 0], [1, 1], [3 / 5, 4 / 5]) := by decide +kernel

example (r : ESt ℚ) (split : Bool) (hr : handleEmpty ecCfgS false false ecStS = .ok r split) : ∀ a < 2, (lmembers ecCfgS r.lab a).Nonempty :=
  (C91_filled_partial ecCfgS rfl (fun v hv => by
      simp only [ecCfgS]
      by_cases hr : Rat.sqrt v * Rat.sqrt v = v
      · rw [if_neg (fun h => h.2 hr), hr]
      · rw [if_pos ⟨hv, hr⟩]; nlinarith) (by decide +kernel) false ecStS ecS_entry r split hr).2 (by decide)

/-- Six samples on a line, four clusters of which two are empty; stored by rows or by columns. -/
def ecCfg : LCfg ℚ := ⟨6, 4, 1, 6, 2, 0, false, false, true, false, none, Rat.sqrt, fun i => [0, 1, 2, 10, 11, 18].getD i 0, fun _ => 1⟩

def ecSt : ESt ℚ := ⟨fun i => [7, 1, 8, 13].getD i 0, fun i => [1, 1, 1, 3, 3, 3].getD i 0, fun _ => 9, fun _ => 9, fun _ => 9, true⟩

theorem ec_entry (byRows : Bool) : EntryOk ecCfg byRows ecSt := by
  refine ⟨by decide, fun a ha hne => ?_⟩
  unfold IsCentre
  rw [if_neg (by decide)]
  have h : a = 0 ∨ a = 1 ∨ a = 2 ∨ a = 3 := by change a < 4 at ha; omega
  rcases h with h | h | h | h <;> subst h
  · exfalso; revert hne; decide +kernel
  · cases byRows <;> decide +kernel
  · exfalso; revert hne; decide +kernel
  · cases byRows <;> decide +kernel

/-- The sample 18 is farthest from the mean 13 and becomes cluster 0; then 0 and 2 are equally far from 1 and the first
becomes cluster 2. -/
example : let r := ecEnd ecCfg true ecSt
    ((List.range 6).map r.lab, (List.range 4).map r.wi, (List.range 4).map r.cur) = ([2, 1, 1, 3, 3, 0], [1, 2, 1, 2], [18, 3 / 2, 0, 21 / 2]) := by decide +kernel

example (r : ESt ℚ) (split : Bool) (hr : handleEmpty ecCfg true false ecSt = .ok r split) : ∀ a < 4, (lmembers ecCfg r.lab a).Nonempty :=
  (C91_split_partial ecCfg rfl true ecSt (ec_entry true) r split hr).2.2.2.1 (by decide)

example : handleEmpty ecCfg true true ecSt = .emptyClusters := ((C91_error ecCfg true true ecSt).1).mpr ⟨rfl, 0, by decide, by decide⟩

/-- Fewer samples than clusters: two samples of one cluster are separated, two clusters stay empty. -/
example : let r := ecEnd { ecCfg with n := 2 } false { ecSt with cur := fun i => [7, 1 / 2, 8, 13].getD i 0 }
    ((List.range 2).map r.lab, (List.range 4).map r.wi, (List.range 4).map r.cur, r.stop) = ([0, 1], [1, 1, 0, 0], [0, 1, 8, 13], true) := by decide +kernel

example (r : ESt ℚ) (split : Bool) (hr : handleEmpty ecCfgS false false ecStS = .ok r split) : ∃ p, lmembers ecCfgS r.lab 1 = {p} ∨ lmembers ecCfgS r.lab 1 = ∅ := by
  rcases ((C91_spherical_partial ecCfgS rfl (by decide +kernel) (fun v hv => by
      simp only [ecCfgS]
      by_cases hr : Rat.sqrt v * Rat.sqrt v = v
      · rw [if_neg (fun h => h.2 hr)]
        intro h0
        rw [h0] at hr
        simp at hr
        exact absurd hv (by rw [← hr]; exact lt_irrefl _)
      · rw [if_pos ⟨hv, hr⟩]; exact ne_of_gt (by linarith)) false ecStS ecS_entry r split hr).2 1 (by decide)).2.2.2.1 (by decide) with h | ⟨p, h, _⟩
  · exact ⟨0, Or.inr h⟩
  · exact ⟨p, Or.inl h⟩

end Verif.Kmeans
