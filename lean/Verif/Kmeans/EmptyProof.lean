import Verif.Kmeans.Empty
import Verif.Kmeans.MacqueenProof

/-
Lemmas on the handling of empty clusters.
-/
namespace Verif.Kmeans

open Verif.HalfBlas (put forUp)

variable {K : Type} [Field K] [LinearOrder K] [IsStrictOrderedRing K]

omit [Field K] [LinearOrder K] [IsStrictOrderedRing K] in
theorem ecPos_inj (c : LCfg K) (byRows : Bool) {a a' f f' : Nat} (ha : a < c.k) (ha' : a' < c.k) (hf : f < c.nf) (hf' : f' < c.nf)
    (h : ecPos c byRows a f = ecPos c byRows a' f') : a = a' ∧ f = f' := by
  unfold ecPos at h
  cases byRows
  · simp only [Bool.false_eq_true, if_false, Nat.mul_one] at h
    have := half_inj ha ha' h
    exact ⟨this.2, this.1⟩
  · simp only [if_true, Nat.mul_one] at h
    exact half_inj hf hf' (by omega)

/-- The count of the labels. -/
theorem ecCount_spec (n : Nat) (lab : Nat → Nat) (a : Nat) : ecCount n lab a = (num n lab a : Int) := by
  unfold ecCount
  refine forUp_inv (body := fun i m => put m (lab i) (m (lab i) + 1)) (s := fun _ => (0 : Int)) (fun m r => r a = (num m lab a : Int)) n (by simp [num]) ?_
  intro m r _ h
  have hs : num (m + 1) lab a = num m lab a + if lab m = a then 1 else 0 := Finset.sum_range_succ ..
  rw [hs]
  by_cases he : a = lab m
  · subst he
    rw [put_same, h, if_pos rfl]
    push_cast
    rfl
  · rw [put_ne _ _ he, h, if_neg (Ne.symm he), Nat.add_zero]

/-- The number of zeros. -/
theorem ecEmpty_zero (k : Nat) (wi : Nat → Int) : ecEmpty k wi = 0 ↔ ∀ a < k, wi a ≠ 0 := by
  unfold ecEmpty
  refine forUp_inv (body := fun a m => if wi a = 0 then m + 1 else m) (s := 0) (fun b (m : Nat) => m = 0 ↔ ∀ a < b, wi a ≠ 0) k (by simp) ?_
  intro b m _ h
  by_cases hz : wi b = 0
  · rw [if_pos hz]
    refine ⟨fun h => by omega, fun h => absurd hz (h b (by omega))⟩
  · rw [if_neg hz, h]
    refine ⟨fun h a ha => ?_, fun h a ha => h a (by omega)⟩
    rcases Nat.lt_or_ge a b with h' | h'
    · exact h a h'
    · rw [show a = b by omega]; exact hz

theorem ecEmpty_two (k : Nat) (wi : Nat → Int) (a b : Nat) (ha : a < b) (hb : b < k) (h1 : wi a = 0) (h2 : wi b = 0) : ecEmpty k wi > 1 := by
  unfold ecEmpty
  have := forUp_inv (body := fun a m => if wi a = 0 then m + 1 else m) (s := 0)
    (fun d (m : Nat) => (a < d → 1 ≤ m) ∧ (b < d → 2 ≤ m)) k ⟨fun h => by omega, fun h => by omega⟩ ?_
  · exact this.2 hb
  · rintro d m _ ⟨g1, g2⟩
    by_cases hz : wi d = 0
    · rw [if_pos hz]
      refine ⟨fun h => by omega, fun h => ?_⟩
      rcases Nat.lt_or_ge b d with h' | h'
      · have := g2 h'; omega
      · have := g1 (by omega); omega
    · rw [if_neg hz]
      refine ⟨fun h => g1 ?_, fun h => g2 ?_⟩
      · rcases Nat.lt_or_ge a d with h' | h'
        · exact h'
        · exact absurd (show wi d = 0 by rw [show d = a by omega]; exact h1) hz
      · rcases Nat.lt_or_ge b d with h' | h'
        · exact h'
        · exact absurd (show wi d = 0 by rw [show d = b by omega]; exact h2) hz

omit [IsStrictOrderedRing K] in
/-- The sample picked: it is in a cluster of at least two, and no sample of such a cluster is farther. -/
theorem ecPick_spec (n : Nat) (lab : Nat → Nat) (wi : Nat → Int) (dist : Nat → K) :
    let r := ecPick n lab wi dist
    (∀ p, r.1 = some p → p < n ∧ wi (lab p) > 1 ∧ ∀ i < n, wi (lab i) > 1 → dist i ≤ dist p) ∧
    (r.1 = none → ∀ i < n, wi (lab i) > 1 → dist i ≤ -1) := by
  intro r
  have := forUp_inv (body := fun i (r : Option Nat × K) => if wi (lab i) > 1 ∧ dist i > r.2 then (some i, dist i) else r) (s := (none, -1))
    (fun m r => (∀ p, r.1 = some p → p < m ∧ wi (lab p) > 1 ∧ r.2 = dist p) ∧ (r.1 = none → r.2 = -1) ∧ ∀ i < m, wi (lab i) > 1 → dist i ≤ r.2) n
    ⟨(fun p h => by cases h), fun _ => rfl, (fun i h => by omega)⟩ ?_
  · change (∀ p, r.1 = some p → p < n ∧ wi (lab p) > 1 ∧ r.2 = dist p) ∧ (r.1 = none → r.2 = -1) ∧ ∀ i < n, wi (lab i) > 1 → dist i ≤ r.2 at this
    obtain ⟨h1, h2, h3⟩ := this
    refine ⟨fun p hp => ?_, fun hn i hi hw => ?_⟩
    · obtain ⟨g1, g2, g3⟩ := h1 p hp
      exact ⟨g1, g2, fun i hi hw => g3 ▸ h3 i hi hw⟩
    · rw [← h2 hn]; exact h3 i hi hw
  · rintro m r _ ⟨h1, h2, h3⟩
    by_cases hc : wi (lab m) > 1 ∧ dist m > r.2
    · rw [if_pos hc]
      refine ⟨fun p hp => ?_, (fun h => by cases h), fun i hi hw => ?_⟩
      · cases hp
        exact ⟨by omega, hc.1, rfl⟩
      · rcases Nat.lt_or_ge i m with h | h
        · exact le_trans (h3 i h hw) (le_of_lt hc.2)
        · rw [show i = m by omega]
    · rw [if_neg hc]
      refine ⟨fun p hp => ⟨by have := (h1 p hp).1; omega, (h1 p hp).2⟩, h2, fun i hi hw => ?_⟩
      rcases Nat.lt_or_ge i m with h | h
      · exact h3 i h hw
      · rw [show i = m by omega] at hw ⊢
        exact not_lt.mp fun hgt => hc ⟨hw, hgt⟩

omit [Field K] [LinearOrder K] [IsStrictOrderedRing K] in
/-- Writing every feature of one centre. -/
theorem ecPut_spec (c : LCfg K) (byRows : Bool) (b : Nat) (hb : b < c.k) (h : Nat → K → K) (m : Nat → K) : ∀ a < c.k, ∀ f < c.nf,
    forUp c.nf (fun f r => put r (ecPos c byRows b f) (h f (r (ecPos c byRows b f)))) m (ecPos c byRows a f) =
      if a = b then h f (m (ecPos c byRows a f)) else m (ecPos c byRows a f) := by
  intro a ha f hf
  have hp := forUp_put (fun f => ecPos c byRows b f) h m c.nf (fun f hf f' hf' e => (ecPos_inj c byRows hb hb hf hf' e).2)
  by_cases he : a = b
  · subst he
    rw [if_pos rfl, hp.1 f hf]
  · rw [if_neg he, hp.2 _ fun f' hf' e => he (ecPos_inj c byRows ha hb hf hf' e).1]

/-! ### Euclidean distances -/

omit [LinearOrder K] [IsStrictOrderedRing K] in
theorem tot_put (c : LCfg K) (m : Nat) (lab : Nat → Nat) (i b : Nat) (hi : i < m) (j f : Nat) :
    tot c m (put lab i b) j f + (if lab i = j then term c i f else 0) = tot c m lab j f + if b = j then term c i f else 0 := by
  unfold tot
  rw [Finset.sum_eq_add_sum_sdiff_singleton_of_mem (Finset.mem_range.mpr hi), Finset.sum_eq_add_sum_sdiff_singleton_of_mem (Finset.mem_range.mpr hi) (fun i => if lab i = j then term c i f else 0)]
  have hrest : ∑ x ∈ Finset.range m \ {i}, (if put lab i b x = j then term c x f else 0) = ∑ x ∈ Finset.range m \ {i}, if lab x = j then term c x f else 0 :=
    Finset.sum_congr rfl fun x hx => by rw [put_ne _ _ (by simp at hx; exact hx.2)]
  rw [hrest, put_same]
  ring

/-- Labels in range, counts, and means of the clusters that have samples. -/
structure EInv (c : LCfg K) (byRows : Bool) (s : ESt K) : Prop where
  lab : ∀ i < c.n, s.lab i < c.k
  wi : ∀ a < c.k, s.wi a = (num c.n s.lab a : Int)
  mean : ∀ a < c.k, num c.n s.lab a ≠ 0 → ∀ f < c.nf, s.cur (ecPos c byRows a f) * (num c.n s.lab a : K) = tot c c.n s.lab a f

/-- `works1` holds the distances to the centres of the labels. -/
def Accurate (c : LCfg K) (byRows : Bool) (s : ESt K) : Prop := ∀ i < c.n, s.dist i = ecDist c byRows s.cur i (s.lab i)

omit [LinearOrder K] [IsStrictOrderedRing K] in
theorem ecDist_congr (c : LCfg K) (byRows : Bool) {C D : Nat → K} (i a : Nat) (h : ∀ f < c.nf, C (ecPos c byRows a f) = D (ecPos c byRows a f)) :
    ecDist c byRows C i a = ecDist c byRows D i a := by
  unfold ecDist
  simp only [sumTo_eq]
  rw [Finset.sum_congr rfl fun f hf => by rw [h f (Finset.mem_range.mp hf)],
    Finset.sum_congr (s₁ := Finset.range c.nf) rfl fun f hf => show (elem c 0 i f - C (ecPos c byRows a f)) * (elem c 0 i f - C (ecPos c byRows a f)) = (elem c 0 i f - D (ecPos c byRows a f)) * (elem c 0 i f - D (ecPos c byRows a f)) by rw [h f (Finset.mem_range.mp hf)]]

/-- The centres after a move, before any scaling. -/
def ecShift (c : LCfg K) (byRows : Bool) (a p : Nat) (s : ESt K) : Nat → K :=
  forUp c.nf (fun f r => put r (ecPos c byRows a f) (elem c 0 p f * mqScale c p))
    (forUp c.nf (fun f r => put r (ecPos c byRows (s.lab p) f) ((r (ecPos c byRows (s.lab p) f) * (s.wi (s.lab p) : K) - elem c 0 p f * mqScale c p) / ((s.wi (s.lab p) : K) - 1))) s.cur)

omit [LinearOrder K] [IsStrictOrderedRing K] in
theorem ecShift_spec (c : LCfg K) (byRows : Bool) (a p : Nat) (s : ESt K) (ha : a < c.k) (ho : s.lab p < c.k) : ∀ j < c.k, ∀ f < c.nf,
    ecShift c byRows a p s (ecPos c byRows j f) = if j = a then term c p f
      else if j = s.lab p then (s.cur (ecPos c byRows j f) * (s.wi (s.lab p) : K) - term c p f) / ((s.wi (s.lab p) : K) - 1) else s.cur (ecPos c byRows j f) := by
  intro j hj f hf
  unfold ecShift
  rw [ecPut_spec c byRows a ha (fun f _ => elem c 0 p f * mqScale c p) _ j hj f hf,
    ecPut_spec c byRows (s.lab p) ho (fun f v => (v * (s.wi (s.lab p) : K) - elem c 0 p f * mqScale c p) / ((s.wi (s.lab p) : K) - 1)) s.cur j hj f hf]
  simp only [mqTerm]

omit [IsStrictOrderedRing K] in
/-- The counts and labels after a move. -/
theorem move_counts (c : LCfg K) (byRows many : Bool) (a p : Nat) (s : ESt K) (hw : ∀ a < c.k, s.wi a = (num c.n s.lab a : Int)) (ha : a < c.k) (hp : p < c.n)
    (ho : s.lab p < c.k) (hne : s.lab p ≠ a) (hz : s.wi a = 0) : ∀ j < c.k, (ecMove c byRows many a p s).wi j = (num c.n (put s.lab p a) j : Int) := by
  intro j hj
  have hn := num_put c.n s.lab p a hp hne j
  have hpos := num_pos c.n s.lab p hp
  unfold ecMove
  simp only
  by_cases h1 : j = a
  · subst h1
    rw [put_same]
    rw [if_neg (Ne.symm hne), if_pos rfl] at hn
    have := hw j hj
    omega
  · rw [put_ne _ _ h1]
    by_cases h2 : j = s.lab p
    · rw [h2, put_same, hw _ ho]
      rw [h2, if_pos rfl, if_neg hne] at hn
      omega
    · rw [put_ne _ _ h2, hw j hj]
      rw [if_neg h2, if_neg h1] at hn
      omega

/-- A move for Euclidean distances. -/
theorem move_inv (c : LCfg K) (hsp : c.spherical = false) (byRows many : Bool) (a p : Nat) (s : ESt K) (h : EInv c byRows s) (ha : a < c.k) (hp : p < c.n)
    (hz : s.wi a = 0) (hw : s.wi (s.lab p) > 1) :
    EInv c byRows (ecMove c byRows many a p s) ∧ (many = true → Accurate c byRows s → Accurate c byRows (ecMove c byRows many a p s)) := by
  have ho := h.lab p hp
  have hne : s.lab p ≠ a := fun e => by rw [e, hz] at hw; omega
  have hcnt := move_counts c byRows many a p s h.wi ha hp ho hne hz
  have hsh := ecShift_spec c byRows a p s ha ho
  have hcur : (ecMove c byRows many a p s).cur = ecShift c byRows a p s := by
    unfold ecMove
    simp only [hsp, Bool.false_eq_true, if_false]
    rfl
  have hlab : (ecMove c byRows many a p s).lab = put s.lab p a := rfl
  have hcast : ∀ j < c.k, (s.wi j : K) = (num c.n s.lab j : K) := fun j hj => by rw [h.wi j hj]; exact Int.cast_natCast _
  refine ⟨⟨fun i hi => ?_, fun j hj => by rw [hlab]; exact hcnt j hj, fun j hj hnz f hf => ?_⟩, fun hmany hacc i hi => ?_⟩
  · rw [hlab]
    by_cases he : i = p
    · rw [he, put_same]; exact ha
    · rw [put_ne _ _ he]; exact h.lab i hi
  · rw [hcur, hsh j hj f hf]
    rw [hlab] at hnz ⊢
    have ht := tot_put c c.n s.lab p a hp j f
    have hn := num_put c.n s.lab p a hp hne j
    by_cases h1 : j = a
    · subst h1
      rw [if_pos rfl]
      have hz0 : num c.n s.lab j = 0 := by have := h.wi j hj; omega
      rw [if_neg hne, if_pos rfl, tot_zero c c.n s.lab j f hz0, add_zero, zero_add] at ht
      rw [if_neg (Ne.symm hne), if_pos rfl] at hn
      have : num c.n (put s.lab p j) j = 1 := by have := h.wi j hj; omega
      rw [this, ht, Nat.cast_one, mul_one]
    · rw [if_neg h1]
      by_cases h2 : j = s.lab p
      · rw [if_pos h2]
        rw [if_pos h2.symm, if_neg (Ne.symm h1), add_zero] at ht
        rw [if_pos h2, if_neg h1, Nat.add_zero] at hn
        have hm := h.mean j hj (by omega) f hf
        have hwi := h.wi _ ho
        have h1lt : (1 : K) < (num c.n s.lab j : K) := by
          rw [← h2] at hwi hw
          exact_mod_cast (by omega : 1 < num c.n s.lab j)
        have hd : (num c.n (put s.lab p a) j : K) = (num c.n s.lab j : K) - 1 := by
          rw [eq_sub_iff_add_eq]; exact_mod_cast hn
        rw [← h2, hcast j hj, hm, hd, div_mul_cancel₀ _ (by linarith)]
        linarith
      · rw [if_neg h2]
        rw [if_neg (Ne.symm h2), if_neg (Ne.symm h1), add_zero, add_zero] at ht
        rw [if_neg h2, if_neg h1] at hn
        have hn' : num c.n (put s.lab p a) j = num c.n s.lab j := by omega
        rw [ht, hn']
        exact h.mean j hj (by rw [← hn']; exact hnz) f hf
  · -- the distances
    have hfold : ∀ (b : Nat), forUp c.n (fun i d => if put s.lab p a i = s.lab p then put d i (ecDist c byRows (ecShift c byRows a p s) i (s.lab p)) else d) (put s.dist p 0) b =
        if b < c.n ∧ put s.lab p a b = s.lab p then ecDist c byRows (ecShift c byRows a p s) b (s.lab p) else put s.dist p 0 b := by
      intro b
      have := forUp_inv (body := fun i d => if put s.lab p a i = s.lab p then put d i (ecDist c byRows (ecShift c byRows a p s) i (s.lab p)) else d) (s := put s.dist p 0)
        (fun m (d : Nat → K) => d b = if b < m ∧ put s.lab p a b = s.lab p then ecDist c byRows (ecShift c byRows a p s) b (s.lab p) else put s.dist p 0 b) c.n (by simp) ?_
      · exact this
      · intro m d _ hd
        by_cases hm : put s.lab p a m = s.lab p
        · rw [if_pos hm]
          by_cases hb : b = m
          · subst hb
            rw [put_same, if_pos ⟨by omega, hm⟩]
          · rw [put_ne _ _ hb, hd]
            by_cases hlt : b < m
            · simp [hlt, Nat.lt_succ_of_lt hlt]
            · simp [hlt, show ¬ b < m + 1 by omega]
        · rw [if_neg hm, hd]
          by_cases hb : b = m
          · subst hb
            simp [hm]
          · by_cases hlt : b < m
            · simp [hlt, Nat.lt_succ_of_lt hlt]
            · simp [hlt, show ¬ b < m + 1 by omega]
    have hdist : (ecMove c byRows many a p s).dist i = if i < c.n ∧ put s.lab p a i = s.lab p then ecDist c byRows (ecShift c byRows a p s) i (s.lab p) else put s.dist p 0 i := by
      rw [← hfold i]
      unfold ecMove
      simp only [hsp, hmany, Bool.false_eq_true, if_false, if_true]
      rfl
    rw [hdist, hcur, hlab]
    by_cases he : i = p
    · subst he
      rw [put_same, put_same, if_neg (fun h => hne h.2.symm)]
      unfold ecDist
      simp only [hsp, Bool.false_eq_true, if_false, sumTo_eq]
      refine (Finset.sum_eq_zero fun f hf => ?_).symm
      rw [hsh a ha f (Finset.mem_range.mp hf), if_pos rfl, elem_sample, Nat.zero_add, term, hsp]
      simp
    · rw [put_ne _ _ he, put_ne _ _ he]
      by_cases h2 : s.lab i = s.lab p
      · rw [if_pos ⟨hi, h2⟩, h2]
      · rw [if_neg (fun h => h2 h.2), hacc i hi]
        have hia : s.lab i ≠ a := fun e => by
          have hpos := num_pos c.n s.lab i hi
          have := h.wi a ha
          rw [e] at hpos
          omega
        refine ecDist_congr c byRows i _ fun f hf => ?_
        rw [hsh _ (h.lab i hi) f hf, if_neg hia, if_neg h2]

/-! ### The loop over the clusters -/

/-- The labels come from moving, one after the other into the lowest empty cluster, a sample that is farthest from the
mean of its cluster among the samples of clusters with at least two. -/
inductive Relocated (c : LCfg K) (lab : Nat → Nat) : (Nat → Nat) → Prop
  | refl : Relocated c lab lab
  | step (lab' : Nat → Nat) (a p : Nat) : Relocated c lab lab' → a < c.k → num c.n lab' a = 0 → (∀ b < a, num c.n lab' b ≠ 0) → p < c.n → 1 < num c.n lab' (lab' p) →
      (∀ i < c.n, 1 < num c.n lab' (lab' i) → ∑ f ∈ Finset.range c.nf, (sample c i f - centreOf c lab' (lab' i) f) ^ 2 ≤ ∑ f ∈ Finset.range c.nf, (sample c p f - centreOf c lab' (lab' p) f) ^ 2) →
      Relocated c lab (put lab' p a)

/-- The mean for a cluster that has samples. -/
theorem mean_centre (c : LCfg K) (hsp : c.spherical = false) (byRows : Bool) (s : ESt K) (h : EInv c byRows s) (a : Nat) (ha : a < c.k) (hn : num c.n s.lab a ≠ 0) (f : Nat) (hf : f < c.nf) :
    s.cur (ecPos c byRows a f) = centreOf c s.lab a f := by
  have hm := h.mean a ha hn f hf
  have hnz : (num c.n s.lab a : K) ≠ 0 := Nat.cast_ne_zero.mpr hn
  rw [centreOf_def, hsp, ← hm]
  simp only [Bool.false_eq_true, if_false]
  rw [show max 1 (num c.n s.lab a) = num c.n s.lab a by omega, mul_assoc, mul_one_div_cancel hnz, mul_one]

theorem ecDist_eq (c : LCfg K) (hsp : c.spherical = false) (byRows : Bool) (s : ESt K) (h : EInv c byRows s) (i : Nat) (hi : i < c.n) :
    ecDist c byRows s.cur i (s.lab i) = ∑ f ∈ Finset.range c.nf, (sample c i f - centreOf c s.lab (s.lab i) f) ^ 2 := by
  unfold ecDist
  simp only [hsp, Bool.false_eq_true, if_false, sumTo_eq]
  refine Finset.sum_congr rfl fun f hf => ?_
  have hpos := num_pos c.n s.lab i hi
  rw [mean_centre c hsp byRows s h _ (h.lab i hi) (by omega) f (Finset.mem_range.mp hf), elem_sample, Nat.zero_add]
  ring

theorem num_total (n k : Nat) (lab : Nat → Nat) (hl : ∀ i < n, lab i < k) : ∑ a ∈ Finset.range k, num n lab a = n := by
  unfold num
  rw [← sum_by_label n k lab hl fun _ _ => 1]
  simp

/-- The state of the loop before cluster `b`. -/
structure LoopInv (c : LCfg K) (byRows : Bool) (lab0 : Nat → Nat) (many : Bool) (b : Nat) (s : ESt K) : Prop where
  inv : EInv c byRows s
  reloc : Relocated c lab0 s.lab
  go : s.stop = false → ∀ a < b, num c.n s.lab a ≠ 0
  stopped : s.stop = true → ∀ a < c.k, num c.n s.lab a ≤ 1
  acc : many = true ∨ s.lab = lab0 → Accurate c byRows s
  later : ∀ a < c.k, b ≤ a → num c.n s.lab a = 0 → num c.n lab0 a = 0
  first : s.lab ≠ lab0 → ∃ a < b, num c.n lab0 a = 0

theorem cluster_inv (c : LCfg K) (hsp : c.spherical = false) (byRows : Bool) (lab0 : Nat → Nat) (many : Bool) (hmany : ∀ a b, a < b → b < c.k → num c.n lab0 a = 0 → num c.n lab0 b = 0 → many = true)
    (b : Nat) (hb : b < c.k) (s : ESt K) (h : LoopInv c byRows lab0 many b s) : LoopInv c byRows lab0 many (b + 1) (ecCluster c byRows many b s) := by
  unfold ecCluster
  by_cases hc : s.stop = true ∨ s.wi b ≠ 0
  · rw [if_pos hc]
    refine ⟨h.inv, h.reloc, fun hgo a ha => ?_, h.stopped, h.acc, fun a ha hba => h.later a ha (by omega), fun hne => ?_⟩
    · rcases Nat.lt_or_ge a b with h' | h'
      · exact h.go hgo a h'
      · rw [show a = b by omega]
        have hw := hc.resolve_left (by rw [hgo]; decide)
        have := h.inv.wi b hb
        omega
    · obtain ⟨a, ha, hz⟩ := h.first hne
      exact ⟨a, by omega, hz⟩
  · rw [if_neg hc]
    simp only [not_or, ne_eq, not_not, Bool.not_eq_true] at hc
    obtain ⟨hgo, hz⟩ := hc
    have hnum : num c.n s.lab b = 0 := by have := h.inv.wi b hb; omega
    have hz0 := h.later b hb (le_refl _) hnum
    -- the distances are accurate
    have hacc : Accurate c byRows s := by
      refine h.acc ?_
      by_cases he : s.lab = lab0
      · exact Or.inr he
      · obtain ⟨a, ha, hza⟩ := h.first he
        exact Or.inl (hmany a b ha hb hza hz0)
    obtain ⟨hp1, hp2⟩ := ecPick_spec c.n s.lab s.wi s.dist
    cases hpick : (ecPick c.n s.lab s.wi s.dist).1 with
    | none =>
      simp only
      refine ⟨⟨h.inv.lab, h.inv.wi, h.inv.mean⟩, h.reloc, (fun hgo' => by cases hgo'), fun _ a ha => ?_, h.acc, fun a ha hba => h.later a ha (by omega), fun hne => ?_⟩
      · by_contra hgt
        have hgt' : 1 < num c.n s.lab a := by simp only at hgt; omega
        obtain ⟨i, hi, hia⟩ : ∃ i < c.n, s.lab i = a := by
          by_contra hno
          have : num c.n s.lab a = 0 := Finset.sum_eq_zero fun i hi => if_neg fun e => hno ⟨i, Finset.mem_range.mp hi, e⟩
          omega
        have hle := hp2 hpick i hi (by rw [hia, h.inv.wi a ha]; omega)
        rw [hacc i hi, ecDist_eq c hsp byRows s h.inv i hi] at hle
        have hnn : (0 : K) ≤ ∑ f ∈ Finset.range c.nf, (sample c i f - centreOf c s.lab (s.lab i) f) ^ 2 := Finset.sum_nonneg fun f _ => sq_nonneg _
        linarith
      · obtain ⟨a, ha, hz⟩ := h.first hne
        exact ⟨a, by omega, hz⟩
    | some p =>
      simp only
      obtain ⟨hp, hw, hfar⟩ := hp1 p hpick
      obtain ⟨hinv, hacc'⟩ := move_inv c hsp byRows many b p s h.inv hb hp hz hw
      have hlab : (ecMove c byRows many b p s).lab = put s.lab p b := rfl
      have hstop : (ecMove c byRows many b p s).stop = s.stop := rfl
      have ho := h.inv.lab p hp
      have hne : s.lab p ≠ b := fun e => by rw [e, hz] at hw; omega
      have hkeep : ∀ a < c.k, num c.n s.lab a ≠ 0 → num c.n (put s.lab p b) a ≠ 0 := fun a ha hnz => by
        have hn := num_put c.n s.lab p b hp hne a
        by_cases h1 : a = s.lab p
        · have := h.inv.wi _ ho
          rw [if_pos h1, h1] at hn
          rw [h1]
          omega
        · rw [if_neg h1] at hn
          omega
      refine ⟨hinv, ?_, fun _ a ha => ?_, fun hst => ?_, fun hor => ?_, fun a ha hba hza => ?_, fun _ => ⟨b, by omega, hz0⟩⟩
      · rw [hlab]
        refine Relocated.step s.lab b p h.reloc hb hnum (fun a ha => h.go hgo a ha) hp (by have := h.inv.wi _ ho; omega) fun i hi hgt => ?_
        have := hfar i hi (by rw [h.inv.wi _ (h.inv.lab i hi)]; omega)
        rw [hacc i hi, hacc p hp, ecDist_eq c hsp byRows s h.inv i hi, ecDist_eq c hsp byRows s h.inv p hp] at this
        exact this
      · rw [hlab]
        rcases Nat.lt_or_ge a b with h' | h'
        · exact hkeep a (by omega) (h.go hgo a h')
        · rw [show a = b by omega]
          have hn := num_put c.n s.lab p b hp hne b
          rw [if_neg (Ne.symm hne), if_pos rfl] at hn
          omega
      · rw [hstop, hgo] at hst
        cases hst
      · refine hacc' ?_ hacc
        rcases hor with h' | h'
        · exact h'
        · -- a move changes the labels
          exfalso
          rw [hlab] at h'
          have h3 : num c.n (put s.lab p b) b = 0 := by rw [h']; exact hz0
          have hn := num_put c.n s.lab p b hp hne b
          rw [if_neg (Ne.symm hne), if_pos rfl] at hn
          omega
      · rw [hlab] at hza
        exact h.later a ha (by omega) (by by_contra hnz; exact hkeep a ha hnz hza)

/-! ### The inertia -/

/-- The inertia of a labelling around the means of its clusters. -/
def within (c : LCfg K) (lab : Nat → Nat) : K :=
  ∑ i ∈ Finset.range c.n, ∑ f ∈ Finset.range c.nf, (sample c i f - centreOf c lab (lab i) f) ^ 2

omit [LinearOrder K] [IsStrictOrderedRing K] in
theorem view_at (k a f : Nat) (ha : a < k) : (a + f * k) % k = a ∧ (a + f * k) / k = f := by
  refine ⟨by rw [Nat.add_mul_mod_self_right, Nat.mod_eq_of_lt ha], ?_⟩
  rw [Nat.add_mul_div_right _ _ (by omega), Nat.div_eq_of_lt ha, Nat.zero_add]

/-- The means are the best centres. -/
theorem within_le (c : LCfg K) (hsp : c.spherical = false) (lab : Nat → Nat) (hl : ∀ i < c.n, lab i < c.k) (C : Nat → Nat → K) :
    within c lab ≤ ∑ i ∈ Finset.range c.n, ∑ f ∈ Finset.range c.nf, (sample c i f - C (lab i) f) ^ 2 := by
  have h := inertia_split c hsp lab hl (fun p => C (p % c.k) (p / c.k)) (fun p => centreOf c lab (p % c.k) (p / c.k))
    (fun a ha f _ => by simp only [(view_at c.k a f ha).1, (view_at c.k a f ha).2])
  have h1 : inertia c (fun p => C (p % c.k) (p / c.k)) lab = ∑ i ∈ Finset.range c.n, ∑ f ∈ Finset.range c.nf, (sample c i f - C (lab i) f) ^ 2 := by
    unfold inertia
    refine Finset.sum_congr rfl fun i hi => Finset.sum_congr rfl fun f _ => ?_
    simp only [(view_at c.k _ f (hl i (Finset.mem_range.mp hi))).1, (view_at c.k _ f (hl i (Finset.mem_range.mp hi))).2]
  have h2 : inertia c (fun p => centreOf c lab (p % c.k) (p / c.k)) lab = within c lab := by
    unfold inertia within
    refine Finset.sum_congr rfl fun i hi => Finset.sum_congr rfl fun f _ => ?_
    simp only [(view_at c.k _ f (hl i (Finset.mem_range.mp hi))).1, (view_at c.k _ f (hl i (Finset.mem_range.mp hi))).2]
  rw [h1, h2] at h
  rw [h]
  exact le_add_of_nonneg_right (Finset.sum_nonneg fun i _ => Finset.sum_nonneg fun f _ => sq_nonneg _)

theorem within_step (c : LCfg K) (hsp : c.spherical = false) (lab : Nat → Nat) (hl : ∀ i < c.n, lab i < c.k) (a p : Nat) (ha : a < c.k) (hz : num c.n lab a = 0) :
    within c (put lab p a) ≤ within c lab := by
  refine le_trans (within_le c hsp (put lab p a) (fun i hi => ?_) fun b f => if b = a then sample c p f else centreOf c lab b f) ?_
  · by_cases he : i = p
    · rw [he, put_same]; exact ha
    · rw [put_ne _ _ he]; exact hl i hi
  · unfold within
    refine Finset.sum_le_sum fun i hi => Finset.sum_le_sum fun f _ => ?_
    by_cases he : i = p
    · subst he
      rw [put_same, if_pos rfl, sub_self]
      simpa using sq_nonneg _
    · have hia : lab i ≠ a := fun e => by
        have := num_pos c.n lab i (Finset.mem_range.mp hi)
        rw [e] at this
        omega
      rw [put_ne _ _ he, if_neg hia]

theorem relocated_within (c : LCfg K) (hsp : c.spherical = false) (lab : Nat → Nat) (hl : ∀ i < c.n, lab i < c.k) {lab' : Nat → Nat} (h : Relocated c lab lab') :
    (∀ i < c.n, lab' i < c.k) ∧ within c lab' ≤ within c lab := by
  induction h with
  | refl => exact ⟨hl, le_refl _⟩
  | step lab' a p _ ha hz _ _ _ _ ih =>
    refine ⟨fun i hi => ?_, le_trans (within_step c hsp lab' ih.1 a p ha hz) ih.2⟩
    by_cases he : i = p
    · rw [he, put_same]; exact ha
    · rw [put_ne _ _ he]; exact ih.1 i hi

/-! ### The whole function -/

omit [Field K] [LinearOrder K] [IsStrictOrderedRing K] in
theorem empty_exists (c : LCfg K) (lab : Nat → Nat) : ecEmpty c.k (ecCount c.n lab) = 0 ↔ ∀ a < c.k, num c.n lab a ≠ 0 := by
  rw [ecEmpty_zero]
  refine forall₂_congr fun a _ => ?_
  rw [ecCount_spec]
  omega

/-- The state on entry to the loop over the clusters. -/
def ecStart (c : LCfg K) (byRows : Bool) (s : ESt K) : ESt K :=
  { s with wi := ecCount c.n s.lab, dist := forUp c.n (fun i d => put d i (ecDist c byRows s.cur i (s.lab i))) s.dist, stop := false }

/-- The state after it. -/
def ecEnd (c : LCfg K) (byRows : Bool) (s : ESt K) : ESt K :=
  forUp c.k (fun a t => ecCluster c byRows (decide (ecEmpty c.k (ecCount c.n s.lab) > 1)) a t) (ecStart c byRows s)

omit [IsStrictOrderedRing K] in
theorem handle_split (c : LCfg K) (byRows : Bool) (s : ESt K) (h : ¬ ∀ a < c.k, num c.n s.lab a ≠ 0) :
    handleEmpty c byRows false s = .ok { ecEnd c byRows s with count := forUp c.k (fun a m => put m a ((ecEnd c byRows s).wi a)) (ecEnd c byRows s).count } true := by
  rw [← empty_exists] at h
  unfold handleEmpty
  simp only [h, if_false, Bool.false_eq_true]
  rfl

theorem end_inv (c : LCfg K) (hsp : c.spherical = false) (byRows : Bool) (s : ESt K) (hl : ∀ i < c.n, s.lab i < c.k)
    (hm : ∀ a < c.k, num c.n s.lab a ≠ 0 → ∀ f < c.nf, s.cur (ecPos c byRows a f) = centreOf c s.lab a f) :
    LoopInv c byRows s.lab (decide (ecEmpty c.k (ecCount c.n s.lab) > 1)) c.k (ecEnd c byRows s) := by
  refine forUp_inv (body := fun a t => ecCluster c byRows (decide (ecEmpty c.k (ecCount c.n s.lab) > 1)) a t) (s := ecStart c byRows s)
    (fun b t => LoopInv c byRows s.lab (decide (ecEmpty c.k (ecCount c.n s.lab) > 1)) b t) c.k ?_ ?_
  · refine ⟨⟨hl, fun a _ => ecCount_spec c.n s.lab a, fun a ha hn f hf => ?_⟩, Relocated.refl, (fun _ a ha => by omega), (fun h => by cases h), fun _ i hi => ?_, fun a _ _ h => h, fun h => absurd rfl h⟩
    · change num c.n s.lab a ≠ 0 at hn
      have hnz : (num c.n s.lab a : K) ≠ 0 := Nat.cast_ne_zero.mpr hn
      change s.cur (ecPos c byRows a f) * (num c.n s.lab a : K) = tot c c.n s.lab a f
      rw [hm a ha hn f hf, centreOf_def, hsp]
      simp only [Bool.false_eq_true, if_false]
      rw [show max 1 (num c.n s.lab a) = num c.n s.lab a by omega, mul_assoc, one_div_mul_cancel hnz, mul_one]
    · exact (forUp_put (fun i => i) (fun i _ => ecDist c byRows s.cur i (s.lab i)) s.dist c.n (fun _ _ _ _ h => h)).1 i hi
  · intro b t hb h
    refine cluster_inv c hsp byRows s.lab _ (fun a b hab hb' h1 h2 => ?_) b hb t h
    rw [decide_eq_true_eq]
    exact ecEmpty_two c.k _ a b hab hb' (by rw [ecCount_spec, h1]; rfl) (by rw [ecCount_spec, h2]; rfl)

omit [IsStrictOrderedRing K] in
/-- With at least as many samples as clusters no cluster stays empty. -/
theorem all_filled (c : LCfg K) (byRows : Bool) (lab0 : Nat → Nat) (many : Bool) (s : ESt K) (h : LoopInv c byRows lab0 many c.k s) (hk : c.k ≤ c.n) :
    ∀ a < c.k, num c.n s.lab a ≠ 0 := by
  intro a ha hz
  cases hst : s.stop with
  | false => exact h.go hst a ha hz
  | true =>
    have htot := num_total c.n c.k s.lab h.inv.lab
    have hlt : ∑ b ∈ Finset.range c.k, num c.n s.lab b < ∑ b ∈ Finset.range c.k, 1 :=
      Finset.sum_lt_sum (fun b hb => h.stopped hst b (Finset.mem_range.mp hb)) ⟨a, Finset.mem_range.mpr ha, by omega⟩
    simp only [Finset.sum_const, Finset.card_range, smul_eq_mul, Nat.mul_one] at hlt
    omega


omit [IsStrictOrderedRing K] in
/-- Labels in range and counts are kept for spherical clustering too. -/
theorem end_counts (c : LCfg K) (byRows : Bool) (s : ESt K) (hl : ∀ i < c.n, s.lab i < c.k) :
    (∀ i < c.n, (ecEnd c byRows s).lab i < c.k) ∧ ∀ a < c.k, (ecEnd c byRows s).wi a = (num c.n (ecEnd c byRows s).lab a : Int) ∧
      (num c.n s.lab a ≠ 0 → num c.n (ecEnd c byRows s).lab a ≠ 0) := by
  refine forUp_inv (body := fun a t => ecCluster c byRows (decide (ecEmpty c.k (ecCount c.n s.lab) > 1)) a t) (s := ecStart c byRows s)
    (fun _ t => (∀ i < c.n, t.lab i < c.k) ∧ ∀ a < c.k, t.wi a = (num c.n t.lab a : Int) ∧ (num c.n s.lab a ≠ 0 → num c.n t.lab a ≠ 0)) c.k ?_ ?_
  · exact ⟨hl, fun a _ => ⟨ecCount_spec c.n s.lab a, fun h => h⟩⟩
  · rintro b t hb ⟨h1, h2⟩
    unfold ecCluster
    by_cases hc : t.stop = true ∨ t.wi b ≠ 0
    · rw [if_pos hc]; exact ⟨h1, h2⟩
    · rw [if_neg hc]
      simp only [not_or, ne_eq, not_not, Bool.not_eq_true] at hc
      obtain ⟨hp1, _⟩ := ecPick_spec c.n t.lab t.wi t.dist
      cases hpick : (ecPick c.n t.lab t.wi t.dist).1 with
      | none => exact ⟨h1, h2⟩
      | some p =>
        obtain ⟨hp, hw, _⟩ := hp1 p hpick
        have ho := h1 p hp
        have hne : t.lab p ≠ b := fun e => by rw [e, hc.2] at hw; omega
        refine ⟨fun i hi => ?_, fun a ha => ⟨move_counts c byRows _ b p t (fun a ha => (h2 a ha).1) hb hp ho hne hc.2 a ha, fun hnz => ?_⟩⟩
        · change put t.lab p b i < c.k
          by_cases he : i = p
          · rw [he, put_same]; exact hb
          · rw [put_ne _ _ he]; exact h1 i hi
        · change num c.n (put t.lab p b) a ≠ 0
          have hn := num_put c.n t.lab p b hp hne a
          have := (h2 a ha).2 hnz
          by_cases h3 : a = t.lab p
          · have := (h2 _ ho).1
            rw [if_pos h3, h3] at hn
            rw [h3]
            omega
          · rw [if_neg h3] at hn
            omega

/-! ### Spherical clustering -/

/-- What a centre is multiplied with. -/
def unitBy (c : LCfg K) (v : Nat → K) : K :=
  if ∑ f ∈ Finset.range c.nf, v f * v f > 0 then 1 / c.sqrt (∑ f ∈ Finset.range c.nf, v f * v f) else 1

omit [IsStrictOrderedRing K] in
theorem ecUnit_spec (c : LCfg K) (byRows : Bool) (a : Nat) (ha : a < c.k) (m : Nat → K) : ∀ j < c.k, ∀ f < c.nf,
    ecUnit c byRows a m (ecPos c byRows j f) = if j = a then m (ecPos c byRows j f) * unitBy c (fun f => m (ecPos c byRows a f)) else m (ecPos c byRows j f) := by
  intro j hj f hf
  unfold ecUnit unitBy
  simp only [sumTo_eq]
  by_cases hq : ∑ f ∈ Finset.range c.nf, m (ecPos c byRows a f) * m (ecPos c byRows a f) > 0
  · rw [if_pos hq, if_pos hq, ecPut_spec c byRows a ha (fun f v => v * (1 / c.sqrt (∑ f ∈ Finset.range c.nf, m (ecPos c byRows a f) * m (ecPos c byRows a f)))) m j hj f hf]
  · rw [if_neg hq, if_neg hq]
    simp

omit [IsStrictOrderedRing K] in
/-- The centres after a move: the new one is the sample scaled, and no centre but those two changes. -/
theorem move_centres (c : LCfg K) (hsp : c.spherical = true) (byRows many : Bool) (a p : Nat) (s : ESt K) (ha : a < c.k) (ho : s.lab p < c.k) (hne : s.lab p ≠ a) :
    ∀ f < c.nf, (ecMove c byRows many a p s).cur (ecPos c byRows a f) = term c p f * unitBy c (term c p) ∧
      ∀ j < c.k, j ≠ a → j ≠ s.lab p → (ecMove c byRows many a p s).cur (ecPos c byRows j f) = s.cur (ecPos c byRows j f) := by
  intro f hf
  have hcur : (ecMove c byRows many a p s).cur = ecUnit c byRows a (ecUnit c byRows (s.lab p) (ecShift c byRows a p s)) := by
    unfold ecMove
    simp only [hsp, if_true]
    rfl
  have hsh := ecShift_spec c byRows a p s ha ho
  have hu1 := ecUnit_spec c byRows (s.lab p) ho (ecShift c byRows a p s)
  have hu2 := ecUnit_spec c byRows a ha (ecUnit c byRows (s.lab p) (ecShift c byRows a p s))
  have hval : ∀ f < c.nf, ecUnit c byRows (s.lab p) (ecShift c byRows a p s) (ecPos c byRows a f) = term c p f := fun f hf => by
    rw [hu1 a ha f hf, if_neg (Ne.symm hne), hsh a ha f hf, if_pos rfl]
  refine ⟨?_, fun j hj h1 h2 => ?_⟩
  · rw [hcur, hu2 a ha f hf, if_pos rfl, hval f hf]
    congr 1
    unfold unitBy
    have : ∑ f ∈ Finset.range c.nf, ecUnit c byRows (s.lab p) (ecShift c byRows a p s) (ecPos c byRows a f) * ecUnit c byRows (s.lab p) (ecShift c byRows a p s) (ecPos c byRows a f) =
        ∑ f ∈ Finset.range c.nf, term c p f * term c p f := Finset.sum_congr rfl fun f hf => by rw [hval f (Finset.mem_range.mp hf)]
    rw [this]
  · rw [hcur, hu2 j hj f hf, if_neg h1, hu1 j hj f hf, if_neg h2, hsh j hj f hf, if_neg h1, if_neg h2]

omit [IsStrictOrderedRing K] in
theorem end_spherical (c : LCfg K) (hsp : c.spherical = true) (byRows : Bool) (s : ESt K) (hl : ∀ i < c.n, s.lab i < c.k) :
    let r := ecEnd c byRows s
    ∀ a < c.k, (num c.n s.lab a = 0 → num c.n r.lab a = 0 ∨ (num c.n r.lab a = 1 ∧ ∃ p < c.n, r.lab p = a ∧ ∀ f < c.nf, r.cur (ecPos c byRows a f) = term c p f * unitBy c (term c p))) ∧
      (num c.n s.lab a ≠ 0 → num c.n r.lab a ≤ num c.n s.lab a) ∧
      (num c.n r.lab a = num c.n s.lab a → ∀ f < c.nf, r.cur (ecPos c byRows a f) = s.cur (ecPos c byRows a f)) := by
  intro r
  have := forUp_inv (body := fun a t => ecCluster c byRows (decide (ecEmpty c.k (ecCount c.n s.lab) > 1)) a t) (s := ecStart c byRows s)
    (fun _ t => ((∀ i < c.n, t.lab i < c.k) ∧ ∀ a < c.k, t.wi a = (num c.n t.lab a : Int)) ∧
      ∀ a < c.k, (num c.n s.lab a = 0 → num c.n t.lab a = 0 ∨ (num c.n t.lab a = 1 ∧ ∃ p < c.n, t.lab p = a ∧ ∀ f < c.nf, t.cur (ecPos c byRows a f) = term c p f * unitBy c (term c p))) ∧
      (num c.n s.lab a ≠ 0 → num c.n t.lab a ≤ num c.n s.lab a) ∧ (num c.n s.lab a ≠ 0 → num c.n t.lab a ≠ 0) ∧
      (num c.n t.lab a = num c.n s.lab a → ∀ f < c.nf, t.cur (ecPos c byRows a f) = s.cur (ecPos c byRows a f))) c.k ?_ ?_
  · intro a ha
    obtain ⟨h1, h2, _, h3⟩ := this.2 a ha
    exact ⟨h1, h2, h3⟩
  · exact ⟨⟨hl, fun a _ => ecCount_spec c.n s.lab a⟩, fun a _ => ⟨fun h => Or.inl h, fun _ => le_refl _, fun h => h, fun _ _ _ => rfl⟩⟩
  · rintro b t hb ⟨⟨h1, h2⟩, h3⟩
    unfold ecCluster
    by_cases hc : t.stop = true ∨ t.wi b ≠ 0
    · rw [if_pos hc]; exact ⟨⟨h1, h2⟩, h3⟩
    · rw [if_neg hc]
      simp only [not_or, ne_eq, not_not, Bool.not_eq_true] at hc
      obtain ⟨hp1, _⟩ := ecPick_spec c.n t.lab t.wi t.dist
      cases hpick : (ecPick c.n t.lab t.wi t.dist).1 with
      | none => exact ⟨⟨h1, h2⟩, h3⟩
      | some p =>
        obtain ⟨hp, hw, _⟩ := hp1 p hpick
        have ho := h1 p hp
        have hne : t.lab p ≠ b := fun e => by rw [e, hc.2] at hw; omega
        have hcnt := move_counts c byRows (decide (ecEmpty c.k (ecCount c.n s.lab) > 1)) b p t h2 hb hp ho hne hc.2
        have hcen := move_centres c hsp byRows (decide (ecEmpty c.k (ecCount c.n s.lab) > 1)) b p t hb ho hne
        have hlab : (ecMove c byRows (decide (ecEmpty c.k (ecCount c.n s.lab) > 1)) b p t).lab = put t.lab p b := rfl
        simp only
        generalize ecMove c byRows (decide (ecEmpty c.k (ecCount c.n s.lab) > 1)) b p t = u at hcnt hcen hlab ⊢
        rw [hlab]
        refine ⟨⟨fun i hi => ?_, hcnt⟩, fun a ha => ?_⟩
        · by_cases he : i = p
          · rw [he, put_same]; exact hb
          · rw [put_ne _ _ he]; exact h1 i hi
        · have hn := num_put c.n t.lab p b hp hne a
          obtain ⟨g1, g2, g3, g4⟩ := h3 a ha
          have hwb := h2 b hb
          have hwo := h2 _ ho
          by_cases e1 : a = b
          · subst e1
            rw [if_neg (Ne.symm hne), if_pos rfl] at hn
            have hz : num c.n s.lab a = 0 := by
              by_contra hnz
              have := g3 hnz
              omega
            refine ⟨fun _ => Or.inr ⟨by omega, p, hp, put_same .., fun f hf => (hcen f hf).1⟩, fun h => absurd hz h, fun h => absurd hz h, fun h => by omega⟩
          · by_cases e2 : a = t.lab p
            · rw [if_pos e2, if_neg e1, Nat.add_zero] at hn
              rw [← e2] at hwo hw
              have hnz : num c.n s.lab a ≠ 0 := fun hz => by
                rcases g1 hz with h | h <;> omega
              have := g2 hnz
              exact ⟨fun h => absurd h hnz, fun _ => by omega, fun _ => by omega, fun h => by omega⟩
            · rw [if_neg e2, if_neg e1] at hn
              have hn' : num c.n (put t.lab p b) a = num c.n t.lab a := by omega
              rw [hn']
              refine ⟨fun h => ?_, g2, g3, fun h f hf => by rw [(hcen f hf).2 a ha e1 e2]; exact g4 h f hf⟩
              rcases g1 h with h' | ⟨h', q, hq, hqa, hqf⟩
              · exact Or.inl h'
              · refine Or.inr ⟨h', q, hq, ?_, fun f hf => by rw [(hcen f hf).2 a ha e1 e2]; exact hqf f hf⟩
                rw [put_ne _ _ fun e => e2 (by rw [← hqa, e])]
                exact hqa


theorem dot_le (m : Nat) (x y : Nat → K) (hx : ∑ f ∈ Finset.range m, x f * x f ≤ 1) (hy : ∑ f ∈ Finset.range m, y f * y f ≤ 1) : ∑ f ∈ Finset.range m, x f * y f ≤ 1 := by
  have h : ∑ f ∈ Finset.range m, (2 * (x f * y f)) ≤ ∑ f ∈ Finset.range m, (x f * x f + y f * y f) := Finset.sum_le_sum fun f _ => by nlinarith [sq_nonneg (x f - y f)]
  rw [← Finset.mul_sum, Finset.sum_add_distrib] at h
  linarith

/-- A distance from a centre of length at most one. -/
theorem ecDist_nonneg (c : LCfg K) (hsp : c.spherical = true) (byRows : Bool) (C : Nat → K) (i a : Nat) (hx : ∑ f ∈ Finset.range c.nf, term c i f * term c i f ≤ 1)
    (hy : ∑ f ∈ Finset.range c.nf, C (ecPos c byRows a f) * C (ecPos c byRows a f) ≤ 1) : 0 ≤ ecDist c byRows C i a := by
  have h := dot_le c.nf (term c i) (fun f => C (ecPos c byRows a f)) hx hy
  have e : ecDist c byRows C i a = 1 - ∑ f ∈ Finset.range c.nf, term c i f * C (ecPos c byRows a f) := by
    unfold ecDist
    simp only [hsp, if_true, sumTo_eq, elem_sample, Nat.zero_add]
    congr 1
    unfold term
    rw [hsp]
    cases c.normalize
    · simp
    · simp only [Bool.and_true, if_true]
      rw [Finset.sum_mul]
      refine Finset.sum_congr rfl fun f _ => by ring
  rw [e]
  linarith

/-- A scaled vector has length at most one when the root is not too small. -/
theorem unit_le (c : LCfg K) (hroot : ∀ v, 0 < v → v ≤ c.sqrt v * c.sqrt v) (v : Nat → K) : ∑ f ∈ Finset.range c.nf, (v f * unitBy c v) * (v f * unitBy c v) ≤ 1 := by
  have e : ∑ f ∈ Finset.range c.nf, (v f * unitBy c v) * (v f * unitBy c v) = (∑ f ∈ Finset.range c.nf, v f * v f) * (unitBy c v * unitBy c v) := by
    rw [Finset.sum_mul]
    exact Finset.sum_congr rfl fun f _ => by ring
  rw [e]
  unfold unitBy
  have hnn : 0 ≤ ∑ f ∈ Finset.range c.nf, v f * v f := Finset.sum_nonneg fun f _ => mul_self_nonneg _
  generalize ∑ f ∈ Finset.range c.nf, v f * v f = q at hnn
  by_cases hq : q > 0
  · rw [if_pos hq]
    have hr := hroot q hq
    have hpos : 0 < c.sqrt q * c.sqrt q := lt_of_lt_of_le hq hr
    rw [show q * (1 / c.sqrt q * (1 / c.sqrt q)) = q / (c.sqrt q * c.sqrt q) by rw [div_mul_div_comm, one_mul, mul_one_div]]
    rw [div_le_one hpos]
    exact hr
  · rw [if_neg hq]
    have : q = 0 := le_antisymm (not_lt.mp hq) hnn
    rw [this]
    simp

/-- With unit vectors no cluster stays empty when there are enough samples. -/
theorem end_filled (c : LCfg K) (hsp : c.spherical = true) (hroot : ∀ v, 0 < v → v ≤ c.sqrt v * c.sqrt v) (hunit : ∀ i < c.n, ∑ f ∈ Finset.range c.nf, term c i f * term c i f ≤ 1)
    (byRows : Bool) (s : ESt K) (hl : ∀ i < c.n, s.lab i < c.k)
    (hcen : ∀ a < c.k, num c.n s.lab a ≠ 0 → ∑ f ∈ Finset.range c.nf, s.cur (ecPos c byRows a f) * s.cur (ecPos c byRows a f) ≤ 1) :
    (∀ a < c.k, num c.n (ecEnd c byRows s).lab a ≠ 0) ∨ ∀ a < c.k, num c.n (ecEnd c byRows s).lab a ≤ 1 := by
  have := forUp_inv (body := fun a t => ecCluster c byRows (decide (ecEmpty c.k (ecCount c.n s.lab) > 1)) a t) (s := ecStart c byRows s)
    (fun b t => ((∀ i < c.n, t.lab i < c.k) ∧ ∀ a < c.k, t.wi a = (num c.n t.lab a : Int)) ∧ (∀ i < c.n, 0 ≤ t.dist i) ∧
      (t.stop = false → ∀ a < b, num c.n t.lab a ≠ 0) ∧ (t.stop = true → ∀ a < c.k, num c.n t.lab a ≤ 1)) c.k ?_ ?_
  · change _ ∧ _ ∧ ((ecEnd c byRows s).stop = false → ∀ a < c.k, num c.n (ecEnd c byRows s).lab a ≠ 0) ∧ ((ecEnd c byRows s).stop = true → ∀ a < c.k, num c.n (ecEnd c byRows s).lab a ≤ 1) at this
    cases hst : (ecEnd c byRows s).stop with
    | false => exact Or.inl (this.2.2.1 hst)
    | true => exact Or.inr (this.2.2.2 hst)
  · refine ⟨⟨hl, fun a _ => ecCount_spec c.n s.lab a⟩, fun i hi => ?_, (fun _ a ha => by omega), (fun h => by cases h)⟩
    rw [show (ecStart c byRows s).dist i = ecDist c byRows s.cur i (s.lab i) from
      (forUp_put (fun i => i) (fun i _ => ecDist c byRows s.cur i (s.lab i)) s.dist c.n (fun _ _ _ _ h => h)).1 i hi]
    refine ecDist_nonneg c hsp byRows s.cur i _ (hunit i hi) (hcen _ (hl i hi) ?_)
    have := num_pos c.n s.lab i hi
    omega
  · rintro b t hb ⟨⟨h1, h2⟩, h3, h4, h5⟩
    unfold ecCluster
    by_cases hc : t.stop = true ∨ t.wi b ≠ 0
    · rw [if_pos hc]
      refine ⟨⟨h1, h2⟩, h3, fun hgo a ha => ?_, h5⟩
      rcases Nat.lt_or_ge a b with h' | h'
      · exact h4 hgo a h'
      · rw [show a = b by omega]
        have hw := hc.resolve_left (by rw [hgo]; decide)
        have := h2 b hb
        omega
    · rw [if_neg hc]
      simp only [not_or, ne_eq, not_not, Bool.not_eq_true] at hc
      obtain ⟨hp1, hp2⟩ := ecPick_spec c.n t.lab t.wi t.dist
      cases hpick : (ecPick c.n t.lab t.wi t.dist).1 with
      | none =>
        simp only
        refine ⟨⟨h1, h2⟩, h3, (fun h => by cases h), fun _ a ha => ?_⟩
        by_contra hgt
        obtain ⟨i, hi, hia⟩ : ∃ i < c.n, t.lab i = a := by
          by_contra hno
          have : num c.n t.lab a = 0 := Finset.sum_eq_zero fun i hi => if_neg fun e => hno ⟨i, Finset.mem_range.mp hi, e⟩
          omega
        have hle := hp2 hpick i hi (by rw [hia, h2 a ha]; omega)
        have := h3 i hi
        linarith
      | some p =>
        obtain ⟨hp, hw, _⟩ := hp1 p hpick
        have ho := h1 p hp
        have hne : t.lab p ≠ b := fun e => by rw [e, hc.2] at hw; omega
        have hcnt := move_counts c byRows (decide (ecEmpty c.k (ecCount c.n s.lab) > 1)) b p t h2 hb hp ho hne hc.2
        refine ⟨⟨fun i hi => ?_, hcnt⟩, fun i hi => ?_, fun _ a ha => ?_, fun hst => ?_⟩
        · change put t.lab p b i < c.k
          by_cases he : i = p
          · rw [he, put_same]; exact hb
          · rw [put_ne _ _ he]; exact h1 i hi
        · -- the distances
          have hlen : ∑ f ∈ Finset.range c.nf, (ecMove c byRows (decide (ecEmpty c.k (ecCount c.n s.lab) > 1)) b p t).cur (ecPos c byRows (t.lab p) f) *
              (ecMove c byRows (decide (ecEmpty c.k (ecCount c.n s.lab) > 1)) b p t).cur (ecPos c byRows (t.lab p) f) ≤ 1 := by
            have hcur : (ecMove c byRows (decide (ecEmpty c.k (ecCount c.n s.lab) > 1)) b p t).cur = ecUnit c byRows b (ecUnit c byRows (t.lab p) (ecShift c byRows b p t)) := by
              unfold ecMove
              simp only [hsp, if_true]
              rfl
            rw [hcur]
            refine le_trans (le_of_eq (Finset.sum_congr rfl fun f hf => ?_)) (unit_le c hroot fun f => ecShift c byRows b p t (ecPos c byRows (t.lab p) f))
            rw [ecUnit_spec c byRows b hb _ _ ho f (Finset.mem_range.mp hf), if_neg hne, ecUnit_spec c byRows _ ho _ _ ho f (Finset.mem_range.mp hf), if_pos rfl]
          have hput : ∀ i < c.n, 0 ≤ put t.dist p 0 i := fun i hi => by
            by_cases he : i = p
            · rw [he, put_same]
            · rw [put_ne _ _ he]; exact h3 i hi
          have hdist : (ecMove c byRows (decide (ecEmpty c.k (ecCount c.n s.lab) > 1)) b p t).dist =
              if decide (ecEmpty c.k (ecCount c.n s.lab) > 1) = true then forUp c.n (fun i d => if put t.lab p b i = t.lab p then put d i (ecDist c byRows
                (ecMove c byRows (decide (ecEmpty c.k (ecCount c.n s.lab) > 1)) b p t).cur i (t.lab p)) else d) (put t.dist p 0) else put t.dist p 0 := rfl
          simp only
          rw [hdist]
          generalize (ecMove c byRows (decide (ecEmpty c.k (ecCount c.n s.lab) > 1)) b p t).cur = C at hlen
          split
          · refine forUp_inv (body := fun i d => if put t.lab p b i = t.lab p then put d i (ecDist c byRows C i (t.lab p)) else d) (s := put t.dist p 0)
              (fun _ d => ∀ i < c.n, 0 ≤ d i) c.n hput ?_ i hi
            intro m d hm hd i hi
            by_cases hm' : put t.lab p b m = t.lab p
            · rw [if_pos hm']
              by_cases he : i = m
              · rw [he, put_same]
                exact ecDist_nonneg c hsp byRows C m _ (hunit m hm) hlen
              · rw [put_ne _ _ he]; exact hd i hi
            · rw [if_neg hm']; exact hd i hi
          · exact hput i hi
        · change num c.n (put t.lab p b) a ≠ 0
          have hn := num_put c.n t.lab p b hp hne a
          have hwo := h2 _ ho
          rcases Nat.lt_or_ge a b with h' | h'
          · have := h4 hc.1 a h'
            rw [if_neg (show a ≠ b by omega)] at hn
            by_cases h6 : a = t.lab p
            · rw [if_pos h6, h6] at hn
              rw [h6]
              omega
            · rw [if_neg h6] at hn
              omega
          · rw [if_pos (show a = b by omega), if_neg (fun e => hne (by omega))] at hn
            omega
        · have : (ecMove c byRows (decide (ecEmpty c.k (ecCount c.n s.lab) > 1)) b p t).stop = t.stop := rfl
          rw [this, hc.1] at hst
          cases hst

end Verif.Kmeans
