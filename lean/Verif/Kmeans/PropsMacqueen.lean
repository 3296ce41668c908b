import Verif.Kmeans.MacqueenFirst
import Verif.Kmeans.PropsLloyd
import Mathlib.Data.Rat.Sqrt

/-
C90: MacQueen's k-means keeps every centre the mean of its samples after every move, gives back nearest centres and stops.
-/
namespace Verif.Kmeans

open Verif.HalfBlas (put forUp)

variable {K : Type} [Field K] [LinearOrder K] [IsStrictOrderedRing K]

/-- At least one cluster and a block size. -/
def MCfgOk (c : LCfg K) : Prop := 0 < c.k ∧ 0 < c.bs ∧ RootOk c ∧ InvOk c

omit [IsStrictOrderedRing K] in
theorem mcfg_def (c : LCfg K) : MCfgOk c ↔ 0 < c.k ∧ 0 < c.bs ∧ (c.spherical = true → ∀ v : K, 0 < v → c.sqrt v ≠ 0) ∧
    (c.spherical = true → c.normalize = true → ∀ i < c.n, 0 < c.inv i ∨ ∀ f < c.nf, sample c i f = 0) := Iff.rfl

/-! ### The labels -/

/-- **C90**, the labels: those given back are nearest to the centres given back. -/
def C90_statement : Prop := ∀ (K : Type) [Field K] [LinearOrder K] [IsStrictOrderedRing K] (c : LCfg K), MCfgOk c → ∀ (maxIter : Nat) (bound : K) (s : MSt K),
  LNearest c (mqPerform c maxIter bound s).1.cur (mqPerform c maxIter bound s).1.curLab

/-- Four samples 1, 2, 10, 11 and two clusters. -/
def mqCfg : LCfg ℚ := ⟨4, 2, 1, 4, 4, 0, false, false, true, false, none, Rat.sqrt, fun i => [1, 2, 10, 11].getD i 0, fun _ => 1⟩

def mqSt (C : List ℚ) : MSt ℚ := ⟨fun _ => 7, fun i => C.getD i 0, fun _ => 9, fun _ => 9, fun _ => 3, fun _ => 5, fun _ => 8⟩

theorem mqCfg_ok : MCfgOk mqCfg := ⟨by decide, by decide, (fun h => by cases h), (fun h => by cases h)⟩

/-- The run from the centres 10 and 1: every sample gets the label 1 at the start; the norm of the empty centre stays
100 although the centre is 0, so no sample ever leaves. -/
theorem mq_witness : (let r := mqPerform mqCfg 10 0 (mqSt [10, 1]); ((List.range 4).map r.1.curLab, (List.range 2).map r.1.cur, (List.range 2).map r.1.norms, r.2)) =
    ([1, 1, 1, 1], [0, 6], [100, 1], 2, 2) := by decide +kernel

/-- The sample 1 is nearer to the centre 0 than to the centre 6 of its label. -/
theorem C90_violated : ¬ C90_statement := by
  intro h
  have := (h ℚ mqCfg mqCfg_ok 10 0 (mqSt [10, 1]) 0 (by decide)).2 0 (by decide)
  revert this
  decide +kernel

/-- **C90**, the first labels: they are nearest to the initial centres. -/
def C90_first_statement : Prop := ∀ (K : Type) [Field K] [LinearOrder K] [IsStrictOrderedRing K] (c : LCfg K), MCfgOk c → ∀ s : MSt K,
  LNearest c s.cur (mqInit c s).curLab

/-- The sample 10 gets the label 1, although the initial centre 0 is at 10 and the centre 1 at 1. -/
theorem C90_first_violated : ¬ C90_first_statement := by
  intro h
  have := (h ℚ mqCfg mqCfg_ok (mqSt [10, 1]) 2 (by decide)).2 0 (by decide)
  revert this
  decide +kernel

/-- **C90**, the first labels: the first sample of every block gets a nearest centre, every other one gets a nearest
among the centres other than the first, or the first.  Missing from `C90_first_statement`: the comparison of the other
samples with the first centre. -/
theorem C90_first_partial (c : LCfg K) (hc : MCfgOk c) (s : MSt K) (i : Nat) (hi : i < c.n) :
    let l := (mqInit c s).curLab i
    l < c.k ∧ ∀ b < c.k, i % c.bs = 0 ∨ (l ≠ 0 ∧ b ≠ 0) →
      if c.spherical then (∑ f ∈ Finset.range c.nf, sample c i f * s.cur (b + f * c.k)) ≤ ∑ f ∈ Finset.range c.nf, sample c i f * s.cur (l + f * c.k)
      else (∑ f ∈ Finset.range c.nf, (sample c i f - s.cur (l + f * c.k)) ^ 2) ≤ ∑ f ∈ Finset.range c.nf, (sample c i f - s.cur (b + f * c.k)) ^ 2 := by
  intro l
  obtain ⟨h1, h2, h3⟩ := init_first c hc.1 hc.2.1 s i hi
  change l < c.k at h1
  change l ≠ 0 → ∀ j < c.k, j ≠ 0 → score c s.cur i l ≤ score c s.cur i j at h2
  change _ → ∀ j < c.k, score c s.cur i l ≤ score c s.cur i j at h3
  clear_value l
  refine ⟨h1, fun b hb hor => ?_⟩
  have h4 : score c s.cur i l ≤ score c s.cur i b := hor.elim (fun h => h3 h b hb) fun h => h2 h.1 b hb h.2
  have h5 : far c s.cur i l ≤ far c s.cur i b := by rw [far_score, far_score]; linarith
  unfold far at h5
  cases hs : c.spherical
  · rw [hs] at h5
    simpa using h5
  · rw [hs] at h5
    simpa using h5

/-- In blocks of one sample all first labels are nearest. -/
example : (List.range 4).map (mqInit { mqCfg with bs := 1 } (mqSt [10, 1])).curLab = [1, 1, 0, 0] ∧ (List.range 4).map (mqInit mqCfg (mqSt [10, 1])).curLab = [1, 1, 1, 1] := by decide +kernel

/-! ### The means -/

/-- **C90**, the means: after the initialization and any number of iterations, for any initial centres and any contents
of the work arrays, the labels are in range, every count is that of its label, and every centre is the mean of the
samples of its label (zero without samples), or the sum of their unit vectors scaled to length one. -/
theorem C90_means (c : LCfg K) (hc : MCfgOk c) (s : MSt K) (t : Nat) :
    let r := mqStates c s t
    (∀ i < c.n, r.curLab i < c.k) ∧ ∀ a < c.k, r.count a = ((lmembers c r.curLab a).card : Int) ∧
      (c.spherical = false → ∀ f < c.nf, r.cur (a + f * c.k) * ((max 1 (lmembers c r.curLab a).card : Nat) : K) = ∑ i ∈ lmembers c r.curLab a, sample c i f) ∧
      (c.spherical = true → ∃ q : K,
        ((c.sqrt (∑ f ∈ Finset.range c.nf, (∑ i ∈ lmembers c r.curLab a, sample c i f * (if c.normalize then c.inv i else 1)) ^ 2) = 0 ∧ q = 1) ∨
          q * c.sqrt (∑ f ∈ Finset.range c.nf, (∑ i ∈ lmembers c r.curLab a, sample c i f * (if c.normalize then c.inv i else 1)) ^ 2) = 1) ∧
        ∀ f < c.nf, r.cur (a + f * c.k) = (∑ i ∈ lmembers c r.curLab a, sample c i f * (if c.normalize then c.inv i else 1)) * q) := by
  intro r
  obtain ⟨h1, h2, h3⟩ := states_inv c hc.1 hc.2.1 hc.2.2.1 s t
  change ∀ i < c.n, r.curLab i < c.k at h1
  change ∀ a < c.k, r.count a = (num c.n r.curLab a : Int) at h2
  change ∀ a < c.k, ∀ f < c.nf, r.cur (a + f * c.k) = centreOf c r.curLab a f at h3
  clear_value r
  have hcard : ∀ a, (∑ i ∈ Finset.range c.n, if r.curLab i = a then 1 else 0) = (lmembers c r.curLab a).card := fun a => by
    rw [lmembers, Finset.card_filter]
  refine ⟨h1, fun a ha => ⟨by rw [h2 a ha, num, hcard], fun hsp f hf => ?_, fun hsp => ?_⟩⟩
  · rw [h3 a ha f hf]
    unfold centreOf
    simp only [centreOf_members, hcard]
    simp only [hsp, Bool.false_and, Bool.false_eq_true, if_false, mul_one]
    rw [mul_assoc, one_div_mul_cancel, mul_one]
    exact_mod_cast (by omega : max 1 (lmembers c r.curLab a).card ≠ 0)
  · refine ⟨if c.sqrt (∑ f ∈ Finset.range c.nf, (∑ i ∈ lmembers c r.curLab a, sample c i f * (if c.normalize then c.inv i else 1)) ^ 2) = 0 then 1
      else 1 / c.sqrt (∑ f ∈ Finset.range c.nf, (∑ i ∈ lmembers c r.curLab a, sample c i f * (if c.normalize then c.inv i else 1)) ^ 2), ?_, fun f hf => ?_⟩
    rotate_left
    · rw [h3 a ha f hf]
      unfold centreOf
      simp only [centreOf_members]
      simp only [hsp, Bool.true_and, if_true, sq]
    · generalize c.sqrt (∑ f ∈ Finset.range c.nf, (∑ i ∈ lmembers c r.curLab a, sample c i f * (if c.normalize then c.inv i else 1)) ^ 2) = nrm
      by_cases hne : nrm = 0
      · exact Or.inl ⟨hne, if_pos hne⟩
      · rw [if_neg hne]
        exact Or.inr (one_div_mul_cancel hne)

/-! ### How a run ends -/

omit [IsStrictOrderedRing K] in
theorem mq_end (c : LCfg K) (bound : K) (s : MSt K) : ∀ fuel it,
    let r := mqLoop c bound fuel it (mqStates c s it)
    (r = (mqStates c s (it + fuel), 0, it + fuel) ∧ ∀ t, it ≤ t → t < it + fuel → mqConv c bound t (mqStates c s (t + 1)) = 0) ∨
    ∃ t, it ≤ t ∧ t < it + fuel ∧ r = (mqStates c s (t + 1), mqConv c bound t (mqStates c s (t + 1)), t) ∧
      mqConv c bound t (mqStates c s (t + 1)) > 0 ∧ ∀ u, it ≤ u → u < t → mqConv c bound u (mqStates c s (u + 1)) = 0 := by
  intro fuel
  induction fuel with
  | zero => intro it; exact Or.inl ⟨rfl, fun t h1 h2 => by omega⟩
  | succ fuel ih =>
    intro it
    unfold mqLoop
    simp only
    have hst : mqIteration c true (swapM (mqStates c s it)) = mqStates c s (it + 1) := rfl
    rw [hst]
    by_cases hcv : mqConv c bound it (mqStates c s (it + 1)) > 0
    · rw [if_pos hcv]
      exact Or.inr ⟨it, le_refl _, by omega, rfl, hcv, fun u h1 h2 => by omega⟩
    · rw [if_neg hcv]
      rcases ih (it + 1) with ⟨h1, h2⟩ | ⟨t, h1, h2, h3, h4, h5⟩
      · left
        refine ⟨by rw [h1, show it + 1 + fuel = it + (fuel + 1) by omega], fun t ht1 ht2 => ?_⟩
        rcases Nat.lt_or_ge it t with h | h
        · exact h2 t (by omega) (by omega)
        · rw [show t = it by omega]; omega
      · right
        refine ⟨t, by omega, by omega, h3, h4, fun u hu1 hu2 => ?_⟩
        rcases Nat.lt_or_ge it u with h | h
        · exact h5 u (by omega) hu2
        · rw [show u = it by omega]; omega

omit [IsStrictOrderedRing K] in
theorem mqConv_two (c : LCfg K) (bound : K) (t : Nat) (s : MSt K) : mqConv c bound t s = 2 ↔ 1 < t ∧ ∀ i < c.n, s.curLab i = s.prevLab i := by
  unfold mqConv
  by_cases h : t > 1 ∧ (List.range c.n).all (fun i => s.curLab i == s.prevLab i) = true
  · rw [if_pos h]
    exact ⟨fun _ => ⟨h.1, fun i hi => beq_iff_eq.mp (List.all_eq_true.mp h.2 i (List.mem_range.mpr hi))⟩, fun _ => rfl⟩
  · rw [if_neg h]
    refine ⟨fun h2 => by split at h2 <;> omega, fun h2 => absurd ⟨h2.1, List.all_eq_true.mpr fun i hi => beq_iff_eq.mpr (h2.2 i (List.mem_range.mp hi))⟩ h⟩

omit [IsStrictOrderedRing K] in
theorem mqConv_cases (c : LCfg K) (bound : K) (t : Nat) (s : MSt K) : mqConv c bound t s = 0 ∨ mqConv c bound t s = 1 ∨ mqConv c bound t s = 2 := by
  unfold mqConv
  split
  · simp
  · split <;> simp

/-- The centres and norms given back are those after some iteration, and every label is that of the centre found with them. -/
theorem perform_settled (c : LCfg K) (hc : MCfgOk c) (maxIter : Nat) (bound : K) (s : MSt K) :
    ∃ t, (mqPerform c maxIter bound s).1.cur = (mqStates c s t).cur ∧ (mqPerform c maxIter bound s).1.norms = (mqStates c s t).norms ∧
      (mqPerform c maxIter bound s).1.count = (mqStates c s t).count ∧ Settled c (mqPerform c maxIter bound s).1 := by
  have hfin : ∀ t, Settled c (mqFinal c (mqStates c s t)) := fun t i hi => by
    obtain ⟨h1, h2, _, h3⟩ := final_spec c hc.1 (mqStates c s t)
    rw [h1, h2]
    exact h3 i hi
  unfold mqPerform
  simp only
  rcases mq_end c bound s maxIter 0 with ⟨h1, _⟩ | ⟨t, _, h2, h3, h4, _⟩
  · rw [show mqLoop c bound maxIter 0 (mqInit c s) = _ from h1]
    simp only [Nat.zero_add]
    rw [if_pos (by simp)]
    obtain ⟨e1, e2, e3, _⟩ := final_spec c hc.1 (mqStates c s maxIter)
    exact ⟨maxIter, e1, e2, e3, hfin _⟩
  · rw [show mqLoop c bound maxIter 0 (mqInit c s) = _ from h3]
    simp only
    by_cases hone : mqConv c bound t (mqStates c s (t + 1)) = 1
    · rw [if_pos (Or.inl hone)]
      obtain ⟨e1, e2, e3, _⟩ := final_spec c hc.1 (mqStates c s (t + 1))
      exact ⟨t + 1, e1, e2, e3, hfin _⟩
    · rw [if_neg (by omega)]
      have htwo : mqConv c bound t (mqStates c s (t + 1)) = 2 := by
        rcases mqConv_cases c bound t (mqStates c s (t + 1)) with h | h | h <;> omega
      have hsame := ((mqConv_two c bound t _).mp htwo).2
      refine ⟨t + 1, rfl, rfl, rfl, ?_⟩
      refine (unchanged_settled c hc.1 hc.2.2.1 (mqStates c s t) (states_inv c hc.1 hc.2.1 hc.2.2.1 s t) fun i hi => ?_).2
      have := hsame i hi
      rw [states_prevLab c hc.1 hc.2.1 hc.2.2.1 s t] at this
      exact this

/-- **C90**, the exact labels: those given back minimise the squared distance with the norm of the centre replaced by the
stored one; a stored norm is right, or it is that of the initial centre and the centre has not changed since the
initialization. -/
theorem C90_exact (c : LCfg K) (hc : MCfgOk c) (hsp : c.spherical = false) (maxIter : Nat) (bound : K) (s : MSt K) :
    let r := (mqPerform c maxIter bound s).1
    (∀ i < c.n, r.curLab i < c.k ∧ ∀ b < c.k,
      (∑ f ∈ Finset.range c.nf, (sample c i f - r.cur (r.curLab i + f * c.k)) ^ 2) + (r.norms (r.curLab i) - ∑ f ∈ Finset.range c.nf, r.cur (r.curLab i + f * c.k) ^ 2) ≤
        (∑ f ∈ Finset.range c.nf, (sample c i f - r.cur (b + f * c.k)) ^ 2) + (r.norms b - ∑ f ∈ Finset.range c.nf, r.cur (b + f * c.k) ^ 2)) ∧
    ∀ j < c.k, r.norms j = (∑ f ∈ Finset.range c.nf, r.cur (j + f * c.k) ^ 2) ∨
      r.norms j = (∑ f ∈ Finset.range c.nf, s.cur (j + f * c.k) ^ 2) ∧ ∀ f < c.nf, r.cur (j + f * c.k) = (mqInit c s).cur (j + f * c.k) := by
  intro r
  obtain ⟨t, e1, e2, _, h⟩ := perform_settled c hc maxIter bound s
  change r.cur = _ at e1
  change r.norms = _ at e2
  change Settled c r at h
  clear_value r
  refine ⟨fun i hi => ?_, fun j hj => ?_⟩
  · obtain ⟨h1, h2, _⟩ := closest_spec c.k hc.1 (mqDist c r.cur r.norms i)
    rw [← h i hi] at h1 h2
    refine ⟨h1, fun b hb => ?_⟩
    have h3 := h2 b hb
    rw [mqDist_eq, mqDist_eq, hsp, if_neg (by decide), if_neg (by decide)] at h3
    unfold far at h3
    rw [hsp, if_neg (by decide), if_neg (by decide)] at h3
    simp only [← sq] at h3
    linarith
  · have := states_norms c hc.1 hc.2.1 hc.2.2.1 hsp s t j hj
    rw [← e1, ← e2] at this
    simpa only [← sq] using this

/-- The stored norms are right from the start. -/
def FirstNorms (c : LCfg K) (s : MSt K) : Prop := c.spherical = false →
  ∀ j < c.k, (∑ f ∈ Finset.range c.nf, s.cur (j + f * c.k) * s.cur (j + f * c.k)) = ∑ f ∈ Finset.range c.nf, (mqInit c s).cur (j + f * c.k) * (mqInit c s).cur (j + f * c.k)

theorem states_mnorms (c : LCfg K) (hc : MCfgOk c) (hsp : c.spherical = false) (s : MSt K) (hf : FirstNorms c s) (t : Nat) : MNorms c (mqStates c s t) := by
  intro a ha
  rcases states_norms c hc.1 hc.2.1 hc.2.2.1 hsp s t a ha with h | ⟨h1, h2⟩
  · exact h
  · rw [h1, hf hsp a ha]
    exact Finset.sum_congr rfl fun f hf => by rw [h2 f (Finset.mem_range.mp hf)]

/-- **C90**, the labels, when the stored norms are right from the start: always for spherical clustering; otherwise every
initial centre must have the same norm as the first mean.  Missing from `C90_statement`: other initial centres, for which
it is false. -/
theorem C90_nearest_partial (c : LCfg K) (hc : MCfgOk c) (maxIter : Nat) (bound : K) (s : MSt K) (hf : FirstNorms c s) :
    LNearest c (mqPerform c maxIter bound s).1.cur (mqPerform c maxIter bound s).1.curLab := by
  obtain ⟨t, e1, e2, _, h⟩ := perform_settled c hc maxIter bound s
  generalize (mqPerform c maxIter bound s).1 = r at e1 e2 h ⊢
  have hn : c.spherical = false → MNorms c r := fun hsp a ha => by
    rw [e2, e1]
    exact states_mnorms c hc hsp s hf t a ha
  intro i hi
  obtain ⟨h1, h2, _⟩ := closest_far c hc.1 hc.2.2.2 r hn i hi
  rw [← h i hi] at h1 h2
  refine ⟨h1, fun b hb => ?_⟩
  have h3 := h2 b hb
  unfold far at h3
  cases hs : c.spherical
  · rw [hs] at h3
    simpa using h3
  · rw [hs] at h3
    simpa using h3

/-! ### The inertia and the end -/

/-- **C90**, the inertia, for right stored norms: it never increases from one iteration to the next. -/
theorem C90_inertia_partial (c : LCfg K) (hc : MCfgOk c) (hsp : c.spherical = false) (s : MSt K) (hf : FirstNorms c s) (t : Nat) :
    let r := mqStates c s t
    let r' := mqStates c s (t + 1)
    (∑ i ∈ Finset.range c.n, ∑ f ∈ Finset.range c.nf, (sample c i f - r'.cur (r'.curLab i + f * c.k)) ^ 2) ≤
      ∑ i ∈ Finset.range c.n, ∑ f ∈ Finset.range c.nf, (sample c i f - r.cur (r.curLab i + f * c.k)) ^ 2 := by
  have hi := states_inv c hc.1 hc.2.1 hc.2.2.1 s t
  rcases (iteration_lower c hc.1 hc.2.2.1 hsp (mqStates c s t) hi (states_mnorms c hc hsp s hf t)).2 with ⟨h1, h2⟩ | h
  · exact le_of_eq (inertia_congr c h2 h1 (states_inv c hc.1 hc.2.1 hc.2.2.1 s (t + 1)).lab)
  · exact h.1

omit [IsStrictOrderedRing K] in
/-- Going down from one state to another. -/
theorem lower_labels (c : LCfg K) {s s' : MSt K} (hs : MInv c s) (hs' : MInv c s') (h : Lower c s' s) : ¬ ∀ i < c.n, s'.curLab i = s.curLab i := by
  intro he
  have h1 : inertia c s'.cur s'.curLab = inertia c s.cur s.curLab :=
    inertia_congr c (fun a ha f hf => by rw [hs'.cur a ha f hf, hs.cur a ha f hf, centreOf_congr c he]) he hs'.lab
  have h2 : labSum c.n s'.curLab = labSum c.n s.curLab := Finset.sum_congr rfl fun i hi => he i (Finset.mem_range.mp hi)
  rcases h.2 with h | h
  · rw [h1] at h; exact lt_irrefl _ h
  · omega

theorem mq_repeat (c : LCfg K) (hc : MCfgOk c) (hsp : c.spherical = false) (s : MSt K) (hf : FirstNorms c s) :
    ∃ t < c.k ^ c.n, ∀ i < c.n, (mqStates c s (t + 1)).curLab i = (mqStates c s t).curLab i := by
  have hinv := states_inv c hc.1 hc.2.1 hc.2.2.1 s
  by_contra hno
  push Not at hno
  have hstep : ∀ t < c.k ^ c.n, Lower c (mqStates c s (t + 1)) (mqStates c s t) := fun t ht => by
    rcases (iteration_lower c hc.1 hc.2.2.1 hsp (mqStates c s t) (hinv t) (states_mnorms c hc hsp s hf t)).2 with ⟨h1, _⟩ | h
    · obtain ⟨i, hi, hne⟩ := hno t ht
      exact absurd (h1 i hi) hne
    · exact h
  have hchain : ∀ d x, x + d + 1 ≤ c.k ^ c.n → Lower c (mqStates c s (x + d + 1)) (mqStates c s x) := by
    intro d
    induction d with
    | zero => intro x hx; exact hstep x (by omega)
    | succ d ih => intro x hx; exact lower_trans c (hstep (x + d + 1) (by omega)) (ih x (by omega))
  let g : Fin (c.k ^ c.n + 1) → (Fin c.n → Fin c.k) := fun t i => ⟨(mqStates c s t.val).curLab i.val, (hinv t.val).lab i.val i.isLt⟩
  have hcard : Fintype.card (Fin c.n → Fin c.k) < Fintype.card (Fin (c.k ^ c.n + 1)) := by simp
  obtain ⟨x, y, hxy, hg⟩ := Fintype.exists_ne_map_eq_of_card_lt g hcard
  have hlab : ∀ i < c.n, (mqStates c s x.val).curLab i = (mqStates c s y.val).curLab i := fun i hi => congrArg Fin.val (congrFun hg ⟨i, hi⟩)
  have hne : x.val ≠ y.val := fun e => hxy (Fin.ext e)
  rcases Nat.lt_or_ge x.val y.val with hlt | hge
  · have := hchain (y.val - x.val - 1) x.val (by omega)
    rw [show x.val + (y.val - x.val - 1) + 1 = y.val by omega] at this
    exact lower_labels c (hinv _) (hinv _) this fun i hi => (hlab i hi).symm
  · have := hchain (x.val - y.val - 1) y.val (by omega)
    rw [show y.val + (x.val - y.val - 1) + 1 = x.val by omega] at this
    exact lower_labels c (hinv _) (hinv _) this hlab

/-- **C90**, the end, for right stored norms: with at least `max 3 (k ^ n + 1)` iterations allowed the run stops before
the limit because the labels stay or the centres hardly move; with a tolerance of zero the labels stay. -/
theorem C90_stops_partial (c : LCfg K) (hc : MCfgOk c) (hsp : c.spherical = false) (maxIter : Nat) (bound : K) (s : MSt K) (hf : FirstNorms c s)
    (hm : 2 < maxIter ∧ c.k ^ c.n < maxIter) :
    let r := mqPerform c maxIter bound s
    r.2.2 ≤ max 2 (c.k ^ c.n) ∧ (r.2.1 = 1 ∨ r.2.1 = 2) ∧ ((∀ v, 0 ≤ c.sqrt v) → bound ≤ 0 → r.2.1 = 2) := by
  have hinv := states_inv c hc.1 hc.2.1 hc.2.2.1 s
  have hprev := states_prevLab c hc.1 hc.2.1 hc.2.2.1 s
  obtain ⟨t0, ht0, hrep⟩ := mq_repeat c hc hsp s hf
  have hset : ∀ u, t0 ≤ u → Settled c (mqStates c s u) := by
    intro u hu
    induction u with
    | zero =>
      rw [show t0 = 0 by omega] at hrep
      exact (unchanged_settled c hc.1 hc.2.2.1 _ (hinv 0) hrep).1
    | succ u ih =>
      rcases Nat.lt_or_ge t0 (u + 1) with h | h
      · exact (unchanged_settled c hc.1 hc.2.2.1 _ (hinv u) (settled_unchanged c hc.1 hc.2.2.1 _ (hinv u) (ih (by omega)))).2
      · rw [show u + 1 = t0 by omega]
        exact (unchanged_settled c hc.1 hc.2.2.1 _ (hinv t0) hrep).1
  have htest : ∀ u, 1 < u → t0 ≤ u → mqConv c bound u (mqStates c s (u + 1)) = 2 := fun u h1 h2 =>
    (mqConv_two c bound u _).mpr ⟨h1, fun i hi => by
      rw [hprev u]
      exact settled_unchanged c hc.1 hc.2.2.1 _ (hinv u) (hset u h2) i hi⟩
  intro r
  have hr : r = mqPerform c maxIter bound s := rfl
  clear_value r
  unfold mqPerform at hr
  simp only at hr
  rcases mq_end c bound s maxIter 0 with ⟨_, h2⟩ | ⟨t, _, h2, h3, h4, h5⟩
  · have h5 := htest (max 2 t0) (by omega) (by omega)
    have h6 := h2 (max 2 t0) (by omega) (by omega)
    omega
  · rw [show mqLoop c bound maxIter 0 (mqInit c s) = _ from h3] at hr
    have hr2 : r.2 = (mqConv c bound t (mqStates c s (t + 1)), t) := by
      rw [hr]
      split <;> rfl
    rw [hr2]
    have hcc := mqConv_cases c bound t (mqStates c s (t + 1))
    refine ⟨?_, by simp only; omega, fun hq hb => ?_⟩
    · by_contra hgt
      simp only [not_le] at hgt
      have h6 := h5 (max 2 t0) (by omega) (by omega)
      have h7 := htest (max 2 t0) (by omega) (by omega)
      omega
    · simp only
      rcases hcc with h | h | h
      · omega
      · unfold mqConv at h
        split at h
        · omega
        · split at h
          · rename_i hlt
            exact absurd (lt_of_lt_of_le hlt hb) (not_lt.mpr (hq _))
          · omega
      · exact h

/-! #### Examples -/

/-- Four samples 1, 5, 0, 2.  From the centres 2 and -2 the first labels are 0, 0, 0, 1 and the first means 2 and 2; the
samples 1, 0 and 2 then move. -/
def mqCfg2 : LCfg ℚ := { mqCfg with A := fun i => [1, 5, 0, 2].getD i 0 }

theorem mqCfg2_ok : MCfgOk mqCfg2 := ⟨by decide, by decide, (fun h => by cases h), (fun h => by cases h)⟩

theorem mq_first : FirstNorms mqCfg2 (mqSt [2, -2]) := by
  intro _
  decide +kernel

example : LNearest mqCfg2 (mqPerform mqCfg2 20 0 (mqSt [2, -2])).1.cur (mqPerform mqCfg2 20 0 (mqSt [2, -2])).1.curLab ∧
    (mqPerform mqCfg2 20 0 (mqSt [2, -2])).2.1 = 2 ∧
    (let r := mqPerform mqCfg2 20 0 (mqSt [2, -2]); ((List.range 4).map (mqStates mqCfg2 (mqSt [2, -2]) 0).curLab, (List.range 4).map r.1.curLab, (List.range 2).map r.1.cur, r.2.2)) =
      ([0, 0, 0, 1], [1, 0, 1, 0], [7 / 2, 1 / 2], 3) :=
  ⟨C90_nearest_partial _ mqCfg2_ok _ _ _ mq_first, (C90_stops_partial _ mqCfg2_ok rfl 20 0 _ mq_first ⟨by decide, by decide⟩).2.2
    Rat.sqrt_nonneg (le_refl _), by decide +kernel⟩

/-- The inertia stays 14 in the first iteration. -/
example : (List.range 2).map (fun t => inertia mqCfg2 (mqStates mqCfg2 (mqSt [2, -2]) t).cur (mqStates mqCfg2 (mqSt [2, -2]) t).curLab) = [14, 14] := by decide +kernel

example : (List.range 4).map (mqStates mqCfg (mqSt [10, 1]) 3).count = [0, 4, 5, 5] ∧ (mqStates mqCfg (mqSt [10, 1]) 3).cur 1 * 4 = 1 + 2 + 10 + 11 := by decide +kernel

/-- Spherical clustering of the points (3, 4), (3, -4), (-3, 4), (-3, -4), not scaled before. -/
def mqCfgS : LCfg ℚ := ⟨4, 2, 2, 4, 3, 0, true, true, true, false, none, fun v => if 0 < v ∧ Rat.sqrt v = 0 then 1 else Rat.sqrt v,
  fun i => [3, 3, -3, -3, 4, -4, 4, -4].getD i 0, fun _ => 1 / 5⟩

theorem mqCfgS_ok : MCfgOk mqCfgS := by
  refine ⟨by decide, by decide, fun _ v hv h => ?_, fun _ _ _ _ => Or.inl (by norm_num [mqCfgS])⟩
  simp only [mqCfgS] at h
  split at h
  · exact one_ne_zero h
  · next hn => exact hn ⟨hv, h⟩

example : LNearest mqCfgS (mqPerform mqCfgS 20 0 (mqSt [1, 0, 0, 1])).1.cur (mqPerform mqCfgS 20 0 (mqSt [1, 0, 0, 1])).1.curLab ∧
    (List.range 4).map (mqStates mqCfgS (mqSt [1, 0, 0, 1]) 1).curLab = [1, 0, 1, 0] ∧ (List.range 4).map (mqStates mqCfgS (mqSt [1, 0, 0, 1]) 1).cur = [0, 0, -1, 1] :=
  ⟨C90_nearest_partial _ mqCfgS_ok _ _ _ (fun h => by cases h), by decide +kernel⟩

end Verif.Kmeans
