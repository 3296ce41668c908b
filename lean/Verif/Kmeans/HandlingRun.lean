import Verif.Kmeans.HandlingProof

/-
Lloyd's and MacQueen's method with splitting: the sequence of states.
-/
namespace Verif.Kmeans

open Verif.HalfBlas (put forUp)

variable {K : Type} [Field K] [LinearOrder K] [IsStrictOrderedRing K]

/-! ### Lloyd's method -/

/-- One iteration. -/
def lIter (c : LCfg K) (nThreads : Nat) (sched : Nat → Sched) (it : Nat) (s : LSt K) : LSt K := lloydIteration c nThreads (sched it) true (swapL s)

/-- The handling with `split`. -/
def lSplit (c : LCfg K) (s : LSt K) : LSt K × Bool :=
  splitWith c false s.cur s.curLab (fun a => (s.count a : Int)) s fun e _ => { s with cur := e.cur, curLab := e.lab, count := fun a => (e.count a).toNat }

/-- The states of a run with `split`, and whether an iteration split clusters. -/
def lStates (c : LCfg K) (nThreads : Nat) (sched : Nat → Sched) (s : LSt K) : Nat → LSt K := hStates (lIter c nThreads sched) (lSplit c) s

def lFlag (c : LCfg K) (nThreads : Nat) (sched : Nat → Sched) (s : LSt K) : Nat → Bool := hFlag (lIter c nThreads sched) (lSplit c) s

omit [IsStrictOrderedRing K] in
theorem lSplit_keep (c : LCfg K) (s : LSt K) : (lSplit c s).1.prev = s.prev ∧ (lSplit c s).1.prevLab = s.prevLab ∧ (lSplit c s).1.workc1 = s.workc1 ∧
    ((lSplit c s).2 = true ↔ HasEmpty c s.curLab) := by
  obtain ⟨e, sp, h1, h2, _⟩ := handle_some c false s.cur s.curLab (fun a => (s.count a : Int)) s fun e _ => { s with cur := e.cur, curLab := e.lab, count := fun a => (e.count a).toNat }
  unfold lSplit
  rw [h2]
  exact ⟨rfl, rfl, rfl, (C91_error c false false _).2.2 _ _ h1⟩

omit [IsStrictOrderedRing K] in
theorem lHandle (c : LCfg K) (s : LSt K) : lloydHandle c .split s = some (lSplit c s) := by
  obtain ⟨_, _, _, _, h⟩ := handle_some c false s.cur s.curLab (fun a => (s.count a : Int)) s fun e _ => { s with cur := e.cur, curLab := e.lab, count := fun a => (e.count a).toNat }
  exact h

/-- Whatever the distance: labels of the iteration, padding, and when clusters are split. -/
structure GTrace (c : LCfg K) (S M : Nat → LSt K) (fl : Nat → Bool) : Prop where
  lab : ∀ t, ∀ i < c.n, (M t).curLab i = labOf c (S t).cur i
  flag : ∀ t, fl t = true ↔ HasEmpty c (M t).curLab
  prevLab : ∀ t, (S (t + 1)).prevLab = (S t).curLab
  padded : ∀ t, Padded c (S t).workc1

omit [IsStrictOrderedRing K] in
theorem lPadded (c : LCfg K) (hc : LCfgOk c) (nThreads : Nat) (sched : Nat → Sched) (hs : ∀ t, nThreads > 1 → LSchedAny c nThreads (sched t)) (s : LSt K) (hp : Padded c s.workc1) (t : Nat) :
    Padded c (lStates c nThreads sched s t).workc1 := by
  induction t with
  | zero => exact hp
  | succ t ih =>
    have h := (step_facts c hc nThreads (sched t) (hs t) _ ih).2.2.2.2.2
    change Padded c (lSplit c (lIter c nThreads sched t (lStates c nThreads sched s t))).1.workc1
    rw [(lSplit_keep c _).2.2.1]
    exact h

omit [IsStrictOrderedRing K] in
theorem lTrace (c : LCfg K) (hc : LCfgOk c) (nThreads : Nat) (sched : Nat → Sched) (hs : ∀ t, nThreads > 1 → LSchedAny c nThreads (sched t)) (s : LSt K) (hp : Padded c s.workc1) :
    GTrace c (lStates c nThreads sched s) (fun t => lIter c nThreads sched t (lStates c nThreads sched s t)) (lFlag c nThreads sched s) := by
  have hpad := lPadded c hc nThreads sched hs s hp
  refine ⟨fun t => (step_facts c hc nThreads (sched t) (hs t) _ (hpad t)).1, fun t => (lSplit_keep c _).2.2.2, fun t => ?_, hpad⟩
  change (lSplit c (lIter c nThreads sched t (lStates c nThreads sched s t))).1.prevLab = _
  rw [(lSplit_keep c _).2.1]
  exact (step_facts c hc nThreads (sched t) (hs t) _ (hpad t)).2.1

/-- Euclidean distances: `L t` are the labels of iteration `t` before the handling. -/
structure HTrace (c : LCfg K) (S : Nat → LSt K) (L : Nat → Nat → Nat) (fl : Nat → Bool) : Prop where
  lab : ∀ t, ∀ i < c.n, L t i = labOf c (S t).cur i
  prevLab : ∀ t, (S (t + 1)).prevLab = (S t).curLab
  padded : ∀ t, Padded c (S t).workc1
  lt : ∀ t, ∀ i < c.n, (S (t + 1)).curLab i < c.k
  cur : ∀ t, ∀ a < c.k, ∀ f < c.nf, (S (t + 1)).cur (a + f * c.k) = centreOf c (S (t + 1)).curLab a f
  full : ∀ t, ∀ a < c.k, (lmembers c (S (t + 1)).curLab a).Nonempty
  flag : ∀ t, fl t = true ↔ HasEmpty c (L t)
  keep : ∀ t, fl t = false → (S (t + 1)).curLab = L t
  less : ∀ t, within c (S (t + 1)).curLab ≤ within c (L t)
  strict : c.k ≤ kinds c → ∀ t, fl t = true → within c (S (t + 1)).curLab < within c (L t)
  count : ∀ t, ∀ a < c.k, (S (t + 1)).count a = num c.n (S (t + 1)).curLab a

theorem hTrace (c : LCfg K) (hc : LCfgOk c) (hsp : c.spherical = false) (hk : c.k ≤ c.n) (nThreads : Nat) (sched : Nat → Sched) (hs : ∀ t, nThreads > 1 → LSchedAny c nThreads (sched t))
    (s : LSt K) (hp : Padded c s.workc1) :
    HTrace c (lStates c nThreads sched s) (fun t => (lIter c nThreads sched t (lStates c nThreads sched s t)).curLab) (lFlag c nThreads sched s) := by
  have hg := lTrace c hc nThreads sched hs s hp
  have hstep : ∀ t, ∃ wi : Nat → Int, SplitSpec c (lIter c nThreads sched t (lStates c nThreads sched s t)).curLab (lStates c nThreads sched s (t + 1)).curLab (lStates c nThreads sched s (t + 1)).cur
      wi (lFlag c nThreads sched s t) ∧ (∀ a, (lStates c nThreads sched s (t + 1)).count a = (wi a).toNat) ∧
      (lFlag c nThreads sched s t = false → wi = fun a => ((lIter c nThreads sched t (lStates c nThreads sched s t)).count a : Int)) := by
    intro t
    change ∃ wi : Nat → Int, SplitSpec c _ (lSplit c (lIter c nThreads sched t (lStates c nThreads sched s t))).1.curLab (lSplit c (lIter c nThreads sched t (lStates c nThreads sched s t))).1.cur wi
      (lSplit c (lIter c nThreads sched t (lStates c nThreads sched s t))).2 ∧ (∀ a, (lSplit c (lIter c nThreads sched t (lStates c nThreads sched s t))).1.count a = (wi a).toNat) ∧
      ((lSplit c (lIter c nThreads sched t (lStates c nThreads sched s t))).2 = false → _)
    have h := step_facts c hc nThreads (sched t) (hs t) _ (hg.padded t)
    obtain ⟨h1, _, h3, _⟩ := h
    change ∀ i < c.n, (lIter c nThreads sched t (lStates c nThreads sched s t)).curLab i = _ at h1
    change ∀ a < c.k, ∀ f < c.nf, (lIter c nThreads sched t (lStates c nThreads sched s t)).cur (a + f * c.k) = centreOf c (lIter c nThreads sched t (lStates c nThreads sched s t)).curLab a f at h3
    have hlt : ∀ i < c.n, (lIter c nThreads sched t (lStates c nThreads sched s t)).curLab i < c.k := fun i hi => by rw [h1 i hi]; exact labOf_lt c hc _ _
    generalize lIter c nThreads sched t (lStates c nThreads sched s t) = m at h3 hlt
    obtain ⟨e, sp, g1, g2, _⟩ := handle_some c false m.cur m.curLab (fun a => (m.count a : Int)) m fun e _ => { m with cur := e.cur, curLab := e.lab, count := fun a => (e.count a).toNat }
    have := split_spec c hsp hk ⟨m.cur, m.curLab, fun _ => 0, fun _ => 0, fun a => (m.count a : Int), false⟩ hlt h3 e sp g1
    unfold lSplit
    rw [g2]
    exact ⟨e.count, this.1, fun _ => rfl, fun h => (this.2 h).2⟩
  choose wi hw hcount hkeep using hstep
  refine ⟨hg.lab, hg.prevLab, hg.padded, fun t => (hw t).lt, fun t => (hw t).cur, fun t => (hw t).full, fun t => (hw t).flag, fun t => (hw t).keep, fun t => (hw t).less,
    fun hkk t => (hw t).strict hkk, fun t a ha => ?_⟩
  rw [hcount t a]
  cases hf : lFlag c nThreads sched s t with
  | true => rw [(hw t).count hf a ha]; simp
  | false =>
    have h4 := (step_facts c hc nThreads (sched t) (hs t) _ (hg.padded t)).2.2.2.1 a ha
    change (lIter c nThreads sched t (lStates c nThreads sched s t)).count a = max 1 (num c.n (lIter c nThreads sched t (lStates c nThreads sched s t)).curLab a) at h4
    rw [hkeep t hf, (hw t).keep hf]
    simp only [Int.toNat_natCast]
    rw [h4]
    have := (num_ne c _ a).mpr ((hw t).full a ha)
    rw [(hw t).keep hf] at this
    omega

section
variable {c : LCfg K} {S : Nat → LSt K} {L : Nat → Nat → Nat} {flag : Nat → Bool}

omit [IsStrictOrderedRing K] in
/-- The inertia after iteration `t`, with the handling, is the sum of squared distances to the means. -/
theorem h_within (h : HTrace c S L flag) (t : Nat) : inertia c (S (t + 1)).cur (S (t + 1)).curLab = within c (S (t + 1)).curLab :=
  Finset.sum_congr rfl fun i hi => Finset.sum_congr rfl fun f hf => by rw [h.cur t _ (h.lt t i (Finset.mem_range.mp hi)) f (Finset.mem_range.mp hf)]

omit [IsStrictOrderedRing K] in
theorem h_lt (hc : LCfgOk c) (h : HTrace c S L flag) (t : Nat) : ∀ i < c.n, L t i < c.k := fun i hi => by rw [h.lab t i hi]; exact labOf_lt c hc _ _

theorem h_step (hc : LCfgOk c) (hsp : c.spherical = false) (h : HTrace c S L flag) (t : Nat) (lab : Nat → Nat) (hl : ∀ i < c.n, lab i < c.k) :
    within c (L t) ≤ inertia c (S t).cur lab := by
  have h1 := within_le c hsp (L t) (h_lt hc h t) fun a f => (S t).cur (a + f * c.k)
  refine le_trans h1 ?_
  change inertia c (S t).cur (L t) ≤ _
  rw [inertia_congr c (fun _ _ _ _ => rfl) (h.lab t) (h_lt hc h t)]
  exact inertia_labels c hc hsp _ _ hl

theorem h_decreases (hc : LCfgOk c) (hsp : c.spherical = false) (h : HTrace c S L flag) (t : Nat) :
    within c (S (t + 2)).curLab ≤ within c (L (t + 1)) ∧ within c (L (t + 1)) ≤ within c (S (t + 1)).curLab := by
  refine ⟨h.less (t + 1), ?_⟩
  rw [← h_within h t]
  exact h_step hc hsp h (t + 1) _ (h.lt t)

theorem h_le (hc : LCfgOk c) (hsp : c.spherical = false) (h : HTrace c S L flag) {t u : Nat} (htu : t ≤ u) : within c (S (u + 1)).curLab ≤ within c (S (t + 1)).curLab := by
  induction u with
  | zero => rw [Nat.le_zero.mp htu]
  | succ u ih =>
    rcases Nat.lt_or_ge t (u + 1) with h' | h'
    · exact le_trans (le_trans (h_decreases hc hsp h u).1 (h_decreases hc hsp h u).2) (ih (by omega))
    · rw [show t = u + 1 by omega]

/-- When the inertia stays and nothing is split, the centres stay. -/
theorem h_stays (hc : LCfgOk c) (hsp : c.spherical = false) (h : HTrace c S L flag) (u : Nat) (hf : flag (u + 1) = false)
    (he : within c (S (u + 1)).curLab ≤ within c (S (u + 2)).curLab) : SameC c (S (u + 2)).cur (S (u + 1)).cur := by
  intro a ha f hf'
  have hk := h.keep (u + 1) hf
  obtain ⟨i, hi⟩ := h.full (u + 1) a ha
  obtain ⟨hi, hia⟩ := Finset.mem_filter.mp hi
  have h1 := inertia_split c hsp (S (u + 2)).curLab (h.lt (u + 1)) (S (u + 1)).cur (S (u + 2)).cur (h.cur (u + 1))
  have h2 : inertia c (S (u + 1)).cur (S (u + 2)).curLab ≤ within c (S (u + 1)).curLab := by
    rw [hk, inertia_congr c (fun _ _ _ _ => rfl) (h.lab (u + 1)) (h_lt hc h (u + 1)), ← h_within h u]
    exact inertia_labels c hc hsp _ _ (h.lt u)
  rw [h_within h (u + 1)] at h1
  have hnn : ∀ i ∈ Finset.range c.n, 0 ≤ ∑ f ∈ Finset.range c.nf, ((S (u + 2)).cur ((S (u + 2)).curLab i + f * c.k) - (S (u + 1)).cur ((S (u + 2)).curLab i + f * c.k)) ^ 2 :=
    fun i _ => Finset.sum_nonneg fun f _ => sq_nonneg _
  have h3 := le_antisymm (by linarith) (Finset.sum_nonneg hnn)
  have h5 := (Finset.sum_eq_zero_iff_of_nonneg hnn).mp h3 i hi
  have h6 := (Finset.sum_eq_zero_iff_of_nonneg fun f _ => sq_nonneg _).mp h5 f (Finset.mem_range.mpr hf')
  rw [hia] at h6
  exact sub_eq_zero.mp (pow_eq_zero_iff (two_ne_zero) |>.mp h6)

omit [IsStrictOrderedRing K] in
theorem within_congr (c : LCfg K) {lab lab' : Nat → Nat} (h : ∀ i < c.n, lab i = lab' i) : within c lab = within c lab' :=
  Finset.sum_congr rfl fun i hi => Finset.sum_congr rfl fun f _ => by rw [h i (Finset.mem_range.mp hi), centreOf_congr c h]

omit [Field K] [LinearOrder K] [IsStrictOrderedRing K] in
theorem lmembers_congr (c : LCfg K) {lab lab' : Nat → Nat} (h : ∀ i < c.n, lab i = lab' i) (a : Nat) : lmembers c lab a = lmembers c lab' a :=
  Finset.filter_congr fun i hi => by rw [h i (Finset.mem_range.mp hi)]

/-- Labels that come back do so in the next iteration, and nothing is split there. -/
theorem h_back (hc : LCfgOk c) (hsp : c.spherical = false) (hk : c.k ≤ kinds c) (h : HTrace c S L flag) {t u : Nat} (htu : t < u)
    (he : ∀ i < c.n, (S (u + 1)).curLab i = (S (t + 1)).curLab i) : flag (t + 1) = false ∧ ∀ i < c.n, (S (t + 2)).curLab i = (S (t + 1)).curLab i := by
  have hIu : within c (S (u + 1)).curLab = within c (S (t + 1)).curLab := within_congr c he
  have hstep : ∀ v, t ≤ v → v < u → within c (S (v + 1)).curLab ≤ within c (S (v + 2)).curLab := by
    intro v hv hvu
    have h1 := h_le hc hsp h hv
    have h2 := h_le hc hsp h (show v + 1 ≤ u by omega)
    linarith
  have hflag : ∀ v, t ≤ v → v < u → flag (v + 1) = false := by
    intro v hv hvu
    cases hf : flag (v + 1) with
    | false => rfl
    | true =>
      have h1 := h.strict hk (v + 1) hf
      have h2 := (h_decreases hc hsp h v).2
      have h3 := hstep v hv hvu
      rw [show v + 1 + 1 = v + 2 by omega] at h1
      linarith
  have hsame : ∀ v, t ≤ v → v ≤ u → SameC c (S (v + 1)).cur (S (t + 1)).cur := by
    intro v hv
    induction v with
    | zero => intro _; rw [show t = 0 by omega]; exact fun _ _ _ _ => rfl
    | succ v ih =>
      intro hvu a ha f hf
      rcases Nat.lt_or_ge t (v + 1) with h' | h'
      · rw [h_stays hc hsp h v (hflag v (by omega) (by omega)) (hstep v (by omega) (by omega)) a ha f hf]
        exact ih (by omega) (by omega) a ha f hf
      · rw [show v + 1 = t by omega]
  refine ⟨hflag t (le_refl _) htu, fun i hi => ?_⟩
  obtain ⟨u', rfl⟩ : ∃ u', u = u' + 1 := ⟨u - 1, by omega⟩
  rw [← he i hi, h.keep (t + 1) (hflag t (le_refl _) htu), h.keep (u' + 1) (hflag u' (by omega) (by omega)), h.lab (t + 1) i hi, h.lab (u' + 1) i hi]
  exact (labOf_congr c (hsame u' (by omega) (by omega)) i).symm

omit [IsStrictOrderedRing K] in
/-- Once the labels stay without a split, they stay for good. -/
theorem h_stay (h : HTrace c S L flag) {t : Nat} (hf : flag (t + 1) = false) (he : ∀ i < c.n, (S (t + 2)).curLab i = (S (t + 1)).curLab i) :
    flag (t + 2) = false ∧ ∀ i < c.n, (S (t + 3)).curLab i = (S (t + 2)).curLab i := by
  have hL : ∀ i < c.n, L (t + 2) i = (S (t + 2)).curLab i := fun i hi => by
    rw [h.keep (t + 1) hf, h.lab (t + 2) i hi, h.lab (t + 1) i hi]
    refine labOf_congr c (fun a ha f hf => ?_) i
    rw [h.cur (t + 1) a ha f hf, h.cur t a ha f hf]
    exact centreOf_congr c he a f
  have hflag : flag (t + 2) = false := by
    cases hf2 : flag (t + 2) with
    | false => rfl
    | true =>
      obtain ⟨a, ha, hz⟩ := (h.flag (t + 2)).mp hf2
      have := h.full (t + 1) a ha
      rw [← lmembers_congr c hL a, hz] at this
      exact absurd this Finset.not_nonempty_empty
  exact ⟨hflag, fun i hi => by rw [h.keep (t + 2) hflag]; exact hL i hi⟩

theorem h_repeat (hc : LCfgOk c) (hsp : c.spherical = false) (hk : c.k ≤ kinds c) (h : HTrace c S L flag) :
    ∃ t < c.k ^ c.n, ∀ u, t ≤ u → flag (u + 1) = false ∧ ∀ i < c.n, (S (u + 2)).curLab i = (S (u + 1)).curLab i := by
  let g : Fin (c.k ^ c.n + 1) → (Fin c.n → Fin c.k) := fun t i => ⟨(S (t.val + 1)).curLab i.val, h.lt t.val i.val i.isLt⟩
  have hcard : Fintype.card (Fin c.n → Fin c.k) < Fintype.card (Fin (c.k ^ c.n + 1)) := by simp
  obtain ⟨x, y, hxy, hg⟩ := Fintype.exists_ne_map_eq_of_card_lt g hcard
  have hlab : ∀ i < c.n, (S (x.val + 1)).curLab i = (S (y.val + 1)).curLab i := fun i hi => by
    have := congrFun hg ⟨i, hi⟩
    exact congrArg Fin.val this
  have hne : x.val ≠ y.val := fun e => hxy (Fin.ext e)
  obtain ⟨t, ht, h0⟩ : ∃ t < c.k ^ c.n, flag (t + 1) = false ∧ ∀ i < c.n, (S (t + 2)).curLab i = (S (t + 1)).curLab i := by
    rcases Nat.lt_or_ge x.val y.val with hlt | hge
    · exact ⟨x.val, by omega, h_back hc hsp hk h hlt fun i hi => (hlab i hi).symm⟩
    · exact ⟨y.val, by omega, h_back hc hsp hk h (show y.val < x.val by omega) fun i hi => hlab i hi⟩
  refine ⟨t, ht, fun u hu => ?_⟩
  induction u with
  | zero => rw [show t = 0 by omega] at h0; exact h0
  | succ u ih =>
    rcases Nat.lt_or_ge t (u + 1) with h' | h'
    · exact h_stay h (ih (by omega)).1 (ih (by omega)).2
    · rw [show u + 1 = t by omega]; exact h0

end

/-! ### MacQueen's method -/

/-- The handling with `split`. -/
def mSplit (c : LCfg K) (s : MSt K) : MSt K × Bool :=
  splitWith c false s.cur s.curLab s.count s fun e split =>
    { s with cur := e.cur, curLab := e.lab, count := e.count, norms := if split then mqNorms c e.cur s.norms else s.norms }

def mIter (c : LCfg K) (_ : Nat) (s : MSt K) : MSt K := mqIteration c true (swapM s)

def mStates (c : LCfg K) (s : MSt K) : Nat → MSt K := hStates (mIter c) (mSplit c) (mqInit c s)

def mFlag (c : LCfg K) (s : MSt K) : Nat → Bool := hFlag (mIter c) (mSplit c) (mqInit c s)

omit [IsStrictOrderedRing K] in
theorem mHandle (c : LCfg K) (s : MSt K) : mqHandle c .split s = some (mSplit c s) := by
  obtain ⟨_, _, _, _, h⟩ := handle_some c false s.cur s.curLab s.count s fun e split =>
    { s with cur := e.cur, curLab := e.lab, count := e.count, norms := if split then mqNorms c e.cur s.norms else s.norms }
  exact h

omit [LinearOrder K] [IsStrictOrderedRing K] in
theorem mqNorms_spec (c : LCfg K) (C norms : Nat → K) : ∀ a < c.k, mqNorms c C norms a = ∑ f ∈ Finset.range c.nf, C (a + f * c.k) * C (a + f * c.k) := by
  intro a ha
  unfold mqNorms
  rw [sumRows c.nf c.k (fun i f => C (i + f * c.k) * C (i + f * c.k)) _ a ha, (forUp_put (fun i => i) (fun _ (_ : K) => (0 : K)) norms c.k (fun _ _ _ _ h => h)).1 a ha, zero_add]

/-- What the handling does for right labels and means. -/
theorem mSplit_spec (c : LCfg K) (hsp : c.spherical = false) (hk : c.k ≤ c.n) (s : MSt K) (hs : MInv c s) (hn : MNorms c s) :
    MInv c (mSplit c s).1 ∧ MNorms c (mSplit c s).1 ∧ (mSplit c s).1.prevLab = s.prevLab ∧ (∀ a < c.k, (lmembers c (mSplit c s).1.curLab a).Nonempty) ∧
    ((mSplit c s).2 = true ↔ HasEmpty c s.curLab) ∧ ((mSplit c s).2 = false → (mSplit c s).1 = s) ∧
    within c (mSplit c s).1.curLab ≤ within c s.curLab ∧ (c.k ≤ kinds c → (mSplit c s).2 = true → within c (mSplit c s).1.curLab < within c s.curLab) := by
  obtain ⟨e, sp, g1, g2, _⟩ := handle_some c false s.cur s.curLab s.count s fun e split =>
    { s with cur := e.cur, curLab := e.lab, count := e.count, norms := if split then mqNorms c e.cur s.norms else s.norms }
  have h := split_spec c hsp hk ⟨s.cur, s.curLab, fun _ => 0, fun _ => 0, s.count, false⟩ hs.lab hs.cur e sp g1
  unfold mSplit
  rw [g2]
  obtain ⟨h, hkeep⟩ := h
  simp only at h hkeep ⊢
  cases sp with
  | true =>
    exact ⟨⟨h.lt, h.count rfl, h.cur⟩, fun a ha => by simp only [if_true]; exact mqNorms_spec c _ _ a ha, trivial, h.full, h.flag, (fun h => by cases h), h.less, h.strict⟩
  | false =>
    obtain ⟨e1, e2⟩ := hkeep rfl
    have e3 := h.keep rfl
    have hfull := h.full
    simp only [Bool.false_eq_true, if_false]
    rw [e3] at hfull
    rw [e1, e2, e3]
    exact ⟨hs, hn, trivial, hfull, by rw [← h.flag]; simp, fun _ => rfl, le_refl _, (fun _ h => by cases h)⟩

/-- The states of a run whose stored norms are right from the start. -/
structure MTrace (c : LCfg K) (S : Nat → MSt K) (fl : Nat → Bool) : Prop where
  inv : ∀ t, MInv c (S t)
  norms : ∀ t, MNorms c (S t)
  full : ∀ t, ∀ a < c.k, (lmembers c (S (t + 1)).curLab a).Nonempty
  prevLab : ∀ t, (S (t + 1)).prevLab = (S t).curLab
  flag : ∀ t, fl t = true ↔ HasEmpty c (mIter c t (S t)).curLab
  keep : ∀ t, fl t = false → S (t + 1) = mIter c t (S t)
  less : ∀ t, within c (S (t + 1)).curLab ≤ within c (S t).curLab

omit [IsStrictOrderedRing K] in
theorem m_within (c : LCfg K) (s : MSt K) (h : MInv c s) : inertia c s.cur s.curLab = within c s.curLab :=
  Finset.sum_congr rfl fun i hi => Finset.sum_congr rfl fun f hf => by rw [h.cur _ (h.lab i (Finset.mem_range.mp hi)) f (Finset.mem_range.mp hf)]

theorem mTrace (c : LCfg K) (hc : MCfgOk c) (hsp : c.spherical = false) (hk : c.k ≤ c.n) (s : MSt K) (hf : FirstNorms c s) : MTrace c (mStates c s) (mFlag c s) := by
  have h0 : ∀ t, MInv c (mStates c s t) ∧ MNorms c (mStates c s t) := by
    intro t
    induction t with
    | zero => exact ⟨(init_spec c hc.1 hc.2.1 s).1, states_mnorms c hc hsp s hf 0⟩
    | succ t ih =>
      have h1 := iteration_lower c hc.1 hc.2.2.1 hsp _ ih.1 ih.2
      have h2 := (iteration_mq c hc.1 hc.2.2.1 _ ih.1 (fun _ _ => True) trivial fun _ _ _ _ _ _ _ => trivial).1
      have h3 := mSplit_spec c hsp hk _ h2.inv h1.1
      exact ⟨h3.1, h3.2.1⟩
  have h3 : ∀ t, _ := fun t => by
    have h1 := iteration_lower c hc.1 hc.2.2.1 hsp _ (h0 t).1 (h0 t).2
    have h2 := (iteration_mq c hc.1 hc.2.2.1 _ (h0 t).1 (fun _ _ => True) trivial fun _ _ _ _ _ _ _ => trivial).1
    exact And.intro h1 (And.intro h2 (mSplit_spec c hsp hk _ h2.inv h1.1))
  refine ⟨fun t => (h0 t).1, fun t => (h0 t).2, fun t => (h3 t).2.2.2.2.2.1, fun t => ?_, fun t => (h3 t).2.2.2.2.2.2.1, fun t => (h3 t).2.2.2.2.2.2.2.1, fun t => ?_⟩
  · exact (h3 t).2.2.2.2.1.trans (h3 t).2.1.prevLab
  · refine le_trans (h3 t).2.2.2.2.2.2.2.2.1 ?_
    rw [← m_within c _ (h3 t).2.1.inv, ← m_within c _ (h0 t).1]
    rcases (h3 t).1.2 with ⟨e1, e2⟩ | h
    · exact le_of_eq (inertia_congr c e2 e1 (h3 t).2.1.inv.lab)
    · exact h.1

end Verif.Kmeans
