import Verif.Coord.RunInv

/-! # The ledger of skipped coordinates, the bounds and the reports of failures -/

set_option linter.unusedSectionVars false

namespace Verif.Coord

section
variable {U K : Type} [Field K] [LinearOrder K] [IsStrictOrderedRing K]

/-- The largest number of skips. -/
def Par.big (p : Par K) : Nat := max p.skipmaxReset p.threshold

/-- The ledger is in its ranges. -/
def Ledger (p : Par K) (w : Work K) : Prop := ∀ j, w.skip j ≤ w.skipmax j ∧ 1 ≤ w.skipmax j ∧ w.skipmax j ≤ p.big

theorem ledgerStep_ledger (p : Par K) (h1 : 1 ≤ p.skipmaxReset) (w : Work K) (h : Ledger p w) :
    Ledger p (ledgerStep p w) := by
  have hb : p.skipmaxReset ≤ p.big := le_max_left _ _
  unfold ledgerStep
  by_cases h2 : p.skiptol < |w.kdiff|
  · rw [if_pos h2]
    by_cases h3 : 0 < w.skip w.k
    · rw [if_pos h3]
      intro j
      by_cases hj : j = w.k
      · subst hj; simp only [put_same]; omega
      · simp only [put_ne _ _ hj]; exact h j
    · rw [if_neg h3]; exact h
  · rw [if_neg h2]
    by_cases h3 : w.skipmax w.k ≤ w.skip w.k
    · rw [if_pos h3]
      intro j
      by_cases hj : j = w.k
      · subst hj
        have := h w.k
        simp only [put_same]
        have hbig : max p.skipmaxReset p.threshold = p.big := rfl
        rw [hbig]
        split <;> omega
      · simp only [put_ne _ _ hj]; exact h j
    · rw [if_neg h3]
      intro j
      by_cases hj : j = w.k
      · subst hj
        have := h w.k
        simp only [put_same]
        omega
      · simp only [put_ne _ _ hj]; exact h j

theorem advance_ledger (p : Par K) (w : Work K) (h : Ledger p w) : Ledger p (advance p w).1 := by
  intro j
  have hj := h j
  unfold advance
  simp only
  have := (skipLoop_skip p.n w.k w.skipmin w.skipmax p.n w.skip
    (if w.k + 1 < p.n then (w.k + 1, false) else (0, true)).1
    (if w.k + 1 < p.n then (w.k + 1, false) else (0, true)).2 j).2.1 hj.1
  exact ⟨this, hj.2⟩

theorem endCycle_ledger (p : Par K) (h1 : 1 ≤ p.skipmaxReset) (ko : Nat) (w : Work K) (h : Ledger p w) :
    Ledger p (endCycle p ko w)
    ∧ ((endCycle p ko w).skip = w.skip ∨ ∀ j, (endCycle p ko w).skip j = 0) := by
  have hb : p.skipmaxReset ≤ p.big := le_max_left _ _
  unfold endCycle
  simp only
  split
  · split
    · exact ⟨h, Or.inl rfl⟩
    · exact ⟨fun j => ⟨Nat.zero_le _, h1, hb⟩, Or.inr fun _ => rfl⟩
  · exact ⟨h, Or.inl rfl⟩

theorem evalTask_ledger (p : Par K) (h1 : 1 ≤ p.skipmaxReset) (w : Work K) (h : Ledger p w) :
    Ledger p (evalTask p w) := by
  have ht : Ledger p (takeStep p w) := h
  have ha := advance_ledger p _ (ledgerStep_ledger p h1 _ ht)
  unfold evalTask
  simp only
  have hr := restartCheck_facts p
    (if (advance p (ledgerStep p (takeStep p w))).2 then endCycle p w.k (advance p (ledgerStep p (takeStep p w))).1
      else (advance p (ledgerStep p (takeStep p w))).1)
  intro j
  rw [hr.2.2.2.2.2.1, hr.2.2.2.2.2.2.1]
  split
  · exact (endCycle_ledger p h1 _ _ ha).1 j
  · exact ha j

/-! ## Passing over a coordinate is counted -/

/-- How often the position has gone past coordinate `j`: the cycles, and one more if it is past `j` in this one. -/
def past (j iter k : Nat) : Nat := iter + if j < k then 1 else 0

/-- The loop counts each coordinate it passes over, once. -/
theorem skipLoop_count (n kold sm : Nat) (sx : Nat → Nat) (j : Nat) (hj : j < n) (hko : kold < n) : ∀ f s k e, k < n → j ≠ kold →
    (e = true → k ≤ kold) → (e = false → kold < k) →
    let r := skipLoop n kold sm sx f s k e
    (r.2.2 = true → r.2.1 ≤ kold)
    ∧ r.1 j + past j (if e then 1 else 0) k = s j + past j (if r.2.2 then 1 else 0) r.2.1
    ∧ (s j ≤ sm → r.1 j = s j)
  | 0, s, k, e, _, _, he, _ => ⟨he, rfl, fun _ => rfl⟩
  | f + 1, s, k, e, hk, hjk, he, he' => by
    simp only
    unfold skipLoop
    by_cases hc : sm < s k ∧ s k < sx k ∧ k ≠ kold
    · rw [if_pos hc]
      by_cases hw : n ≤ k + 1
      · rw [if_pos hw]
        have hef : e = false := by
          by_contra hne
          have := he (by simpa using hne)
          have := hc.2.2
          omega
        have ih := skipLoop_count n kold sm sx j hj hko f (put s k (s k + 1)) 0 true (by omega) hjk (by omega) (by simp)
        simp only at ih
        refine ⟨ih.1, ?_, ?_⟩
        · have h2 := ih.2.1
          by_cases hjk' : j = k
          · subst hjk'
            rw [put_same] at h2
            simp only [hef, past] at h2 ⊢
            simp at h2 ⊢
            omega
          · rw [put_ne _ _ hjk'] at h2
            have : j < k := by omega
            simp only [hef, past, this] at h2 ⊢
            simp at h2 ⊢
            omega
        · intro h
          by_cases hjk' : j = k
          · subst hjk'; omega
          · rw [ih.2.2 (by rw [put_ne _ _ hjk']; exact h), put_ne _ _ hjk']
      · rw [if_neg hw]
        have ih := skipLoop_count n kold sm sx j hj hko f (put s k (s k + 1)) (k + 1) e (by omega) hjk
          (fun h => by have := he h; have := hc.2.2; omega) (fun h => by have := he' h; omega)
        simp only at ih
        refine ⟨ih.1, ?_, ?_⟩
        · have h2 := ih.2.1
          by_cases hjk' : j = k
          · subst hjk'
            rw [put_same] at h2
            simp only [past] at h2 ⊢
            simp at h2 ⊢
            omega
          · rw [put_ne _ _ hjk'] at h2
            have : (j < k + 1) = (j < k) := by apply propext; omega
            simp only [past, this] at h2 ⊢
            exact h2
        · intro h
          by_cases hjk' : j = k
          · subst hjk'; omega
          · rw [ih.2.2 (by rw [put_ne _ _ hjk']; exact h), put_ne _ _ hjk']
    · rw [if_neg hc]
      exact ⟨he, rfl, fun _ => rfl⟩

theorem advance_count (p : Par K) (w : Work K) (hk : w.k < p.n) {j : Nat} (hj : j < p.n) (hne : j ≠ w.k) :
    (advance p w).1.skip j + past j 0 w.k = w.skip j + past j (if (advance p w).2 then 1 else 0) (advance p w).1.k
    ∧ (w.skip j ≤ w.skipmin → (advance p w).1.skip j = w.skip j) := by
  unfold advance
  by_cases h : w.k + 1 < p.n
  · simp only [h, if_true]
    have hc := skipLoop_count p.n w.k w.skipmin w.skipmax j hj hk p.n w.skip (w.k + 1) false h hne (by simp) (by simp)
    simp only at hc
    refine ⟨?_, hc.2.2⟩
    rw [← hc.2.1]
    have : (j < w.k + 1) = (j < w.k) := by apply propext; omega
    simp [past, this]
  · simp only [h, if_false]
    have hc := skipLoop_count p.n w.k w.skipmin w.skipmax j hj hk p.n w.skip 0 true (by omega) hne (by simp) (by simp)
    simp only at hc
    refine ⟨?_, hc.2.2⟩
    rw [← hc.2.1]
    have : j < w.k := by omega
    simp [past, this]

theorem evalTask_count (p : Par K) (h1 : 1 ≤ p.skipmaxReset) (w : Work K) (hl : Ledger p w) (hk : w.k < p.n) {j : Nat}
    (hj : j < p.n) (hne : j ≠ w.k) :
    ((evalTask p w).skip j + past j w.iter w.k = w.skip j + past j (evalTask p w).iter (evalTask p w).k
      ∨ ((evalTask p w).skip j = 0 ∧ ∃ q, q ≤ p.big
        ∧ q + past j w.iter w.k = w.skip j + past j (evalTask p w).iter (evalTask p w).k))
    ∧ (w.skip j = 0 → (evalTask p w).skip j = 0
      ∧ past j (evalTask p w).iter (evalTask p w).k = past j w.iter w.k) := by
  obtain ⟨v, hv⟩ : ∃ v, v = ledgerStep p (takeStep p w) := ⟨_, rfl⟩
  have hvl : Ledger p v := by rw [hv]; exact ledgerStep_ledger p h1 _ hl
  have hf := ledgerStep_facts p (takeStep p w)
  have ht := takeStep_facts p w
  have hvk : v.k = w.k := by rw [hv, hf.2.2.2.2.2.1, ht.2.1]
  have hvi : v.iter = w.iter := by rw [hv, hf.2.1, ht.1]
  have hvs : v.skip j = w.skip j := by
    have hjk : j ≠ (takeStep p w).k := by rw [ht.2.1]; exact hne
    rw [hv]
    unfold ledgerStep
    split
    · split
      · simp only [put_ne _ _ hjk]; rfl
      · rfl
    · split
      · simp only [put_ne _ _ hjk]; rfl
      · simp only [put_ne _ _ hjk]; rfl
  have hc := advance_count p v (by rw [hvk]; exact hk) hj (by rw [hvk]; exact hne)
  have hal := advance_ledger p v hvl
  have hai : (advance p v).1.iter = w.iter := by rw [(advance_facts p v).2.1, hvi]
  have hr := restartCheck_facts p (if (advance p v).2 then endCycle p w.k (advance p v).1 else (advance p v).1)
  have he : evalTask p w = restartCheck p (if (advance p v).2 then endCycle p w.k (advance p v).1
      else (advance p v).1) := by rw [hv]; rfl
  rw [he, hr.2.1, hr.2.2.2.1, hr.2.2.2.2.2.1]
  rw [hvk, hvs] at hc
  by_cases hend : (advance p v).2 = true
  · simp only [hend, if_true] at hc ⊢
    have hef := endCycle_facts p w.k (advance p v).1
    have hel := endCycle_ledger p h1 w.k (advance p v).1 hal
    rw [hef.2.1, hef.2.2.2.2.1, hai]
    have hsum : (advance p v).1.skip j + past j w.iter w.k = w.skip j + past j (w.iter + 1) (advance p v).1.k := by
      have := hc.1
      simp only [past] at this ⊢
      omega
    refine ⟨?_, fun h0 => ?_⟩
    · rcases hel.2 with h | h
      · left; rw [h]; exact hsum
      · right
        refine ⟨h j, (advance p v).1.skip j, ?_, hsum⟩
        have := hal j
        omega
    · have h2 := hc.2 (by omega)
      have hz : (advance p v).1.skip j = 0 := by omega
      refine ⟨?_, by omega⟩
      rcases hel.2 with h | h
      · rw [h]; exact hz
      · exact h j
  · simp only [hend] at hc ⊢
    simp only [Bool.false_eq_true, if_false] at hc ⊢
    rw [hai]
    have hsum : (advance p v).1.skip j + past j w.iter w.k = w.skip j + past j w.iter (advance p v).1.k := by
      have := hc.1
      simp only [past] at this ⊢
      omega
    refine ⟨Or.inl hsum, fun h0 => ?_⟩
    have h2 := hc.2 (by omega)
    exact ⟨by omega, by omega⟩

/-! ## The ledger along a run -/

/-- What the passes keep: the ledger in its ranges, and a run that has not begun has counted nothing. -/
def LInv (p : Par K) (s : Drv U K) : Prop :=
  Ledger p s.w ∧ (s.w.task = .start → s.w.iter = 0 ∧ s.w.k = 0 ∧ ∀ j, s.w.skip j = 0)

/-- What a pass does to the work array. -/
theorem pass_w (p : Par K) (okp : p.Ok) (cb : Calls U K) (e : Env) (s : Drv U K) (hw : Where p s) (hb : s.busy = true) :
    (pass p cb e s).w.task ≠ .start ∧
    ((s.w.task = .start ∧ (pass p cb e s).w.skip = (fun _ => 0) ∧ (pass p cb e s).w.skipmax = (fun _ => p.skipmaxReset)
        ∧ (pass p cb e s).w.iter = 0 ∧ (pass p cb e s).w.k = 0)
      ∨ (s.w.task = .eval ∧ (pass p cb e s).w.skip = (evalTask p s.w).skip
        ∧ (pass p cb e s).w.skipmax = (evalTask p s.w).skipmax
        ∧ (pass p cb e s).w.iter = (evalTask p s.w).iter ∧ (pass p cb e s).w.k = (evalTask p s.w).k)
      ∨ (s.w.task ≠ .eval ∧ (pass p cb e s).w.skip = s.w.skip ∧ (pass p cb e s).w.skipmax = s.w.skipmax
        ∧ (pass p cb e s).w.iter = s.w.iter ∧ (pass p cb e s).w.k = s.w.k)) := by
  have hn : ∀ s' : Drv U K, s'.w.task ≠ .start → (driveNewx p cb e s').w.task ≠ .start
      ∧ (driveNewx p cb e s').w.skip = s'.w.skip ∧ (driveNewx p cb e s').w.skipmax = s'.w.skipmax
      ∧ (driveNewx p cb e s').w.iter = s'.w.iter ∧ (driveNewx p cb e s').w.k = s'.w.k := by
    intro s' h
    rcases driveNewx_w p cb e s' with h' | h' <;> rw [h']
    · exact ⟨h, rfl, rfl, rfl, rfl⟩
    · exact ⟨by simp, rfl, rfl, rfl, rfl⟩
  rcases pass_cases p okp cb e s hw hb with ⟨ht, hp⟩ | ⟨ht, h1, h2, _, hp⟩ | ⟨ht, h1, h2, hp⟩ | ⟨ht, h1, h2, hp⟩
    | ⟨ht, hl, hp⟩ | ⟨ht, hl, hp⟩ | ⟨ht, hp⟩
  · rw [hp]
    exact ⟨by simp [driveEval, begin_], Or.inl ⟨ht, rfl, rfl, rfl, rfl⟩⟩
  · rw [hp]
    exact ⟨by simp [driveEval, h1], Or.inr (Or.inl ⟨ht, rfl, rfl, rfl, rfl⟩)⟩
  · rw [hp]
    exact ⟨by simp [driveCheck, h1], Or.inr (Or.inl ⟨ht, rfl, rfl, rfl, rfl⟩)⟩
  · rw [hp]
    have := hn { s with w := evalTask p s.w, status := .success } (by simp [h1])
    exact ⟨this.1, Or.inr (Or.inl ⟨ht, this.2⟩)⟩
  · rw [hp]
    have := hn { s with w := { s.w with task := .stop }, status := .success } (by simp)
    exact ⟨this.1, Or.inr (Or.inr ⟨by simp [ht], this.2⟩)⟩
  · rw [hp]
    have := hn { s with w := { s.w with task := .newx }, status := .success } (by simp)
    exact ⟨this.1, Or.inr (Or.inr ⟨by simp [ht], this.2⟩)⟩
  · rw [hp]
    exact ⟨by simp [driveEval], Or.inr (Or.inr ⟨by simp [ht], rfl, rfl, rfl, rfl⟩)⟩

theorem drive_lInv (p : Par K) (okp : p.Ok) (h1 : 1 ≤ p.skipmaxReset) (cb : Calls U K) (e : Env) (x : Nat → K) (u : U)
    (f : Nat) : LInv p (drive p cb e f (initial p x u)) := by
  have hb : p.skipmaxReset ≤ p.big := le_max_left _ _
  apply drive_ind p cb e _ (LInv p)
  · exact ⟨fun j => ⟨Nat.zero_le _, h1, hb⟩, fun _ => ⟨rfl, rfl, fun _ => rfl⟩⟩
  · intro f h hbusy
    have hw := drive_where p okp cb e x u f
    generalize drive p cb e f (initial p x u) = s at *
    have hp := pass_w p okp cb e s hw hbusy
    refine ⟨?_, fun ht => absurd ht hp.1⟩
    intro j
    rcases hp.2 with ⟨_, h2, h3, _⟩ | ⟨_, h2, h3, _⟩ | ⟨_, h2, h3, _⟩
    · rw [h2, h3]; exact ⟨Nat.zero_le _, h1, hb⟩
    · rw [h2, h3]; exact evalTask_ledger p h1 s.w h.1 j
    · rw [h2, h3]; exact h.1 j

/-- While a coordinate is not evaluated the position goes past it at most `big` times. -/
theorem drive_fair (p : Par K) (okp : p.Ok) (h1 : 1 ≤ p.skipmaxReset) (cb : Calls U K) (e : Env) (x : Nat → K) (u : U)
    {j : Nat} (hj : j < p.n) (f : Nat) : ∀ g,
    (∀ h, f ≤ h → h < f + g → (drive p cb e h (initial p x u)).w.task = .eval →
      (drive p cb e h (initial p x u)).w.k ≠ j) →
    past j (drive p cb e (f + g) (initial p x u)).w.iter (drive p cb e (f + g) (initial p x u)).w.k
      ≤ past j (drive p cb e f (initial p x u)).w.iter (drive p cb e f (initial p x u)).w.k + p.big := by
  intro g hno
  have key : (drive p cb e (f + g) (initial p x u)).w.skip j
        + past j (drive p cb e f (initial p x u)).w.iter (drive p cb e f (initial p x u)).w.k
      = (drive p cb e f (initial p x u)).w.skip j
        + past j (drive p cb e (f + g) (initial p x u)).w.iter (drive p cb e (f + g) (initial p x u)).w.k
    ∨ ((drive p cb e (f + g) (initial p x u)).w.skip j = 0
      ∧ past j (drive p cb e (f + g) (initial p x u)).w.iter (drive p cb e (f + g) (initial p x u)).w.k
        ≤ past j (drive p cb e f (initial p x u)).w.iter (drive p cb e f (initial p x u)).w.k + p.big) := by
    induction g with
    | zero => left; rfl
    | succ g ih =>
      have ih := ih fun h a b => hno h a (by omega)
      have hthis := hno (f + g) (by omega) (by omega)
      have hw := drive_where p okp cb e x u (f + g)
      have hl := drive_lInv p okp h1 cb e x u (f + g)
      rw [show f + (g + 1) = (f + g) + 1 by omega, drive_succ]
      generalize drive p cb e (f + g) (initial p x u) = s at *
      generalize drive p cb e f (initial p x u) = s0 at *
      split
      · next hb =>
        rcases (pass_w p okp cb e s hw hb).2 with ⟨ht, h2, _, h3, h4⟩ | ⟨ht, h2, _, h3, h4⟩ | ⟨ht, h2, _, h3, h4⟩
        · obtain ⟨a, b, c⟩ := hl.2 ht
          have cj := c j
          rw [h2, h3, h4]
          rw [a, b, cj] at ih
          exact ih
        · have hk : s.w.k < p.n := by simp only [Where, ht] at hw; exact hw.2.1
          have hc := evalTask_count p h1 s.w hl.1 hk hj (fun h => hthis ht h.symm)
          rw [h2, h3, h4]
          rcases ih with ih | ⟨ih0, ih⟩
          · rcases hc.1 with hc | ⟨hc0, q, hq, hc⟩
            · left; omega
            · right; exact ⟨hc0, by omega⟩
          · right
            have := hc.2 ih0
            exact ⟨this.1, by omega⟩
        · rw [h2, h3, h4]; exact ih
      · exact ih
  have hl := (drive_lInv p okp h1 cb e x u (f + g)).1 j
  rcases key with h | h
  · omega
  · exact h.2

/-! ## Bounds -/

/-- The value lies in the bounds of its coordinate. -/
def Inside (p : Par K) (i : Nat) (v : K) : Prop :=
  (∀ l, p.lo i = some l → l ≤ v) ∧ ∀ h, p.hi i = some h → v ≤ h

theorem proj_inside (p : Par K) (i : Nat) (hlh : ∀ l h, p.lo i = some l → p.hi i = some h → l ≤ h) (v : K) :
    Inside p i (proj p i v) := by
  unfold Inside proj
  cases hl : p.lo i with
  | none =>
    cases hh : p.hi i with
    | none => simp
    | some h => simp
  | some l =>
    cases hh : p.hi i with
    | none => simp
    | some h => simp [hlh l h hl hh]

def BInv (p : Par K) (s : Drv U K) : Prop := s.w.task = .start ∨ ∀ i, i < p.n → Inside p i (s.w.x i)

theorem drive_bInv (p : Par K) (okp : p.Ok) (hlh : ∀ i l h, i < p.n → p.lo i = some l → p.hi i = some h → l ≤ h)
    (cb : Calls U K) (e : Env) (x : Nat → K) (u : U) (f : Nat) : BInv p (drive p cb e f (initial p x u)) := by
  apply drive_ind p cb e _ (BInv p)
  · exact Or.inl rfl
  · intro f h hb
    have hw := drive_where p okp cb e x u f
    generalize drive p cb e f (initial p x u) = s at *
    right
    have heval : s.w.task = .eval → ∀ i, i < p.n → Inside p i ((evalTask p s.w).x i) := by
      intro ht i hi
      have hs : ∀ i, i < p.n → Inside p i (s.w.x i) := by
        rcases h with h | h
        · rw [ht] at h; cases h
        · exact h
      obtain ⟨v, h1, _, h3, _⟩ := evalTask_facts p s.w okp.n_pos
      rw [h1]
      by_cases hik : i = s.w.k
      · subst hik
        rw [put_same]
        rcases h3 with h3 | h3
        · rw [h3]; exact hs _ hi
        · rw [h3]; exact proj_inside p _ (fun l h => hlh _ l h hi) _
      · rw [put_ne _ _ hik]; exact hs i hi
    have hother : s.w.task ≠ .start → ∀ i, i < p.n → Inside p i (s.w.x i) := fun hne => h.resolve_left hne
    have hn : ∀ s' : Drv U K, (driveNewx p cb e s').w.x = s'.w.x := by
      intro s'
      rcases driveNewx_w p cb e s' with h' | h' <;> rw [h']
    rcases pass_cases p okp cb e s hw hb with ⟨ht, hp⟩ | ⟨ht, h1, h2, _, hp⟩ | ⟨ht, h1, h2, hp⟩ | ⟨ht, h1, h2, hp⟩
      | ⟨ht, hl, hp⟩ | ⟨ht, hl, hp⟩ | ⟨ht, hp⟩
    · rw [hp]
      intro i hi
      show Inside p i ((begin_ p s.w).x i)
      simp only [begin_, if_pos hi]
      exact proj_inside p i (fun l h => hlh i l h hi) _
    · rw [hp]; exact heval ht
    · rw [hp]; exact heval ht
    · rw [hp, hn]; exact heval ht
    · rw [hp, hn]; exact hother (by simp [ht])
    · rw [hp, hn]; exact hother (by simp [ht])
    · rw [hp]; exact hother (by simp [ht])

/-! ## Failures of the call-backs -/

/-- If the check never fails no run ends with the status of a failed call-back. -/
theorem no_report (p : Par K) (okp : p.Ok) (cb : Calls U K) (hc : ∀ x u, (cb.check x u).2.2 = false) (e : Env)
    (x : Nat → K) (u : U) (f : Nat) : (drive p cb e f (initial p x u)).status ≠ .callback := by
  -- a failure is forgotten before the status is set
  have hstop : ∀ s : Drv U K, s.cbstop = false → s.status ≠ .callback → (decideStop p e s).status ≠ .callback := by
    intro s h h'
    unfold decideStop
    rw [if_neg (by simp [h])]
    split
    · exact h'
    · split
      · simp [halt]
      · split
        · simp [halt]
        · split
          · simp [halt]
          · split
            · split
              · simp [halt]
              · exact h'
            · exact h'
  have hnx : ∀ s : Drv U K, s.status = .success → (s.cbstop = true → s.chkIter < s.w.iter) →
      (driveNewx p cb e s).status ≠ .callback := by
    intro s hs hlt
    unfold driveNewx
    apply hstop
    · unfold measure
      split
      · simp only
        split
        · exact hc _ _
        · next hn =>
          by_contra hcb
          exact hn (hlt (by simpa using hcb))
      · next hn =>
        by_contra hcb
        apply hn
        simp [show s.cbstop = true by simpa using hcb]
    · unfold measure
      split
      · simp only
        split
        · simp [driveCheck, hs]
        · simp [hs]
      · simp [hs]
  have key : ∀ f, (drive p cb e f (initial p x u)).status ≠ .callback
      ∧ ((drive p cb e f (initial p x u)).w.task = .optimchk → (drive p cb e f (initial p x u)).cbstop = false) := by
    apply drive_ind p cb e _ (fun s => s.status ≠ .callback ∧ (s.w.task = .optimchk → s.cbstop = false))
    · exact ⟨by simp [initial], by simp [initial]⟩
    · intro f h hb
      have hw := drive_where p okp cb e x u f
      have hsi := drive_sInv p okp cb e x u f
      generalize drive p cb e f (initial p x u) = s at *
      have hnt : ∀ s' : Drv U K, s'.w.task ≠ .optimchk → (driveNewx p cb e s').w.task = .optimchk →
          (driveNewx p cb e s').cbstop = false := by
        intro s' h1 h2
        exfalso
        rcases driveNewx_w p cb e s' with h' | h' <;> rw [h'] at h2
        · exact h1 h2
        · cases h2
      rcases pass_cases p okp cb e s hw hb with ⟨ht, hp⟩ | ⟨ht, h1, h2, _, hp⟩ | ⟨ht, h1, h2, hp⟩ | ⟨ht, h1, h2, hp⟩
        | ⟨ht, hl, hp⟩ | ⟨ht, hl, hp⟩ | ⟨ht, hp⟩
      · rw [hp]; exact ⟨by simp [driveEval], by simp [driveEval, begin_]⟩
      · rw [hp]; exact ⟨by simp [driveEval], by simp [driveEval, h1]⟩
      · rw [hp]; exact ⟨by simp [driveCheck], fun _ => hc _ _⟩
      · rw [hp]
        refine ⟨hnx _ rfl fun _ => ?_, hnt _ (by simp [h1])⟩
        have : s.chkIter ≤ s.w.iter := by simpa only [SInv, ht] using hsi
        simp only [h2]
        push_cast
        omega
      · rw [hp]
        refine ⟨hnx _ rfl fun hcb => ?_, hnt _ (by simp)⟩
        have := h.2 ht
        simp [this] at hcb
      · rw [hp]
        refine ⟨hnx _ rfl fun hcb => ?_, hnt _ (by simp)⟩
        have := h.2 ht
        simp [this] at hcb
      · rw [hp]; exact ⟨by simp [driveEval], by simp [driveEval]⟩
  exact (key f).1

/-- A failure of the check is reported by the pass that follows. -/
theorem check_report (p : Par K) (okp : p.Ok) (cb : Calls U K) (e : Env) (x : Nat → K) (u : U) (f : Nat)
    (ht : (drive p cb e f (initial p x u)).w.task = .optimchk)
    (hc : (drive p cb e f (initial p x u)).cbstop = true) :
    (drive p cb e (f + 1) (initial p x u)).w.task = .stop
    ∧ (drive p cb e (f + 1) (initial p x u)).status = .callback := by
  have hw := drive_where p okp cb e x u f
  have hsi := drive_sInv p okp cb e x u f
  rw [drive_succ]
  generalize drive p cb e f (initial p x u) = s at *
  have hb : s.busy = true := by simp [Drv.busy, ht]
  rw [if_pos hb]
  have hci : s.chkIter = s.w.iter := by
    have := hsi
    simp only [SInv, ht] at this
    exact this.1
  have hnx : ∀ s' : Drv U K, s'.cbstop = true → s'.chkIter = s'.w.iter →
      (driveNewx p cb e s').w.task = .stop ∧ (driveNewx p cb e s').status = .callback := by
    intro s' h1 h2
    unfold driveNewx
    have : (measure p cb e s').cbstop = true := by
      unfold measure
      split
      · simp only
        rw [if_neg (by simp [h2])]
        exact h1
      · exact h1
    unfold decideStop
    rw [if_pos this]
    exact ⟨rfl, rfl⟩
  rcases pass_cases p okp cb e s hw hb with ⟨ht', hp⟩ | ⟨ht', _⟩ | ⟨ht', _⟩ | ⟨ht', _⟩
    | ⟨ht', hl, hp⟩ | ⟨ht', hl, hp⟩ | ⟨ht', hp⟩
  · rw [ht] at ht'; cases ht'
  · rw [ht] at ht'; cases ht'
  · rw [ht] at ht'; cases ht'
  · rw [ht] at ht'; cases ht'
  · rw [hp]; exact hnx _ hc hci
  · rw [hp]; exact hnx _ hc hci
  · rw [ht] at ht'; cases ht'

/-- After a failed check the measure is the one from before. -/
theorem check_keeps (p : Par K) (okp : p.Ok) (cb : Calls U K) (e : Env) (x : Nat → K) (u : U) (f : Nat) :
    (drive p cb e f (initial p x u)).w.task = .optimchk → (drive p cb e f (initial p x u)).cbstop = true →
    (drive p cb e f (initial p x u)).optim = (drive p cb e f (initial p x u)).optimOld := by
  apply drive_ind p cb e _ (fun s => s.w.task = .optimchk → s.cbstop = true → s.optim = s.optimOld)
  · intro h; cases h
  · intro f _ hb
    have hw := drive_where p okp cb e x u f
    generalize drive p cb e f (initial p x u) = s at *
    have hnt : ∀ s' : Drv U K, s'.w.task ≠ .optimchk → (driveNewx p cb e s').w.task ≠ .optimchk := by
      intro s' h1 h2
      rcases driveNewx_w p cb e s' with h' | h' <;> rw [h'] at h2
      · exact h1 h2
      · cases h2
    rcases pass_cases p okp cb e s hw hb with ⟨ht, hp⟩ | ⟨ht, h1, h2, _, hp⟩ | ⟨ht, h1, h2, hp⟩ | ⟨ht, h1, h2, hp⟩
      | ⟨ht, hl, hp⟩ | ⟨ht, hl, hp⟩ | ⟨ht, hp⟩
    · rw [hp]; intro h; cases h
    · rw [hp]; intro h; simp [driveEval, h1] at h
    · rw [hp]
      intro _ hc
      have hc : (cb.check (evalTask p s.w).x s.u).2.2 = true := hc
      simp [driveCheck, hc]
    · rw [hp]; intro h; exact absurd h (hnt _ (by simp [h1]))
    · rw [hp]; intro h; exact absurd h (hnt _ (by simp))
    · rw [hp]; intro h; exact absurd h (hnt _ (by simp))
    · rw [hp]; intro h; cases h

end

end Verif.Coord
