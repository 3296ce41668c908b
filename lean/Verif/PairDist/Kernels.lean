import Verif.PairDist.Loops

/-
Packing and the microkernels.
-/
namespace Verif.PairDist

open Verif.Logistic (loop upd loop_inv loop_congr loop_sum loop_upd upd_same upd_ne)
open Finset (range)

set_option linter.unusedSectionVars false

section
variable {S : Type*}

/-- The pointers of a microkernel after `i` rows, and what has been accumulated. -/
structure At (MR NR ao bo k : Nat) (P : Nat → S → Prop) (s : Cur S) : Prop where
  ha : s.a = ao + s.i * MR
  hb : s.b = bo + s.i * NR
  hi : s.i ≤ k
  hP : P s.i s.g

theorem ways_at {MR NR ao bo k w : Nat} (hw : 0 < w) {P : Nat → S → Prop} {f : Nat → Nat → S → S}
    (step : ∀ i g, i + w ≤ k → P i g → P (i + w) (f (ao + i * MR) (bo + i * NR) g)) {s : Cur S}
    (h : At MR NR ao bo k P s) :
    At MR NR ao bo k P (ways MR NR w k f s) ∧ k - (ways MR NR w k f s).i < w := by
  unfold ways
  have key := loop_inv (fun t (r : Cur S) => t ≤ (k - s.i) / w →
    At MR NR ao bo k P r ∧ r.i = s.i + t * w) ((k - s.i) / w) s
    (fun _ s => ⟨s.i + w, s.a + w * MR, s.b + w * NR, f s.a s.b s.g⟩) (fun _ => ⟨h, by simp⟩) (by
      intro t r ht ih hle
      obtain ⟨a, e⟩ := ih (by omega)
      have h2 : (t + 1) * w ≤ k - s.i := (Nat.le_div_iff_mul_le hw).1 hle
      rw [Nat.add_mul, Nat.one_mul] at h2
      have h3 := h.hi
      have h4 : r.i + w ≤ k := by omega
      refine ⟨⟨?_, ?_, h4, ?_⟩, ?_⟩
      · show r.a + w * MR = ao + (r.i + w) * MR
        rw [a.ha, Nat.add_mul]; omega
      · show r.b + w * NR = bo + (r.i + w) * NR
        rw [a.hb, Nat.add_mul]; omega
      · show P (r.i + w) (f r.a r.b r.g)
        rw [a.ha, a.hb]
        exact step r.i r.g h4 a.hP
      · show r.i + w = _
        rw [e, Nat.add_mul]; omega)
  obtain ⟨a, e⟩ := key (le_refl _)
  refine ⟨a, ?_⟩
  rw [e]
  have h1 := Nat.div_add_mod (k - s.i) w
  have h2 := Nat.mod_lt (k - s.i) hw
  have h3 := h.hi
  rw [Nat.mul_comm w] at h1
  omega

end

variable {K : Type*} [Field K] [LinearOrder K]

/-! ### Packing -/

theorem memcpy_at (T : Nat → K) (tp : Nat) (X : Nat → K) (xo len c : Nat) :
    memcpy T tp X xo len c = if tp ≤ c ∧ c < tp + len then X (xo + (c - tp)) else T c :=
  loop_upd len T tp (fun r _ => X (xo + r)) c

theorem memzero_at (T : Nat → K) (tp len c : Nat) :
    memzero T tp len c = if tp ≤ c ∧ c < tp + len then 0 else T c :=
  loop_upd len T tp (fun _ _ => 0) c

theorem packPanel_wr {B m k : Nat} (hm : m ≤ B) (X : Nat → K) (xo ldx tp : Nat) :
    Wr (fun T => packPanel B m k X xo ldx T tp) (fun r p => tp + p * B + r)
      (fun r p => r < B ∧ p < k) fun r p _ => if r < m then X (xo + r + p * ldx) else 0 := by
  have inj : Inj (fun r p => tp + p * B + r) (fun r p => r < B ∧ p < k) := inj_cols (le_refl B)
  have one : ∀ (f : Nat → (Nat → K) → Nat → K),
      (∀ p T c, f p T c = if tp + p * B ≤ c ∧ c < tp + p * B + B then
        (if c - (tp + p * B) < m then X (xo + (c - (tp + p * B)) + p * ldx) else 0) else T c) →
      Wr (fun T => loop k T f) (fun r p => tp + p * B + r)
      (fun r p => r < B ∧ p < k) fun r p _ => if r < m then X (xo + r + p * ldx) else 0 := by
    intro f hf
    have := Wr.fold (L := List.range k) List.nodup_range (f := f)
      (G := fun r p _ => if r < m then X (xo + r + p * ldx) else 0)
      (DT := fun t r p => r < B ∧ p = t) inj (fun t ht T => ⟨fun r p d => by
        rw [hf, d.2, if_pos (by omega), show tp + t * B + r - (tp + t * B) = r by omega],
        fun c hc => by
          rw [hf, if_neg]
          rintro ⟨h1, h2⟩
          exact hc (c - (tp + t * B)) t ⟨by omega, rfl⟩ (by omega)⟩)
      (fun r p => ⟨fun d => ⟨p, List.mem_range.2 d.2, d.1, rfl⟩, fun ⟨t, ht, d⟩ =>
        ⟨d.1, d.2 ▸ List.mem_range.1 ht⟩⟩)
      (fun t t' r p _ _ d d' => d.2.symm.trans d'.2)
    exact this.congr (fun _ => loop_foldl _ _ _) (fun _ _ _ => rfl) (fun _ _ => Iff.rfl)
      fun _ _ _ _ => rfl
  unfold packPanel
  by_cases e : m = B
  · simp only [if_pos e]
    refine one _ fun p T c => ?_
    rw [memcpy_at]
    by_cases h : tp + p * B ≤ c ∧ c < tp + p * B + B
    · rw [if_pos h, if_pos h, if_pos (by omega)]
      congr 1; omega
    · rw [if_neg h, if_neg h]
  · simp only [if_neg e]
    refine one _ fun p T c => ?_
    rw [memzero_at, memcpy_at]
    by_cases h : tp + p * B ≤ c ∧ c < tp + p * B + B
    · rw [if_pos h]
      by_cases h' : c - (tp + p * B) < m
      · rw [if_neg (by omega), if_pos (by omega), if_pos h']
        congr 1; omega
      · rw [if_pos (by omega), if_neg h']
    · rw [if_neg h, if_neg (by omega), if_neg (by omega)]

theorem packBlock_loop {B m k : Nat} (X : Nat → K) (xo ldx : Nat) (T : Nat → K) :
    packBlock B m k X xo ldx T = loop ((m + B - 1) / B) T fun t T =>
      packPanel B (min B (m - t * B)) k X (xo + t * B) ldx T (t * (B * k)) := by
  unfold packBlock stepFrom
  have : ∀ N, loop N (T, 0) (fun t (s : (Nat → K) × Nat) =>
      (packPanel B (min B (m - (0 + t * B))) k X (xo + (0 + t * B)) ldx s.1 s.2, s.2 + B * k)) =
      (loop N T fun t T => packPanel B (min B (m - t * B)) k X (xo + t * B) ldx T (t * (B * k)),
        N * (B * k)) := by
    intro N
    induction N with
    | zero => simp [loop]
    | succ N ih =>
      rw [loop, ih, loop]
      simp only [Nat.zero_add, Nat.add_mul, Nat.one_mul]
  rw [this, Nat.sub_zero]

/-- Cell `lane` of row `p` of panel `t` holds entry `(t B + lane, p)`, or zero below the block. -/
theorem packBlock_wr {B m k : Nat} (hB : 0 < B) (X : Nat → K) (xo ldx : Nat) :
    Wr (packBlock B m k X xo ldx) (fun r j => j * B + r)
      (fun r j => r < B ∧ j < (m + B - 1) / B * k)
      fun r j _ => if j / k * B + r < m then X (xo + (j / k * B + r) + j % k * ldx) else 0 := by
  have inj : Inj (fun r j => j * B + r) (fun r j => r < B ∧ j < (m + B - 1) / B * k) := by
    have := inj_cols (co := 0) (n := (m + B - 1) / B * k) (le_refl B)
    simpa only [Nat.zero_add] using this
  have := Wr.fold (L := List.range ((m + B - 1) / B)) List.nodup_range
    (f := fun t T => packPanel B (min B (m - t * B)) k X (xo + t * B) ldx T (t * (B * k)))
    (G := fun r j _ => if j / k * B + r < m then X (xo + (j / k * B + r) + j % k * ldx) else 0)
    (DT := fun t r j => 0 ≤ r ∧ t * k ≤ j ∧ (r - 0 < B ∧ j - t * k < k)) inj (fun t ht => by
      refine (packPanel_wr (by omega) X (xo + t * B) ldx (t * (B * k))).shift 0 (t * k) _
        (fun r p _ => ?_) fun r p x d => ?_
      · simp only [Nat.zero_add, Nat.add_mul]
        rw [Nat.mul_comm B k, Nat.mul_assoc]
      · have hk : 0 < k := by omega
        have e1 : (t * k + p) / k = t := by
          rw [Nat.add_comm, Nat.add_mul_div_right _ _ hk, Nat.div_eq_of_lt d.2, Nat.zero_add]
        have e2 : (t * k + p) % k = p := by
          rw [Nat.add_comm, Nat.add_mul_mod_self_right, Nat.mod_eq_of_lt d.2]
        rw [e1, e2, Nat.zero_add]
        by_cases h : t * B + r < m
        · rw [if_pos h, if_pos (by omega)]
          congr 1; omega
        · rw [if_neg h, if_neg (by omega)]) (fun r j => by
      simp only [List.mem_range]
      constructor
      · rintro ⟨h1, h2⟩
        have hk : 0 < k := by
          rcases Nat.eq_zero_or_pos k with e | e
          · rw [e, Nat.mul_zero] at h2; omega
          · exact e
        have e := Nat.div_add_mod j k
        have e' := Nat.mod_lt j hk
        rw [Nat.mul_comm] at e
        exact ⟨j / k, Nat.div_lt_of_lt_mul (by rw [Nat.mul_comm]; exact h2), by omega, by omega,
          by omega, by omega⟩
      · rintro ⟨t, ht, d⟩
        refine ⟨by omega, ?_⟩
        have : (t + 1) * k ≤ (m + B - 1) / B * k := Nat.mul_le_mul_right k ht
        rw [Nat.add_mul, Nat.one_mul] at this
        omega) (fun t t' r j _ _ d d' => by
      have a1 : t = j / k := (Nat.div_eq_of_lt_le (by omega) (by rw [Nat.succ_mul]; omega)).symm
      have a2 : t' = j / k := (Nat.div_eq_of_lt_le (by omega) (by rw [Nat.succ_mul]; omega)).symm
      rw [a1, a2])
  exact this.congr (fun T => by rw [packBlock_loop, loop_foldl]) (fun _ _ _ => rfl)
    (fun _ _ => Iff.rfl) fun _ _ _ _ => rfl

/-- What a microkernel finds. -/
theorem packBlock_at {B m k : Nat} (hB : 0 < B) (X : Nat → K) (xo ldx : Nat) (T : Nat → K)
    {t p r : Nat} (hp : p < k) (hr : r < B) (h : t * B + r < m) :
    packBlock B m k X xo ldx T (t * B * k + p * B + r) = X (xo + (t * B + r) + p * ldx) := by
  have ht : t < (m + B - 1) / B := (lt_steps hB).2 (by omega)
  have := (packBlock_wr hB X xo ldx T).1 r (t * k + p) ⟨hr, by
    calc t * k + p < t * k + k := by omega
      _ = (t + 1) * k := by rw [Nat.add_mul, Nat.one_mul]
      _ ≤ _ := Nat.mul_le_mul_right k ht⟩
  have e1 : (t * k + p) / k = t := by
    rw [Nat.add_comm, Nat.add_mul_div_right _ _ (by omega), Nat.div_eq_of_lt hp, Nat.zero_add]
  have e2 : (t * k + p) % k = p := by
    rw [Nat.add_comm, Nat.add_mul_mod_self_right, Nat.mod_eq_of_lt hp]
  simp only [e1, e2, if_pos h] at this
  rw [← this]
  congr 1
  rw [Nat.add_mul, Nat.mul_assoc, Nat.mul_comm B k, ← Nat.mul_assoc]

/-! ### Microkernels -/

/-- The sum that a microkernel adds to entry `(lane, c)`. -/
def part (MR NR : Nat) (f : K → K → K) (A B : Nat → K) (ao bo i lane c : Nat) : K :=
  ∑ q ∈ range i, f (A (ao + q * MR + lane)) (B (bo + c + q * NR))

theorem part_add (MR NR : Nat) (f : K → K → K) (A B : Nat → K) (ao bo i w lane c : Nat) :
    part MR NR f A B ao bo (i + w) lane c =
      part MR NR f A B ao bo i lane c +
        part MR NR f A B (ao + i * MR) (bo + i * NR) w lane c := by
  unfold part
  rw [Finset.sum_range_add]
  congr 1
  refine Finset.sum_congr rfl fun q _ => ?_
  rw [Nat.add_mul, Nat.add_mul]
  congr 2 <;> omega

theorem procCols_at (MR NR w : Nat) (f : K → K → K) (A B : Nat → K) (ao bo : Nat)
    (g : Nat → Nat → K) {c : Nat} (hc : c < NR) (lane : Nat) :
    procCols MR NR w f A B ao bo g c lane = g c lane + part MR NR f A B ao bo w lane c := by
  unfold procCols part
  rw [if_pos hc, loop_sum]

/-- The registers after `i` rows. -/
def Acc (MR NR : Nat) (f : K → K → K) (A B : Nat → K) (ao bo : Nat) (g0 : Nat → Nat → K) (i : Nat)
    (g : Nat → Nat → K) : Prop :=
  ∀ c, c < NR → ∀ lane, g c lane = g0 c lane + part MR NR f A B ao bo i lane c

theorem proc_step (MR NR w k : Nat) (f : K → K → K) (A B : Nat → K) (ao bo : Nat)
    (g0 : Nat → Nat → K) : ∀ i g, i + w ≤ k → Acc MR NR f A B ao bo g0 i g →
      Acc MR NR f A B ao bo g0 (i + w) (procCols MR NR w f A B (ao + i * MR) (bo + i * NR) g) := by
  intro i g _ h c hc lane
  rw [procCols_at _ _ _ _ _ _ _ _ _ hc, h c hc lane, part_add, add_assoc]

theorem accSingle_at (MR NR k : Nat) (f : K → K → K) (A B : Nat → K) (ao bo : Nat)
    (g : Nat → Nat → K) {c : Nat} (hc : c < NR) (lane : Nat) :
    accSingle MR NR k f A B ao bo g c lane = g c lane + part MR NR f A B ao bo k lane c := by
  unfold accSingle
  have h0 : At MR NR ao bo k (Acc MR NR f A B ao bo g) ⟨0, ao, bo, g⟩ :=
    ⟨by simp, by simp, Nat.zero_le _, fun c _ lane => by simp [part]⟩
  have h1 := (ways_at (by omega) (proc_step MR NR 4 k f A B ao bo g) h0).1
  have h2 := (ways_at (by omega) (proc_step MR NR 3 k f A B ao bo g) h1).1
  have h3 := (ways_at (by omega) (proc_step MR NR 2 k f A B ao bo g) h2).1
  have h4 := ways_at (by omega) (proc_step MR NR 1 k f A B ao bo g) h3
  have e := h4.1.hi
  have := h4.1.hP c hc lane
  rw [show (ways MR NR 1 k _ _).i = k by omega] at this
  exact this

theorem accDual_at (MR NR k : Nat) (f : K → K → K) (A B : Nat → K) (ao bo : Nat)
    (g : Nat → Nat → K) {c : Nat} (hc : c < NR) (lane : Nat) :
    accDual MR NR k f A B ao bo g c lane = g c lane + part MR NR f A B ao bo k lane c := by
  unfold accDual
  have h0 : At MR NR ao bo k (fun i (p : (Nat → Nat → K) × (Nat → Nat → K)) =>
      ∀ c, c < NR → ∀ lane, p.1 c lane + p.2 c lane =
        g c lane + part MR NR f A B ao bo i lane c) ⟨0, ao, bo, (g, fun _ _ => 0)⟩ :=
    ⟨by simp, by simp, Nat.zero_le _, fun c _ lane => by simp [part]⟩
  have h1 := (ways_at (w := 4) (by omega) (f := fun a b (g : (Nat → Nat → K) × (Nat → Nat → K)) =>
    (procCols MR NR 2 f A B a b g.1,
      procCols MR NR 2 f A B (a + 2 * MR) (b + 2 * NR) g.2)) (by
      intro i p _ h c hc lane
      simp only
      rw [procCols_at _ _ _ _ _ _ _ _ _ hc, procCols_at _ _ _ _ _ _ _ _ _ hc,
        show i + 4 = i + (2 + 2) from rfl, part_add, part_add MR NR f A B _ _ 2 2]
      linear_combination h c hc lane) h0).1
  obtain ⟨s, hs⟩ : ∃ s, s = ways MR NR 4 k (fun a b (g : (Nat → Nat → K) × (Nat → Nat → K)) =>
    (procCols MR NR 2 f A B a b g.1,
      procCols MR NR 2 f A B (a + 2 * MR) (b + 2 * NR) g.2)) ⟨0, ao, bo, (g, fun _ _ => 0)⟩ :=
    ⟨_, rfl⟩
  rw [← hs] at h1
  simp only [← hs]
  have h2 : At MR NR ao bo k (Acc MR NR f A B ao bo g) ⟨s.i, s.a, s.b, fun c lane =>
      if c < NR then s.g.1 c lane + s.g.2 c lane else s.g.1 c lane⟩ :=
    ⟨h1.ha, h1.hb, h1.hi, fun c hc lane => by
      simp only [if_pos hc]
      exact h1.hP c hc lane⟩
  have h3 := (ways_at (by omega) (proc_step MR NR 2 k f A B ao bo g) h2).1
  have h4 := ways_at (by omega) (proc_step MR NR 1 k f A B ao bo g) h3
  have e := h4.1.hi
  have := h4.1.hP c hc lane
  rw [show (ways MR NR 1 k _ _).i = k by omega] at this
  exact this

theorem minkCols_wr {MR NR ldc : Nat} (hl : MR ≤ ldc) (w : Nat) (f : K → K → K) (A B : Nat → K)
    (co ao bo : Nat) :
    Wr (minkCols MR NR w f A B co ldc ao bo) (fun i j => co + j * ldc + i)
      (fun i j => i < MR ∧ j < NR) fun i j x => x + part MR NR f A B ao bo w i j := by
  have one : ∀ c lane C c', loop w C (fun q C => upd C (co + c * ldc + lane)
      (C (co + c * ldc + lane) + f (A (ao + q * MR + lane)) (B (bo + c + q * NR)))) c' =
      if c' = co + c * ldc + lane then C c' + part MR NR f A B ao bo w lane c else C c' := by
    intro c lane C c'
    unfold part
    induction w with
    | zero => simp [loop]
    | succ w ih =>
      rw [loop]
      by_cases h : c' = co + c * ldc + lane
      · subst h
        rw [if_pos rfl] at ih ⊢
        rw [upd_same, ih, Finset.sum_range_succ, add_assoc]
      · rw [if_neg h] at ih
        rw [if_neg h, upd_ne _ _ h, ih]
  refine (Wr.nest (n := NR) (b := fun _ => MR)
    (h := fun lane c C => loop w C (fun q C => upd C (co + c * ldc + lane)
      (C (co + c * ldc + lane) + f (A (ao + q * MR + lane)) (B (bo + c + q * NR)))))
    (G := fun i j x => x + part MR NR f A B ao bo w i j)
    ((inj_cols (co := co) (n := NR) hl).mono fun i j d => ⟨d.2, d.1⟩)
    (fun i j C _ _ => ?_) (fun i j C c _ _ hc => ?_)).congr (fun C => rfl) (fun _ _ _ => rfl)
    (fun i j => and_comm) fun _ _ _ _ => rfl
  · rw [one, if_pos rfl]
  · rw [one, if_neg hc]

theorem accMink_wr {MR NR ldc : Nat} (hl : MR ≤ ldc) (k : Nat) (f : K → K → K) (A B : Nat → K)
    (co ao bo : Nat) :
    Wr (fun C => accMink MR NR k f A B ao bo C co ldc) (fun i j => co + j * ldc + i)
      (fun i j => i < MR ∧ j < NR) fun i j x => x + part MR NR f A B ao bo k i j := by
  intro C0
  have step : ∀ w i C, i + w ≤ k →
      ((∀ r c, r < MR ∧ c < NR → C (co + c * ldc + r) =
        C0 (co + c * ldc + r) + part MR NR f A B ao bo i r c) ∧
        ∀ c, (∀ r j, r < MR ∧ j < NR → c ≠ co + j * ldc + r) → C c = C0 c) →
      ((∀ r c, r < MR ∧ c < NR →
        minkCols MR NR w f A B co ldc (ao + i * MR) (bo + i * NR) C (co + c * ldc + r) =
        C0 (co + c * ldc + r) + part MR NR f A B ao bo (i + w) r c) ∧
        ∀ c, (∀ r j, r < MR ∧ j < NR → c ≠ co + j * ldc + r) →
          minkCols MR NR w f A B co ldc (ao + i * MR) (bo + i * NR) C c = C0 c) := by
    intro w i C _ h
    have hw := minkCols_wr (NR := NR) hl w f A B co (ao + i * MR) (bo + i * NR) C
    refine ⟨fun r c d => ?_, fun c hc => ?_⟩
    · have := hw.1 r c d
      simp only at this
      rw [this, h.1 r c d, part_add, add_assoc]
    · rw [hw.2 c hc, h.2 c hc]
  have h0 : At MR NR ao bo k (fun i (C : Nat → K) => (∀ r c, r < MR ∧ c < NR →
      C (co + c * ldc + r) = C0 (co + c * ldc + r) + part MR NR f A B ao bo i r c) ∧
        ∀ c, (∀ r j, r < MR ∧ j < NR → c ≠ co + j * ldc + r) → C c = C0 c) ⟨0, ao, bo, C0⟩ :=
    ⟨by simp, by simp, Nat.zero_le _, fun r c _ => by simp [part], fun _ _ => rfl⟩
  have h1 := (ways_at (by omega) (step 4) h0).1
  have h2 := (ways_at (by omega) (step 3) h1).1
  have h3 := (ways_at (by omega) (step 2) h2).1
  have h4 := ways_at (by omega) (step 1) h3
  have e := h4.1.hi
  have := h4.1.hP
  rw [show (ways MR NR 1 k _ _).i = k by omega] at this
  exact this

theorem acc_at (kd : Kern) (MR NR k : Nat) (f : K → K → K) (A B : Nat → K) (ao bo : Nat)
    (g : Nat → Nat → K) {c : Nat} (hc : c < NR) (lane : Nat) :
    (if kd = .sq then accDual else accSingle) MR NR k f A B ao bo g c lane =
      g c lane + part MR NR f A B ao bo k lane c := by
  by_cases h : kd = .sq
  · rw [if_pos h, accDual_at _ _ _ _ _ _ _ _ _ hc]
  · rw [if_neg h, accSingle_at _ _ _ _ _ _ _ _ _ hc]

/-- What a microkernel does: it adds the sum, to zero in the first slice. -/
theorem kernelOp_wr (kd : Kern) (pw : K → K) {MR NR m n ldc : Nat} (first : Bool) (hm : m ≤ MR)
    (hn : n ≤ NR) (hl : m ≤ ldc) (k : Nat) (A : Nat → K) (ao : Nat) (B : Nat → K) (bo co : Nat) :
    Wr (fun C => kernelOp kd pw MR NR first m n k A ao B bo C co ldc) (fun i j => co + j * ldc + i)
      (fun i j => i < m ∧ j < n)
      fun i j x => (if first then 0 else x) + part MR NR (term kd pw) A B ao bo k i j := by
  have inj := inj_cols (co := co) (n := n) hl
  have zero : ∀ M N, Inj (fun i j => co + j * ldc + i) (fun i j => i < M ∧ j < N) →
      Wr (fun C : Nat → K => if first = true then
        loop N C fun j C => loop M C fun i C => upd C (co + j * ldc + i) 0 else C)
      (fun i j => co + j * ldc + i) (fun i j => i < M ∧ j < N) fun i j x => if first then 0 else x := by
    intro M N inj
    cases first with
    | true => simpa using Wr.rect inj (G := fun _ _ _ => (0 : K))
    | false => exact fun C => ⟨fun _ _ _ => by simp, fun _ _ => by simp⟩
  by_cases hf : m = MR ∧ n = NR
  · have hl' : MR ≤ ldc := by omega
    obtain ⟨e1, e2⟩ := hf
    subst e1; subst e2
    by_cases hk : kd = .pow
    · refine ((zero m n inj).comp (accMink_wr (NR := n) hl k (term kd pw) A B co ao bo)).congr
        (fun C => ?_) (fun _ _ _ => rfl) (fun _ _ => Iff.rfl) fun _ _ _ _ => rfl
      unfold kernelOp kernelFull
      rw [if_pos ⟨rfl, rfl⟩, if_pos hk]
    · intro C
      have E : kernelOp kd pw m n first m n k A ao B bo C co ldc =
          loop n C fun c C' => loop m C' fun lane C' => upd C' (co + c * ldc + lane)
            ((if kd = .sq then accDual else accSingle) m n k (term kd pw) A B ao bo
              (if first = true then fun _ _ => 0 else fun c lane => C (co + c * ldc + lane))
              c lane) := by
        unfold kernelOp kernelFull
        rw [if_pos ⟨rfl, rfl⟩, if_neg hk]
      have := Wr.rect inj (G := fun i j _ => (if kd = .sq then accDual else accSingle) m n k
        (term kd pw) A B ao bo (if first = true then fun _ _ => 0 else
          fun c lane => C (co + c * ldc + lane)) j i) C
      simp only [E]
      refine ⟨fun i j d => (this.1 i j d).trans ?_, this.2⟩
      simp only
      rw [acc_at kd m n k _ A B ao bo _ d.2]
      cases first <;> simp
  · by_cases hk : kd = .pow
    · intro C
      have hz := zero m n inj C
      obtain ⟨C1, hC1⟩ : ∃ C1, C1 = (if first = true then
        loop n C fun j C => loop m C fun i C => upd C (co + j * ldc + i) 0 else C) := ⟨_, rfl⟩
      obtain ⟨L, hL⟩ : ∃ L, L = (if first = true then fun _ => (0 : K) else
        loop n (fun _ => (0 : K)) fun j L => loop m L fun i L =>
          upd L (j * MR + i) (C1 (co + j * ldc + i))) := ⟨_, rfl⟩
      simp only [← hC1] at hz
      have E : kernelOp kd pw MR NR first m n k A ao B bo C co ldc =
          loop n C1 fun j C => loop m C fun i C => upd C (co + j * ldc + i)
            (accMink MR NR k (term kd pw) A B ao bo L 0 MR (j * MR + i)) := by
        unfold kernelOp kernelMasked
        rw [if_neg hf, if_pos hk, hL, hC1]
      simp only [E]
      have inj' : Inj (fun i j => j * MR + i) (fun i j => i < m ∧ j < n) := by
        have := inj_cols (co := 0) (n := n) hm
        simpa only [Nat.zero_add] using this
      have hL' : ∀ i j, i < m ∧ j < n → L (j * MR + i) = if first then 0 else C (co + j * ldc + i) := by
        intro i j d
        rw [hL]
        cases first with
        | true => simp
        | false =>
          have := (Wr.rect inj' (G := fun i j _ => C1 (co + j * ldc + i)) (fun _ => (0 : K))).1 i j d
          simp only [Bool.false_eq_true, if_false]
          refine this.trans ?_
          simp only
          rw [hz.1 i j d]
          simp
      have hacc := accMink_wr (NR := NR) (le_refl MR) k (term kd pw) A B 0 ao bo L
      have := Wr.rect inj (G := fun i j _ => accMink MR NR k (term kd pw) A B ao bo L 0 MR
        (j * MR + i)) C1
      refine ⟨fun i j d => ?_, fun c hc => ?_⟩
      · refine (this.1 i j d).trans ?_
        have h2 := hacc.1 i j ⟨by omega, by omega⟩
        simp only [Nat.zero_add] at h2
        simp only [h2, hL' i j d]
      · exact (this.2 c hc).trans (hz.2 c hc)
    · intro C
      have E : kernelOp kd pw MR NR first m n k A ao B bo C co ldc =
          loop n C fun c C' => loop m C' fun lane C' => upd C' (co + c * ldc + lane)
            ((if kd = .sq then accDual else accSingle) MR NR k (term kd pw) A B ao bo
              (if first = true then fun _ _ => 0 else
                fun c lane => if c < n ∧ lane < m then C (co + c * ldc + lane) else 0)
              c lane) := by
        unfold kernelOp kernelMasked
        rw [if_neg hf, if_neg hk]
      have := Wr.rect inj (G := fun i j _ => (if kd = .sq then accDual else accSingle) MR NR k
        (term kd pw) A B ao bo (if first = true then fun _ _ => 0 else
          fun c lane => if c < n ∧ lane < m then C (co + c * ldc + lane) else 0) j i) C
      simp only [E]
      refine ⟨fun i j d => (this.1 i j d).trans ?_, this.2⟩
      simp only
      rw [acc_at kd MR NR k _ A B ao bo _ (by omega)]
      cases first
      · simp [d.1, d.2]
      · simp

end Verif.PairDist
