import Mathlib.Algebra.BigOperators.Intervals
import Mathlib.Algebra.BigOperators.Ring.Finset
import Mathlib.Tactic.Ring
import Verif.TallSkinny.Model
import Verif.TallSkinny.Spec
import Verif.KernelFn.Proof
import Verif.Blocking.Props

/-
What the blocked product and the blocks of the QR factorisation come to.
-/
namespace Verif.TallSkinny

open Verif.Logistic Verif.PairDist Verif.KernelFn Verif.Blocking

set_option linter.unusedSectionVars false

/-- The blocks cover the samples. -/
theorem scheme {n mb mx mf : Nat} (hn : 0 < n) (hmb : 0 < mb) (hmx : 0 < mx) :
    ∃ nb bs fin, tallSkinny n mb mx mf = some (nb, bs, fin) ∧ 0 < nb ∧ 0 < bs ∧
      (nb - 1) * bs + fin = n ∧ min mb n ≤ bs ∧ (mf ≤ fin ∨ bs ≤ fin) ∧ (nb = 1 → fin = n) := by
  obtain ⟨bs, hbs, hbs0, hbsn, hsel⟩ : ∃ bs, (if n / (min mb n) > mx then
        if mx = 0 then none else some (min (((n / mx + 255) >>> 8) <<< 8) n)
      else some (min mb n)) = some bs ∧ 0 < bs ∧ bs ≤ n ∧ min mb n ≤ bs := by
    by_cases h : n / (min mb n) > mx
    · rw [if_pos h, if_neg (by omega)]
      have h2 : min mb n ≤ n / mx := by
        rw [Nat.le_div_iff_mul_le hmx]
        have h3 : mx ≤ n / min mb n := by omega
        rw [Nat.le_div_iff_mul_le (by omega)] at h3
        rw [Nat.mul_comm]; exact h3
      have := (tall_round (n / mx)).1
      exact ⟨_, rfl, by omega, Nat.min_le_right _ _, by omega⟩
    · rw [if_neg h]
      exact ⟨_, rfl, by omega, Nat.min_le_right _ _, Nat.le_refl _⟩
  have hd : n / bs * bs + n % bs = n := by rw [Nat.mul_comm]; exact Nat.div_add_mod n bs
  have hq : 0 < n / bs := Nat.div_pos hbsn hbs0
  unfold tallSkinny
  simp only [hbs]
  rw [if_neg (by omega), if_neg (by omega)]
  by_cases hf : n % bs ≥ mf
  · rw [if_pos hf]
    exact ⟨_, _, _, rfl, by omega, hbs0, hd, hsel, Or.inl hf, by omega⟩
  · rw [if_neg hf]
    by_cases h1 : n / bs = 1
    · rw [h1] at hd ⊢
      rw [if_pos rfl]
      exact ⟨_, _, _, rfl, by omega, by omega, by omega, by omega, Or.inr (le_refl _), by omega⟩
    · rw [if_neg h1]
      refine ⟨_, _, _, rfl, hq, hbs0, ?_, hsel, Or.inr (by omega), fun h => absurd h h1⟩
      obtain ⟨q, hq'⟩ : ∃ q, n / bs = q + 1 := ⟨n / bs - 1, by omega⟩
      rw [hq'] at hd ⊢
      rw [Nat.add_mul] at hd
      simp only [Nat.add_sub_cancel]
      omega

section
variable {K : Type*} [Field K] [LinearOrder K]

/-- A loop over the entries of a part of a matrix. -/
theorem part_wr (row : Bool) {n ldc : Nat} (hl : n ≤ ldc) (P : Nat → Nat → Prop)
    [∀ i j, Decidable (P i j)] (G : Nat → Nat → K → K) :
    Wr (fun C => loop n C fun j C => loop n C fun i C =>
      if P i j then upd C (cell row ldc i j) (G i j (C (cell row ldc i j))) else C)
      (cell row ldc) (fun i j => i < n ∧ j < n ∧ P i j) G := by
  have inj := inj_cell row (m := n) (n := n) (ld := ldc) (by cases row <;> simpa using hl)
  have w := Wr.nest (K := K) (n := n) (b := fun _ => n) (h := fun i j C =>
    if P i j then upd C (cell row ldc i j) (G i j (C (cell row ldc i j))) else C)
    (idx := cell row ldc) (G := fun i j v => if P i j then G i j v else v)
    (inj.mono fun i j d => ⟨d.2, d.1⟩)
    (fun i j C _ _ => by
      by_cases h : P i j
      · simp only [if_pos h]; exact upd_same _ _ _
      · simp only [if_neg h])
    (fun i j C c _ _ hc => by
      by_cases h : P i j
      · simp only [if_pos h]; exact upd_ne _ _ hc
      · simp only [if_neg h])
  intro C
  obtain ⟨w1, w2⟩ := w C
  refine ⟨fun i j d => ?_, fun c hc => ?_⟩
  · have := w1 i j ⟨d.2.1, d.1⟩
    simp only [if_pos d.2.2] at this
    exact this
  · by_cases hx : ∃ i j, i < n ∧ j < n ∧ c = cell row ldc i j
    · obtain ⟨i, j, hi, hj, rfl⟩ := hx
      have hP : ¬ P i j := fun h => hc i j ⟨hi, hj, h⟩ rfl
      have := w1 i j ⟨hj, hi⟩
      simp only [if_neg hP] at this
      exact this
    · exact w2 c fun i j d e => hx ⟨i, j, d.2, d.1, e⟩

/-- The triangle that is written. -/
def Tri (upper : Bool) (n i j : Nat) : Prop :=
  i < n ∧ j < n ∧ (if upper then i ≤ j else j ≤ i)

instance (upper : Bool) (n i j : Nat) : Decidable (Tri upper n i j) := by
  unfold Tri; infer_instance

/-- The inner product of rows `i` and `j` of `op(A)` over `k` columns. -/
def prod (row trans : Bool) (A : Nat → K) (lda k i j : Nat) : K :=
  ∑ l ∈ Finset.range k, opA row trans A lda i l * opA row trans A lda j l

theorem syrkTri_wr (row upper trans : Bool) {n ldc : Nat} (hl : n ≤ ldc) (k : Nat) (alpha : K)
    (A : Nat → K) (lda : Nat) (beta : K) :
    Wr (fun C => syrkTri row upper trans n k alpha A lda beta C ldc) (cell row ldc) (Tri upper n)
      fun i j v => alpha * prod row trans A lda k i j + beta * v := by
  refine (part_wr row hl (fun i j => if upper then i ≤ j else j ≤ i) fun i j v =>
    alpha * (loop k 0 fun l s => s + opA row trans A lda i l * opA row trans A lda j l) +
      if beta = 0 then 0 else beta * v).congr (fun _ => rfl) (fun _ _ _ => rfl)
    (fun _ _ => Iff.rfl) fun i j v _ => ?_
  rw [loop_sum, zero_add]
  by_cases h : beta = 0
  · rw [if_pos h, h, zero_mul]; rfl
  · rw [if_neg h]; rfl

/-- Passes that each add something. -/
theorem Wr.passes {m : Nat} {f : Nat → (Nat → K) → Nat → K} {idx : Nat → Nat → Nat}
    {Dom : Nat → Nat → Prop} {d : Nat → Nat → Nat → K}
    (h : ∀ ii, Wr (f ii) idx Dom fun i j v => v + d ii i j) :
    Wr (fun C => loop m C f) idx Dom fun i j v => v + ∑ ii ∈ Finset.range m, d ii i j := by
  intro C
  refine ⟨fun i j hd => ?_, fun c hc => ?_⟩
  · exact loop_add m C f (idx i j) (fun ii => d ii i j) fun ii v _ => (h ii v).1 i j hd
  · exact loop_keep m C f c fun ii v _ => (h ii v).2 c hc

/-- One pass over the part with the inner index up to the outer one. -/
theorem pass_le {n ldc : Nat} (hl : n ≤ ldc) (o : Nat) (tmp : Nat → K) :
    Wr (fun C => loop n C fun a C => loop (a + 1) C fun b C =>
        upd C (b + ldc * a) (C (b + ldc * a) + tmp (o + b + n * a)))
      (fun b a => a * ldc + b) (fun b a => a < n ∧ b ≤ a) fun b a v => v + tmp (o + (a * n + b)) := by
  have inj : Inj (fun b a => b + ldc * a) fun b a => a < n ∧ b < a + 1 := by
    intro b a b' a' d d' e
    have := cell_inj (ns := ldc) (k := a) (k' := a') (i := b) (i' := b') (by omega) (by omega)
      (by rw [Nat.mul_comm a, Nat.mul_comm a']; simp only at e; omega)
    exact ⟨this.2, this.1⟩
  refine (Wr.nest (K := K) (n := n) (b := fun a => a + 1) (h := fun b a C =>
    upd C (b + ldc * a) (C (b + ldc * a) + tmp (o + b + n * a)))
    (G := fun b a v => v + tmp (o + b + n * a)) inj (fun b a C _ _ => upd_same _ _ _)
    fun b a C c _ _ hc => upd_ne _ _ hc).congr (fun _ => rfl) (fun b a _ => ?_)
    (fun b a => ?_) fun b a v _ => ?_
  · rw [Nat.mul_comm ldc, Nat.add_comm]
  · omega
  · rw [Nat.mul_comm n, Nat.add_assoc, Nat.add_comm b]

/-- One pass over the part with the inner index from the outer one on. -/
theorem pass_ge {n ldc : Nat} (hl : n ≤ ldc) (o : Nat) (tmp : Nat → K) :
    Wr (fun C => loop n C fun a C => loop (n - a) C fun t C =>
        upd C (a + t + ldc * a) (C (a + t + ldc * a) + tmp (o + (a + t) + n * a)))
      (fun b a => a * ldc + b) (fun b a => a < n ∧ a ≤ b ∧ b < n)
      fun b a v => v + tmp (o + (a * n + b)) := by
  have inj : Inj (fun t a => a + t + ldc * a) fun t a => a < n ∧ t < n - a := by
    intro b a b' a' d d' e
    have := cell_inj (ns := ldc) (k := a) (k' := a') (i := a + b) (i' := a' + b') (by omega)
      (by omega) (by rw [Nat.mul_comm a, Nat.mul_comm a']; simp only at e; omega)
    omega
  refine (Wr.nest (K := K) (n := n) (b := fun a => n - a) (h := fun t a C =>
    upd C (a + t + ldc * a) (C (a + t + ldc * a) + tmp (o + (a + t) + n * a)))
    (G := fun t a v => v + tmp (o + (a + t) + n * a)) inj (fun b a C _ _ => upd_same _ _ _)
    fun b a C c _ _ hc => upd_ne _ _ hc).reindex (fun b a d => ?_) fun t a d => ?_
  · refine ⟨b - a, a, by omega, ?_, fun v => ?_⟩
    · show a + (b - a) + ldc * a = _
      rw [Nat.mul_comm ldc]; omega
    · rw [Nat.mul_comm n, show o + (a + (b - a)) + a * n = o + (a * n + b) by omega]
  · refine ⟨a + t, a, by omega, ?_⟩
    show a + t + ldc * a = _
    rw [Nat.mul_comm ldc]; omega

theorem accumulate_wr (row upper : Bool) {n ldc : Nat} (hl : n ≤ ldc) (m : Nat) (tmp : Nat → K) :
    Wr (fun C => accumulate row upper n ldc m tmp C) (cell row ldc) (Tri upper n)
      fun i j v => v + ∑ ii ∈ Finset.range m, tmp (ii * n * n + cell row n i j) := by
  cases upper <;> cases row
  · refine (Wr.passes fun ii => pass_ge hl (ii * n * n) tmp).congr (fun _ => rfl)
      (fun _ _ _ => rfl) (fun i j => ?_) fun _ _ _ _ => rfl
    simp only [Tri]; simp; omega
  · refine (Wr.passes fun ii => pass_le hl (ii * n * n) tmp).reindex
      (fun i j d => ⟨j, i, ?_, rfl, fun _ => rfl⟩) fun b a d => ⟨a, b, ?_, rfl⟩
    · simp [Tri] at d; omega
    · simp [Tri]; omega
  · refine (Wr.passes fun ii => pass_le hl (ii * n * n) tmp).congr (fun _ => rfl)
      (fun _ _ _ => rfl) (fun i j => ?_) fun _ _ _ _ => rfl
    simp only [Tri]; simp; omega
  · refine (Wr.passes fun ii => pass_ge hl (ii * n * n) tmp).reindex
      (fun i j d => ⟨j, i, ?_, rfl, fun _ => rfl⟩) fun b a d => ⟨a, b, ?_, rfl⟩
    · simp [Tri] at d; omega
    · simp [Tri]; omega

/-- The offset of a block of `A` (da_syrk.hpp:153-159). -/
def offA (row trans : Bool) (lda bs : Nat) : Nat :=
  if !trans then (if !row then lda * bs else bs) else (if !row then bs else lda * bs)

theorem opA_off (row trans : Bool) (A : Nat → K) (lda bs b i l : Nat) :
    opA row trans (fun c => A (b * offA row trans lda bs + c)) lda i l =
      opA row trans A lda i (b * bs + l) := by
  have e : b * (lda * bs) = b * bs * lda := by rw [Nat.mul_comm lda, Nat.mul_assoc]
  cases row <;> cases trans <;>
    simp [opA, offA, cell, e, Nat.add_mul, Nat.add_assoc, Nat.add_left_comm]

/-- What block `b` contributes to entry `(i, j)`. -/
def part (row trans : Bool) (A : Nat → K) (lda nb bs fin i j b : Nat) : K :=
  prod row trans (fun c => A (b * offA row trans lda bs + c)) lda (height nb bs fin b) i j

theorem sum_tiles (f : Nat → K) (q bs : Nat) :
    ∑ b ∈ Finset.range q, ∑ l ∈ Finset.range bs, f (b * bs + l) = ∑ l ∈ Finset.range (q * bs), f l := by
  induction q with
  | zero => simp
  | succ q ih => rw [Finset.sum_range_succ, ih, Nat.succ_mul, Finset.sum_range_add]

theorem sum_parts (row trans : Bool) (A : Nat → K) (lda : Nat) {nb bs fin k : Nat} (i j : Nat)
    (hnb : 0 < nb) (hk : (nb - 1) * bs + fin = k) :
    ∑ b ∈ Finset.range nb, part row trans A lda nb bs fin i j b = prod row trans A lda k i j := by
  obtain ⟨q, rfl⟩ : ∃ q, nb = q + 1 := ⟨nb - 1, by omega⟩
  rw [Nat.add_sub_cancel] at hk
  have e : ∀ b, part row trans A lda (q + 1) bs fin i j b =
      ∑ l ∈ Finset.range (height (q + 1) bs fin b),
        opA row trans A lda i (b * bs + l) * opA row trans A lda j (b * bs + l) := fun b => by
    unfold part prod
    exact Finset.sum_congr rfl fun l _ => by rw [opA_off, opA_off]
  rw [Finset.sum_congr rfl fun b _ => e b, Finset.sum_range_succ]
  have h1 : height (q + 1) bs fin q = fin := if_pos rfl
  rw [h1, Finset.sum_congr rfl fun b hb => ?_, sum_tiles (fun l => opA row trans A lda i l *
    opA row trans A lda j l), ← hk]
  · unfold prod
    rw [Finset.sum_range_add]
  · have : height (q + 1) bs fin b = bs := if_neg (by have := Finset.mem_range.1 hb; omega)
    rw [this]

/-- The contributions of the blocks of thread `t`. -/
def mine (g : Nat → K) (L : List (Nat × Nat)) (t : Nat) : K :=
  ((L.filter fun x => x.2 = t).map fun x => g x.1).sum

theorem mine_append (g : Nat → K) (L : List (Nat × Nat)) (b u t : Nat) :
    mine g (L ++ [(b, u)]) t = mine g L t + if u = t then g b else 0 := by
  unfold mine
  by_cases h : u = t <;> simp [h]

theorem mine_all (g : Nat → K) (L : List (Nat × Nat)) {T : Nat} (h : ∀ x ∈ L, x.2 < T) :
    ∑ t ∈ Finset.range T, mine g L t = (L.map fun x => g x.1).sum := by
  induction L with
  | nil => simp [mine]
  | cons x L ih =>
    have e : ∀ t, mine g (x :: L) t = (if x.2 = t then g x.1 else 0) + mine g L t := fun t => by
      unfold mine
      by_cases h : x.2 = t <;> simp [h]
    rw [Finset.sum_congr rfl fun t _ => e t, Finset.sum_add_distrib,
      ih fun y hy => h y (List.mem_cons_of_mem _ hy), List.map_cons, List.sum_cons,
      Finset.sum_ite_eq, if_pos (Finset.mem_range.2 (h x List.mem_cons_self))]

theorem cell_lt (row : Bool) {n i j : Nat} (hi : i < n) (hj : j < n) : cell row n i j < n * n := by
  have h : ∀ a b, a < n → b < n → a * n + b < n * n := fun a b ha hb => by
    have : (a + 1) * n ≤ n * n := Nat.mul_le_mul_right _ ha
    rw [Nat.add_mul] at this
    omega
  cases row
  · exact h j i hj hi
  · exact h i j hi hj

/-- The state after the blocks in `L`. -/
structure After (row upper trans : Bool) (n : Nat) (alpha : K) (A : Nat → K) (lda : Nat) (beta : K)
    (C : Nat → K) (ldc nb bs fin : Nat) (L : List (Nat × Nat)) (s : SyrkState K) : Prop where
  count : ∀ t, s.count t = 0 ↔ ∀ x ∈ L, x.2 ≠ t
  size : ∀ t, (∀ x ∈ L, x.2 = t → x.1 ≠ nb - 1) → s.size t = bs
  own : ∀ i j, Tri upper n i j → s.C (cell row ldc i j) = if s.count 0 = 0 then C (cell row ldc i j)
    else alpha * mine (part row trans A lda nb bs fin i j) L 0 + beta * C (cell row ldc i j)
  rest : ∀ c, (∀ i j, Tri upper n i j → c ≠ cell row ldc i j) → s.C c = C c
  tmp : ∀ u i j, Tri upper n i j → s.tmp (u * n * n + cell row n i j) =
    alpha * mine (part row trans A lda nb bs fin i j) L (u + 1)

theorem mine_none (g : Nat → K) {L : List (Nat × Nat)} {t : Nat} (h : ∀ x ∈ L, x.2 ≠ t) :
    mine g L t = 0 := by
  unfold mine
  rw [List.filter_eq_nil_iff.2 fun x hx => by simpa using h x hx]
  rfl

theorem after_step {row upper trans : Bool} {n : Nat} {alpha : K} {A : Nat → K} {lda : Nat} {beta : K}
    {C : Nat → K} {ldc nb bs fin : Nat} {L : List (Nat × Nat)} {s : SyrkState K} (hl : n ≤ ldc)
    (h : After row upper trans n alpha A lda beta C ldc nb bs fin L s) {b t : Nat}
    (hb : b < nb) (hL : ∀ x ∈ L, x.2 = t → x.1 < b) :
    After row upper trans n alpha A lda beta C ldc nb bs fin (L ++ [(b, t)])
      (syrkBlock row upper trans n alpha A lda beta ldc nb bs fin b t s) := by
  have hs : (if b = nb - 1 then fin else s.size t) = height nb bs fin b := by
    unfold height
    rw [h.size t fun x hx e => by have := hL x hx e; omega]
  have hc : ∀ u, (syrkBlock row upper trans n alpha A lda beta ldc nb bs fin b t s).count u =
      if u = t then s.count u + 1 else s.count u := fun u => by
    unfold syrkBlock
    by_cases h0 : t = 0 <;> simp only [h0, if_true, if_false]
  have hcount : ∀ u, (syrkBlock row upper trans n alpha A lda beta ldc nb bs fin b t s).count u = 0 ↔
      ∀ x ∈ L ++ [(b, t)], x.2 ≠ u := fun u => by
    rw [hc u]
    by_cases hu : u = t
    · rw [if_pos hu]
      refine ⟨fun e => absurd e (by omega), fun e => absurd hu.symm (e (b, t) (by simp))⟩
    · rw [if_neg hu, h.count u]
      refine ⟨fun e x hx => ?_, fun e x hx => e x (List.mem_append_left _ hx)⟩
      rcases List.mem_append.1 hx with hx | hx
      · exact e x hx
      · rw [List.mem_singleton.1 hx]; exact fun e => hu e.symm
  refine ⟨hcount, fun u hu => ?_, fun i j hd => ?_, fun c hc' => ?_, fun u i j hd => ?_⟩
  · have e : (syrkBlock row upper trans n alpha A lda beta ldc nb bs fin b t s).size u =
        if u = t then height nb bs fin b else s.size u := by
      rw [← hs]
      unfold syrkBlock
      by_cases h0 : t = 0 <;> simp only [h0, if_true, if_false]
    rw [e]
    by_cases hut : u = t
    · rw [if_pos hut]
      exact if_neg (hu (b, t) (by simp) hut.symm)
    · rw [if_neg hut]
      exact h.size u fun x hx => hu x (List.mem_append_left _ hx)
  · rw [hc 0, mine_append]
    by_cases h0 : t = 0
    · subst h0
      have w := ((syrkTri_wr row upper trans hl (height nb bs fin b) alpha
        (fun c => A (b * offA row trans lda bs + c)) lda (if s.count 0 = 0 then beta else 1)) s.C).1
        i j hd
      have e : (syrkBlock row upper trans n alpha A lda beta ldc nb bs fin b 0 s).C =
          syrkTri row upper trans n (height nb bs fin b) alpha
            (fun c => A (b * offA row trans lda bs + c)) lda (if s.count 0 = 0 then beta else 1)
            s.C ldc := by
        rw [← hs]; rfl
      rw [e, if_pos rfl, if_pos rfl, if_neg (Nat.succ_ne_zero _)]
      refine w.trans ?_
      show alpha * part row trans A lda nb bs fin i j b +
        (if s.count 0 = 0 then beta else 1) * s.C (cell row ldc i j) = _
      rw [h.own i j hd]
      by_cases hz : s.count 0 = 0
      · rw [if_pos hz, if_pos hz, mine_none _ ((h.count 0).1 hz), zero_add]
      · rw [if_neg hz, if_neg hz]; ring
    · rw [if_neg (Ne.symm h0), if_neg h0, add_zero, ← h.own i j hd]
      unfold syrkBlock
      simp only [if_neg h0]
  · by_cases h0 : t = 0
    · subst h0
      rw [← h.rest c hc']
      exact ((syrkTri_wr row upper trans hl _ alpha _ lda _) s.C).2 c hc'
    · rw [← h.rest c hc']
      unfold syrkBlock
      simp only [if_neg h0]
  · rw [mine_append]
    by_cases h0 : t = 0
    · subst h0
      rw [if_neg (by omega), add_zero, ← h.tmp u i j hd]
      rfl
    · obtain ⟨v, rfl⟩ : ∃ v, t = v + 1 := ⟨t - 1, by omega⟩
      have e : (syrkBlock row upper trans n alpha A lda beta ldc nb bs fin b (v + 1) s).tmp =
          onPtr (v * n * n) (fun D => syrkTri row upper trans n (height nb bs fin b) alpha
            (fun c => A (b * offA row trans lda bs + c)) lda (if s.count (v + 1) = 0 then 0 else 1)
            D n) s.tmp := by
        rw [← hs]; rfl
      have w := onPtr_wr (off := v * n * n) (syrkTri_wr row upper trans (le_refl n)
        (height nb bs fin b) alpha (fun c => A (b * offA row trans lda bs + c)) lda
        (if s.count (v + 1) = 0 then 0 else 1)) s.tmp
      rw [e]
      by_cases huv : v = u
      · subst huv
        refine (w.1 i j hd).trans ?_
        show alpha * part row trans A lda nb bs fin i j b +
          (if s.count (v + 1) = 0 then 0 else 1) * s.tmp (v * n * n + cell row n i j) = _
        rw [h.tmp v i j hd, if_pos rfl]
        by_cases hz : s.count (v + 1) = 0
        · rw [if_pos hz, mine_none _ ((h.count (v + 1)).1 hz)]; ring
        · rw [if_neg hz]; ring
      · rw [if_neg (show ¬ v + 1 = u + 1 by omega), add_zero, ← h.tmp u i j hd]
        refine w.2 _ fun i' j' hd' he => huv ?_
        have := cell_inj (ns := n * n) (k := u) (k' := v) (cell_lt row hd.1 hd.2.1)
          (cell_lt row hd'.1 hd'.2.1) (by rw [← Nat.mul_assoc, ← Nat.mul_assoc]; exact he)
        exact this.1.symm

theorem after_all {row upper trans : Bool} {n : Nat} {alpha : K} {A : Nat → K} {lda : Nat} {beta : K}
    {C : Nat → K} {ldc nb bs fin : Nat} (hl : n ≤ ldc) (L : List (Nat × Nat))
    (hb : ∀ x ∈ L, x.1 < nb) (hL : L.Pairwise fun x y => x.2 = y.2 → x.1 < y.1) :
    After row upper trans n alpha A lda beta C ldc nb bs fin L (L.foldl (fun s b =>
      syrkBlock row upper trans n alpha A lda beta ldc nb bs fin b.1 b.2 s)
      ⟨C, fun _ => 0, fun _ => bs, fun _ => 0⟩) := by
  induction L using List.reverseRecOn with
  | nil =>
    refine ⟨fun t => by simp, fun t _ => rfl, fun i j _ => rfl, fun c _ => rfl, fun u i j _ => ?_⟩
    show (0 : K) = alpha * mine _ [] _
    simp [mine]
  | append_singleton L x ih =>
    rw [List.foldl_append]
    obtain ⟨p1, -, p3⟩ := List.pairwise_append.1 hL
    exact after_step hl (ih (fun y hy => hb y (List.mem_append_left _ hy)) p1)
      (hb x (by simp)) fun y hy e => p3 y hy x (by simp) e

theorem list_range_sum (g : Nat → K) (n : Nat) :
    ((List.range n).map g).sum = ∑ b ∈ Finset.range n, g b := by
  induction n with
  | zero => rfl
  | succ n ih => rw [List.range_succ, List.map_append, List.sum_append, ih, Finset.sum_range_succ]; simp

theorem blocked_wr (row upper trans : Bool) {n k : Nat} (alpha : K) (A : Nat → K) (lda : Nat)
    (beta : K) {ldc nb bs fin t : Nat} (hl : n ≤ ldc) (hnb : 0 < nb)
    (hk : (nb - 1) * bs + fin = k) (ht : 0 < t) {L : List (Nat × Nat)} (hL : Spec.Run nb t L) :
    Wr (fun C =>
      let s := L.foldl (fun s b =>
          syrkBlock row upper trans n alpha A lda beta ldc nb bs fin b.1 b.2 s)
          ⟨C, fun _ => 0, fun _ => bs, fun _ => 0⟩
      accumulate row upper n ldc (t - 1) s.tmp s.C) (cell row ldc) (Tri upper n)
      fun i j v => alpha * prod row trans A lda k i j + beta * v := by
  intro C
  have hb : ∀ x ∈ L, x.1 < nb := fun x hx =>
    List.mem_range.1 (hL.blocks.mem_iff.1 (List.mem_map_of_mem hx))
  have h := after_all (row := row) (upper := upper) (trans := trans) (n := n) (alpha := alpha)
    (A := A) (lda := lda) (beta := beta) (C := C) (ldc := ldc) (nb := nb) (bs := bs) (fin := fin)
    hl L hb hL.order
  obtain ⟨s, hs⟩ : ∃ s, s = L.foldl (fun s b =>
      syrkBlock row upper trans n alpha A lda beta ldc nb bs fin b.1 b.2 s)
      ⟨C, fun _ => 0, fun _ => bs, fun _ => 0⟩ := ⟨_, rfl⟩
  rw [← hs] at h
  simp only [← hs]
  have w := accumulate_wr row upper hl (t - 1) s.tmp s.C
  refine ⟨fun i j hd => ?_, fun c hc => (w.2 c hc).trans (h.rest c hc)⟩
  refine (w.1 i j hd).trans ?_
  simp only
  rw [h.own i j hd, if_neg fun e => by
    obtain ⟨x, hx, e'⟩ := hL.first
    exact (h.count 0).1 e x hx e', Finset.sum_congr rfl fun ii _ => h.tmp ii i j hd,
    ← Finset.mul_sum, ← sum_parts row trans A lda i j hnb hk]
  have e := mine_all (part row trans A lda nb bs fin i j) L hL.threads
  have e' : (L.map fun x => part row trans A lda nb bs fin i j x.1).sum =
      ∑ b ∈ Finset.range nb, part row trans A lda nb bs fin i j b := by
    have := (hL.blocks.map (part row trans A lda nb bs fin i j)).sum_eq
    rw [List.map_map] at this
    rw [show (L.map fun x => part row trans A lda nb bs fin i j x.1) =
      L.map (part row trans A lda nb bs fin i j ∘ Prod.fst) from rfl, this]
    exact list_range_sum _ _
  obtain ⟨u, rfl⟩ : ∃ u, t = u + 1 := ⟨t - 1, by omega⟩
  rw [e', Finset.sum_range_succ'] at e
  rw [← e, Nat.add_sub_cancel]
  ring

theorem pos_cell (row : Bool) (ld i j : Nat) : Spec.pos row ld i j = cell row ld i j := by
  cases row <;> simp [Spec.pos, cell, Nat.add_comm]

theorem entry_opA (row trans : Bool) (A : Nat → K) (lda i l : Nat) :
    Spec.entry row trans A lda i l = opA row trans A lda i l := by
  cases trans <;> simp [Spec.entry, opA, pos_cell]

theorem Wr.updated {row upper trans : Bool} {n k : Nat} {alpha : K} {A : Nat → K} {lda : Nat}
    {beta : K} {ldc : Nat} {f : (Nat → K) → Nat → K}
    (h : Wr f (cell row ldc) (Tri upper n) fun i j v => alpha * prod row trans A lda k i j + beta * v)
    (C : Nat → K) : Spec.Updated row upper trans n k alpha A lda beta C ldc (f C) where
  triangle i j hi hj hd := by
    rw [pos_cell, (h C).1 i j ⟨hi, hj, hd⟩]
    simp only [entry_opA]
    rfl
  rest c hc := (h C).2 c fun i j d => by rw [← pos_cell]; exact hc i j d.1 d.2.1 d.2.2

theorem syrkPlan_some {threads n k : Nat} {ov : Option Nat} (hn : 0 < n) (ho : ov ≠ some 0) :
    ∃ nb bs fin, syrkPlan threads n k ov = some (nb, bs, fin) ∧ 0 < nb ∧
      (nb ≠ 1 → (nb - 1) * bs + fin = k) := by
  unfold syrkPlan
  simp only
  split_ifs with h1 h2 h2
  all_goals first
    | exact ⟨_, _, _, rfl, by omega, fun h => absurd rfl h⟩
    | skip
  all_goals
    have hm : 0 < ov.getD 2048 := by
      cases ov with
      | none => simp
      | some v => simp at ho ⊢; omega
  · obtain ⟨nb, bs, fin, e, a, b, c, -⟩ := scheme (n := k) (mb := ov.getD 2048) (mx := 512) (mf := n)
      (by omega) hm (by omega)
    rw [e]
    simp only
    split_ifs
    · exact ⟨_, _, _, rfl, by omega, fun h => absurd rfl h⟩
    · exact ⟨_, _, _, rfl, a, fun _ => c⟩
  · obtain ⟨nb, bs, fin, e, a, b, c, -⟩ := scheme (n := k) (mb := ov.getD 2048)
      (mx := max (min ((k + 2 * n - 1) / (2 * n)) 512) 1) (mf := n) (by omega) hm (by omega)
    rw [e]
    simp only
    split_ifs
    · exact ⟨_, _, _, rfl, by omega, fun h => absurd rfl h⟩
    · exact ⟨_, _, _, rfl, a, fun _ => c⟩

end
end Verif.TallSkinny
