import Verif.Partition.Proof

/-!
# C26: splitting a node sends every sample to one side
-/

namespace Verif.Partition

/-- A correct outcome: the function ends; the samples `start .. end_` are kept, each once, and nothing
else is moved; the returned position separates those satisfying the split from the others; and it
gives their number. -/
def Correct (sat : Nat → Prop) [DecidablePred sat] (samp : Nat → Nat) (start end_ : Nat)
    (run : Nat → Option ((Nat → Nat) × Int)) : Prop :=
  ∃ (fuel : Nat) (samp' : Nat → Nat) (m : Int), run fuel = some (samp', m) ∧
    ((List.range' start (end_ + 1 - start)).map samp').Perm
      ((List.range' start (end_ + 1 - start)).map samp) ∧
    (∀ i, i < start ∨ end_ < i → samp' i = samp i) ∧
    (∀ i : Nat, start ≤ i → i ≤ end_ → ((i : Int) ≤ m ↔ sat (samp' i))) ∧
    m + 1 - start = ((List.range' start (end_ + 1 - start)).map samp).countP fun s => sat s

/-- The comparisons of floating-point values, with `none` for NaN. -/
def fle : Option Int → Option Int → Bool
  | some a, some b => decide (a ≤ b)
  | _, _ => false

def flt : Option Int → Option Int → Bool
  | some a, some b => decide (a < b)
  | _, _ => false

/-- `std::round(v) == c` for values that are integers or NaN. -/
def fcat (v : Option Int) (c : Int) : Bool := decide (v = some c)

/-- C26 in full, for the four partition functions. -/
def C26_statement : Prop :=
  ∀ (d : Data (Option Int)) (feature start end_ : Nat) (samp : Nat → Nat), start ≤ end_ →
    (∀ thr, Correct (fun s => fle (d.x (d.ldx * feature + s)) thr = true) samp start end_
      fun fuel => rawContinuous fle flt d feature thr fuel samp start end_) ∧
    (∀ c, Correct (fun s => fcat (d.x (d.ldx * feature + s)) c = true) samp start end_
      fun fuel => rawCategorical fcat d feature c fuel samp start end_) ∧
    (∀ b, Correct (fun s => binOf d feature s ≤ b) samp start end_
      fun fuel => histOrdered d feature b fuel samp start end_) ∧
    (∀ b, Correct (fun s => binOf d feature s = b) samp start end_
      fun fuel => histOnevall d feature b fuel samp start end_)

/-! ### Where it fails -/

/-- When all the samples of the node satisfy the split, the last one is nevertheless put on the right:
the position where the two scans meet is never tested. -/
theorem C26_all_left (L R : Nat → Bool) (samp : Nat → Nat) (start end_ : Nat) (h : start ≤ end_)
    (hL : ∀ i, start ≤ i → i ≤ end_ → L (samp i) = true) (fuel : Nat)
    (hf : 2 * (end_ - start) + 1 < fuel) :
    partition L R fuel samp start end_ = some (samp, (end_ : Int) - 1) := by
  have key : ∀ (fuel head : Nat), start ≤ head → head ≤ end_ → end_ - head < fuel →
      loop L R fuel samp head end_ = some (samp, end_) := by
    intro fuel
    induction fuel with
    | zero => intro head _ _ h; omega
    | succ fuel ih =>
      intro head h1 h2 h3
      rw [loop]
      by_cases c : head < end_
      · rw [if_pos c, if_pos (hL head h1 h2)]
        exact ih (head + 1) (by omega) c (by omega)
      · rw [if_neg c, show head = end_ by omega]
  rw [partition, key fuel start (Nat.le_refl _) h (by omega)]
  rfl

/-- With a NaN at both ends of the node (or a single pair of NaN), the raw continuous partition never
ends. -/
theorem C26_nan_hang (d : Data (Option Int)) (feature : Nat) (thr : Option Int) (start end_ : Nat)
    (samp : Nat → Nat) (h : start < end_) (h1 : d.x (d.ldx * feature + samp start) = none)
    (h2 : d.x (d.ldx * feature + samp end_) = none) (fuel : Nat) :
    rawContinuous fle flt d feature thr fuel samp start end_ = none := by
  have key : ∀ (fuel : Nat) (samp : Nat → Nat), d.x (d.ldx * feature + samp start) = none →
      d.x (d.ldx * feature + samp end_) = none →
      loop (fun s => fle (d.x (d.ldx * feature + s)) thr)
        (fun s => flt thr (d.x (d.ldx * feature + s))) fuel samp start end_ = none := by
    intro fuel
    induction fuel with
    | zero => intro _ _ _; rfl
    | succ fuel ih =>
      intro samp h1 h2
      rw [loop, if_pos h]
      have e1 : ¬ fle (d.x (d.ldx * feature + samp start)) thr = true := by rw [h1]; simp [fle]
      have e2 : ¬ flt thr (d.x (d.ldx * feature + samp end_)) = true := by
        rw [h2]; cases thr <;> simp [flt]
      rw [if_neg e1, if_neg e2]
      apply ih
      · simpa [swapAt] using h2
      · have : ¬ end_ = start := by omega
        simpa [swapAt, this] using h1
  unfold rawContinuous partition
  rw [key fuel samp h1 h2]
  rfl

/-- A matrix of 3 samples and 2 features stored with a leading dimension of 4; the bins are stored
without the padding. -/
def padded : Data (Option Int) :=
  { x := fun i => [some 0, some 1, some 0, none, some 1, some 0, some 1, none].getD i none
    ldx := 4
    nSamples := 3
    binned := fun i => [0, 1, 0, 1, 0, 1].getD i 9 }

/-- The bins of feature 1 are 1, 0, 1, but the partition for `bin ≤ 0` reads 0, 1 and a cell behind
the table. -/
theorem C26_stride :
    (histOrdered padded 1 0 10 (fun i => i) 0 2).map (fun r => ((List.range 3).map r.1, r.2)) =
      some ([0, 1, 2], 0) ∧
    (List.range 3).map (binOf padded 1) = [1, 0, 1] := by
  decide +kernel

theorem C26_violated : ¬ C26_statement := by
  intro h
  obtain ⟨_, h2, _⟩ := h ⟨fun _ => some 5, 1, 1, fun _ => 0⟩ 0 0 0 (fun i => i) (Nat.le_refl _)
  obtain ⟨fuel, samp', m, e1, _, _, _, e5⟩ := h2 5
  cases fuel with
  | zero => cases e1
  | succ fuel =>
    have : m = -1 := by
      simp [rawCategorical, partition, loop] at e1
      exact e1.2.symm
    subst this
    revert e5
    decide +kernel

/-! ### What holds -/

theorem countP_split (sat : Nat → Prop) [DecidablePred sat] (f : Nat → Nat) (lo : Nat) :
    ∀ (n k : Nat), k ≤ n → (∀ i, lo ≤ i → i < lo + n → (i < lo + k ↔ sat (f i))) →
    ((List.range' lo n).map f).countP (fun s => sat s) = k := by
  intro n k hk h
  have e : List.range' lo n = List.range' lo k ++ List.range' (lo + k) (n - k) := by
    rw [List.range'_append_1]
    congr 1
    omega
  rw [e, List.map_append, List.countP_append]
  have h1 : ((List.range' lo k).map f).countP (fun s => sat s) = k := by
    have : ((List.range' lo k).map f).countP (fun s => sat s) =
        ((List.range' lo k).map f).length := by
      rw [List.countP_eq_length]
      intro a ha
      obtain ⟨i, hi, rfl⟩ := List.mem_map.1 ha
      rw [List.mem_range'_1] at hi
      exact decide_eq_true ((h i hi.1 (by omega)).1 hi.2)
    rw [this]; simp
  have h2 : ((List.range' (lo + k) (n - k)).map f).countP (fun s => sat s) = 0 := by
    rw [List.countP_eq_zero]
    intro a ha
    obtain ⟨i, hi, rfl⟩ := List.mem_map.1 ha
    rw [List.mem_range'_1] at hi
    intro hs
    have := (h i (by omega) (by omega)).2 (of_decide_eq_true hs)
    omega
  rw [h1, h2, Nat.add_zero]

theorem correct_of (L R : Nat → Bool) (sat : Nat → Prop) [DecidablePred sat] (samp : Nat → Nat)
    (start end_ : Nat) (h : start ≤ end_)
    (hL : ∀ i, start ≤ i → i ≤ end_ → (L (samp i) = true ↔ sat (samp i)))
    (hR : ∀ i, start ≤ i → i ≤ end_ → R (samp i) = !L (samp i))
    (hne : ∃ i, start ≤ i ∧ i ≤ end_ ∧ ¬ sat (samp i)) :
    Correct sat samp start end_ fun fuel => partition L R fuel samp start end_ := by
  obtain ⟨samp', m, e1, e2, e3, e4, e5, e6⟩ := partition_spec L R samp start end_ h hR
    (2 * (end_ - start) + 2) (by omega)
  have hmem : ∀ i, start ≤ i → i ≤ end_ → ∃ j, start ≤ j ∧ j ≤ end_ ∧ samp' i = samp j := by
    intro i a b
    have : samp' i ∈ (List.range' start (end_ + 1 - start)).map samp :=
      e2.perm.mem_iff.1 (List.mem_map.2 ⟨i, List.mem_range'_1.2 (by omega), rfl⟩)
    obtain ⟨j, hj, e⟩ := List.mem_map.1 this
    rw [List.mem_range'_1] at hj
    exact ⟨j, hj.1, by omega, e.symm⟩
  have hL' : ∀ i, start ≤ i → i ≤ end_ → (L (samp' i) = true ↔ sat (samp' i)) := by
    intro i a b
    obtain ⟨j, c1, c2, c3⟩ := hmem i a b
    rw [c3]; exact hL j c1 c2
  -- somewhere a sample does not satisfy the split
  have hlast : ∀ i : Nat, m < (i : Int) → start ≤ i → i ≤ end_ → L (samp' i) = false := by
    intro i a a' b
    by_cases c : m + 1 < end_ ∨ i < end_
    · exact e6 i a b c
    · cases hb : L (samp' i) with
      | false => rfl
      | true =>
        exfalso
        obtain ⟨j, j1, j2, j3⟩ := hne
        have : samp j ∈ (List.range' start (end_ + 1 - start)).map samp' :=
          e2.perm.mem_iff.2 (List.mem_map.2 ⟨j, List.mem_range'_1.2 (by omega), rfl⟩)
        obtain ⟨k, hk, e⟩ := List.mem_map.1 this
        rw [List.mem_range'_1] at hk
        apply j3
        rw [← e]
        apply (hL' k hk.1 (by omega)).1
        by_cases q : k = i
        · rw [q]; exact hb
        · exact e5 k hk.1 (by omega)
  have hiff : ∀ i : Nat, start ≤ i → i ≤ end_ → ((i : Int) ≤ m ↔ sat (samp' i)) := by
    intro i a b
    rw [← hL' i a b]
    constructor
    · exact e5 i a
    · intro hh
      by_contra hc
      rw [hlast i (by omega) a b] at hh
      cases hh
  refine ⟨_, samp', m, e1, e2.perm, fun i hi => e2.outside hi, hiff, ?_⟩
  rw [← e2.perm.countP_eq]
  rw [countP_split sat samp' start (end_ + 1 - start) (m + 1 - start).toNat (by omega)
    (fun i a b => by rw [← hiff i a (by omega)]; omega)]
  omega

/-- C26 for the four functions, except that: a sample not satisfying the split must be present
(otherwise the last sample is misplaced, `C26_all_left`); raw continuous data must not be NaN
(`C26_nan_hang`); and the bins are read correctly only when the data is stored without padding
(`C26_stride`).  `le` and `lt` may be any comparisons that are opposite on the samples of the node. -/
theorem C26_partial {α} (le lt : α → α → Bool) (isCat : α → Int → Bool) (d : Data α)
    (feature start end_ : Nat) (samp : Nat → Nat) (h : start ≤ end_) :
    (∀ thr, (∀ i, start ≤ i → i ≤ end_ → lt thr (d.x (d.ldx * feature + samp i)) =
          !le (d.x (d.ldx * feature + samp i)) thr) →
        (∃ i, start ≤ i ∧ i ≤ end_ ∧ le (d.x (d.ldx * feature + samp i)) thr = false) →
        Correct (fun s => le (d.x (d.ldx * feature + s)) thr = true) samp start end_
          fun fuel => rawContinuous le lt d feature thr fuel samp start end_) ∧
    (∀ c, (∃ i, start ≤ i ∧ i ≤ end_ ∧ isCat (d.x (d.ldx * feature + samp i)) c = false) →
        Correct (fun s => isCat (d.x (d.ldx * feature + s)) c = true) samp start end_
          fun fuel => rawCategorical isCat d feature c fuel samp start end_) ∧
    (∀ b, d.ldx = d.nSamples → (∃ i, start ≤ i ∧ i ≤ end_ ∧ b < binOf d feature (samp i)) →
        Correct (fun s => binOf d feature s ≤ b) samp start end_
          fun fuel => histOrdered d feature b fuel samp start end_) ∧
    (∀ b, d.ldx = d.nSamples → (∃ i, start ≤ i ∧ i ≤ end_ ∧ binOf d feature (samp i) ≠ b) →
        Correct (fun s => binOf d feature s = b) samp start end_
          fun fuel => histOnevall d feature b fuel samp start end_) := by
  refine ⟨fun thr ho hne => ?_, fun c hne => ?_, fun b hl hne => ?_, fun b hl hne => ?_⟩
  · refine correct_of _ _ _ samp start end_ h (fun _ _ _ => Iff.rfl) ho ?_
    obtain ⟨i, a, b, c⟩ := hne
    exact ⟨i, a, b, by simp [c]⟩
  · refine correct_of _ _ _ samp start end_ h (fun _ _ _ => Iff.rfl) (fun _ _ _ => rfl) ?_
    obtain ⟨i, a, b, c⟩ := hne
    exact ⟨i, a, b, by simp [c]⟩
  · refine correct_of _ _ _ samp start end_ h (fun i _ _ => ?_) (fun i _ _ => ?_) ?_
    · simp [binOf, hl, Nat.mul_comm]
    · exact Bool.eq_iff_iff.2 (by simp)
    · obtain ⟨i, a, b', c⟩ := hne
      exact ⟨i, a, b', by omega⟩
  · refine correct_of _ _ _ samp start end_ h (fun i _ _ => ?_) (fun i _ _ => ?_) ?_
    · simp [binOf, hl, Nat.mul_comm]
    · exact Bool.eq_iff_iff.2 (by simp)
    · obtain ⟨i, a, b', c⟩ := hne
      exact ⟨i, a, b', c⟩

/-! ### Examples -/

def sample : Data (Option Int) :=
  { x := fun i => [some 4, some 1, some 3, some 1, some 9].getD i none
    ldx := 5
    nSamples := 5
    binned := fun i => [2, 0, 1, 0, 3].getD i 9 }

-- threshold 3 on values 4, 1, 3, 1, 9
example : (rawContinuous fle flt sample 0 (some 3) 20 (fun i => i) 0 4).map
    (fun r => ((List.range 5).map r.1, r.2)) = some ([3, 1, 2, 0, 4], 2) := by decide +kernel

example : (histOnevall sample 0 0 20 (fun i => i) 0 4).map
    (fun r => ((List.range 5).map r.1, r.2)) = some ([3, 1, 2, 0, 4], 1) := by decide +kernel

-- the hypotheses hold there
example : Correct (fun s => fle (sample.x (sample.ldx * 0 + s)) (some 3) = true) (fun i => i) 0 4
    fun fuel => rawContinuous fle flt sample 0 (some 3) fuel (fun i => i) 0 4 :=
  (C26_partial fle flt fcat sample 0 0 4 (fun i => i) (by omega)).1 (some 3)
    (by
      have : ∀ i : Fin 5, flt (some 3) (sample.x (sample.ldx * 0 + i.1)) =
        !fle (sample.x (sample.ldx * 0 + i.1)) (some 3) := by decide +kernel
      intro i _ h; exact this ⟨i, by omega⟩)
    ⟨4, by omega, by omega, by decide +kernel⟩

end Verif.Partition
