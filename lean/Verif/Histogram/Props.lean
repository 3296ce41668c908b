import Verif.Histogram.Proof

/-!
# C27, C51: bins and thresholds
-/

namespace Verif.Histogram

/-! ## C27 -/

/-- C27: with `k` thresholds in non-decreasing order, the bin of a value is the number of thresholds
not exceeding it, and "bin ≤ b" (training) means "value < threshold b" (prediction). -/
theorem C27_bin {α} [LinearOrder α] (thr : Nat → α) (k : Nat)
    (sorted : ∀ i j, i ≤ j → j < k → thr i ≤ thr j) (x : α) :
    let bin := binSearch (fun i => decide (x < thr i)) 0 k
    bin = (List.range k).countP (fun i => decide (thr i ≤ x)) ∧
    (∀ b, b < k → (bin ≤ b ↔ x < thr b)) := by
  intro bin
  obtain ⟨h1, h2, h3⟩ := binSearch_spec (fun i => decide (x < thr i)) k
    (fun i j a b c => by
      simp only [decide_eq_true_eq] at c ⊢
      exact lt_of_lt_of_le c (sorted i j a b))
    0 k (Nat.zero_le _) (Nat.le_refl _) (fun i h => absurd h (Nat.not_lt_zero _))
    (fun i a b => absurd (Nat.lt_of_lt_of_le b a) (Nat.lt_irrefl _))
  have h1 : bin ≤ k := h1
  refine ⟨?_, fun b hb => ⟨fun h => by simpa using h3 b h hb, fun h => ?_⟩⟩
  · have e : List.range k = List.range bin ++ List.range' bin (k - bin) := by
      rw [List.range_eq_range', List.range_eq_range']
      have := @List.range'_append_1 0 bin (k - bin)
      rw [Nat.zero_add] at this
      rw [this]
      congr 1
      omega
    rw [e, List.countP_append]
    have a : (List.range bin).countP (fun i => decide (thr i ≤ x)) = (List.range bin).length := by
      rw [List.countP_eq_length]
      intro i hi
      have := h2 i (List.mem_range.1 hi)
      simpa using this
    have b : (List.range' bin (k - bin)).countP (fun i => decide (thr i ≤ x)) = 0 := by
      rw [List.countP_eq_zero]
      intro i hi
      rw [List.mem_range'_1] at hi
      have := h3 i hi.1 (by omega)
      simpa using this
    rw [a, b, List.length_range, Nat.add_zero]
  · by_contra hc
    have := h2 b (by omega)
    simp only [decide_eq_false_iff_not] at this
    exact this h

/-- A NaN, for which every comparison is false, gets the last bin, and prediction sends it to the
right as training does. -/
theorem C27_nan (k : Nat) : binSearch (fun _ => false) 0 k = k ∧
    ∀ b, b < k → (binSearch (fun _ => false) 0 k ≤ b ↔ false = true) := by
  obtain ⟨h1, _, h3⟩ := binSearch_spec (fun _ => false) k (fun _ _ _ _ h => by cases h) 0 k
    (Nat.zero_le _) (Nat.le_refl _) (fun _ _ => rfl)
    (fun i a b => absurd (Nat.lt_of_lt_of_le b a) (Nat.lt_irrefl _))
  have e : binSearch (fun _ => false) 0 k = k := by
    by_contra h
    have := h3 _ (Nat.le_refl _) (by omega)
    cases this
  refine ⟨e, fun b hb => ?_⟩
  rw [e]
  constructor
  · intro h; omega
  · intro h; cases h

example : (List.range 8).map (fun x => binSearch (fun i => decide (x < [2, 4, 4, 6].getD i 0)) 0 4) =
    [0, 0, 1, 1, 3, 3, 4, 4] := by decide_cbv

/-! ## C51 -/

/-- `|a - b| < tol`, for values that are integers times a common unit. -/
def closeTo (tol : Nat) (a b : Int) : Bool := decide ((a - b).natAbs < tol)

/-- C51 for an arithmetic: for `n` sorted values and `2 ≤ max_bin ≤ n / 2` (which the constructor
ensures), `compute_thresholds` ends without leaving its arrays; the thresholds are among the values,
strictly increasing, and at most `max_bin - 1`; and every one of the `nbins` bins has a sample. -/
def C51_statement {T} (A : Arith T) : Prop :=
  ∀ (tol : Nat) (v : Nat → Int) (n maxBin : Nat), 0 < tol → (∀ i j, i ≤ j → j < n → v i ≤ v j) →
    2 ≤ maxBin → 2 * maxBin ≤ n →
    ∃ fuel sf o, thresholds A (closeTo tol) v n maxBin fuel sf = some o ∧ o.bad = false ∧
      (∀ e ∈ o.at_, e < n) ∧ (o.at_.map v).Pairwise (· < ·) ∧ o.at_.length + 1 ≤ maxBin ∧
      ∀ b, b ≤ o.at_.length → ∃ i, i < n ∧ ((o.at_.map v).countP fun t => decide (t ≤ v i)) = b

theorem countP_mono (l : List Int) : l.Pairwise (· < ·) → ∀ (b : Nat) (h : b < l.length),
    l.countP (fun t => decide (t ≤ l[b])) = b + 1 := by
  induction l with
  | nil => intro _ b h; exact absurd h (Nat.not_lt_zero _)
  | cons a l ih =>
    intro hp b h
    rw [List.pairwise_cons] at hp
    cases b with
    | zero =>
      rw [List.countP_cons]
      have : l.countP (fun t => decide (t ≤ (a :: l)[0])) = 0 := by
        rw [List.countP_eq_zero]
        intro x hx
        have := hp.1 x hx
        simp; omega
      rw [this]; simp
    | succ b =>
      have h : b < l.length := by simpa using h
      rw [List.countP_cons]
      have := ih hp.2 b h
      simp only [List.getElem_cons_succ]
      rw [this, if_pos]
      have := hp.1 l[b] (List.getElem_mem h)
      simp; omega

/-- C51 in exact arithmetic. -/
theorem C51_exact_partial : C51_statement exact := by
  intro tol v n m htol hs hm hn
  have hm0 : (0 : ℚ) < m := by exact_mod_cast (by omega : 0 < m)
  obtain ⟨o, e1, e2, e3, e4, e5, e6⟩ := loop_spec (closeTo tol) v n m (m + 2) hm hn (Nat.le_refl _)
    (m + 1) (exact.step m) { at_ := [], bad := false } (by simp; omega) (by omega) (by simp) rfl
    (by simp [exact]) (by simp) (by simp) List.Pairwise.nil (by simp)
  have hlt : ∀ t b, t ≤ b → b < n → closeTo tol (v t) (v b) = false → v t < v b := by
    intro t b h1 h2 h3
    have := hs t b h1 h2
    simp only [closeTo, decide_eq_false_iff_not] at h3
    omega
  have hpw : (o.at_.map v).Pairwise (· < ·) := by
    rw [List.pairwise_map]
    refine List.Pairwise.imp_of_mem ?_ e5
    rintro a b _ hb ⟨t, h1, h2, h3⟩
    have := hlt t b (by omega) (e4 b hb).2 h3
    have := hs a t h1 (by have := (e4 b hb).2; omega)
    omega
  refine ⟨m + 1, m + 2, o, e1, e3, fun e he => (e4 e he).2, hpw, by omega, fun b hb => ?_⟩
  cases b with
  | zero =>
    refine ⟨0, by omega, ?_⟩
    rw [List.countP_eq_zero]
    intro x hx
    obtain ⟨e, he, rfl⟩ := List.mem_map.1 hx
    obtain ⟨t, h1, h2⟩ := e6 e he
    have := hlt t e (by omega) (e4 e he).2 h2
    have := hs 0 t (Nat.zero_le _) (by have := (e4 e he).2; omega)
    simp; omega
  | succ b =>
    have hb' : b < (o.at_.map v).length := by simp; omega
    refine ⟨o.at_[b], (e4 _ (List.getElem_mem _)).2, ?_⟩
    have := countP_mono _ hpw b hb'
    simpa using this

/-- In `float` arithmetic the accumulated rounding of `q` gives one round too many: 150000 different
values and 290 bins give 290 thresholds, one more than there is room for.  The same happens when the
compiler uses a fused multiply-add for the bound of the loop. -/
theorem C51_violated : ¬ C51_statement binary32 ∧ ¬ C51_statement binary32fma := by
  have key : ∀ A : Arith Nat,
      (thresholds A (closeTo 1) (fun i => i) 150000 290 400 400).map (fun o => (o.at_.length, o.bad)) =
        some (290, true) → ¬ C51_statement A := by
    intro A h hA
    obtain ⟨fuel, sf, o, h1, h2, _⟩ := hA 1 (fun i => i) 150000 290 (by omega)
      (fun i j h _ => Int.ofNat_le.2 h) (by omega) (by omega)
    obtain ⟨o', h3, h4⟩ := Option.map_eq_some_iff.1 h
    have := thresholds_unique _ _ _ _ _ _ _ _ _ _ _ h1 h3
    rw [← this, h2] at h4
    exact absurd (Prod.mk.inj h4).2 (by decide)
  exact ⟨key _ (by decide +kernel), key _ (by decide +kernel)⟩

-- four values of which two are tied, and two bins
example : (thresholds exact (closeTo 1) (fun i => [1, 3, 3, 8].getD i 0) 4 2 5 5).map (fun o => (o.at_, o.bad)) =
    some ([3], false) := by decide +kernel

-- `float` behaves for smaller data
example : (thresholds binary32 (closeTo 1) (fun i => i / 3) 40 4 20 20).map (fun o => (o.at_, o.bad)) =
    some ([12, 30], false) := by decide +kernel

end Verif.Histogram
