import Verif.Interp.Cells
import Mathlib.Tactic.Linarith
import Mathlib.Tactic.FieldSimp
import Mathlib.Tactic.Ring
import Mathlib.Tactic.Positivity
import Mathlib.Tactic.NormNum

/-
C83: `search_cells` finds the cell of every point.
-/
namespace Verif.Interp

variable {F : Type} [Field F] [LinearOrder F] [IsStrictOrderedRing F] [FloorRing F]

/-- Cell `c` is the cell of `v`: points outside the sites belong to the first or the last
cell. -/
def InCell (n : Nat) (x : Nat → F) (v : F) (c : Nat) : Prop :=
  c + 2 ≤ n ∧ (x 0 ≤ v → x c ≤ v) ∧ (v < x 0 → c = 0) ∧
  (v < x (n - 1) → v < x (c + 1)) ∧ (x (n - 1) ≤ v → c = n - 2)

/-! ### Bisection -/

omit [Field F] [IsStrictOrderedRing F] [FloorRing F] in
theorem bisect_spec (x : Nat → F) (v : F) (k : Nat) : ∀ (l r : Nat), l < r → r - l ≤ k + 1 →
    ∃ l', bisect x v k l r = (l', l' + 1) ∧ l ≤ l' ∧ l' < r ∧ (l' = l ∨ x l' ≤ v) ∧
      (l' + 1 = r ∨ v < x (l' + 1)) := by
  induction k with
  | zero =>
    intro l r h1 h2
    have : r = l + 1 := by omega
    subst this
    exact ⟨l, rfl, by omega, by omega, Or.inl rfl, Or.inl rfl⟩
  | succ k ih =>
    intro l r h1 h2
    rw [bisect]
    split
    · rename_i h
      simp only
      split
      · rename_i hv
        obtain ⟨l', e, a, b, c, d⟩ := ih l ((l + r) / 2) (by omega) (by omega)
        refine ⟨l', e, a, by omega, c, ?_⟩
        rcases d with d | d
        · right; rw [d]; exact hv
        · exact Or.inr d
      · rename_i hv
        obtain ⟨l', e, a, b, c, d⟩ := ih ((l + r) / 2) r (by omega) (by omega)
        refine ⟨l', e, by omega, b, ?_, d⟩
        rcases c with c | c
        · right; rw [c]; exact not_lt.1 hv
        · exact Or.inr c
    · have : r = l + 1 := by omega
      subst this
      exact ⟨l, rfl, by omega, by omega, Or.inl rfl, Or.inl rfl⟩

/-! ### The index -/

/-- Invariant of the index after the entries below `m`. -/
structure IndexInv (n : Nat) (x : Nat → F) (h : F) (m : Nat) (s : Index F) : Prop where
  target : s.target = x 0 + ((m - 1 : Nat) : F) * h
  lo : ∀ i, i < m → s.lo i + 2 ≤ n ∧ x (s.lo i) ≤ x 0 + (i : F) * h
  up : ∀ i, i + 1 < m → s.lo i < s.up i ∧ s.up i < n ∧
    (s.up i = n - 1 ∨ x 0 + ((i + 1 : Nat) : F) * h < x (s.up i))

omit [FloorRing F] in
theorem indexStep_inv (n : Nat) (hn : 2 ≤ n) (x : Nat → F) (h : F) (hh : 0 ≤ h) (m : Nat) (hm : 0 < m)
    (s : Index F) (inv : IndexInv n x h m s) : IndexInv n x h (m + 1) (indexStep id n x h s m) := by
  obtain ⟨a, b⟩ := inv.lo (m - 1) (by omega)
  unfold indexStep
  simp only [id_eq]
  obtain ⟨l', e, i1, i2, i3, i4⟩ := bisect_spec x (s.target + h) n (s.lo (m - 1)) (n - 1) (by omega) (by omega)
  have ht : s.target + h = x 0 + (m : F) * h := by
    rw [inv.target]
    have : (m : F) = ((m - 1 : Nat) : F) + 1 := by
      rw [← Nat.cast_succ]; congr 1; omega
    rw [this]; ring
  rw [e]
  simp only
  constructor
  · simp only [Nat.add_sub_cancel]; exact ht
  · intro i hi
    simp only [upd]
    split
    · rename_i hc
      subst hc
      refine ⟨by omega, ?_⟩
      rcases i3 with i3 | i3
      · rw [i3]
        refine b.trans ?_
        have : ((i - 1 : Nat) : F) * h ≤ (i : F) * h :=
          mul_le_mul_of_nonneg_right (Nat.cast_le.2 (by omega)) hh
        linarith
      · rw [← ht]; exact i3
    · exact inv.lo i (by omega)
  · intro i hi
    simp only [upd]
    rw [if_neg (by omega : i ≠ m)]
    split
    · rename_i hc
      subst hc
      refine ⟨by omega, by omega, ?_⟩
      rw [show m - 1 + 1 = m by omega]
      rcases i4 with i4 | i4
      · left; exact i4
      · right; rw [← ht]; exact i4
    · exact inv.up i (by omega)

omit [FloorRing F] in
theorem buildIndex_inv (n : Nat) (hn : 2 ≤ n) (x : Nat → F) (h : F) (hh : 0 ≤ h) (k : Nat) :
    IndexInv n x h (k + 1) ((List.range' 1 k).foldl (indexStep id n x h)
      { target := x 0, lo := fun _ => 0, up := fun _ => 0 }) := by
  induction k with
  | zero =>
    constructor
    · simp
    · intro i hi
      have : i = 0 := by omega
      subst this
      simp; omega
    · intro i hi; omega
  | succ k ih =>
    rw [List.range'_1_concat, List.foldl_append, Nat.add_comm 1 k]
    exact indexStep_inv n hn x h hh (k + 1) (by omega) _ ih

/-- Strictly increasing sites. -/
def Increasing (n : Nat) (x : Nat → F) : Prop := ∀ i, i + 1 < n → x i < x (i + 1)

omit [Field F] [IsStrictOrderedRing F] [FloorRing F] in
theorem Increasing.lt {n : Nat} {x : Nat → F} (h : Increasing n x) {i j : Nat} (hij : i < j) (hj : j < n) :
    x i < x j := by
  induction j with
  | zero => omega
  | succ j ih =>
    rcases Nat.lt_or_ge i j with h2 | h2
    · exact (ih h2 (by omega)).trans (h j hj)
    · have : i = j := by omega
      subst this
      exact h i hj

omit [Field F] [IsStrictOrderedRing F] [FloorRing F] in
theorem Increasing.le {n : Nat} {x : Nat → F} (h : Increasing n x) {i j : Nat} (hij : i ≤ j) (hj : j < n) :
    x i ≤ x j := by
  rcases Nat.lt_or_ge i j with h2 | h2
  · exact (h.lt h2 hj).le
  · rw [show i = j by omega]

omit [FloorRing F] in
/-- `set_sites_1d` accepts exactly strictly increasing sites. -/
theorem C83_accepts (n : Nat) (x : Nat → F) :
    (setSites id n x).isSome = true ↔ 2 ≤ n ∧ Increasing n x := by
  unfold setSites Increasing
  split
  · rename_i h
    simp only [Option.isSome_none, Bool.false_eq_true, false_iff]
    omega
  · rename_i h
    split
    · rename_i h2
      rw [List.all_eq_true] at h2
      simp only [Option.isSome_some, true_iff]
      refine ⟨by omega, fun i hi => ?_⟩
      have := h2 i (List.mem_range.2 (by omega))
      simp only [id_eq, sub_nonpos, Bool.not_eq_true', decide_eq_false_iff_not, not_le] at this
      exact this
    · rename_i h2
      simp only [Option.isSome_none, Bool.false_eq_true, false_iff]
      rintro ⟨_, h3⟩
      apply h2
      rw [List.all_eq_true]
      intro i hi
      have := h3 i (by have := List.mem_range.1 hi; omega)
      simp only [id_eq, sub_nonpos, Bool.not_eq_true', decide_eq_false_iff_not, not_le]
      exact this

omit [FloorRing F] [IsStrictOrderedRing F] in
theorem setSites_some {n : Nat} {x : Nat → F} {ix : Index F} (h : setSites id n x = some ix) :
    ix = buildIndex id n x := by
  unfold setSites at h
  split at h
  · cases h
  · split at h
    · exact (Option.some.inj h).symm
    · cases h

/-! ### The search -/

omit [IsStrictOrderedRing F] in
theorem trunc_nonneg {x : F} (h : 0 ≤ x) : 0 ≤ trunc x ∧ (trunc x : F) ≤ x ∧ x < trunc x + 1 := by
  unfold trunc
  rw [if_pos h]
  exact ⟨Int.floor_nonneg.2 h, Int.floor_le x, Int.lt_floor_add_one x⟩

omit [IsStrictOrderedRing F] in
theorem trunc_neg {x : F} (h : x < 0) : trunc x ≤ 0 := by
  unfold trunc
  rw [if_neg (not_le.2 h)]
  exact Int.ceil_le.2 (by simpa using h.le)

omit [IsStrictOrderedRing F] in
theorem toInt_some {M : Int} {x : F} {t : Int} (h : toInt M x = some t) : t = trunc x := by
  unfold toInt at h
  split at h
  · exact (Option.some.inj h).symm
  · cases h

/-- Exact arithmetic: the cell found by the index and the bisection is the cell of the
point. -/
theorem C83_sites_partial (M : Int) (n : Nat) (x : Nat → F) (ix : Index F) (hs : setSites id n x = some ix) (v : F)
    (c : Nat) (hc : searchSites M id n x ix v = some c) : InCell n x v c := by
  obtain ⟨hn, hx⟩ := (C83_accepts n x).1 (by rw [hs]; rfl)
  have hix := setSites_some hs
  have hr : 0 < x (n - 1) - x 0 := by
    have := hx.lt (show 0 < n - 1 by omega) (by omega)
    linarith
  have hn1 : (0 : F) < ((n - 1 : Nat) : F) := Nat.cast_pos.2 (by omega)
  generalize hh : (x (n - 1) - x 0) / ((n - 1 : Nat) : F) = h
  have hh0 : 0 < h := by rw [← hh]; positivity
  have hend : x 0 + ((n - 1 : Nat) : F) * h = x (n - 1) := by
    rw [← hh]; field_simp; ring
  have inv := buildIndex_inv n hn x h hh0.le (n - 1)
  rw [show n - 1 + 1 = n by omega] at inv
  unfold searchSites at hc
  simp only [id_eq] at hc
  have hinv : (((n - 1 : Nat) : F) / (x (n - 1) - x 0)) = 1 / h := by rw [← hh]; field_simp
  rw [hinv] at hc
  split at hc
  · cases hc
  rename_i t ht
  have ht := toInt_some ht
  simp only [Option.some.injEq] at hc
  -- the entries of the index for the position
  have key : ∀ idx : Nat, idx ≤ n - 1 → (clamp t 0 ((n - 1 : Nat) : Int)).toNat = idx →
      (x 0 ≤ v → x (ix.lo idx) ≤ v) → (v < x 0 → ix.lo idx = 0) →
      ix.lo idx < ix.up idx → ix.up idx < n → ix.lo idx + 2 ≤ n →
      (ix.up idx = n - 1 ∨ v < x (ix.up idx)) → InCell n x v c := by
    intro idx hi he k1 k2 k3 k4 k5 k6
    rw [he] at hc
    obtain ⟨l', e, i1, i2, i3, i4⟩ := bisect_spec x v n (ix.lo idx) (ix.up idx) k3 (by omega)
    rw [e] at hc
    simp only at hc
    subst hc
    refine ⟨by omega, ?_, ?_, ?_, ?_⟩
    · intro h0
      rcases i3 with i3 | i3
      · rw [i3]; exact k1 h0
      · exact i3
    · intro h0
      rcases i3 with i3 | i3
      · rw [i3]; exact k2 h0
      · by_contra hne
        have := hx.le (show 0 ≤ l' by omega) (show l' < n by omega)
        exact absurd (lt_of_le_of_lt (this.trans i3) h0) (lt_irrefl _)
    · intro h0
      rcases i4 with i4 | i4
      · rcases k6 with k6 | k6
        · rw [i4, k6]; exact h0
        · rw [i4]; exact k6
      · exact i4
    · intro h0
      by_contra hne
      have hlt : l' + 1 < n - 1 := by omega
      have hb : v < x (l' + 1) := by
        rcases i4 with i4 | i4
        · rcases k6 with k6 | k6
          · omega
          · rw [i4]; exact k6
        · exact i4
      exact absurd (lt_of_le_of_lt h0 (hb.trans (hx.lt hlt (by omega)))) (lt_irrefl _)
  have hlo : ∀ i, i < n - 1 → ix.lo i + 2 ≤ n ∧ x (ix.lo i) ≤ x 0 + (i : F) * h := by
    intro i hi
    rw [hix]
    simp only [buildIndex, id_eq, hh, upd]
    rw [if_neg (by omega), if_neg (by omega)]
    exact inv.lo i (by omega)
  have hup : ∀ i, i < n - 1 → ix.lo i < ix.up i ∧ ix.up i < n ∧
      (ix.up i = n - 1 ∨ x 0 + ((i + 1 : Nat) : F) * h < x (ix.up i)) := by
    intro i hi
    rw [hix]
    simp only [buildIndex, id_eq, hh, upd]
    rw [if_neg (by omega), if_neg (by omega), if_neg (by omega), if_neg (by omega)]
    exact inv.up i (by omega)
  have hl1 : ix.lo (n - 1) = n - 2 := by
    rw [hix]; simp only [buildIndex, upd]; rw [if_neg (by omega), if_pos trivial]
  have hu1 : ix.up (n - 1) = n - 1 := by
    rw [hix]; simp only [buildIndex, upd]; rw [if_neg (by omega), if_pos trivial]
  have hlo0 : ix.lo 0 = 0 := by
    have := (inv.lo 0 (by omega)).2
    rw [hix]
    simp only [buildIndex, id_eq, hh, upd]
    rw [if_neg (by omega), if_neg (by omega)]
    have h0 := inv.lo 0 (by omega)
    by_contra hne
    have h1 := hx.lt (Nat.pos_of_ne_zero hne) (by omega)
    have h2 := h0.2
    simp only [Nat.cast_zero, zero_mul, add_zero] at h2
    exact absurd (lt_of_le_of_lt h2 h1) (lt_irrefl _)
  by_cases hv : x 0 ≤ v
  · have hq : 0 ≤ (v - x 0) * (1 / h) := mul_nonneg (by linarith) (by positivity)
    obtain ⟨t1, t2, t3⟩ := trunc_nonneg hq
    rw [← ht] at t1 t2 t3
    have hvq : v = x 0 + ((v - x 0) * (1 / h)) * h := by field_simp; ring
    generalize (v - x 0) * (1 / h) = q at *
    by_cases htn : t < ((n - 1 : Nat) : Int)
    · have hc1 : clamp t 0 ((n - 1 : Nat) : Int) = t := by
        unfold clamp; rw [if_neg (by omega), if_neg (by omega)]
      obtain ⟨j, rfl⟩ := Int.eq_ofNat_of_zero_le t1
      have hj : j < n - 1 := by omega
      have hlo' := hlo j hj
      have hup' := hup j hj
      simp only [Int.cast_natCast] at t2 t3
      have hjq : (j : F) * h ≤ q * h := mul_le_mul_of_nonneg_right t2 hh0.le
      have hjq2 : q * h < ((j + 1 : Nat) : F) * h := by
        rw [Nat.cast_succ]; exact mul_lt_mul_of_pos_right t3 hh0
      refine key j (by omega) (by rw [hc1]; rfl) (fun _ => ?_) (fun hlt => absurd (lt_of_le_of_lt hv hlt) (lt_irrefl _))
        hup'.1 hup'.2.1 hlo'.1 ?_
      · have := hlo'.2; linarith
      · rcases hup'.2.2 with h1 | h1
        · exact Or.inl h1
        · right; linarith
    · have hc1 : clamp t 0 ((n - 1 : Nat) : Int) = ((n - 1 : Nat) : Int) := by
        unfold clamp
        rw [if_neg (by omega)]
        split <;> omega
      have hvn : x (n - 1) ≤ v := by
        have : ((n - 1 : Nat) : F) ≤ q := by
          refine le_trans ?_ t2
          rw [← Int.cast_natCast]
          exact Int.cast_le.2 (not_lt.1 htn)
        have := mul_le_mul_of_nonneg_right this hh0.le
        linarith
      refine key (n - 1) (le_refl _) (by rw [hc1]; rfl) (fun _ => ?_)
        (fun hlt => absurd (lt_of_le_of_lt hv hlt) (lt_irrefl _)) (by omega) (by omega) (by omega) (Or.inl hu1)
      rw [hl1]
      exact (hx.le (show n - 2 ≤ n - 1 by omega) (by omega)).trans hvn
  · have hq : (v - x 0) * (1 / h) < 0 :=
      mul_neg_of_neg_of_pos (by have := not_le.1 hv; linarith) (by positivity)
    have ht0 : t ≤ 0 := by rw [ht]; exact trunc_neg hq
    have hc1 : clamp t 0 ((n - 1 : Nat) : Int) = 0 := by
      unfold clamp
      split
      · rfl
      · rw [if_neg (by omega)]; omega
    have hup' := hup 0 (by omega)
    refine key 0 (by omega) (by rw [hc1]; rfl) (fun h0 => absurd h0 hv) (fun _ => hlo0) hup'.1 hup'.2.1
      (hlo 0 (by omega)).1 ?_
    rcases hup'.2.2 with h1 | h1
    · exact Or.inl h1
    · right
      have h2 := not_le.1 hv
      have h3 : 0 ≤ ((0 + 1 : Nat) : F) * h := by positivity
      linarith

/-- Exact arithmetic, uniform sites: the cell of the point. -/
theorem C83_uniform_partial (M : Int) (n : Nat) (hn : 2 ≤ n) (start stop : F) (hlt : start < stop) (v : F) (c : Nat)
    (hc : searchUniform M id n start (id (id (stop - start) / ((n - 1 : Nat) : F))) v = some c) :
    InCell n (uniformSite id n start stop) v c := by
  have hn1 : (0 : F) < ((n - 1 : Nat) : F) := Nat.cast_pos.2 (by omega)
  unfold searchUniform at hc
  simp only [id_eq] at hc
  have hsite : ∀ i, uniformSite id n start stop i = start + (i : F) * ((stop - start) / ((n - 1 : Nat) : F)) :=
    fun i => rfl
  generalize hh : (stop - start) / ((n - 1 : Nat) : F) = h at *
  have hh0 : 0 < h := by rw [← hh]; exact div_pos (by linarith) hn1
  split at hc
  · cases hc
  rename_i t ht
  have ht := toInt_some ht
  simp only [Option.some.injEq] at hc
  have hvq : v = start + ((v - start) / h) * h := by field_simp; ring
  unfold InCell
  simp only [hsite, Nat.cast_zero, zero_mul, add_zero]
  by_cases hv : start ≤ v
  · have hq : 0 ≤ (v - start) / h := div_nonneg (by linarith) hh0.le
    obtain ⟨t1, t2, t3⟩ := trunc_nonneg hq
    rw [← ht] at t1 t2 t3
    generalize (v - start) / h = q at *
    obtain ⟨j, rfl⟩ := Int.eq_ofNat_of_zero_le t1
    simp only [Int.cast_natCast] at t2 t3
    have hjq : (j : F) * h ≤ q * h := mul_le_mul_of_nonneg_right t2 hh0.le
    have hjq2 : q * h < ((j + 1 : Nat) : F) * h := by
      rw [Nat.cast_succ]; exact mul_lt_mul_of_pos_right t3 hh0
    have hcj : c = min j (n - 2) := by
      rw [← hc]
      unfold clamp
      rw [if_neg (by omega)]
      split <;> omega
    refine ⟨by omega, fun _ => ?_, fun h0 => absurd (lt_of_le_of_lt hv h0) (lt_irrefl _), fun h0 => ?_, fun h0 => ?_⟩
    · have : (c : F) * h ≤ (j : F) * h := mul_le_mul_of_nonneg_right (Nat.cast_le.2 (by omega)) hh0.le
      linarith
    · rcases Nat.lt_or_ge (n - 2) j with hj | hj
      · rw [show c + 1 = n - 1 by omega]; exact h0
      · rw [show c = j by omega]; linarith
    · have hnj : n - 1 ≤ j := by
        by_contra hne
        have : ((j + 1 : Nat) : F) * h ≤ ((n - 1 : Nat) : F) * h :=
          mul_le_mul_of_nonneg_right (Nat.cast_le.2 (by omega)) hh0.le
        linarith
      omega
  · have hq : (v - start) / h < 0 := div_neg_of_neg_of_pos (by have := not_le.1 hv; linarith) hh0
    have ht0 : t ≤ 0 := by rw [ht]; exact trunc_neg hq
    have hc0 : c = 0 := by
      rw [← hc]
      unfold clamp
      split
      · rfl
      · rw [if_neg (by omega)]; omega
    have hv2 := not_le.1 hv
    refine ⟨by omega, fun h0 => absurd h0 hv, fun _ => hc0, fun _ => ?_, fun h0 => ?_⟩
    · have : 0 ≤ ((c + 1 : Nat) : F) * h := by positivity
      linarith
    · exfalso
      have : 0 ≤ ((n - 1 : Nat) : F) * h := by positivity
      linarith

omit [IsStrictOrderedRing F] in
/-- The conversion to an integer is the only way to fail: it is defined as long as the
point is not further than the largest integer from the first site, in units of the mean
distance of the sites. -/
theorem C83_defined (M : Int) (n : Nat) (x : Nat → F) (ix : Index F) (v : F) :
    (searchSites M id n x ix v).isSome = true ↔
      -M - 1 ≤ trunc ((v - x 0) * (((n - 1 : Nat) : F) / (x (n - 1) - x 0))) ∧
      trunc ((v - x 0) * (((n - 1 : Nat) : F) / (x (n - 1) - x 0))) ≤ M := by
  unfold searchSites toInt
  simp only [id_eq]
  split <;> rename_i h
  · split at h
    · cases h
    · rename_i h2
      simp only [Option.isSome_none, Bool.false_eq_true, false_iff]
      exact h2
  · split at h
    · rename_i h2
      simp only [Option.isSome_some, true_iff]
      exact h2
    · cases h

omit [IsStrictOrderedRing F] in
/-- Whatever the rounding: the search reads sites and index entries inside their arrays
and gives a cell that exists. -/
theorem C83_bounds (M : Int) (rd : F → F) (n : Nat) (hn : 2 ≤ n) (x : Nat → F) (v : F) (c : Nat)
    (hc : searchSites M rd n x (buildIndex rd n x) v = some c) : c + 2 ≤ n := by
  -- the loop
  have loop : ∀ (h : F) (k : Nat), k ≤ n - 1 →
      let s := (List.range' 1 k).foldl (indexStep rd n x h)
        { target := x 0, lo := fun _ => 0, up := fun _ => 0 }
      (∀ i, i < k + 1 → s.lo i + 2 ≤ n) ∧ ∀ i, i < k → s.lo i < s.up i ∧ s.up i < n := by
    intro h k
    induction k with
    | zero =>
      intro _
      exact ⟨fun i _ => by simp; omega, fun i hi => by omega⟩
    | succ k ih =>
      intro hk
      obtain ⟨a, b⟩ := ih (by omega)
      rw [List.range'_1_concat, List.foldl_append, Nat.add_comm 1 k]
      simp only [List.foldl_cons, List.foldl_nil]
      generalize (List.range' 1 k).foldl (indexStep rd n x h)
        { target := x 0, lo := fun _ => 0, up := fun _ => 0 } = s at a b
      have a' := a k (by omega)
      obtain ⟨l', e, i1, i2, -, -⟩ := bisect_spec x (rd (s.target + h)) n (s.lo k) (n - 1) (by omega) (by omega)
      unfold indexStep
      simp only [Nat.add_sub_cancel, e]
      refine ⟨fun i hi => ?_, fun i hi => ?_⟩
      · simp only [upd]
        split
        · omega
        · exact a i (by omega)
      · simp only [upd]
        rw [if_neg (by omega : i ≠ k + 1)]
        split
        · rename_i hik
          subst hik
          omega
        · exact b i (by omega)
  unfold searchSites at hc
  simp only at hc
  split at hc
  · cases hc
  rename_i t ht
  simp only [Option.some.injEq] at hc
  have hidx : (clamp t 0 ((n - 1 : Nat) : Int)).toNat ≤ n - 1 := by
    unfold clamp
    split
    · omega
    · split <;> omega
  generalize (clamp t 0 ((n - 1 : Nat) : Int)).toNat = idx at *
  obtain ⟨a, b⟩ := loop (rd (rd (x (n - 1) - x 0) / ((n - 1 : Nat) : F))) (n - 1) (le_refl _)
  have key : (buildIndex rd n x).lo idx < (buildIndex rd n x).up idx ∧ (buildIndex rd n x).up idx < n := by
    simp only [buildIndex, upd]
    rw [if_neg (by omega : idx ≠ n), if_neg (by omega : idx ≠ n)]
    split
    · omega
    · exact b idx (by omega)
  obtain ⟨l', e, i1, i2, -, -⟩ := bisect_spec x v n _ _ key.1 (by omega)
  rw [e] at hc
  simp only at hc
  omega

/-- Full property: for accepted sites of the type (values with `p` bits), every point gets
its cell. -/
def C83_statement (p : Nat) (M : Int) : Prop :=
  ∀ (n : Nat) (x : Nat → ℚ) (ix : Index ℚ) (v : ℚ), (∀ i, i < n → round p (x i) = x i) → round p v = v →
    setSites (round p) n x = some ix →
    ∃ c, searchSites M (round p) n x ix v = some c ∧ InCell n x v c

/-- Violated in single precision: sites 1, 8, 15; the last value before 8 is assigned to
the cell from 8 to 15. -/
theorem C83_float_violated : ¬ C83_statement 24 (2 ^ 31 - 1) := by
  intro h
  obtain ⟨c, hc, h1⟩ := h 3 (fun i => 1 + 7 * i) (buildIndex (round 24) 3 fun i => 1 + 7 * i) (8 - 1 / 2 ^ 21)
    (by decide +kernel) (by decide +kernel) (by
      unfold setSites
      rw [if_neg (by decide), if_pos (by decide +kernel)])
  have h2 : searchSites (2 ^ 31 - 1) (round 24) 3 (fun i => 1 + 7 * (i : ℚ))
      (buildIndex (round 24) 3 fun i => 1 + 7 * (i : ℚ)) (8 - 1 / 2 ^ 21) = some 1 := by decide +kernel
  rw [h2] at hc
  have h3 := h1.2.1 (by norm_num)
  rw [← Option.some.inj hc] at h3
  revert h3
  norm_num

/-- Violated in double precision: sites 0, 105, 210. -/
theorem C83_double_violated : ¬ C83_statement 53 (2 ^ 31 - 1) := by
  intro h
  obtain ⟨c, hc, h1⟩ := h 3 (fun i => 105 * i) (buildIndex (round 53) 3 fun i => 105 * i) (105 - 1 / 2 ^ 46)
    (by decide +kernel) (by decide +kernel) (by
      unfold setSites
      rw [if_neg (by decide), if_pos (by decide +kernel)])
  have h2 : searchSites (2 ^ 31 - 1) (round 53) 3 (fun i => 105 * (i : ℚ))
      (buildIndex (round 53) 3 fun i => 105 * (i : ℚ)) (105 - 1 / 2 ^ 46) = some 1 := by decide +kernel
  rw [h2] at hc
  have h3 := h1.2.1 (by norm_num)
  rw [← Option.some.inj hc] at h3
  revert h3
  norm_num

/-- Violated also by points far away: the conversion to an integer is undefined. -/
theorem C83_range_violated : searchSites (2 ^ 31 - 1) id 3 (fun i => (i : ℚ))
    (buildIndex id 3 fun i => (i : ℚ)) (2 ^ 31) = none := by decide +kernel

/-- Five sites, eleven points, in exact arithmetic. -/
example : (List.range 11).map (fun k => searchSites (2 ^ 31 - 1) id 5 (fun i => ((i * i : Nat) : ℚ))
    (buildIndex id 5 fun i => ((i * i : Nat) : ℚ)) ((k : ℚ) * 2 - 2)) =
    [0, 0, 1, 2, 2, 2, 3, 3, 3, 3, 3].map some := by decide +kernel

end Verif.Interp
