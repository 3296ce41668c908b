/-
Distances over the real numbers: the specification, and how the bounding boxes and balls bound them.
-/
import Verif.NnTree.Ball
import Mathlib.Analysis.MeanInequalities
import Mathlib.Analysis.SpecialFunctions.Pow.Real
import Mathlib.Tactic.Linarith
import Mathlib.Tactic.Ring
import Mathlib.Tactic.Positivity
namespace Verif.NnTree

/-- The functions of the real numbers; `M` stands for `std::numeric_limits<T>::max()`. -/
noncomputable def realFns (M : ℝ) : Fns ℝ := ⟨Real.sqrt, fun x y => x ^ y, M⟩

/-- The Euclidean, Manhattan and Minkowski distances of two points with `d` coordinates. -/
noncomputable def trueDist (metric : Metric) (p : ℝ) (d : Nat) (x a : Nat → ℝ) : ℝ :=
  match metric with
  | .euclidean => Real.sqrt (∑ j ∈ Finset.range d, (x j - a j) ^ 2)
  | .euclideanGemm => Real.sqrt (∑ j ∈ Finset.range d, (x j - a j) ^ 2)
  | .manhattan => ∑ j ∈ Finset.range d, |x j - a j|
  | .minkowski => (∑ j ∈ Finset.range d, |x j - a j| ^ p) ^ (1 / p)
  | .sqeuclideanGemm => ∑ j ∈ Finset.range d, (x j - a j) ^ 2

/-- The metrics for which the trees are meant (`p >= 1` for Minkowski). -/
def Admissible (metric : Metric) (p : ℝ) : Prop := metric ≠ .sqeuclideanGemm ∧ (metric = .minkowski → 1 ≤ p)

theorem foldl_add_map {K : Type} [Field K] (f : Nat → K) : ∀ (l : List Nat) (s : K),
    l.foldl (fun s j => s + f j) s = s + (l.map f).sum := by
  intro l
  induction l with
  | nil => intro s; simp
  | cons a l ih => intro s; rw [List.foldl_cons, ih]; simp [add_assoc]

theorem sumTo_eq (d : Nat) (f : Nat → ℝ) : sumTo d f = ∑ j ∈ Finset.range d, f j := by
  rw [sumTo, foldl_add_map, zero_add]
  rfl

/-- Contribution of a coordinate difference. -/
noncomputable def contrib (t : Tree ℝ) (u : ℝ) : ℝ :=
  if t.isEuclid then u * u else if t.metric = .manhattan then u else u ^ t.p

/-- Final step of the distance computation. -/
noncomputable def rootOf (t : Tree ℝ) (s : ℝ) : ℝ :=
  if !t.isEuclid && t.metric ≠ .manhattan then s ^ t.pInv else s

/-- A tree object as made by `storeData` over the real numbers with an admissible metric. -/
structure Good (t : Tree ℝ) : Prop where
  sqrt : t.fns.sqrt = Real.sqrt
  pow : ∀ x y, t.fns.pow x y = x ^ y
  leaf : 0 < t.leafSize
  dim : 0 < t.d
  metric : t.metric ≠ .sqeuclideanGemm
  mink : t.metric = .minkowski → 1 ≤ t.p ∧ t.p ≠ 2 ∧ t.pInv = 1 / t.p

theorem good_store (M : ℝ) (n d : Nat) (A : Nat → Nat → ℝ) (leaf : Nat) (metric : Metric) (p : ℝ)
    (hl : 0 < leaf) (hd : 0 < d) (ha : Admissible metric p) : Good (storeData (realFns M) n d A leaf metric p) := by
  refine ⟨rfl, fun _ _ => rfl, hl, hd, ?_, ?_⟩
  · simp only [storeData]
    split
    · simp
    · exact ha.1
  · intro h
    simp only [storeData] at h ⊢
    by_cases c : metric = .minkowski ∧ p = 2
    · simp [c] at h
    · rw [if_neg c] at h ⊢
      subst h
      simp only [reduceCtorEq, if_false]
      exact ⟨ha.2 rfl, fun h2 => c ⟨rfl, h2⟩, by trivial⟩

theorem isEuclid_iff (t : Tree ℝ) : t.isEuclid = true ↔ t.metric = .euclidean ∨ t.metric = .euclideanGemm := by
  simp [Tree.isEuclid]

section
variable {t : Tree ℝ} (g : Good t)
include g

theorem cases_metric : t.isEuclid = true ∨ (t.isEuclid = false ∧ t.metric = .manhattan) ∨
    (t.isEuclid = false ∧ t.metric = .minkowski) := by
  have := g.metric
  cases h : t.metric <;> simp [Tree.isEuclid, h] at *

omit g in
theorem contrib_nonneg {u : ℝ} (hu : 0 ≤ u) : 0 ≤ contrib t u := by
  unfold contrib
  split
  · positivity
  · split
    · exact hu
    · exact Real.rpow_nonneg hu _

theorem contrib_mono {u v : ℝ} (hu : 0 ≤ u) (h : u ≤ v) : contrib t u ≤ contrib t v := by
  rcases cases_metric g with c | ⟨c, m⟩ | ⟨c, m⟩
  · simp only [contrib, c, if_true]; exact mul_self_le_mul_self hu h
  · simp [contrib, c, m, h]
  · simp only [contrib, c, m]
    simp only [reduceCtorEq, if_false, Bool.false_eq_true]
    exact Real.rpow_le_rpow hu h (by linarith [(g.mink m).1])

theorem rootOf_mono {u v : ℝ} (hu : 0 ≤ u) (h : u ≤ v) : rootOf t u ≤ rootOf t v := by
  rcases cases_metric g with c | ⟨c, m⟩ | ⟨c, m⟩
  · simpa [rootOf, c] using h
  · simpa [rootOf, c, m] using h
  · simp only [rootOf, c, m]
    simp only [Bool.not_false, ne_eq, reduceCtorEq, not_false_eq_true, decide_true, Bool.and_self, if_true]
    have := g.mink m
    exact Real.rpow_le_rpow hu h (by rw [this.2.2]; exact div_nonneg zero_le_one (by linarith))

/-- What the quick return compares with the bound. -/
theorem root_contrib {u : ℝ} (hu : 0 ≤ u) : rootOf t (contrib t u) = if t.isEuclid then u * u else u := by
  rcases cases_metric g with c | ⟨c, m⟩ | ⟨c, m⟩
  · simp [rootOf, contrib, c]
  · simp [rootOf, contrib, c, m]
  · have h := g.mink m
    simp only [rootOf, contrib, c, m]
    simp only [Bool.not_false, ne_eq, reduceCtorEq, not_false_eq_true, decide_true, Bool.and_self, if_true, if_false,
      Bool.false_eq_true]
    rw [h.2.2, ← Real.rpow_mul hu, mul_one_div_cancel (by linarith), Real.rpow_one]

/-- The computed distance. -/
theorem distance_eq (i : Nat) (x : Nat → ℝ) (xn : ℝ) (hn : t.metric = .euclideanGemm → xn = norm t.d x) :
    computeDistance t i x xn = rootOf t (∑ j ∈ Finset.range t.d, contrib t |x j - t.A i j|) := by
  unfold computeDistance
  cases hm : t.metric with
  | euclidean =>
    have c : t.isEuclid = true := by simp [Tree.isEuclid, hm]
    simp [rootOf, contrib, c, sumTo_eq]
  | sqeuclideanGemm => exact absurd hm g.metric
  | manhattan =>
    have c : t.isEuclid = false := by simp [Tree.isEuclid, hm]
    simp [rootOf, contrib, c, hm, sumTo_eq]
  | minkowski =>
    have c : t.isEuclid = false := by simp [Tree.isEuclid, hm]
    have h := g.mink hm
    simp only [minkowskiKernel, if_neg h.2.1, sumTo_eq, g.pow, rootOf, contrib, c, hm]
    simp only [Bool.not_false, ne_eq, reduceCtorEq, not_false_eq_true, decide_true, Bool.and_self, if_true, if_false,
      Bool.false_eq_true]
    rw [h.2.2]
    split
    · next h1 => rw [h1]; simp
    · rfl
  | euclideanGemm =>
    have c : t.isEuclid = true := by simp [Tree.isEuclid, hm]
    simp only [rootOf, contrib, c, if_true]
    rw [hn hm]
    simp only [norm, sumTo_eq, Bool.not_true, Bool.false_and, Bool.false_eq_true, if_false, abs_mul_abs_self]
    rw [Finset.mul_sum, ← Finset.sum_add_distrib, ← Finset.sum_sub_distrib]
    apply Finset.sum_congr rfl
    intro j _
    ring


/-! ### Boxes -/

omit g in
theorem boxGap_spec {x lo hi a : ℝ} (h1 : lo ≤ a) (h2 : a ≤ hi) :
    0 ≤ (boxGap x lo hi).1 ∧ (boxGap x lo hi).1 ≤ |x - a| ∧ |x - a| ≤ (boxGap x lo hi).2 := by
  unfold boxGap
  split
  · next h =>
    refine ⟨by dsimp only; linarith, ?_, ?_⟩
    · rw [abs_sub_comm]; exact le_trans (by dsimp only; linarith) (le_abs_self _)
    · rw [abs_sub_comm, abs_of_nonneg (by linarith)]; dsimp only; linarith
  · split
    · next h =>
      refine ⟨by dsimp only; linarith, ?_, ?_⟩
      · exact le_trans (by dsimp only; linarith) (le_abs_self _)
      · rw [abs_of_nonneg (by linarith)]; dsimp only; linarith
    · refine ⟨le_refl _, abs_nonneg _, ?_⟩
      rw [abs_le]
      dsimp only
      have l1 := le_max_left (hi - x) (x - lo)
      have l2 := le_max_right (hi - x) (x - lo)
      constructor <;> linarith

theorem boxLoop_spec (x : Nat → ℝ) (eps : ℝ) (lo hi : Nat → ℝ) : ∀ (l : List Nat) (a b : ℝ),
    (∀ i ∈ l, lo i ≤ hi i) →
    match boxLoop t x eps lo hi l a b with
    | none => ∃ i ∈ l, eps < rootOf t (contrib t (boxGap (x i) (lo i) (hi i)).1)
    | some (mn, mx) => mn = a + (l.map fun i => contrib t (boxGap (x i) (lo i) (hi i)).1).sum ∧
        mx = b + (l.map fun i => contrib t (boxGap (x i) (lo i) (hi i)).2).sum := by
  intro l
  induction l with
  | nil => intro a b _; simp [boxLoop]
  | cons i l ih =>
    intro a b hb
    have hg : 0 ≤ (boxGap (x i) (lo i) (hi i)).1 := (boxGap_spec (le_refl _) (hb i List.mem_cons_self)).1
    have hq := root_contrib g hg
    have next : ∀ a' b', a' = a + contrib t (boxGap (x i) (lo i) (hi i)).1 →
        b' = b + contrib t (boxGap (x i) (lo i) (hi i)).2 →
        match boxLoop t x eps lo hi l a' b' with
        | none => ∃ j ∈ i :: l, eps < rootOf t (contrib t (boxGap (x j) (lo j) (hi j)).1)
        | some (mn, mx) => mn = a + ((i :: l).map fun i => contrib t (boxGap (x i) (lo i) (hi i)).1).sum ∧
            mx = b + ((i :: l).map fun i => contrib t (boxGap (x i) (lo i) (hi i)).2).sum := by
      intro a' b' ha hb'
      have := ih a' b' (fun j hj => hb j (List.mem_cons_of_mem _ hj))
      revert this
      cases boxLoop t x eps lo hi l a' b' with
      | none => rintro ⟨j, hj, h⟩; exact ⟨j, List.mem_cons_of_mem _ hj, h⟩
      | some r =>
        rintro ⟨h1, h2⟩
        simp only [List.map_cons, List.sum_cons]
        rw [h1, h2, ha, hb']
        constructor <;> ring
    unfold boxLoop
    dsimp only
    rcases cases_metric g with c | ⟨c, m⟩ | ⟨c, m⟩
    · simp only [c, if_true] at hq ⊢
      by_cases h : eps < (boxGap (x i) (lo i) (hi i)).1 * (boxGap (x i) (lo i) (hi i)).1
      · rw [if_pos h]; exact ⟨i, List.mem_cons_self, by rw [hq]; exact h⟩
      · rw [if_neg h]
        exact next _ _ (by simp [contrib, c]) (by simp [contrib, c])
    · simp only [c, m, if_true, if_false, Bool.false_eq_true] at hq ⊢
      by_cases h : eps < (boxGap (x i) (lo i) (hi i)).1
      · rw [if_pos h]; exact ⟨i, List.mem_cons_self, by rw [hq]; exact h⟩
      · rw [if_neg h]
        exact next _ _ (by simp [contrib, c, m]) (by simp [contrib, c, m])
    · simp only [c, m, reduceCtorEq, if_false, Bool.false_eq_true] at hq ⊢
      by_cases h : eps < (boxGap (x i) (lo i) (hi i)).1
      · rw [if_pos h]; exact ⟨i, List.mem_cons_self, by rw [hq]; exact h⟩
      · rw [if_neg h]
        exact next _ _ (by simp [contrib, c, m, g.pow]) (by simp [contrib, c, m, g.pow])

omit g in
theorem list_sum_range (d : Nat) (f : Nat → ℝ) : ((List.range d).map f).sum = ∑ j ∈ Finset.range d, f j := rfl

/-- `check_bounding_box` is right about every point of the box. -/
theorem checkBox_spec (x : Nat → ℝ) (eps : ℝ) (lo hi : Nat → ℝ) (i : Nat) (xn : ℝ)
    (hn : t.metric = .euclideanGemm → xn = norm t.d x)
    (hb : ∀ j, j < t.d → lo j ≤ t.A i j ∧ t.A i j ≤ hi j) :
    (checkBox t x eps lo hi = .outside → eps < computeDistance t i x xn) ∧
    (checkBox t x eps lo hi = .inside → computeDistance t i x xn ≤ eps) := by
  rw [distance_eq g i x xn hn]
  have h := boxLoop_spec g x eps lo hi (List.range t.d) 0 0
    (fun j hj => le_trans (hb j (List.mem_range.1 hj)).1 (hb j (List.mem_range.1 hj)).2)
  unfold checkBox
  revert h
  cases boxLoop t x eps lo hi (List.range t.d) 0 0 with
  | none =>
    rintro ⟨j, hj, h⟩
    have hj := List.mem_range.1 hj
    refine ⟨fun _ => lt_of_lt_of_le h ?_, fun h => by simp at h⟩
    obtain ⟨b1, b2, _⟩ := boxGap_spec (x := x j) (hb j hj).1 (hb j hj).2
    apply rootOf_mono g (contrib_nonneg b1)
    refine le_trans (contrib_mono g b1 b2) ?_
    exact Finset.single_le_sum (f := fun j => contrib t |x j - t.A i j|)
      (fun _ _ => contrib_nonneg (abs_nonneg _)) (Finset.mem_range.2 hj)
  | some r =>
    obtain ⟨mn, mx⟩ := r
    rintro ⟨h1, h2⟩
    rw [zero_add, list_sum_range] at h1 h2
    have e1 : rootOf t mn ≤ rootOf t (∑ j ∈ Finset.range t.d, contrib t |x j - t.A i j|) := by
      rw [h1]
      apply rootOf_mono g
      · exact Finset.sum_nonneg fun j hj => contrib_nonneg
          (boxGap_spec (hb j (Finset.mem_range.1 hj)).1 (hb j (Finset.mem_range.1 hj)).2).1
      · apply Finset.sum_le_sum
        intro j hj
        obtain ⟨b1, b2, _⟩ := boxGap_spec (x := x j) (hb j (Finset.mem_range.1 hj)).1 (hb j (Finset.mem_range.1 hj)).2
        exact contrib_mono g b1 b2
    have e2 : rootOf t (∑ j ∈ Finset.range t.d, contrib t |x j - t.A i j|) ≤ rootOf t mx := by
      rw [h2]
      apply rootOf_mono g
      · exact Finset.sum_nonneg fun j hj => contrib_nonneg (abs_nonneg _)
      · apply Finset.sum_le_sum
        intro j hj
        obtain ⟨b1, _, b3⟩ := boxGap_spec (x := x j) (hb j (Finset.mem_range.1 hj)).1 (hb j (Finset.mem_range.1 hj)).2
        exact contrib_mono g (abs_nonneg _) b3
    have f1 : (if (!t.isEuclid && t.metric ≠ .manhattan) = true then t.fns.pow mn t.pInv else mn) = rootOf t mn := by
      unfold rootOf; rw [g.pow]
    have f2 : (if (!t.isEuclid && t.metric ≠ .manhattan) = true then t.fns.pow mx t.pInv else mx) = rootOf t mx := by
      unfold rootOf; rw [g.pow]
    dsimp only
    rw [f1, f2]
    constructor
    · intro h
      split at h
      · exact absurd h (by simp)
      · split at h
        · exact absurd h (by simp)
        · next h3 => exact lt_of_lt_of_le (lt_of_not_ge h3) e1
    · intro h
      split at h
      · next h3 => exact le_trans e2 h3
      · split at h <;> simp at h

/-- A difference in one coordinate bounds the distance from below. -/
theorem coord_le (x : Nat → ℝ) (i dim : Nat) (hd : dim < t.d) (xn : ℝ)
    (hn : t.metric = .euclideanGemm → xn = norm t.d x) {u : ℝ} (hu : 0 ≤ u) (h : u ≤ |x dim - t.A i dim|) :
    (if t.isEuclid then u * u else u) ≤ computeDistance t i x xn := by
  rw [distance_eq g i x xn hn, ← root_contrib g hu]
  apply rootOf_mono g (contrib_nonneg hu)
  refine le_trans (contrib_mono g hu h) ?_
  exact Finset.single_le_sum (f := fun j => contrib t |x j - t.A i j|)
    (fun _ _ => contrib_nonneg (abs_nonneg _)) (Finset.mem_range.2 hd)

/-! ### Balls -/

/-- The distance itself. -/
noncomputable def tdist (t : Tree ℝ) (x a : Nat → ℝ) : ℝ :=
  if t.isEuclid then Real.sqrt (∑ j ∈ Finset.range t.d, (x j - a j) ^ 2)
  else if t.metric = .manhattan then ∑ j ∈ Finset.range t.d, |x j - a j|
  else (∑ j ∈ Finset.range t.d, |x j - a j| ^ t.p) ^ (1 / t.p)

omit g in
theorem tdist_nonneg (x a : Nat → ℝ) : 0 ≤ tdist t x a := by
  unfold tdist
  split
  · exact Real.sqrt_nonneg _
  · split
    · exact Finset.sum_nonneg fun _ _ => abs_nonneg _
    · exact Real.rpow_nonneg (Finset.sum_nonneg fun _ _ => Real.rpow_nonneg (abs_nonneg _) _) _

omit g in
theorem tdist_comm (x a : Nat → ℝ) : tdist t x a = tdist t a x := by
  unfold tdist
  have e : ∀ j, |x j - a j| = |a j - x j| := fun j => abs_sub_comm _ _
  simp only [e]
  have : ∀ j, (x j - a j) ^ 2 = (a j - x j) ^ 2 := fun j => by ring
  simp only [this]

theorem tdist_triangle (x y z : Nat → ℝ) : tdist t x z ≤ tdist t x y + tdist t y z := by
  rcases cases_metric g with c | ⟨c, m⟩ | ⟨c, m⟩
  · simp only [tdist, c, if_true]
    have h := Real.Lp_add_le (Finset.range t.d) (fun j => x j - y j) (fun j => y j - z j) (p := 2) (by norm_num)
    simp only [sub_add_sub_cancel, Real.rpow_two, sq_abs] at h
    simpa only [Real.sqrt_eq_rpow] using h
  · simp only [tdist, c, m, if_true, if_false, Bool.false_eq_true]
    rw [← Finset.sum_add_distrib]
    exact Finset.sum_le_sum fun j _ => abs_sub_le _ _ _
  · simp only [tdist, c, m, reduceCtorEq, if_false, Bool.false_eq_true]
    have h := Real.Lp_add_le (Finset.range t.d) (fun j => x j - y j) (fun j => y j - z j) (p := t.p) (g.mink m).1
    simpa only [sub_add_sub_cancel] using h

theorem distance_tdist (i : Nat) (x : Nat → ℝ) (xn : ℝ) (hn : t.metric = .euclideanGemm → xn = norm t.d x) :
    computeDistance t i x xn = if t.isEuclid then tdist t x (t.A i) * tdist t x (t.A i) else tdist t x (t.A i) := by
  rw [distance_eq g i x xn hn]
  rcases cases_metric g with c | ⟨c, m⟩ | ⟨c, m⟩
  · simp only [tdist, rootOf, contrib, c, if_true, Bool.not_true, Bool.false_and, Bool.false_eq_true, if_false]
    rw [Real.mul_self_sqrt (Finset.sum_nonneg fun _ _ => sq_nonneg _)]
    exact Finset.sum_congr rfl fun j _ => by rw [abs_mul_abs_self]; ring
  · simp [tdist, rootOf, contrib, c, m]
  · have h := g.mink m
    simp [tdist, rootOf, contrib, c, m, h.2.2]

theorem within_iff (i : Nat) (x : Nat → ℝ) (xn : ℝ) (hn : t.metric = .euclideanGemm → xn = norm t.d x) (eps : ℝ)
    (he : 0 ≤ eps) : computeDistance t i x xn ≤ epsInternal t eps ↔ tdist t x (t.A i) ≤ eps := by
  rw [distance_tdist g i x xn hn, epsInternal]
  cases c : t.isEuclid
  · simp
  · simp only [if_true]
    exact (mul_self_le_mul_self_iff (tdist_nonneg _ _) he).symm

theorem checkBall_dist (x : Nat → ℝ) (eps : ℝ) (c : Nat → ℝ) (r : ℝ) : (checkBall t x eps c r).2 = tdist t x c := by
  unfold checkBall tdist
  rcases cases_metric g with h | ⟨h, m⟩ | ⟨h, m⟩
  · simp only [h, if_true, g.sqrt, sumTo_eq]
    congr 1
    exact Finset.sum_congr rfl fun j _ => by ring
  · simp [h, m, sumTo_eq]
  · simp [h, m, sumTo_eq, g.pow, (g.mink m).2.2]

theorem checkBall_spec (x : Nat → ℝ) (eps : ℝ) (c : Nat → ℝ) (r : ℝ) (a : Nat → ℝ) (hr : tdist t c a ≤ r) :
    ((checkBall t x eps c r).1 = .outside → eps < tdist t x a) ∧
    ((checkBall t x eps c r).1 = .inside → tdist t x a ≤ eps) := by
  have e : (checkBall t x eps c r).1 = if tdist t x c + r ≤ eps then .inside
      else if tdist t x c - r ≤ eps then .within else .outside := by
    rw [← checkBall_dist g x eps c r]; rfl
  rw [e]
  have t1 := tdist_triangle g x c a
  have t2 := tdist_triangle g x a c
  rw [tdist_comm a c] at t2
  constructor
  · intro h
    split at h
    · simp at h
    · split at h
      · simp at h
      · next h3 => linarith
  · intro h
    split at h
    · linarith
    · split at h <;> simp at h

theorem pairwise_tdist (a x : Nat → ℝ) : pairwise t.fns t.metric t.p t.d a x = tdist t a x := by
  unfold pairwise tdist
  cases hm : t.metric with
  | euclidean => simp [Tree.isEuclid, hm, g.sqrt, sumTo_eq, sq]
  | euclideanGemm => simp [Tree.isEuclid, hm, g.sqrt, sumTo_eq, sq]
  | sqeuclideanGemm => exact absurd hm g.metric
  | manhattan => simp [Tree.isEuclid, hm, sumTo_eq]
  | minkowski =>
    have h := g.mink hm
    simp only [Tree.isEuclid, hm, minkowskiKernel, if_neg h.2.1, sumTo_eq, g.pow]
    simp only [beq_iff_eq, reduceCtorEq, if_false, Bool.or_eq_true, or_self]
    split
    · next h1 => rw [h1]; simp
    · rfl

end

/-- The tree's distance is the distance of the metric that was asked for. -/
theorem tdist_store (M : ℝ) (n d : Nat) (A : Nat → Nat → ℝ) (leaf : Nat) (metric : Metric) (p : ℝ)
    (ha : Admissible metric p) (x a : Nat → ℝ) :
    tdist (storeData (realFns M) n d A leaf metric p) x a = trueDist metric p d x a := by
  cases metric with
  | euclidean => simp [tdist, storeData, trueDist, Tree.isEuclid]
  | euclideanGemm => simp [tdist, storeData, trueDist, Tree.isEuclid]
  | manhattan => simp [tdist, storeData, trueDist, Tree.isEuclid]
  | sqeuclideanGemm => exact absurd rfl ha.1
  | minkowski =>
    by_cases hp : p = 2
    · subst hp
      simp only [tdist, storeData, trueDist, Tree.isEuclid]
      simp [Real.sqrt_eq_rpow]
    · simp [tdist, storeData, trueDist, Tree.isEuclid, hp]

end Verif.NnTree
