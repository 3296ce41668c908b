import Verif.Kmeans.ElkanRun
import Mathlib.Analysis.InnerProductSpace.PiL2
import Mathlib.Geometry.Euclidean.Angle.Unoriented.TriangleInequality

/-
The two distances of Elkan's method over the real numbers: the Euclidean one and the angle.
-/
namespace Verif.Kmeans

open Verif.HalfBlas (put forUp)

/-! ### The new centres -/

section
variable {K : Type} [Field K] [LinearOrder K] [IsStrictOrderedRing K]

omit [Field K] [LinearOrder K] [IsStrictOrderedRing K] in
theorem scale_counts (k : Nat) (count : Nat → Nat) : ∀ a < k, forUp k (fun i m => if m i = 0 then put m i 1 else m) count a = max 1 (count a) := by
  have h : ∀ (i : Nat) (m : Nat → Nat), (if m i = 0 then put m i 1 else m) = put m i (max 1 (m i)) := by
    intro i m
    split
    · rename_i h; rw [h]; rfl
    · rename_i h
      funext p
      by_cases hp : p = i
      · subst hp; rw [put_same]; omega
      · rw [put_ne _ _ hp]
  simp only [h]
  exact (forUp_put (fun i => i) (fun _ v => max 1 v) count k fun _ _ _ _ h => h).1

omit [IsStrictOrderedRing K] in
theorem scaleCentres_euclid (c : Cfg K) (hs : c.spherical = false) (count : Nat → Nat) (cur : Nat → K) : ∀ a < c.k,
    (scaleCentres c count cur).1 a = max 1 (count a) ∧
    ∀ f < c.nf, (scaleCentres c count cur).2 (a * c.nf + f) = cur (a * c.nf + f) / ((max 1 (count a) : Nat) : K) := by
  intro a ha
  unfold scaleCentres
  rw [hs]
  have hcnt := scale_counts c.k count
  generalize forUp c.k (fun i m => if m i = 0 then put m i 1 else m) count = count' at hcnt ⊢
  refine ⟨hcnt a ha, fun f hf => ?_⟩
  have := forUp_inv (body := fun i m => forUp c.nf (fun f m => put m (i * c.nf + f) (m (i * c.nf + f) / (count' i : K))) m)
    (fun b (m : Nat → K) => ∀ i < c.k, ∀ f < c.nf, m (i * c.nf + f) = if i < b then cur (i * c.nf + f) / ((max 1 (count i) : Nat) : K) else cur (i * c.nf + f))
    (s := cur) c.k (fun i _ f _ => by simp) ?_
  · have h := this a ha f hf
    rw [if_pos ha] at h
    exact h
  · intro b m hb hm i hi f hf
    have hp := forUp_put (fun f => b * c.nf + f) (fun f v => v / (count' b : K)) m c.nf (fun _ _ _ _ h => by omega)
    by_cases he : i = b
    · subst he
      rw [hp.1 f hf, hm i hi f hf, if_neg (by omega), if_pos (by omega), hcnt i hi]
    · rw [hp.2 _ fun f' hf' e => he (Interp.idx_inj e hf hf').1, hm i hi f hf]
      simp only [show (i < b + 1) = (i < b) from propext (by omega)]

omit [IsStrictOrderedRing K] in
theorem scaleCentres_spherical (c : Cfg K) (hs : c.spherical = true) (count : Nat → Nat) (cur : Nat → K) : ∀ a < c.k,
    (scaleCentres c count cur).1 a = max 1 (count a) ∧
    ∀ f < c.nf, (scaleCentres c count cur).2 (a * c.nf + f) = cur (a * c.nf + f) *
      (if c.sqrt (∑ f ∈ Finset.range c.nf, cur (a * c.nf + f) * cur (a * c.nf + f)) = 0 then 1
        else 1 / c.sqrt (∑ f ∈ Finset.range c.nf, cur (a * c.nf + f) * cur (a * c.nf + f))) := by
  intro a ha
  unfold scaleCentres
  rw [hs]
  simp only [if_true]
  refine ⟨scale_counts c.k count a ha, fun f hf => ?_⟩
  have := forUp_inv (body := fun i m =>
      forUp c.nf (fun f m' => put m' (i * c.nf + f) (m' (i * c.nf + f) *
        (if c.sqrt (sumTo c.nf fun f => m (i * c.nf + f) * m (i * c.nf + f)) = 0 then 1 else 1 / c.sqrt (sumTo c.nf fun f => m (i * c.nf + f) * m (i * c.nf + f))))) m)
    (fun b (m : Nat → K) => ∀ i < c.k, ∀ f < c.nf, m (i * c.nf + f) = if i < b then cur (i * c.nf + f) *
      (if c.sqrt (∑ f ∈ Finset.range c.nf, cur (i * c.nf + f) * cur (i * c.nf + f)) = 0 then 1
        else 1 / c.sqrt (∑ f ∈ Finset.range c.nf, cur (i * c.nf + f) * cur (i * c.nf + f))) else cur (i * c.nf + f))
    (s := cur) c.k (fun i _ f _ => by simp) ?_
  · have h := this a ha f hf
    rw [if_pos ha] at h
    exact h
  · intro b m hb hm i hi f hf
    have hsum : (sumTo c.nf fun f => m (b * c.nf + f) * m (b * c.nf + f)) = ∑ f ∈ Finset.range c.nf, cur (b * c.nf + f) * cur (b * c.nf + f) := by
      rw [sumTo_eq]
      refine Finset.sum_congr rfl fun f hf => ?_
      rw [hm b hb f (Finset.mem_range.mp hf), if_neg (by omega)]
    simp only [hsum]
    have hp := forUp_put (fun f => b * c.nf + f) (fun f v => v * (if c.sqrt (∑ f ∈ Finset.range c.nf, cur (b * c.nf + f) * cur (b * c.nf + f)) = 0 then 1
        else 1 / c.sqrt (∑ f ∈ Finset.range c.nf, cur (b * c.nf + f) * cur (b * c.nf + f)))) m c.nf (fun _ _ _ _ h => by omega)
    by_cases he : i = b
    · subst he
      rw [hp.1 f hf, hm i hi f hf, if_neg (Nat.lt_irrefl i), if_pos (Nat.lt_succ_self i)]
    · rw [hp.2 _ fun f' hf' e => he (Interp.idx_inj e hf hf').1, hm i hi f hf]
      simp only [show (i < b + 1) = (i < b) from propext (by omega)]

omit [IsStrictOrderedRing K] in
/-- The new centres are a function of the labels. -/
theorem scaleCentres_congr (c : Cfg K) (count count' : Nat → Nat) (cur cur' : Nat → K) (h1 : ∀ a < c.k, count a = count' a)
    (h2 : ∀ a < c.k, ∀ f < c.nf, cur (a * c.nf + f) = cur' (a * c.nf + f)) :
    ∀ a < c.k, ∀ f < c.nf, (scaleCentres c count cur).2 (a * c.nf + f) = (scaleCentres c count' cur').2 (a * c.nf + f) := by
  intro a ha f hf
  cases hs : c.spherical
  · rw [(scaleCentres_euclid c hs count cur a ha).2 f hf, (scaleCentres_euclid c hs count' cur' a ha).2 f hf, h1 a ha, h2 a ha f hf]
  · rw [(scaleCentres_spherical c hs count cur a ha).2 f hf, (scaleCentres_spherical c hs count' cur' a ha).2 f hf, h2 a ha f hf,
      Finset.sum_congr rfl fun f hf => by rw [h2 a ha f (Finset.mem_range.mp hf)]]
end

/-! ### Euclidean distances -/

/-- The row of `m` numbers from position `p`. -/
noncomputable def rowVec (m : Nat) (x : Nat → ℝ) : EuclideanSpace ℝ (Fin m) := WithLp.toLp 2 fun f => x f

theorem rowVec_dist (m : Nat) (x y : Nat → ℝ) : dist (rowVec m x) (rowVec m y) = Real.sqrt (∑ f ∈ Finset.range m, (x f - y f) * (x f - y f)) := by
  rw [EuclideanSpace.dist_eq, Finset.sum_range]
  congr 1
  refine Finset.sum_congr rfl fun f _ => ?_
  simp only [rowVec, Real.dist_eq, sq_abs]
  ring

theorem metric_euclid (c : Cfg ℝ) (hs : c.spherical = false) (hq : c.sqrt = Real.sqrt) : Metric c fun _ => True := by
  have hd : ∀ C i j, dS c C i j = dist (rowVec c.nf fun f => c.A (i * c.lda + f)) (rowVec c.nf fun f => C (j * c.nf + f)) := by
    intro C i j
    unfold dS sampleDist reduceScalar
    rw [hs, rowVec_dist, hq]
    simp only [Nat.zero_mul, Nat.zero_add, Bool.false_eq_true, if_false, sumTo_eq]
  have hc : ∀ C a b, centreDist c C a b = dist (rowVec c.nf fun f => C (a * c.nf + f)) (rowVec c.nf fun f => C (b * c.nf + f)) := by
    intro C a b
    unfold centreDist reduceScalar
    rw [hs, rowVec_dist, hq]
    simp only [Bool.false_eq_true, if_false, sumTo_eq]
  have hsh : ∀ C C' j, shiftOf c C C' j = dist (rowVec c.nf fun f => C (j * c.nf + f)) (rowVec c.nf fun f => C' (j * c.nf + f)) := by
    intro C C' j
    unfold shiftOf
    rw [hs, rowVec_dist, hq]
    simp only [Bool.false_eq_true, if_false, sumTo_eq]
  refine ⟨fun C _ i _ j _ => ?_, fun C _ i _ a _ b _ _ => ?_, fun C C' _ _ i _ j _ => ?_, fun _ _ => trivial⟩
  · rw [hd]; exact dist_nonneg
  · rw [hd, hd, hc]; exact dist_triangle_left _ _ _
  · rw [hd, hd, hsh]
    exact ⟨dist_triangle _ _ _, dist_triangle_right _ _ _⟩

/-! ### Angles -/

/-- A row of length one, or of zeros. -/
def UnitOrZero (m : Nat) (x : Nat → ℝ) : Prop := (∑ f ∈ Finset.range m, x f * x f) = 1 ∨ ∀ f < m, x f = 0

theorem rowVec_inner (m : Nat) (x y : Nat → ℝ) : inner ℝ (rowVec m x) (rowVec m y) = ∑ f ∈ Finset.range m, x f * y f := by
  rw [PiLp.inner_apply, Finset.sum_range]
  refine Finset.sum_congr rfl fun f _ => ?_
  simp [rowVec, mul_comm]

theorem rowVec_norm (m : Nat) (x : Nat → ℝ) (h : UnitOrZero m x) : ‖rowVec m x‖ = 1 ∨ rowVec m x = 0 := by
  rcases h with h | h
  · left
    have h1 := real_inner_self_eq_norm_sq (rowVec m x)
    rw [rowVec_inner, h] at h1
    have h2 : (0 : ℝ) ≤ ‖rowVec m x‖ := norm_nonneg _
    nlinarith
  · right
    ext f
    exact h f f.2

theorem angle_rows (m : Nat) (x y : Nat → ℝ) (hx : UnitOrZero m x) (hy : UnitOrZero m y) :
    Real.arccos (clampCos (∑ f ∈ Finset.range m, x f * y f)) = InnerProductGeometry.angle (rowVec m x) (rowVec m y) := by
  unfold InnerProductGeometry.angle
  rw [← rowVec_inner]
  have hcs := abs_real_inner_le_norm (rowVec m x) (rowVec m y)
  congr 1
  rcases rowVec_norm m x hx with h1 | h1
  · rcases rowVec_norm m y hy with h2 | h2
    · rw [h1, h2] at hcs ⊢
      rw [one_mul] at hcs ⊢
      rw [div_one]
      obtain ⟨h3, h4⟩ := abs_le.mp hcs
      unfold clampCos
      rw [min_eq_right h4, max_eq_right h3]
    · rw [h2]; simp [clampCos]
  · rw [h1]; simp [clampCos]

theorem inner_unit (m : Nat) (x y : Nat → ℝ) (hx : UnitOrZero m x) (hy : UnitOrZero m y) :
    -1 ≤ (∑ f ∈ Finset.range m, x f * y f) ∧ (∑ f ∈ Finset.range m, x f * y f) ≤ 1 := by
  rw [← rowVec_inner, ← abs_le]
  refine le_trans (abs_real_inner_le_norm _ _) ?_
  rcases rowVec_norm m x hx with h1 | h1
  · rcases rowVec_norm m y hy with h2 | h2
    · rw [h1, h2, one_mul]
    · rw [h2]; simp
  · rw [h1]; simp

/-- The sample as the products use it. -/
def scaledRow (c : Cfg ℝ) (i f : Nat) : ℝ := if c.normalize then c.A (i * c.lda + f) * c.inv i else c.A (i * c.lda + f)

theorem scaled_unit (c : Cfg ℝ) (hs : c.spherical = true) (hq : c.sqrt = Real.sqrt) (count : Nat → Nat) (cur : Nat → ℝ) (a : Nat) (ha : a < c.k) :
    UnitOrZero c.nf fun f => (scaleCentres c count cur).2 (a * c.nf + f) := by
  have h := (scaleCentres_spherical c hs count cur a ha).2
  rw [hq] at h
  have hn : 0 ≤ ∑ f ∈ Finset.range c.nf, cur (a * c.nf + f) * cur (a * c.nf + f) := Finset.sum_nonneg fun f _ => mul_self_nonneg _
  by_cases hz : Real.sqrt (∑ f ∈ Finset.range c.nf, cur (a * c.nf + f) * cur (a * c.nf + f)) = 0
  · right
    intro f hf
    simp only [hz, if_true, mul_one] at h
    simp only
    rw [h f hf]
    rw [Real.sqrt_eq_zero hn, Finset.sum_eq_zero_iff_of_nonneg fun f _ => mul_self_nonneg _] at hz
    exact mul_self_eq_zero.mp (hz f (Finset.mem_range.mpr hf))
  · left
    simp only [hz, if_false] at h
    have : ∀ f ∈ Finset.range c.nf, (scaleCentres c count cur).2 (a * c.nf + f) * (scaleCentres c count cur).2 (a * c.nf + f) =
        (cur (a * c.nf + f) * cur (a * c.nf + f)) * (1 / ∑ f ∈ Finset.range c.nf, cur (a * c.nf + f) * cur (a * c.nf + f)) := by
      intro f hf
      rw [h f (Finset.mem_range.mp hf)]
      have h2 := Real.mul_self_sqrt hn
      generalize Real.sqrt (∑ f ∈ Finset.range c.nf, cur (a * c.nf + f) * cur (a * c.nf + f)) = r at *
      rw [← h2]
      field_simp
    rw [Finset.sum_congr rfl this, ← Finset.sum_mul]
    have h0 : ∑ f ∈ Finset.range c.nf, cur (a * c.nf + f) * cur (a * c.nf + f) ≠ 0 := fun e => hz (by rw [e]; exact Real.sqrt_zero)
    exact mul_one_div_cancel h0

theorem metric_spherical (c : Cfg ℝ) (hs : c.spherical = true) (hq : c.sqrt = Real.sqrt) (hacos : c.acos = Real.arccos)
    (hrows : ∀ i < c.n, UnitOrZero c.nf (scaledRow c i)) :
    Metric c fun C => ∀ a < c.k, UnitOrZero c.nf fun f => C (a * c.nf + f) := by
  have hd : ∀ C, (∀ a < c.k, UnitOrZero c.nf fun f => C (a * c.nf + f)) → ∀ i < c.n, ∀ j < c.k,
      dS c C i j = InnerProductGeometry.angle (rowVec c.nf (scaledRow c i)) (rowVec c.nf fun f => C (j * c.nf + f)) := by
    intro C hC i hi j hj
    rw [← angle_rows _ _ _ (hrows i hi) (hC j hj)]
    unfold dS sampleDist
    rw [hs, hacos, sumTo_eq]
    simp only [if_true, Nat.zero_mul, Nat.zero_add]
    congr 2
    unfold scaledRow
    cases c.normalize
    · rfl
    · simp only [if_true]
      rw [Finset.sum_mul]
      exact Finset.sum_congr rfl fun f _ => by ring
  refine ⟨fun C hC i hi j hj => ?_, fun C hC i hi a ha b hb hab => ?_, fun C C' hC hC' i hi j hj => ?_, fun count cur a ha => scaled_unit c hs hq count cur a ha⟩
  · rw [hd C hC i hi j hj]; exact InnerProductGeometry.angle_nonneg _ _
  · rw [hd C hC i hi a ha, hd C hC i hi b hb]
    have : centreDist c C a b = InnerProductGeometry.angle (rowVec c.nf fun f => C (a * c.nf + f)) (rowVec c.nf fun f => C (b * c.nf + f)) := by
      rw [← angle_rows _ _ _ (hC a ha) (hC b hb)]
      unfold centreDist
      rw [hs, hacos, if_pos rfl, if_pos (by omega), sumTo_eq]
    rw [this, InnerProductGeometry.angle_comm (rowVec c.nf (scaledRow c i)) (rowVec c.nf fun f => C (a * c.nf + f))]
    exact InnerProductGeometry.angle_le_angle_add_angle _ _ _
  · have : shiftOf c C C' j = InnerProductGeometry.angle (rowVec c.nf fun f => C (j * c.nf + f)) (rowVec c.nf fun f => C' (j * c.nf + f)) := by
      rw [← angle_rows _ _ _ (hC j hj) (hC' j hj)]
      unfold shiftOf
      rw [hs, hacos, if_pos rfl, sumTo_eq]
    rw [hd C hC i hi j hj, hd C' hC' i hi j hj, this]
    refine ⟨InnerProductGeometry.angle_le_angle_add_angle _ _ _, ?_⟩
    rw [InnerProductGeometry.angle_comm (rowVec c.nf fun f => C (j * c.nf + f))]
    exact InnerProductGeometry.angle_le_angle_add_angle _ _ _

end Verif.Kmeans
