import Verif.Pca.Proof

set_option linter.unusedSectionVars false

/-
C166-C169: the matrix that is decomposed, transform and inverse_transform.
-/
namespace Verif.Pca

open Finset
open Verif.KernelPca (pos)

variable {K : Type*} [Field K] [LinearOrder K] [IsStrictOrderedRing K]

/-! ### C166: the matrix that is decomposed -/

/-- **C166.** The copy that is decomposed is the standardised data. -/
theorem C166_copy (method : Method) (n p lda : Nat) (A means sds C : Nat → K) {i j : Nat} (hi : i < n) (hj : j < p) :
    standardizedCopy method n p lda A means (nonzero sds) C (i + j * n) = std method means sds (A (i + lda * j)) j :=
  standardizedCopy_at method n p lda A means sds (nonzero sds) C (fun _ _ => rfl) hi hj

/-- **C166.** With syevd the upper triangle is that of the product of the standardised data with itself, the means being those of
the data. -/
theorem C166_gram (method : Method) {n p : Nat} (hn : 0 < n) (lda : Nat) (A means sds V : Nat → K)
    (hm : ∀ j < p, means j = (∑ i ∈ range n, A (i + lda * j)) / n) {i j : Nat} (hij : i ≤ j) (hj : j < p) :
    gramOf method n p lda A means (nonzero sds) V (i + p * j) =
      ∑ r ∈ range n, std method means sds (A (r + lda * i)) i * std method means sds (A (r + lda * j)) j :=
  gramOf_at method (Nat.cast_ne_zero.2 hn.ne') lda A means sds (nonzero sds) V (fun _ _ => rfl) hm hij hj

/-- **C166.** Whatever the solver, the total variance is the sum of squares of the standardised data over the divisor. -/
theorem C166_total (method : Method) {n p : Nat} (hn : 0 < n) (lda : Nat) (A means sds C V : Nat → K) (div : K)
    (hm : ∀ j < p, means j = (∑ i ∈ range n, A (i + lda * j)) / n) (syevd : Bool) :
    totalVariance syevd n p div (standardizedCopy method n p lda A means (nonzero sds) C)
        (gramOf method n p lda A means (nonzero sds) V) =
      (∑ j ∈ range p, ∑ i ∈ range n, std method means sds (A (i + lda * j)) j ^ 2) / div := by
  cases syevd with
  | false =>
    rw [totalVariance_copy]
    congr 1
    refine sum_congr rfl fun j hj => sum_congr rfl fun i hi => ?_
    rw [C166_copy _ _ _ _ _ _ _ _ (mem_range.1 hi) (mem_range.1 hj)]
  | true =>
    rw [totalVariance_gram]
    congr 1
    refine sum_congr rfl fun j hj => ?_
    rw [C166_gram method hn lda A means sds V hm le_rfl (mem_range.1 hj)]
    exact sum_congr rfl fun i _ => (pow_two _).symm

/-- Two samples (1, 5) and (3, 1), padded columns; mean (2, 3). -/
def exA : Nat → ℚ := fun i => [1, 3, 77, 5, 1, 77].getD i 0

def exMeans : Nat → ℚ := fun j => [2, 3].getD j 0

example : standardizedCopy .cov 2 2 3 exA exMeans (nonzero fun _ => 0) (fun _ => 9) 2 = 2 ∧
    gramOf .cov 2 2 3 exA exMeans (nonzero fun _ => 0) (fun _ => 9) 2 = -4 ∧
    gramOf .corr 2 2 3 exA exMeans (nonzero fun j => [1, 2].getD j 0) (fun _ => 9) 3 = 2 ∧
    totalVariance true 2 2 1 (fun _ => 0) (gramOf .cov 2 2 3 exA exMeans (nonzero fun _ => 0) fun _ => 9) = 10 ∧
    totalVariance false 2 2 1 (standardizedCopy .cov 2 2 3 exA exMeans (nonzero fun _ => 0) fun _ => 9) (fun _ => 0) = 10 := by
  decide +kernel

/-! ### C167: transform -/

/-- **C167.** transform gives the coordinates of the standardised samples, divided by the singular values and multiplied by the
square root of the divisor when whitening, in either storage order. -/
theorem C167_transform (f : Fit K) (h : Fitted f) (m : Nat) (X : Nat → K) (ldx : Nat) (T : Nat → K) {ldt : Nat}
    (hl : if f.row then f.npc ≤ ldt else m ≤ ldt) {i c : Nat} (hi : i < m) (hc : c < f.npc) :
    transform f m X ldx T ldt (pos f.row ldt i c) = coordinate f (fun j => X (pos f.row ldx i j)) c :=
  transform_at f h m X ldx T hl hi hc

/-- **C167.** The samples with which the model was trained get the scores, when the decomposition is one (`hu`: the standardised data times
component c is the singular value times column c of U), but for whitened components with singular value 0. -/
theorem C167_training (f : Fit K) (h : Fitted f) (n : Nat) (X : Nat → K) (ldx : Nat) (T : Nat → K) {ldt : Nat}
    (hl : if f.row then f.npc ≤ ldt else n ≤ ldt) (u out : Nat → K) (ldu : Nat)
    (hu : ∀ c < f.npc, ∀ i < n, ∑ j ∈ range f.p, std f.method f.means f.sds (X (pos f.row ldx i j)) j * f.vt (c + f.ldvt * j) =
      f.sigma c * u (i + ldu * c)) {i c : Nat} (hi : i < n) (hc : c < f.npc) (h0 : f.whiten = true → f.sigma c ≠ 0) :
    transform f n X ldx T ldt (pos f.row ldt i c) =
      scores f n ldu u out (pos f.row (if f.row then f.npc else n) i c) := by
  rw [C167_transform f h n X ldx T hl hi hc, scores_at f n ldu u out hi hc]
  unfold coordinate
  rw [hu c hc i hi]
  unfold whitening
  by_cases hw : f.whiten = true
  · have := h0 hw
    rw [if_pos hw, if_pos hw, if_neg this]
    field_simp
  · rw [if_neg hw, if_neg hw]
    ring

/-- A model of the samples (1, 5), (3, 1) with two components, the correlation method and whitening. -/
def exF : Fit ℚ :=
  { row := true, method := .corr, whiten := true, p := 2, npc := 2, ldvt := 2, sqrtDiv := 2, eps := 1 / 8, means := exMeans
    sds := fun j => [1, 0].getD j 0, sdnz := fun j => [1, 1].getD j 0, sigma := fun c => [4, 0].getD c 0
    vt := fun i => [3 / 5, 4 / 5, -4 / 5, 3 / 5].getD i 0 }

/-- It is one that a handle may hold. -/
theorem exF_fitted : Fitted exF where
  pos := by decide
  sdnz := fun j (hj : j < 2) => by interval_cases j <;> decide +kernel
  nonneg := fun c (hc : c < 2) => by interval_cases c <;> decide +kernel
  sorted := fun c (hc : c < 2) => by interval_cases c <;> decide +kernel

example : (List.range 5).map (transform exF 1 (fun i => [12, 8].getD i 0) 2 (fun _ => 7) 4) = [1, 176, 7, 7, 7] := by
  decide +kernel

/-! ### C168: inverse_transform -/

/-- **C168, the full statement.** inverse_transform gives the samples with the coordinates, standardisation undone with the means and
deviations of the model, and leaves the model as it is. -/
def C168_statement (K : Type*) [Field K] [LinearOrder K] : Prop :=
  ∀ (f : Fit K) (k : Nat) (Y : Nat → K) (ldy : Nat) (dev Z : Nat → K) (ldz : Nat), Fitted f → 0 < k →
    (if f.row then f.p ≤ ldz else k ≤ ldz) →
    (∀ i < k, ∀ j < f.p, (inverseTransform f k Y ldy dev Z ldz).1 (pos f.row ldz i j) =
      unstd f.method f.means f.sds (recon f (fun c => Y (pos f.row ldy i c)) j) j) ∧
    ∀ j < f.p, (inverseTransform f k Y ldy dev Z ldz).2 j = f.means j

/-- **C168, how far it holds.** The means used, and left in the model, are those of the model unless they are all 0; otherwise they are the
means of the product.  Likewise the deviations. -/
theorem C168_extent (f : Fit K) (k : Nat) (Y : Nat → K) (ldy : Nat) (dev Z : Nat → K) {ldz : Nat}
    (hl : if f.row then f.p ≤ ldz else k ≤ ldz) (hm : f.method ≠ .svd) :
    ∃ means sds : Nat → K,
      (∀ j < f.p, means j = if ∀ j < f.p, f.means j = 0 then
        (∑ i ∈ range k, recon f (fun c => Y (pos f.row ldy i c)) j) / k else f.means j) ∧
      ((¬ ∀ j < f.p, f.sds j = 0) → sds = f.sds) ∧
      (∀ i < k, ∀ j < f.p, (inverseTransform f k Y ldy dev Z ldz).1 (pos f.row ldz i j) =
        unstd f.method means sds (recon f (fun c => Y (pos f.row ldy i c)) j) j) ∧
      (inverseTransform f k Y ldy dev Z ldz).2 = means := by
  refine ⟨_, scaleUsed f.p f.sds dev, fun j hj => ?_, fun h => ?_, fun i hi j hj => ?_, if_neg hm⟩
  · unfold shiftUsed
    by_cases hz : ∀ j < f.p, f.means j = 0
    · rw [if_pos hz, if_pos ((isZero_iff _ _).2 hz), colMean_eq]
      congr 1
      exact sum_congr rfl fun i hi => product_at f k Y ldy Z hl (mem_range.1 hi) hj
    · rw [if_neg hz, if_neg fun h => hz ((isZero_iff _ _).1 h)]
  · exact if_neg fun h' => h ((isZero_iff _ _).1 h')
  · refine (undo_at f k dev _ hl hi hj).trans ?_
    rw [product_at f k Y ldy Z hl hi hj]

/-- **C168, partial.** It holds with the svd method, and otherwise when some mean (and, for the correlation method, some deviation) is not 0.
Missing: data whose means are all 0, or all of whose columns are constant. -/
theorem C168_inverse_partial (f : Fit K) (k : Nat) (Y : Nat → K) (ldy : Nat) (dev Z : Nat → K) {ldz : Nat}
    (hl : if f.row then f.p ≤ ldz else k ≤ ldz) (hm : f.method ≠ .svd → ∃ j < f.p, f.means j ≠ 0)
    (hd : f.method = .corr → ∃ j < f.p, f.sds j ≠ 0) :
    (∀ i < k, ∀ j < f.p, (inverseTransform f k Y ldy dev Z ldz).1 (pos f.row ldz i j) =
      unstd f.method f.means f.sds (recon f (fun c => Y (pos f.row ldy i c)) j) j) ∧
    ∀ j < f.p, (inverseTransform f k Y ldy dev Z ldz).2 j = f.means j := by
  by_cases hs : f.method = .svd
  · refine ⟨fun i hi j hj => ?_, fun j _ => by simp [inverseTransform, hs]⟩
    refine (undo_at f k dev _ hl hi hj).trans ?_
    rw [product_at f k Y ldy Z hl hi hj, hs]
    rfl
  · obtain ⟨means, sds, h1, h2, h3, h4⟩ := C168_extent f k Y ldy dev Z hl hs
    obtain ⟨j0, hj0, h0⟩ := hm hs
    have he : ∀ j < f.p, means j = f.means j := fun j hj => (h1 j hj).trans (if_neg fun h => h0 (h j0 hj0))
    refine ⟨fun i hi j hj => (h3 i hi j hj).trans ?_, fun j hj => by rw [h4, he j hj]⟩
    cases hc : f.method with
    | svd => exact absurd hc hs
    | cov => simp only [unstd, he j hj]
    | corr =>
      obtain ⟨j1, hj1, h1'⟩ := hd hc
      rw [h2 fun h => h1' (h j1 hj1)]
      simp only [unstd, he j hj]

/-- A model of the samples -1 and 1: mean 0, one component. -/
def exZ : Fit ℚ :=
  { row := false, method := .cov, whiten := false, p := 1, npc := 1, ldvt := 1, sqrtDiv := 1, eps := 1 / 8, means := fun _ => 0
    sds := fun _ => 0, sdnz := fun _ => 1, sigma := fun _ => 1, vt := fun _ => 1 }

theorem exZ_fitted : Fitted exZ where
  pos := by decide
  sdnz := fun _ _ => rfl
  nonneg := fun _ _ => by simp [exZ]
  sorted := fun _ _ => le_rfl

/-- **C168 is violated:** with mean 0 the coordinate 3 becomes the sample 6, and the model has mean 3 afterwards. -/
theorem C168_violated : ¬ C168_statement ℚ := by
  intro h
  have := (h exZ 1 (fun _ => 3) 1 (fun _ => 0) (fun _ => 0) 1 exZ_fitted (by decide) (by decide)).1 0 (by decide) 0 (by decide)
  have e : unstd exZ.method exZ.means exZ.sds (recon exZ (fun c => (fun _ => (3 : ℚ)) (pos exZ.row 1 0 c)) 0) 0 = 3 := by
    simp [exZ, recon, unstd]
  rw [e] at this
  revert this
  decide +kernel

/-- Having transformed back, the handle gives the sample 3 another coordinate. -/
example : (inverseTransform exZ 1 (fun _ => 3) 1 (fun _ => 0) (fun _ => 0) 1).1 0 = 6 ∧
    transform exZ 1 (fun _ => 3) 1 (fun _ => 0) 1 0 = 3 ∧
    transform { exZ with means := (inverseTransform exZ 1 (fun _ => 3) 1 (fun _ => 0) (fun _ => 0) 1).2 } 1 (fun _ => 3) 1
      (fun _ => 0) 1 0 = 0 := by decide +kernel

example : (List.range 4).map (inverseTransform exF 1 (fun i => [1, 176].getD i 0) 2 (fun _ => 0) (fun _ => 7) 3).1 =
    [16 / 5, 7 / 5, 7, 7] := by decide +kernel

/-! ### C169: there and back -/

/-- **C169, the full statement.** With as many components as features, whose rows form an orthonormal basis, transforming samples and transforming
back gives the samples (when whitening, provided no singular value is 0). -/
def C169_statement (K : Type*) [Field K] [LinearOrder K] : Prop :=
  ∀ (f : Fit K) (m : Nat) (X T dev Z : Nat → K) (ldx ldt ldz : Nat), Fitted f → 0 < m →
    (if f.row then f.npc ≤ ldt else m ≤ ldt) → (if f.row then f.p ≤ ldz else m ≤ ldz) →
    (∀ j < f.p, ∀ j' < f.p, ∑ c ∈ range f.npc, f.vt (c + f.ldvt * j) * f.vt (c + f.ldvt * j') = if j = j' then 1 else 0) →
    (f.whiten = true → f.sqrtDiv ≠ 0 ∧ ∀ c < f.npc, f.sigma c ≠ 0) →
    ∀ i < m, ∀ j < f.p, (inverseTransform f m (transform f m X ldx T ldt) ldt dev Z ldz).1 (pos f.row ldz i j) =
      X (pos f.row ldx i j)

theorem recon_coordinate (f : Fit K) (x : Nat → K)
    (ho : ∀ j < f.p, ∀ j' < f.p, ∑ c ∈ range f.npc, f.vt (c + f.ldvt * j) * f.vt (c + f.ldvt * j') = if j = j' then 1 else 0)
    (hw : f.whiten = true → f.sqrtDiv ≠ 0 ∧ ∀ c < f.npc, f.sigma c ≠ 0) {j : Nat} (hj : j < f.p) :
    recon f (coordinate f x) j = std f.method f.means f.sds (x j) j := by
  have hc : ∀ c < f.npc, whitening f c * (if f.whiten then f.sigma c / f.sqrtDiv else 1) = 1 := by
    intro c hc
    unfold whitening
    by_cases h : f.whiten = true
    · obtain ⟨h1, h2⟩ := hw h
      have := h2 c hc
      rw [if_pos h, if_pos h, if_neg this]
      field_simp
    · rw [if_neg h, if_neg h, one_mul]
  unfold recon coordinate
  have e : ∀ c ∈ range f.npc, (∑ l ∈ range f.p, std f.method f.means f.sds (x l) l * f.vt (c + f.ldvt * l)) * whitening f c *
      (if f.whiten then f.sigma c / f.sqrtDiv else 1) * f.vt (c + f.ldvt * j) =
      ∑ l ∈ range f.p, std f.method f.means f.sds (x l) l * (f.vt (c + f.ldvt * l) * f.vt (c + f.ldvt * j)) := by
    intro c hcc
    rw [mul_assoc _ (whitening f c), hc c (mem_range.1 hcc), mul_one, sum_mul]
    exact sum_congr rfl fun l _ => mul_assoc _ _ _
  rw [sum_congr rfl e, sum_comm]
  have e2 : ∀ l ∈ range f.p, ∑ c ∈ range f.npc, std f.method f.means f.sds (x l) l *
      (f.vt (c + f.ldvt * l) * f.vt (c + f.ldvt * j)) = if l = j then std f.method f.means f.sds (x l) l else 0 := by
    intro l hl
    rw [← mul_sum, ho l (mem_range.1 hl) j hj]
    split <;> simp
  rw [sum_congr rfl e2, sum_ite_eq' (range f.p) j, if_pos (mem_range.2 hj)]

/-- **C169, partial.** It holds with the svd method, and otherwise when some mean (and, for the correlation method, some deviation) is not 0. -/
theorem C169_back_partial (f : Fit K) (h : Fitted f) (m : Nat) (X T dev Z : Nat → K) (ldx : Nat) {ldt ldz : Nat}
    (hlt : if f.row then f.npc ≤ ldt else m ≤ ldt) (hlz : if f.row then f.p ≤ ldz else m ≤ ldz)
    (ho : ∀ j < f.p, ∀ j' < f.p, ∑ c ∈ range f.npc, f.vt (c + f.ldvt * j) * f.vt (c + f.ldvt * j') = if j = j' then 1 else 0)
    (hw : f.whiten = true → f.sqrtDiv ≠ 0 ∧ ∀ c < f.npc, f.sigma c ≠ 0)
    (hm : f.method ≠ .svd → ∃ j < f.p, f.means j ≠ 0) (hd : f.method = .corr → ∃ j < f.p, f.sds j ≠ 0)
    {i j : Nat} (hi : i < m) (hj : j < f.p) :
    (inverseTransform f m (transform f m X ldx T ldt) ldt dev Z ldz).1 (pos f.row ldz i j) = X (pos f.row ldx i j) := by
  rw [(C168_inverse_partial f m (transform f m X ldx T ldt) ldt dev Z hlz hm hd).1 i hi j hj]
  have e : recon f (fun c => transform f m X ldx T ldt (pos f.row ldt i c)) j =
      recon f (coordinate f fun j => X (pos f.row ldx i j)) j := by
    unfold recon
    refine sum_congr rfl fun c hc => ?_
    show transform f m X ldx T ldt (pos f.row ldt i c) * _ * _ = _
    rw [C167_transform f h m X ldx T hlt hi (mem_range.1 hc)]
  rw [e, recon_coordinate f _ ho hw hj]
  cases f.method with
  | svd => rfl
  | cov => simp only [std, unstd]; ring
  | corr =>
    simp only [std, unstd]
    by_cases h0 : f.sds j = 0
    · simp only [h0, if_true]; ring
    · simp only [h0, if_false]; field_simp; ring

/-- **C169 is violated** by data with mean 0. -/
theorem C169_violated : ¬ C169_statement ℚ := by
  intro h
  have := h exZ 1 (fun _ => 3) (fun _ => 0) (fun _ => 0) (fun _ => 0) 1 1 1 exZ_fitted (by decide) (by decide) (by decide)
    (fun j (hj : j < 1) j' (hj' : j' < 1) => by interval_cases j; interval_cases j'; simp [exZ]) (by decide) 0 (by decide) 0
    (by decide)
  revert this
  decide +kernel

/-- There and back with two features and whitening. -/
example : (List.range 2).map (inverseTransform { exF with sigma := fun c => [4, 2].getD c 0 } 1
    (transform { exF with sigma := fun c => [4, 2].getD c 0 } 1 (fun i => [12, 8].getD i 0) 2 (fun _ => 7) 4) 4 (fun _ => 0)
    (fun _ => 7) 3).1 = [12, 8] := by decide +kernel

end Verif.Pca
