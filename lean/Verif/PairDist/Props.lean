import Verif.PairDist.Bridge

set_option linter.unusedSectionVars false

/-
C142–C146: the matrices of distances of `da_pairwise_distances`.
-/
namespace Verif.PairDist

open Finset (range)
open Verif.Logistic (loop upd)
open Spec (Call Filled pos sqDist l1Dist inner Fits)

/-- The sizes the library is built with are sizes the theorems speak about. -/
theorem blockSizes_ok (avx512 float : Bool) : (blockSizes avx512 float).Ok := by
  constructor <;> revert avx512 float <;> decide

/-- A run with the blocks of rows in their order and empty buffers, for the examples. -/
def plain (z : Sizes) (m : Nat) {K : Type} [Zero K] : Env K where
  sched := fun _ _ => List.range (rowBlocks z m)
  abuf := fun _ _ _ _ => 0
  bbuf := fun _ _ _ => 0

/-- A run with the blocks of rows backwards and buffers with something in them. -/
def backwards (z : Sizes) (m : Nat) : Env ℚ where
  sched := fun _ _ => (List.range (rowBlocks z m)).reverse
  abuf := fun _ _ _ c => c + 7
  bbuf := fun _ _ c => c + 5

theorem plain_ok (z : Sizes) (m : Nat) {K : Type} [Zero K] : (plain z m : Env K).Ok z m :=
  fun _ _ => List.Perm.refl _

theorem backwards_ok (z : Sizes) (m : Nat) : (backwards z m).Ok z m :=
  fun _ _ => List.reverse_perm _

/-- Small sizes, so that an example passes through all the loops. -/
def tiny : Sizes := ⟨2, 2, 2, 4, 2⟩

/-- Five samples with three features against five others, by columns with room to spare. -/
def small (row : Bool) (Y : Option (Nat → ℚ)) : Call ℚ :=
  ⟨row, 5, 5, 3, fun c => ((c * c % 7 : Nat) : ℚ), 6, Y, 6, 6⟩

/-- For the examples: `sqrt` and `pow` that are not used. -/
def noOps : Ops ℚ := ⟨fun x => x, fun x _ => x, 0⟩

def okAnd (r : Except Status (Nat → ℚ)) (P : (Nat → ℚ) → Bool) : Bool :=
  match r with
  | .ok D => P D
  | .error _ => false

/-! ### C142: packed loops -/

section
variable {K : Type} [Field K] [LinearOrder K]

/-- The squared Euclidean distances come out as documented, whatever the sizes of the blocks, the
order in which threads take them and the contents of the buffers; the rest of the array is not
touched. -/
theorem C142_sqeuclidean (o : Ops K) {z : Sizes} (hz : z.Ok) {e : Env K} {c : Call K}
    (he : e.Ok z c.m) {D D' : Nat → K} {p : K} (h : run o z e c D p .sqeuclidean = .ok D') :
    Filled c.row c.m c.cols c.ldd D D' fun i j => sqDist c.k (c.x i) (c.y j) := by
  obtain ⟨rfl, hl, -⟩ := run_ok h
  have := packed_filled .sq (fun x => x) hz he (post := noPost) (g := fun v => v)
    (fun N => noPost_is c.m N) hl D
  refine ⟨fun i j hi hj => (this.entry i j hi hj).trans ?_, this.rest⟩
  unfold total sqDist term
  exact Finset.sum_congr rfl fun l _ => (sq _).symm

/-- The Manhattan distances. -/
theorem C142_manhattan (o : Ops K) {z : Sizes} (hz : z.Ok) {e : Env K} {c : Call K}
    (he : e.Ok z c.m) {D D' : Nat → K} {p : K} (h : run o z e c D p .manhattan = .ok D') :
    Filled c.row c.m c.cols c.ldd D D' fun i j => l1Dist c.k (c.x i) (c.y j) := by
  obtain ⟨rfl, hl, -⟩ := run_ok h
  exact packed_filled .abs (fun x => x) hz he (post := noPost) (g := fun v => v)
    (fun N => noPost_is c.m N) hl D

/-- Packing a block of rows of `X` stays within the `MC × KC` cells of the buffer, packing one of
`Y` within `NC × KC`. -/
theorem C142_buffers {z : Sizes} (hz : z.Ok) (k : Nat) (hk : k ≤ z.KC) (X : Nat → K)
    (xo ldx : Nat) (T : Nat → K) (c : Nat) :
    (∀ m, m ≤ z.MC → z.MC * z.KC ≤ c → packBlock z.MR m k X xo ldx T c = T c) ∧
    ∀ n, n ≤ z.NC → z.NC * z.KC ≤ c → packBlock z.NR n k X xo ldx T c = T c :=
  ⟨fun _ hm hc => packBlock_fits hz.mr hz.mcmr hm z.KC hk X xo ldx T hc,
    fun _ hn hc => packBlock_fits hz.nr hz.ncnr hn z.KC hk X xo ldx T hc⟩

end

theorem tiny_ok : tiny.Ok := by constructor <;> decide

example : okAnd (run noOps tiny (backwards tiny 5) (small false (some fun c => (c : ℚ) - 3))
    (fun _ => -1) 0 .sqeuclidean) (fun D => decide (D 0 = 9 + 4 + 25) && decide (D 5 = -1)) = true :=
  by decide +kernel

example : okAnd (run noOps tiny (backwards tiny 5) (small true none) (fun _ => -1) 0 .manhattan)
    (fun D => decide (D 1 = 1 + 1 + 3) && decide (D 0 = 0) && decide (D 5 = -1)) = true := by
  decide +kernel

/-! ### C143: Euclidean and Minkowski distances -/

/-- The functions of `std` in exact arithmetic. -/
noncomputable def realOps (eps : ℝ) : Ops ℝ := ⟨Real.sqrt, fun x y => x ^ y, eps⟩

/-- The Euclidean distances. -/
theorem C143_euclidean (eps : ℝ) {z : Sizes} (hz : z.Ok) {e : Env ℝ} {c : Call ℝ}
    (he : e.Ok z c.m) {D D' : Nat → ℝ} {p : ℝ}
    (h : run (realOps eps) z e c D p .euclidean = .ok D') :
    Filled c.row c.m c.cols c.ldd D D' fun i j => Real.sqrt (sqDist c.k (c.x i) (c.y j)) := by
  obtain ⟨rfl, hl, -⟩ := run_ok h
  have := packed_filled .sq (fun x => x) hz he (post := sqrtMatrix Real.sqrt)
    (fun N => sqrtMatrix_is Real.sqrt c.m N) hl D
  refine ⟨fun i j hi hj => (this.entry i j hi hj).trans ?_, this.rest⟩
  congr 1
  unfold total sqDist term
  exact Finset.sum_congr rfl fun l _ => (sq _).symm

/-- The Minkowski distances, for every exponent that is accepted; 1 and 2 take other ways. -/
theorem C143_minkowski (eps : ℝ) {z : Sizes} (hz : z.Ok) {e : Env ℝ} {c : Call ℝ}
    (he : e.Ok z c.m) {D D' : Nat → ℝ} {p : ℝ}
    (h : run (realOps eps) z e c D p .minkowski = .ok D') :
    0 < p ∧ Filled c.row c.m c.cols c.ldd D D' fun i j => Spec.minkowski p c.k (c.x i) (c.y j) := by
  obtain ⟨rfl, hl, -, -, -, hp⟩ := run_ok h
  refine ⟨not_le.1 (hp rfl), ?_⟩
  by_cases h2 : p = 2
  · have := packed_filled .sq (fun x => x) hz he (post := sqrtMatrix Real.sqrt)
      (fun N => sqrtMatrix_is Real.sqrt c.m N) hl D
    have E : kernel (realOps eps) z e c.row c.m c.n c.k c.X c.ldx c.Y c.ldy D c.ldd p .minkowski =
        dispatch .sq (fun x => x) z e (sqrtMatrix Real.sqrt) c.row c.m c.n c.k c.X c.ldx c.Y c.ldy D
          c.ldd := by
      unfold kernel
      simp only [if_pos h2]
      rfl
    rw [E]
    refine ⟨fun i j hi hj => (this.entry i j hi hj).trans ?_, this.rest⟩
    unfold Spec.minkowski
    rw [h2, Real.sqrt_eq_rpow]
    congr 1
    unfold total term
    refine Finset.sum_congr rfl fun l _ => ?_
    rw [Real.rpow_two, sq_abs, sq]
  · by_cases h1 : p = 1
    · have := packed_filled .abs (fun x => x) hz he (post := noPost) (g := fun v => v)
        (fun N => noPost_is c.m N) hl D
      have E : kernel (realOps eps) z e c.row c.m c.n c.k c.X c.ldx c.Y c.ldy D c.ldd p .minkowski =
          dispatch .abs (fun x => x) z e noPost c.row c.m c.n c.k c.X c.ldx c.Y c.ldy D c.ldd := by
        unfold kernel
        simp only [if_neg h2, if_pos h1]
      rw [E]
      refine ⟨fun i j hi hj => (this.entry i j hi hj).trans ?_, this.rest⟩
      unfold Spec.minkowski
      rw [h1, div_one, Real.rpow_one]
      unfold total term
      refine Finset.sum_congr rfl fun l _ => ?_
      rw [Real.rpow_one]
    · have := packed_filled .pow (fun x => x ^ p) hz he
        (post := powPost (fun x y : ℝ => x ^ y) p) (fun N => powPost_is _ p c.m N) hl D
      have E : kernel (realOps eps) z e c.row c.m c.n c.k c.X c.ldx c.Y c.ldy D c.ldd p .minkowski =
          dispatch .pow (fun x => x ^ p) z e (powPost (fun x y : ℝ => x ^ y) p) c.row c.m c.n c.k c.X
            c.ldx c.Y c.ldy D c.ldd := by
        unfold kernel
        simp only [if_neg h2, if_neg h1]
        rfl
      rw [E]
      exact this

/-- One sample against two. -/
noncomputable def two : Call ℝ :=
  ⟨false, 1, 2, 2, fun _ => 0, 1, some fun c => if c = 0 then 3 else if c = 2 then 4 else 0, 2, 1⟩

example : ∃ D', run (realOps 0) (blockSizes true false) (plain (blockSizes true false) 1) two
    (fun _ => 9) 0 .euclidean = .ok D' ∧ D' 0 = 5 ∧ D' 1 = 0 ∧ D' 2 = 9 := by
  have h : ∃ D', run (realOps 0) (blockSizes true false) (plain (blockSizes true false) 1) two
      (fun _ => 9) 0 .euclidean = .ok D' := ⟨_, by simp [run, pairwise, two]; rfl⟩
  obtain ⟨D', h⟩ := h
  have F := C143_euclidean 0 (blockSizes_ok true false) (plain_ok _ 1) h
  refine ⟨D', h, ?_, ?_, ?_⟩
  · have := F.entry 0 0 (by decide) (by decide)
    simp only [two, pos] at this
    rw [show (0 + 0 * 1 : Nat) = 0 from rfl] at this
    simp [sqDist, Call.x, Call.y, two, pos, Finset.sum_range_succ] at this
    rw [this, show (3 ^ 2 + 4 ^ 2 : ℝ) = 5 ^ 2 by norm_num, Real.sqrt_sq (by norm_num)]
  · have := F.entry 0 1 (by decide) (by decide)
    simpa [sqDist, Call.x, Call.y, two, pos, Finset.sum_range_succ] using this
  · refine (F.rest 2 fun i j hi hj => ?_)
    simp only [two, pos, Call.cols] at hi hj ⊢
    simp
    omega

/-! ### C144: cosine distances -/

/-- The norm, and 1 in place of a negligible one. -/
noncomputable def normOr (eps : ℝ) (k : Nat) (x : Nat → ℝ) : ℝ :=
  if Spec.norm k x ≤ eps then 1 else Spec.norm k x

/-- What is computed: the norms of the samples of the second matrix are those at the same place in
the first block of `NC` columns. -/
theorem C144_computed (eps : ℝ) {z : Sizes} (hz : z.Ok) {e : Env ℝ} {c : Call ℝ}
    (he : e.Ok z c.m) {D D' : Nat → ℝ} {p : ℝ} (h : run (realOps eps) z e c D p .cosine = .ok D') :
    Filled c.row c.m c.cols c.ldd D D' fun i j =>
      if c.Y = none ∧ i = j % z.NC then 0 else
        1 - inner c.k (c.x i) (c.y j) /
          (normOr eps c.k (c.x i) * normOr eps c.k (c.y (j % z.NC))) := by
  obtain ⟨rfl, hl, -⟩ := run_ok h
  have := cosine_wr Real.sqrt eps hz he (n := c.n) (ldd := c.ldd) (Y := c.Y) (row := c.row)
    (by rw [cols_eq]; exact hl) c.k c.X c.ldx c.ldy
  rw [cols_eq] at this
  refine this.filled D fun i j v _ _ => ?_
  have hn : ∀ x, normOf Real.sqrt eps c.k x = normOr eps c.k x := by
    intro x
    unfold normOf normOr Spec.norm
    simp only [sq]
  simp only [row_eq, x_eq, hn, Option.isNone_iff_eq_none]
  rfl

/-- The distances as documented, where no norm is negligible. -/
def C144_statement : Prop :=
  ∀ (avx512 float : Bool) (eps : ℝ) (e : Env ℝ) (c : Call ℝ) (D D' : Nat → ℝ) (p : ℝ),
    e.Ok (blockSizes avx512 float) c.m → 0 ≤ eps →
    (∀ i, i < c.m → eps < Spec.norm c.k (c.x i)) →
    (∀ j, j < c.cols → eps < Spec.norm c.k (c.y j)) →
    run (realOps eps) (blockSizes avx512 float) e c D p .cosine = .ok D' →
    Filled c.row c.m c.cols c.ldd D D' fun i j => Spec.cosine c.k (c.x i) (c.y j)

/-- The sample 1 against 2, 1, 1, …, 1: 1025 samples. -/
noncomputable def long : Call ℝ :=
  ⟨false, 1, 1025, 1, fun _ => 1, 1, some fun c => if c = 0 then 2 else 1, 1025, 1⟩

/-- The last sample is the same as that of the first matrix, and its distance comes out as one
half. -/
theorem C144_cosine_violated : ¬ C144_statement := by
  intro H
  have nc : (blockSizes true false).NC = 1024 := rfl
  obtain ⟨D', h⟩ : ∃ D', run (realOps 0) (blockSizes true false) (plain (blockSizes true false) 1)
      long (fun _ => 9) 0 .cosine = .ok D' := ⟨_, by simp [run, pairwise, long]; rfl⟩
  have hy : ∀ j, long.y j 0 = if j = 0 then 2 else 1 := by
    intro j; simp [Call.y, long, pos]
  have hx : ∀ i, long.x i 0 = 1 := by intro i; simp [Call.x, long]
  have hk : long.k = 1 := rfl
  have nx : ∀ i, Spec.norm 1 (long.x i) = 1 := by intro i; simp [Spec.norm, hx]
  have ny : ∀ j, Spec.norm 1 (long.y j) = if j = 0 then 2 else 1 := by
    intro j
    simp only [Spec.norm, Finset.sum_range_one, hy]
    by_cases h : j = 0
    · rw [if_pos h, Real.sqrt_sq (by norm_num)]
    · rw [if_neg h]; simp
  have F1 := (H true false 0 (plain (blockSizes true false) 1) long (fun _ => 9) D' 0 (plain_ok _ 1)
    (le_refl _) (fun i _ => by rw [hk, nx]; norm_num)
    (fun j _ => by rw [hk, ny]; split <;> norm_num) h).entry 0 1024 (by decide) (by decide)
  have F2 := (C144_computed 0 (blockSizes_ok true false) (plain_ok _ 1) h).entry 0 1024 (by decide)
    (by decide)
  rw [F1, nc] at F2
  rw [if_neg (by simp [long])] at F2
  simp only [hk, Spec.cosine, normOr, nx, ny, Spec.inner, Finset.sum_range_one, hx, hy] at F2
  norm_num at F2

/-- When a matrix with more than `NC` samples is compared with itself, the distance between
samples `j` and `NC + j` comes out as zero, whatever they are. -/
theorem C144_self_zero (eps : ℝ) {z : Sizes} (hz : z.Ok) {e : Env ℝ} {c : Call ℝ}
    (he : e.Ok z c.m) {D D' : Nat → ℝ} {p : ℝ} (h : run (realOps eps) z e c D p .cosine = .ok D')
    (hY : c.Y = none) {j : Nat} (hj : j < z.NC) (hm : z.NC + j < c.m) :
    D' (pos c.row c.ldd j (z.NC + j)) = 0 := by
  have hc : c.cols = c.m := by unfold Call.cols; rw [hY]
  rw [(C144_computed eps hz he h).entry j (z.NC + j) (by omega) (by rw [hc]; exact hm),
    if_pos ⟨hY, by rw [Nat.add_mod_left, Nat.mod_eq_of_lt hj]⟩]

/-- Up to `NC` samples in the second matrix the distances are as documented. -/
theorem C144_cosine_partial {eps : ℝ} (h0 : 0 ≤ eps) {z : Sizes} (hz : z.Ok) {e : Env ℝ}
    {c : Call ℝ} (he : e.Ok z c.m) {D D' : Nat → ℝ} {p : ℝ}
    (h : run (realOps eps) z e c D p .cosine = .ok D') (hn : c.cols ≤ z.NC) :
    Filled c.row c.m c.cols c.ldd D D' fun i j =>
      if c.Y = none ∧ i = j then 0 else
        1 - inner c.k (c.x i) (c.y j) / (normOr eps c.k (c.x i) * normOr eps c.k (c.y j)) := by
  have := C144_computed eps hz he h
  refine ⟨fun i j hi hj => (this.entry i j hi hj).trans ?_, this.rest⟩
  rw [Nat.mod_eq_of_lt (by omega)]

theorem C144_documented_partial {eps : ℝ} (h0 : 0 ≤ eps) {z : Sizes} (hz : z.Ok) {e : Env ℝ}
    {c : Call ℝ} (he : e.Ok z c.m) {D D' : Nat → ℝ} {p : ℝ}
    (h : run (realOps eps) z e c D p .cosine = .ok D') (hn : c.cols ≤ z.NC)
    (hx : ∀ i, i < c.m → eps < Spec.norm c.k (c.x i))
    (hy : ∀ j, j < c.cols → eps < Spec.norm c.k (c.y j)) :
    Filled c.row c.m c.cols c.ldd D D' fun i j => Spec.cosine c.k (c.x i) (c.y j) := by
  have := C144_cosine_partial h0 hz he h hn
  refine ⟨fun i j hi hj => (this.entry i j hi hj).trans ?_, this.rest⟩
  have e1 : normOr eps c.k (c.x i) = Spec.norm c.k (c.x i) := if_neg (not_le.2 (hx i hi))
  have e2 : normOr eps c.k (c.y j) = Spec.norm c.k (c.y j) := if_neg (not_le.2 (hy j hj))
  rw [e1, e2]
  by_cases hij : c.Y = none ∧ i = j
  · rw [if_pos hij]
    obtain ⟨hY, rfl⟩ := hij
    have e3 : c.y i = c.x i := by funext l; unfold Call.y; rw [hY]; rfl
    unfold Spec.cosine
    rw [e3]
    have pos := lt_of_le_of_lt h0 (hx i hi)
    have sqn : Spec.norm c.k (c.x i) * Spec.norm c.k (c.x i) = inner c.k (c.x i) (c.x i) := by
      unfold Spec.norm Spec.inner
      rw [Real.mul_self_sqrt (Finset.sum_nonneg fun l _ => sq_nonneg _)]
      exact Finset.sum_congr rfl fun l _ => sq _
    rw [← sqn, div_self (mul_ne_zero pos.ne' pos.ne'), sub_self]
  · rw [if_neg hij]
    rfl

example : ∃ D', run (realOps 0) (blockSizes true false) (plain (blockSizes true false) 1)
    { long with n := 2 } (fun _ => 9) 0 .cosine = .ok D' ∧ D' 1 = 0 ∧ D' 2 = 9 := by
  obtain ⟨D', h⟩ : ∃ D', run (realOps 0) (blockSizes true false) (plain (blockSizes true false) 1)
      { long with n := 2 } (fun _ => 9) 0 .cosine = .ok D' :=
    ⟨_, by simp [run, pairwise, long]; rfl⟩
  have F := C144_cosine_partial (le_refl (0 : ℝ)) (blockSizes_ok true false) (plain_ok _ 1) h
    (by decide)
  refine ⟨D', h, ?_, F.rest 2 fun i j hi hj => ?_⟩
  · have := F.entry 0 1 (by decide) (by decide)
    simpa [long, Call.x, Call.y, pos, Spec.inner, normOr, Spec.norm] using this
  · simp only [long, pos, Call.cols] at hi hj ⊢
    simp
    omega

/-! ### C145: distances by matrix multiplication -/

section
variable {K : Type} [Field K] [LinearOrder K]

/-- The squared Euclidean distances by matrix multiplication are those that are documented: for
two matrices and, with the lower triangle filled in, for one. -/
theorem C145_sqeuclidean_gemm (o : Ops K) (hs : o.sqrt 0 = 0) {z : Sizes} {e : Env K} {c : Call K}
    {D D' : Nat → K} {p : K} (h : run o z e c D p .sqeuclideanGemm = .ok D') :
    Filled c.row c.m c.cols c.ldd D D' fun i j => sqDist c.k (c.x i) (c.y j) := by
  obtain ⟨rfl, hl, -⟩ := run_ok h
  have := gemm_filled o.sqrt true hs hl D
  refine ⟨fun i j hi hj => (this.entry i j hi hj).trans ?_, this.rest⟩
  simp

/-- The Euclidean distances by matrix multiplication, with any function for the root. -/
theorem C145_euclidean_gemm (o : Ops K) (hs : o.sqrt 0 = 0) {z : Sizes} {e : Env K} {c : Call K}
    {D D' : Nat → K} {p : K} (h : run o z e c D p .euclideanGemm = .ok D') :
    Filled c.row c.m c.cols c.ldd D D' fun i j => o.sqrt (sqDist c.k (c.x i) (c.y j)) := by
  obtain ⟨rfl, hl, -⟩ := run_ok h
  have := gemm_filled o.sqrt false hs hl D
  refine ⟨fun i j hi hj => (this.entry i j hi hj).trans ?_, this.rest⟩
  simp

/-- The inner products. -/
theorem C145_inner_product (o : Ops K) {z : Sizes} {e : Env K} {c : Call K}
    {D D' : Nat → K} {p : K} (h : run o z e c D p .innerProduct = .ok D') :
    Filled c.row c.m c.cols c.ldd D D' fun i j => inner c.k (c.x i) (c.y j) := by
  obtain ⟨rfl, hl, -⟩ := run_ok h
  exact inner_filled hl D

/-- With norms that the caller has computed (mode 1) or does not want (mode 0), as k-means and the
nearest neighbours use it. -/
theorem C145_modes (s : K → K) (c : Call K) (Y : Nat → K)
    (hl : if c.row then c.n ≤ c.ldd else c.m ≤ c.ldd) (XN YN : Nat → K) (cx cy : Nat)
    (square : Bool) (D : Nat → K) :
    Filled c.row c.m c.n c.ldd D
      (gemmDistance s c.row c.m c.n c.k c.X c.ldx Y c.ldy D c.ldd XN cx YN cy square false)
      fun i j =>
        let xn := if cx = 0 then 0 else if cx = 2 then ∑ l ∈ range c.k, c.x i l ^ 2 else XN i
        let yn := if cy = 0 then 0 else
          if cy = 2 then ∑ l ∈ range c.k, Y (pos c.row c.ldy j l) ^ 2 else YN j
        let v := xn + yn - 2 * ∑ l ∈ range c.k, c.x i l * Y (pos c.row c.ldy j l)
        if square then v else s v := by
  refine (gemmDistance_wr s c.row hl c.k c.X c.ldx Y c.ldy XN cx YN cy square).filled D
    fun i j v _ _ => ?_
  have e1 : total (fun a b => a * b) c.k (fun l => c.X (cell c.row c.ldx i l))
      (fun l => Y (cell c.row c.ldy j l)) = ∑ l ∈ range c.k, c.x i l * Y (pos c.row c.ldy j l) := by
    rw [x_eq]
    exact Finset.sum_congr rfl fun l _ => by simp only [cell_pos]
  have e2 : sqOf c.k (fun l => c.X (cell c.row c.ldx i l)) = ∑ l ∈ range c.k, c.x i l ^ 2 := by
    rw [x_eq]
    exact Finset.sum_congr rfl fun l _ => (sq _).symm
  have e3 : sqOf c.k (fun l => Y (cell c.row c.ldy j l)) =
      ∑ l ∈ range c.k, Y (pos c.row c.ldy j l) ^ 2 :=
    Finset.sum_congr rfl fun l _ => by simp only [cell_pos, sq]
  simp only [normsUsed, e1, e2, e3]
  cases square
  · simp only [Bool.false_eq_true, if_false]; congr 1; ring
  · simp only [if_true]; ring

end

example : okAnd (run noOps tiny (backwards tiny 5) (small false none) (fun _ => -1) 0
    .sqeuclideanGemm) (fun D => decide (D 1 = D 6) && decide (D 1 = 1 + 1 + 9) && decide (D 7 = 0) &&
      decide (D 5 = -1)) = true := by decide +kernel

example : okAnd (run noOps tiny (backwards tiny 5) (small true (some fun c => (c : ℚ) - 3))
    (fun _ => -1) 0 .innerProduct) (fun D => decide (D 0 = -6) && decide (D 5 = -1)) = true := by
  decide +kernel

/-! ### C146: what is accepted -/

section
variable {K : Type} [Field K] [LinearOrder K]

/-- A call is accepted exactly if there is at least one sample and feature, the arrays are there,
the leading dimensions are large enough and the Minkowski exponent is positive. -/
theorem C146_accepted (o : Ops K) (z : Sizes) (e : Env K) (row : Bool) (m n k : Int)
    (X : Option (Nat → K)) (ldx : Int) (Y : Option (Nat → K)) (ldy : Int) (D : Option (Nat → K))
    (ldd : Int) (p : K) (metric : Metric) :
    (∃ D', pairwise o z e row m n k X ldx Y ldy D ldd p metric = .ok D') ↔
      1 ≤ m ∧ 1 ≤ k ∧ X ≠ none ∧ D ≠ none ∧ Fits row m k ldx ∧
      (Y ≠ none → 1 ≤ n ∧ Fits row n k ldy ∧ Fits row m n ldd) ∧
      (Y = none → Fits row m m ldd) ∧ (metric = .minkowski → 0 < p) := by
  unfold pairwise Fits
  cases X <;> cases D <;> cases Y <;> cases row <;>
    simp only [ne_eq, reduceCtorEq, not_true_eq_false, not_false_eq_true, Bool.not_true,
      Bool.not_false, Bool.false_eq_true, Option.isSome_some, Option.isSome_none,
      Option.isNone_some, Option.isNone_none, true_and, false_and, and_false, if_false, if_true,
      forall_const, and_true, true_implies, IsEmpty.forall_iff] <;>
    (repeat' split) <;> simp <;> grind

/-- Each error code tells what is wrong. -/
theorem C146_codes (o : Ops K) (z : Sizes) (e : Env K) (row : Bool) (m n k : Int)
    (X : Option (Nat → K)) (ldx : Int) (Y : Option (Nat → K)) (ldy : Int) (D : Option (Nat → K))
    (ldd : Int) (p : K) (metric : Metric) (s : Status)
    (h : pairwise o z e row m n k X ldx Y ldy D ldd p metric = .error s) :
    match s with
    | .invalidDimension => m < 1 ∨ k < 1 ∨ (Y ≠ none ∧ n < 1)
    | .invalidLeading => ¬ Fits row m k ldx ∨ (Y ≠ none ∧ (¬ Fits row n k ldy ∨ ¬ Fits row m n ldd)) ∨
        (Y = none ∧ ¬ Fits row m m ldd)
    | .invalidPointer => X = none ∨ D = none
    | .invalidInput => metric = .minkowski ∧ p ≤ 0 := by
  revert h
  unfold pairwise Fits
  cases X <;> cases D <;> cases Y <;> cases row <;> cases s <;>
    simp only [ne_eq, reduceCtorEq, not_true_eq_false, not_false_eq_true, Bool.not_true,
      Bool.not_false, Bool.false_eq_true, Option.isSome_some, Option.isSome_none,
      Option.isNone_some, Option.isNone_none, true_and, false_and, and_false, if_false, if_true] <;>
    (repeat' split) <;> simp <;> grind

end

example : okAnd (pairwise noOps tiny (backwards tiny 2) true 2 3 1 (some fun c => c) 1
    (some fun _ => 1) 1 (some fun _ => 0) 3 0 .manhattan) (fun D => decide (D 0 = 1)) = true := by
  decide +kernel

example : (match pairwise noOps tiny (backwards tiny 2) true 2 3 1 (some fun c => c) 1
    (some fun _ => 1) 1 (some fun _ => 0) 2 0 .manhattan with
    | .error s => decide (s = .invalidLeading)
    | .ok _ => false) = true := by decide +kernel

end Verif.PairDist
