import Mathlib.Data.Rat.Defs
import Verif.Cov.Proof

/-
C113, C114: covariance and correlation matrices, and the blocked product behind them.
-/
namespace Verif.Cov

set_option linter.unusedSectionVars false

open Moments (M Fault rd wr forUp Order Axis Env divM standardize ok_bind rd_ok wr_ok forUp_zero
  forUp_succ at' Holds LdOk avg)
open Finset

section Syrk

variable {K : Type} [CommRing K] [DecidableEq K]

/-- C114: `da_syrk` computes `alpha * op(A) op(A)' + beta * C` in the triangle that was asked
for and writes nothing else, however the rows are cut into blocks and whichever threads run
them in whatever order; it stays inside its arrays. -/
theorem C114_blocked_product (e : SyrkEnv) (he : e.Ok) (halloc : e.alloc = true) (order : Order)
    (uplo : Uplo) (trans : Trans) {n k : Nat} (alpha : K) (A : List K) (ldA : Nat) (beta : K)
    (C : List K) {ldC : Nat} (a c : Nat → Nat → K) (hn : 0 < n) (hld : n ≤ ldC)
    (ha : ∀ i < n, ∀ l < k,
      A[match trans, order with
        | .no, .col => l * ldA + i
        | .no, .row => i * ldA + l
        | .yes, .col => i * ldA + l
        | .yes, .row => l * ldA + i]? = some (a i l))
    (hc : ∀ i < n, ∀ j < n, (if uplo = .upper then i ≤ j else j ≤ i) →
      C[at' order ldC i j]? = some (c i j)) :
    ∃ C', daSyrk e order uplo trans n k alpha A ldA beta C ldC = .ok (true, C') ∧
      C'.length = C.length ∧
      (∀ i < n, ∀ j < n, (if uplo = .upper then i ≤ j else j ≤ i) →
        C'[at' order ldC i j]? = some (alpha * ∑ l ∈ range k, a i l * a j l + beta * c i j)) ∧
      ∀ q, (∀ i < n, ∀ j < n, (if uplo = .upper then i ≤ j else j ≤ i) → q ≠ at' order ldC i j) →
        C'[q]? = C[q]? := by
  have hcell : ∀ i j, cell order ldC i j = at' order ldC i j := by
    intro i j; cases order <;> simp only [cell, at'] <;> ring
  have htri : ∀ i j, InTri uplo i j ↔ (if uplo = .upper then i ≤ j else j ≤ i) := by
    intro i j; cases uplo <;> simp [InTri]
  obtain ⟨C', h1, h2, h3, h4⟩ := daSyrk_ok e he halloc order uplo trans alpha A ldA beta C a c hn hld
    (by
      intro i hi l hl
      rw [← ha i hi l hl]
      cases order <;> cases trans <;> simp only [opCell, cell] <;> congr 1 <;> ring)
    (by
      intro i hi j hj h
      rw [hcell]
      exact hc i hi j hj ((htri i j).1 h))
  refine ⟨C', h1, h2, ?_, ?_⟩
  · intro i hi j hj h
    rw [← hcell]
    exact h3 i hi j hj ((htri i j).2 h)
  · intro q hq
    apply h4
    intro i hi j hj h
    rw [hcell]
    exact hq i hi j hj ((htri i j).1 h)

/-- C114: if the temporary blocks cannot be allocated, that is reported and `C` is unchanged. -/
theorem C114_no_memory (e : SyrkEnv) (halloc : e.alloc = false) (order : Order) (uplo : Uplo)
    (trans : Trans) (n k : Nat) (alpha : K) (A : List K) (ldA : Nat) (beta : K) (C : List K)
    (ldC nb bs fin : Nat) (hq : ¬ (alpha = 0 ∧ beta = 1))
    (hp : syrkPlan e n k = .ok (nb, bs, fin)) (hnb : nb ≠ 1) :
    daSyrk e order uplo trans n k alpha A ldA beta C ldC = .ok (false, C) := by
  unfold daSyrk
  rw [if_neg hq, hp, ok_bind]
  simp only
  rw [if_neg hnb, halloc]
  rfl

/-- Two threads take turns: 0 runs blocks 0 and 1, and 1 runs blocks 2 and 3. -/
def turns (alloc : Bool) : SyrkEnv where
  maxThreads := 2
  nested := false
  override := some 2
  alloc := alloc
  owner := fun nt nb b => if nt = 2 ∧ nb = 4 ∧ 2 ≤ b then 1 else 0
  seq := fun nt nb => if nt = 2 ∧ nb = 4 then [0, 2, 1, 3] else List.range nb

theorem turns_ok (alloc : Bool) : (turns alloc).Ok := by
  refine ⟨by show 0 < 2; decide, by show some 2 ≠ some 0; decide, ?_, ?_, ?_, ?_⟩
  · intro nt nb _ _
    simp only [turns]
    split
    · rename_i h; rw [h.2]; decide
    · exact List.Perm.refl _
  · intro nt nb h _ b _
    simp only [turns]
    split <;> omega
  · intro nt nb _ _
    simp only [turns]
    rw [if_neg (by omega)]
  · intro nt nb _ _
    simp only [turns]
    split
    · rename_i h; rw [h.1, h.2]; decide
    · have := List.pairwise_lt_range (n := nb)
      apply this.imp
      intro a b h _
      exact h

/-- The column 1, …, 9 in four blocks, the last of them with three entries: 285 is the sum of
the squares, and 7 was there. -/
example : syrkPlan (turns true) 2 9 = .ok (4, 2, 3) ∧
    daSyrk (turns true) .col .upper .yes 2 9 (1 : Int)
      ([1, 2, 3, 4, 5, 6, 7, 8, 9] ++ [1, 1, 1, 1, 1, 1, 1, 1, 1]) 9 1 [7, 0, 0, 0] 2 =
      .ok (true, [292, 0, 45, 9]) := by
  constructor <;> decide +kernel

end Syrk

section Cov

variable {K : Type} [Field K] [LinearOrder K] [IsStrictOrderedRing K]

/-- What is promised of the environment of a call. -/
structure CovEnv.Ok (e : CovEnv K) (thr : Nat) (order : Order) (n p : Nat) : Prop where
  sums : ∀ k, (e.sums k).OkFor thr order n p
  fresh : e.fresh.length = n * p
  syrk : e.syrk.Ok
  mirror : e.mirror.Perm (List.range (p - 1))

theorem cell_at (order : Order) (ld i j : Nat) : cell order ld i j = at' order ld i j := by
  cases order <;> simp only [cell, at'] <;> ring

/-- The entries that are used: centred, and for a correlation divided by the root of their
sum of squares. -/
def used (sqrt : K → K) (corr : Bool) (centered : Int) (n : Nat) (X : Nat → Nat → K)
    (l i : Nat) : K :=
  let m := (∑ l ∈ range n, X l i) / (n : K)
  let s := sqrt (∑ l ∈ range n, (X l i - m) ^ 2)
  if corr then (X l i - m) / (if s = 0 then 1 else s)
  else if centered = 0 then X l i - m else X l i

theorem avg_col (n p : Nat) (X : Nat → Nat → K) (i : Nat) :
    avg .col n p X i = (∑ l ∈ range n, X l i) / (n : K) := by
  unfold avg; rfl

theorem prepareData_ok (sqrt : K → K) (thr : Nat) (e : CovEnv K) (order : Order) {n p ldc : Nat}
    (dof : Int) (corr : Bool) (centered : Int) (y : List K) (X : Nat → Nat → K) (hn : 0 < n)
    (hp : 0 < p) (ht : 0 < thr) (he : e.Ok thr order n p) (hld : LdOk order n p ldc)
    (hy : Holds order n p ldc y X) :
    ∃ z, prepareData sqrt thr e order n p ldc dof corr centered y = .ok (.success, some z) ∧
      Holds order n p ldc z (used sqrt corr centered n X) := by
  unfold prepareData
  cases corr with
  | true =>
    rw [if_pos rfl]
    obtain ⟨h1, _⟩ := Moments.standardize_ok sqrt thr e.sums e.junk order .col y X 1 0 none none hn hp
      ht hld hy he.sums (Or.inl rfl) (by intro l h; cases h) (by intro l h; cases h)
    obtain ⟨z, _, _, h2, _, h3, _⟩ := h1 (by rintro ⟨⟨_, _, h, _⟩, _⟩; cases h)
    refine ⟨z, by rw [h2, ok_bind], ?_⟩
    intro i hi j hj
    rw [h3 i hi j hj]
    congr 1
    have es : Moments.scales sqrt .col n p X 1 none none j =
        sqrt (∑ l ∈ range n, (X l j - (∑ l ∈ range n, X l j) / (n : K)) ^ 2) := by
      show Moments.sdMean sqrt .col n p X 1 j = _
      unfold Moments.sdMean
      have h4 : Moments.scaleFactor 1 (Moments.obs .col n p) = 1 := rfl
      rw [h4, if_neg (by decide), div_one, avg_col]
      simp only [pow_two]
      rfl
    have eh : Moments.shifts .col n p X none none j = (∑ l ∈ range n, X l j) / (n : K) := avg_col n p X j
    simp only [Moments.line]
    rw [es, eh]
    unfold Moments.change used
    simp only
    rw [if_pos trivial, if_pos trivial]
    congr 1
    split <;> simp_all
  | false =>
    rw [if_neg (by decide)]
    by_cases hc : centered = 0
    · rw [if_pos hc]
      obtain ⟨h1, _⟩ := Moments.standardize_ok sqrt thr e.sums e.junk order .col y X dof 0
        (some (List.replicate p 0)) none hn hp ht hld hy he.sums (Or.inl rfl)
        (by intro l h; cases h; simp [Moments.outLen]) (by intro l h; cases h)
      obtain ⟨z, _, _, h2, _, h3, _⟩ := h1 (by rintro ⟨⟨_, _, _, h, _⟩, _⟩; cases h)
      refine ⟨z, by rw [h2, ok_bind], ?_⟩
      intro i hi j hj
      rw [h3 i hi j hj]
      congr 1
      have eh : Moments.shifts .col n p X (some (List.replicate p 0)) none j =
          (∑ l ∈ range n, X l j) / (n : K) := by
        unfold Moments.shifts
        simp only [Moments.pickShift]
        rw [if_pos (by
          intro k hk
          simp only [Moments.outLen] at hk
          simp [List.getD, hk]), avg_col]
      have es : Moments.scales sqrt .col n p X dof (some (List.replicate p 0)) none j = 1 := rfl
      simp only [Moments.line]
      rw [es, eh]
      unfold Moments.change used
      simp [hc]
    · rw [if_neg hc]
      refine ⟨y, rfl, ?_⟩
      intro i hi j hj
      rw [hy i hi j hj]
      unfold used
      simp [hc]

theorem copy_holds (order : Order) {n p ldx : Nat} (x fresh : List K) (X : Nat → Nat → K)
    (hx : Holds order n p ldx x X) (hf : fresh.length = n * p) :
    ∃ y, copyData (if order = .col then p else n) (if order = .col then n else p) ldx x fresh =
        .ok y ∧ Holds order n p (if order = .col then n else p) y X := by
  cases order with
  | col =>
    rw [if_pos rfl, if_pos rfl]
    obtain ⟨y, h1, h2⟩ := copyData_ok p n ldx x fresh (fun j i => X i j)
      (fun j hj i hi => hx i hi j hj) (by rw [hf, Nat.mul_comm])
    exact ⟨y, h1, fun i hi j hj => h2 j hj i hi⟩
  | row =>
    rw [if_neg (by decide), if_neg (by decide)]
    obtain ⟨y, h1, h2⟩ := copyData_ok n p ldx x fresh X (fun i hi j hj => hx i hi j hj) hf
    exact ⟨y, h1, fun i hi j hj => h2 i hi j hj⟩

theorem covFactor_pos (corr : Bool) (dof : Int) (n : Nat) : 1 ≤ covFactor corr dof n := by
  have key : ∀ f : Int, 1 ≤ if f < 1 ∨ corr = true then 1 else f := by
    intro f
    by_cases h : f < 1 ∨ corr = true
    · rw [if_pos h]
    · rw [if_neg h]; exact Int.not_lt.1 (fun h' => h (Or.inl h'))
  exact key _

/-- The whole computation, when the allocations succeed. -/
theorem covBody_ok (sqrt : K → K) (thr : Nat) (e : CovEnv K) (order : Order) {n p ldx ldmat : Nat}
    (x : List K) (X : Nat → Nat → K) (dof : Int) (mat : List K) (corr : Bool) (centered : Int)
    (hn : 0 < n) (hp : 0 < p) (ht : 0 < thr) (he : e.Ok thr order n p)
    (halloc : e.syrk.alloc = true) (hx : Holds order n p ldx x X) (hldm : p ≤ ldmat)
    (hin : ∀ i < p, ∀ j < p, at' order ldmat i j < mat.length) :
    ∃ m', covBody sqrt thr e order n p x ldx dof mat ldmat corr centered = .ok (.success, m') ∧
      m'.length = mat.length ∧
      (∀ i < p, ∀ j < p, m'[at' order ldmat i j]? = some (if corr = true ∧ i = j then 1
        else (∑ l ∈ range n, used sqrt corr centered n X l i * used sqrt corr centered n X l j) /
          ((covFactor corr dof n : Int) : K))) ∧
      ∀ q, (∀ i < p, ∀ j < p, q ≠ at' order ldmat i j) → m'[q]? = mat[q]? := by
  obtain ⟨y, h1, h2⟩ := copy_holds order x e.fresh X hx he.fresh
  obtain ⟨ldc, hldc⟩ : ∃ ldc, ldc = (if order = .col then n else p) := ⟨_, rfl⟩
  have hld : LdOk order n p ldc := by
    rw [hldc]; cases order <;> simp [LdOk]
  rw [← hldc] at h1 h2
  obtain ⟨z, h3, h4⟩ := prepareData_ok sqrt thr e order dof corr centered y X hn hp ht he hld h2
  obtain ⟨Z, hZ⟩ : ∃ Z, Z = used sqrt corr centered n X := ⟨_, rfl⟩
  rw [← hZ] at h4 ⊢
  have hf0 : ((covFactor corr dof n : Int) : K) ≠ 0 := by
    have := covFactor_pos corr dof n
    exact_mod_cast (by omega : covFactor corr dof n ≠ 0)
  -- positions in memory
  have hin' : ∀ a < p, ∀ b < p, a + ldmat * b < mat.length := by
    intro a ha b hb
    cases order with
    | col => have := hin a ha b hb; simp only [at'] at this; rw [Nat.mul_comm]; omega
    | row => have := hin b hb a ha; simp only [at'] at this; rw [Nat.mul_comm]; omega
  obtain ⟨m1, g1, g2, g3, g4⟩ := daSyrk_ok e.syrk he.syrk halloc order
    (if order = .col then .upper else .lower) .yes (1 / ((covFactor corr dof n : Int) : K)) z ldc 0
    mat (ldC := ldmat) (fun i l => Z l i)
    (fun i j => mat.getD (cell order ldmat i j) 0) hp hldm (k := n)
    (by
      intro i hi l hl
      show z[cell order ldc l i]? = _
      rw [cell_at]
      exact h4 l hl i hi)
    (by
      intro i hi j hj _
      have := hin i hi j hj
      rw [← cell_at] at this
      simp [List.getD, List.getElem?_eq_getElem this])
  obtain ⟨G, hG⟩ : ∃ G : Nat → Nat → K, ∀ i j, G i j =
    (∑ l ∈ range n, Z l i * Z l j) / ((covFactor corr dof n : Int) : K) := ⟨_, fun _ _ => rfl⟩
  have hGs : ∀ i j, G i j = G j i := by
    intro i j; rw [hG, hG]; congr 1; exact sum_congr rfl (fun l _ => mul_comm _ _)
  have g5 : ∀ a < p, ∀ b < p, a ≤ b → m1[a + ldmat * b]? = some (G a b) := by
    intro a ha b hb hab
    cases order with
    | col =>
      have := g3 a ha b hb hab
      rw [hG]
      simp only [cell] at this
      rw [this]; congr 1; ring
    | row =>
      have := g3 b hb a ha hab
      rw [hGs, hG]
      simp only [cell] at this
      rw [this]; congr 1; ring
  obtain ⟨m2, k1, k2, k3, k4⟩ := mirrorCopy_ok p ldmat e.mirror m1 G hldm he.mirror
    (by rw [g2]; exact hin') g5
  have k3' : ∀ a < p, ∀ b < p, m2[a + ldmat * b]? = some (G a b) := by
    intro a ha b hb
    rw [k3 a ha b hb]
    split
    · rfl
    · rw [hGs]
  have hpos : ∀ i j, ∃ a b, at' order ldmat i j = a + ldmat * b ∧
      ((a = i ∧ b = j) ∨ (a = j ∧ b = i)) := by
    intro i j
    cases order with
    | col => exact ⟨i, j, by simp only [at']; ring, Or.inl ⟨rfl, rfl⟩⟩
    | row => exact ⟨j, i, by simp only [at']; ring, Or.inr ⟨rfl, rfl⟩⟩
  have k5 : ∀ i < p, ∀ j < p, m2[at' order ldmat i j]? = some (G i j) := by
    intro i hi j hj
    obtain ⟨a, b, e1, ⟨rfl, rfl⟩ | ⟨rfl, rfl⟩⟩ := hpos i j
    · rw [e1]; exact k3' _ hi _ hj
    · rw [e1, k3' _ hj _ hi, hGs]
  have k6 : ∀ q, (∀ i < p, ∀ j < p, q ≠ at' order ldmat i j) → m2[q]? = mat[q]? := by
    intro q hq
    have hq' : ∀ a < p, ∀ b < p, q ≠ a + ldmat * b := by
      intro a ha b hb
      cases order with
      | col => have := hq a ha b hb; simp only [at'] at this; rw [Nat.mul_comm]; omega
      | row => have := hq b hb a ha; simp only [at'] at this; rw [Nat.mul_comm]; omega
    rw [k4 q hq', g4 q]
    intro i hi j hj _
    rw [cell_at]; exact hq i hi j hj
  have hbody : ∀ m3, (if corr = true then forUp p (fun i mat => wr mat (i * ldmat + i) 1) m2
      else .ok m2 : M (List K)) = .ok m3 →
      covBody sqrt thr e order n p x ldx dof mat ldmat corr centered = .ok (.success, m3) := by
    intro m3 hm3
    unfold covBody
    simp only
    rw [← hldc, h1, ok_bind, h3, ok_bind]
    simp only
    unfold divM
    rw [if_neg hf0, ok_bind, g1, ok_bind]
    simp only
    rw [k1, ok_bind]
    cases corr with
    | true =>
      rw [if_pos rfl] at hm3 ⊢
      rw [hm3, ok_bind]
    | false =>
      rw [if_neg (by decide)] at hm3 ⊢
      rw [hm3, ok_bind]
  cases corr with
  | false =>
    refine ⟨m2, hbody m2 rfl, by rw [k2, g2], ?_, k6⟩
    intro i hi j hj
    rw [k5 i hi j hj, hG]
    simp
  | true =>
    obtain ⟨m3, d1, d2, d3, d4⟩ := diag_ok p ldmat m2 hldm (by rw [k2, g2]; exact hin')
    refine ⟨m3, hbody m3 (by rw [if_pos rfl]; exact d1), by rw [d2, k2, g2], ?_, ?_⟩
    · intro i hi j hj
      by_cases hij : i = j
      · subst hij
        rw [if_pos ⟨rfl, rfl⟩]
        obtain ⟨a, b, e1, ⟨rfl, rfl⟩ | ⟨rfl, rfl⟩⟩ := hpos i i <;> rw [e1] <;> exact d3 _ hi
      · rw [if_neg (fun h => hij h.2), d4, k5 i hi j hj, hG]
        intro a ha he'
        obtain ⟨b, c, e1, h5⟩ := hpos i j
        rw [e1] at he'
        have := cell_inj (order := .col) hldm (by omega : b < p) (by omega : c < p) ha ha he'
        omega
    · intro q hq
      rw [d4 q, k6 q hq]
      intro a ha he'
      apply hq a ha a ha
      rw [he']
      cases order <;> simp only [at'] <;> ring

/-- A sum of products is a square. -/
theorem quad (p n : Nat) (v : Nat → K) (z : Nat → Nat → K) :
    ∑ i ∈ range p, ∑ j ∈ range p, v i * v j * ∑ l ∈ range n, z l i * z l j =
      ∑ l ∈ range n, (∑ i ∈ range p, v i * z l i) ^ 2 := by
  have : ∀ l, (∑ i ∈ range p, v i * z l i) ^ 2 =
      ∑ i ∈ range p, ∑ j ∈ range p, v i * v j * (z l i * z l j) := by
    intro l
    rw [pow_two, sum_mul_sum]
    apply sum_congr rfl; intro i _
    apply sum_congr rfl; intro j _
    ring
  simp only [this]
  rw [sum_comm (s := range n)]
  apply sum_congr rfl; intro i _
  rw [sum_comm (s := range n)]
  apply sum_congr rfl; intro j _
  rw [mul_sum]

/-- C113, the part that holds for covariances: `da_covariance_matrix` gives the documented
matrix, in both triangles; it is symmetric, with quadratic form never negative.  What is
missing are calls in which the temporary blocks of `da_syrk` cannot be allocated, and calls
with one row. -/
theorem C113_covariance_partial (sqrt : K → K) (thr : Nat) (e : CovEnv K) (order : Order)
    {n p ldx ldmat : Nat} (x : List K) (X : Nat → Nat → K) (dof : Int) (mat : List K)
    (centered : Int) (hn : 2 ≤ n) (hp : 1 ≤ p) (ht : 0 < thr) (he : e.Ok thr order n p)
    (halloc : e.syrk.alloc = true) (hld : LdOk order n p ldx) (hx : Holds order n p ldx x X)
    (hldm : p ≤ ldmat) (hin : ∀ i < p, ∀ j < p, at' order ldmat i j < mat.length)
    (hc : centered = 0 ∨ centered = 1) :
    ∃ (m' : List K) (C : Nat → Nat → K), covariance sqrt thr e order n p (some x) ldx dof (some mat) ldmat centered =
        .ok (.success, some m') ∧ m'.length = mat.length ∧
      (∀ i < p, ∀ j < p, m'[at' order ldmat i j]? = some (C i j)) ∧
      (∀ q, (∀ i < p, ∀ j < p, q ≠ at' order ldmat i j) → m'[q]? = mat[q]?) ∧
      (∀ i j, ∃ d : Int, d = (if dof < 0 then (n : Int) else if dof = 0 then (n : Int) - 1 else dof) ∧
        1 ≤ d ∧ (d : K) * C i j = ∑ l ∈ range n,
          (X l i - if centered = 1 then 0 else (∑ l ∈ range n, X l i) / (n : K)) *
          (X l j - if centered = 1 then 0 else (∑ l ∈ range n, X l j) / (n : K))) ∧
      (∀ i j, C i j = C j i) ∧
      ∀ v : Nat → K, 0 ≤ ∑ i ∈ range p, ∑ j ∈ range p, v i * v j * C i j := by
  obtain ⟨m', h1, h2, h3, h4⟩ := covBody_ok sqrt thr e order x X dof mat false centered
    (by omega) (by omega) ht he halloc hx hldm hin
  obtain ⟨Z, hZ⟩ : ∃ Z, Z = used sqrt false centered n X := ⟨_, rfl⟩
  rw [← hZ] at h3
  have hd : covFactor false dof n =
      (if dof < 0 then (n : Int) else if dof = 0 then (n : Int) - 1 else dof) ∧
      1 ≤ covFactor false dof n := by
    refine ⟨?_, covFactor_pos _ _ _⟩
    unfold covFactor
    simp only
    rw [if_neg]
    rintro (h | h)
    · split at h
      · omega
      · split at h <;> omega
    · cases h
  have hd0 : ((covFactor false dof n : Int) : K) ≠ 0 := by
    exact_mod_cast (by omega : covFactor false dof n ≠ 0)
  have hdp : (0 : K) < ((covFactor false dof n : Int) : K) := by
    exact_mod_cast (by omega : 0 < covFactor false dof n)
  refine ⟨m', fun i j => (∑ l ∈ range n, Z l i * Z l j) / ((covFactor false dof n : Int) : K), ?_, h2,
    ?_, h4, ?_, ?_, ?_⟩
  · unfold covariance covCorr
    rw [if_neg, if_neg, if_neg (by omega), if_neg (by omega)]
    · simp only
      rw [if_neg (by omega)]
      simp only [Int.toNat_natCast]
      rw [h1, ok_bind]
    · rintro ⟨rfl, h⟩; simp only [LdOk] at hld; omega
    · rintro ⟨rfl, h⟩; simp only [LdOk] at hld; omega
  · intro i hi j hj
    rw [h3 i hi j hj]; simp
  · intro i j
    refine ⟨covFactor false dof n, hd.1, hd.2, ?_⟩
    rw [mul_div_cancel₀ _ hd0]
    apply sum_congr rfl
    intro l _
    rw [hZ]
    unfold used
    rcases hc with h | h <;> simp [h]
  · intro i j
    simp only
    congr 1
    exact sum_congr rfl (fun l _ => mul_comm _ _)
  · intro v
    have : ∑ i ∈ range p, ∑ j ∈ range p, v i * v j *
        ((∑ l ∈ range n, Z l i * Z l j) / ((covFactor false dof n : Int) : K)) =
        (∑ l ∈ range n, (∑ i ∈ range p, v i * Z l i) ^ 2) / ((covFactor false dof n : Int) : K) := by
      rw [← quad, sum_div]
      apply sum_congr rfl; intro i _
      rw [sum_div]
      apply sum_congr rfl; intro j _
      rw [mul_div_assoc]
    rw [this]
    exact div_nonneg (sum_nonneg fun l _ => sq_nonneg _) hdp.le

/-- C113, the part that holds for `da_correlation_matrix`; what is missing is the same.  With `S i j` the sum of the products of the centred
entries and `σ i` the root of `S i i`, entry (i, j) times `σ i * σ j` is `S i j`; the diagonal
is one, and a constant column has no correlation with the others.  All entries lie between
minus one and one, and the matrix is symmetric with quadratic form never negative. -/
theorem C113_correlation_partial (sqrt : K → K) (hsq : ∀ a, 0 ≤ a → sqrt a * sqrt a = a) (thr : Nat)
    (e : CovEnv K) (order : Order) {n p ldx ldmat : Nat} (x : List K) (X : Nat → Nat → K)
    (mat : List K) (hn : 2 ≤ n) (hp : 1 ≤ p) (ht : 0 < thr) (he : e.Ok thr order n p)
    (halloc : e.syrk.alloc = true) (hld : LdOk order n p ldx) (hx : Holds order n p ldx x X)
    (hldm : p ≤ ldmat) (hin : ∀ i < p, ∀ j < p, at' order ldmat i j < mat.length) :
    ∃ (m' : List K) (R : Nat → Nat → K), correlation sqrt thr e order n p (some x) ldx (some mat) ldmat =
        .ok (.success, some m') ∧ m'.length = mat.length ∧
      (∀ i < p, ∀ j < p, m'[at' order ldmat i j]? = some (R i j)) ∧
      (∀ q, (∀ i < p, ∀ j < p, q ≠ at' order ldmat i j) → m'[q]? = mat[q]?) ∧
      (∀ i, R i i = 1) ∧
      (∀ i j, i ≠ j →
        R i j * (sqrt (∑ l ∈ range n, (X l i - (∑ l ∈ range n, X l i) / (n : K)) ^ 2) *
          sqrt (∑ l ∈ range n, (X l j - (∑ l ∈ range n, X l j) / (n : K)) ^ 2)) =
        ∑ l ∈ range n, (X l i - (∑ l ∈ range n, X l i) / (n : K)) *
          (X l j - (∑ l ∈ range n, X l j) / (n : K))) ∧
      (∀ i j, i ≠ j → (∀ l < n, X l i = X 0 i) → R i j = 0) ∧
      (∀ i j, R i j = R j i) ∧ (∀ i j, -1 ≤ R i j ∧ R i j ≤ 1) ∧
      ∀ v : Nat → K, 0 ≤ ∑ i ∈ range p, ∑ j ∈ range p, v i * v j * R i j := by
  obtain ⟨m', h1, h2, h3, h4⟩ := covBody_ok sqrt thr e order x X 0 mat true 0
    (by omega) (by omega) ht he halloc hx hldm hin
  obtain ⟨Z, hZ⟩ : ∃ Z, Z = used sqrt true 0 n X := ⟨_, rfl⟩
  rw [← hZ] at h3
  have hf : covFactor true 0 n = 1 := by unfold covFactor; simp
  obtain ⟨y, hy⟩ : ∃ y : Nat → Nat → K, ∀ l i, y l i =
    X l i - (∑ l ∈ range n, X l i) / (n : K) := ⟨_, fun _ _ => rfl⟩
  obtain ⟨σ, hσ⟩ : ∃ σ : Nat → K, ∀ i, σ i = sqrt (∑ l ∈ range n, y l i ^ 2) :=
    ⟨_, fun _ => rfl⟩
  have hZy : ∀ l i, Z l i = y l i / (if σ i = 0 then 1 else σ i) := by
    intro l i
    rw [hZ, hσ]
    unfold used
    simp only [hy]
    rw [if_pos trivial]
  have hσσ : ∀ i, σ i * σ i = ∑ l ∈ range n, y l i ^ 2 := by
    intro i
    rw [hσ]
    exact hsq _ (sum_nonneg fun l _ => sq_nonneg _)
  have hy0 : ∀ i, σ i = 0 → ∀ l < n, y l i = 0 := by
    intro i h0 l hl
    have h5 := hσσ i
    rw [h0, mul_zero] at h5
    have h6 := (sum_eq_zero_iff_of_nonneg (fun l _ => sq_nonneg (y l i))).1 h5.symm l
      (mem_range.2 hl)
    exact pow_eq_zero_iff (two_ne_zero) |>.1 h6
  have hZZ : ∀ i, ∑ l ∈ range n, Z l i ^ 2 ≤ 1 := by
    intro i
    by_cases h0 : σ i = 0
    · have : ∑ l ∈ range n, Z l i ^ 2 = 0 := by
        apply sum_eq_zero
        intro l hl
        rw [hZy, hy0 i h0 l (mem_range.1 hl)]; simp
      rw [this]; exact zero_le_one
    · have : ∑ l ∈ range n, Z l i ^ 2 = 1 := by
        simp only [hZy, if_neg h0, div_pow]
        rw [← sum_div, ← hσσ, pow_two]
        exact div_self (mul_ne_zero h0 h0)
      rw [this]
  refine ⟨m', fun i j => if i = j then 1 else ∑ l ∈ range n, Z l i * Z l j, ?_, h2, ?_, h4, ?_, ?_,
    ?_, ?_, ?_, ?_⟩
  · unfold correlation covCorr
    rw [if_neg, if_neg, if_neg (by omega), if_neg (by omega)]
    · simp only
      rw [if_neg (by omega)]
      simp only [Int.toNat_natCast]
      rw [h1, ok_bind]
    · rintro ⟨rfl, h⟩; simp only [LdOk] at hld; omega
    · rintro ⟨rfl, h⟩; simp only [LdOk] at hld; omega
  · intro i hi j hj
    rw [h3 i hi j hj, hf]; simp
  · intro i; simp
  · intro i j hij
    simp only [if_neg hij, ← hy, ← hσ]
    by_cases hi0 : σ i = 0
    · rw [hi0, zero_mul, mul_zero]
      symm
      apply sum_eq_zero
      intro l hl
      rw [hy0 i hi0 l (mem_range.1 hl), zero_mul]
    · by_cases hj0 : σ j = 0
      · rw [hj0, mul_zero, mul_zero]
        symm
        apply sum_eq_zero
        intro l hl
        rw [hy0 j hj0 l (mem_range.1 hl), mul_zero]
      · rw [sum_mul]
        apply sum_congr rfl
        intro l _
        rw [hZy, hZy, if_neg hi0, if_neg hj0]
        field_simp
  · intro i j hij hcon
    simp only [if_neg hij]
    apply sum_eq_zero
    intro l hl
    have : y l i = 0 := by
      rw [hy, hcon l (mem_range.1 hl)]
      have h5 : ∑ l ∈ range n, X l i = n * X 0 i := by
        rw [sum_congr rfl (fun l hl => hcon l (mem_range.1 hl)), sum_const, card_range, nsmul_eq_mul]
      have h6 : (n : K) ≠ 0 := by exact_mod_cast (by omega : n ≠ 0)
      rw [h5, mul_div_cancel_left₀ _ h6, sub_self]
    rw [hZy, this, zero_div, zero_mul]
  · intro i j
    simp only [eq_comm (a := i) (b := j)]
    split
    · rfl
    · exact sum_congr rfl (fun l _ => mul_comm _ _)
  · intro i j
    simp only
    split
    · exact ⟨by linarith [zero_le_one (α := K)], le_refl 1⟩
    · have a1 : 0 ≤ ∑ l ∈ range n, (Z l i + Z l j) ^ 2 := sum_nonneg fun l _ => sq_nonneg _
      have a2 : 0 ≤ ∑ l ∈ range n, (Z l i - Z l j) ^ 2 := sum_nonneg fun l _ => sq_nonneg _
      have e1 : ∑ l ∈ range n, (Z l i + Z l j) ^ 2 = ∑ l ∈ range n, Z l i ^ 2 +
          ∑ l ∈ range n, Z l j ^ 2 + 2 * ∑ l ∈ range n, Z l i * Z l j := by
        rw [mul_sum, ← sum_add_distrib, ← sum_add_distrib]
        exact sum_congr rfl (fun l _ => by ring)
      have e2 : ∑ l ∈ range n, (Z l i - Z l j) ^ 2 = ∑ l ∈ range n, Z l i ^ 2 +
          ∑ l ∈ range n, Z l j ^ 2 - 2 * ∑ l ∈ range n, Z l i * Z l j := by
        rw [mul_sum, ← sum_add_distrib, ← sum_sub_distrib]
        exact sum_congr rfl (fun l _ => by ring)
      rw [e1] at a1
      rw [e2] at a2
      have b1 := hZZ i
      have b2 := hZZ j
      constructor <;> linarith
  · intro v
    have e1 : ∑ i ∈ range p, ∑ j ∈ range p, v i * v j *
        (if i = j then 1 else ∑ l ∈ range n, Z l i * Z l j) =
        ∑ l ∈ range n, (∑ i ∈ range p, v i * Z l i) ^ 2 +
        ∑ i ∈ range p, v i ^ 2 * (1 - ∑ l ∈ range n, Z l i ^ 2) := by
      rw [← quad, ← sum_add_distrib]
      apply sum_congr rfl
      intro i hi
      have : ∀ j, v i * v j * (if i = j then 1 else ∑ l ∈ range n, Z l i * Z l j) =
          v i * v j * (∑ l ∈ range n, Z l i * Z l j) +
          if i = j then v i ^ 2 * (1 - ∑ l ∈ range n, Z l i ^ 2) else 0 := by
        intro j
        by_cases h : i = j
        · subst h
          rw [if_pos rfl, if_pos rfl]
          simp only [pow_two]
          ring
        · rw [if_neg h, if_neg h, add_zero]
      rw [sum_congr rfl (fun j _ => this j), sum_add_distrib, sum_ite_eq, if_pos hi]
    rw [e1]
    apply add_nonneg
    · exact sum_nonneg fun l _ => sq_nonneg _
    · apply sum_nonneg
      intro i _
      apply mul_nonneg (sq_nonneg _)
      have := hZZ i
      linarith

/-- C113: what happens if the temporary blocks cannot be allocated: the call reports success,
and the diagonal is what it was before. -/
theorem C113_no_memory (sqrt : K → K) (thr : Nat) (e : CovEnv K) (order : Order)
    {n p ldx ldmat : Nat} (x : List K) (X : Nat → Nat → K) (dof : Int) (mat : List K)
    (centered : Int) (hn : 2 ≤ n) (hp : 1 ≤ p) (ht : 0 < thr) (he : e.Ok thr order n p)
    (halloc : e.syrk.alloc = false) (hld : LdOk order n p ldx) (hx : Holds order n p ldx x X)
    (hldm : p ≤ ldmat) (hin : ∀ i < p, ∀ j < p, at' order ldmat i j < mat.length)
    (hc : centered = 0 ∨ centered = 1) (nb bs fin : Nat)
    (hplan : syrkPlan e.syrk p n = .ok (nb, bs, fin)) (hnb : nb ≠ 1) :
    ∃ m', covariance sqrt thr e order n p (some x) ldx dof (some mat) ldmat centered =
        .ok (.success, some m') ∧
      ∀ i < p, m'[at' order ldmat i i]? = mat[at' order ldmat i i]? := by
  obtain ⟨y, h1, h2⟩ := copy_holds order x e.fresh X hx he.fresh
  obtain ⟨ldc, hldc⟩ : ∃ ldc, ldc = (if order = .col then n else p) := ⟨_, rfl⟩
  have hldc' : LdOk order n p ldc := by
    rw [hldc]; cases order <;> simp [LdOk]
  rw [← hldc] at h1 h2
  obtain ⟨z, h3, _⟩ := prepareData_ok sqrt thr e order dof false centered y X (by omega) (by omega) ht
    he hldc' h2
  have hf0 : ((covFactor false dof n : Int) : K) ≠ 0 := by
    have := covFactor_pos false dof n
    exact_mod_cast (by omega : covFactor false dof n ≠ 0)
  have hin' : ∀ a < p, ∀ b < p, a + ldmat * b < mat.length := by
    intro a ha b hb
    cases order with
    | col => have := hin a ha b hb; simp only [at'] at this; rw [Nat.mul_comm]; omega
    | row => have := hin b hb a ha; simp only [at'] at this; rw [Nat.mul_comm]; omega
  have g1 := C114_no_memory e.syrk halloc order (if order = .col then .upper else .lower) .yes p n
    (1 / ((covFactor false dof n : Int) : K)) z ldc 0 mat ldmat nb bs fin
    (fun h => zero_ne_one h.2) hplan hnb
  obtain ⟨m2, k1, _, k3, _⟩ := mirrorCopy_ok p ldmat e.mirror mat
    (fun a b => mat.getD (a + ldmat * b) 0) hldm he.mirror hin' (by
      intro a ha b hb _
      simp [List.getD, List.getElem?_eq_getElem (hin' a ha b hb)])
  refine ⟨m2, ?_, ?_⟩
  · have hbody : covBody sqrt thr e order n p x ldx dof mat ldmat false centered =
        .ok (.success, m2) := by
      unfold covBody
      simp only
      rw [← hldc, h1, ok_bind, h3, ok_bind]
      simp only
      unfold divM
      rw [if_neg hf0, ok_bind, g1, ok_bind]
      simp only
      rw [k1, ok_bind]
      rfl
    unfold covariance covCorr
    rw [if_neg, if_neg, if_neg (by omega), if_neg (by omega)]
    · simp only
      rw [if_neg (by omega)]
      simp only [Int.toNat_natCast]
      rw [hbody, ok_bind]
    · rintro ⟨rfl, h⟩; simp only [LdOk] at hld; omega
    · rintro ⟨rfl, h⟩; simp only [LdOk] at hld; omega
  · intro i hi
    have e1 : at' order ldmat i i = i + ldmat * i := by
      cases order <;> simp only [at'] <;> ring
    rw [e1, k3 i hi i hi, if_pos (Nat.le_refl i)]
    simp [List.getD, List.getElem?_eq_getElem (hin' i hi i hi)]

/-- C113: bad arguments are reported, and nothing is written; one row is such an argument,
although the documentation allows it (aoclda_basic_statistics.h:421 and 436). -/
theorem C113_errors (sqrt : K → K) (thr : Nat) (e : CovEnv K) (order : Order) (n p ldx : Int)
    (x mat : Option (List K)) (dof ldmat : Int) (corr : Bool) (centered : Int) :
    (ldx < (if order = .col then n else p) ∨ ldmat < p →
      covCorr sqrt thr e order n p x ldx dof mat ldmat corr centered = .ok (.invalidLd, mat)) ∧
    ((if order = .col then n else p) ≤ ldx → p ≤ ldmat →
      (n ≤ 1 ∨ p < 1 →
        covCorr sqrt thr e order n p x ldx dof mat ldmat corr centered = .ok (.invalidDim, mat)) ∧
      (2 ≤ n → 1 ≤ p →
        (x = none ∨ mat = none →
          covCorr sqrt thr e order n p x ldx dof mat ldmat corr centered = .ok (.invalidPtr, mat)) ∧
        (x ≠ none → mat ≠ none → centered ≠ 0 → centered ≠ 1 →
          covCorr sqrt thr e order n p x ldx dof mat ldmat corr centered =
            .ok (.invalidInput, mat)))) := by
  have hneg : (if order = .col then n else p) ≤ ldx → ¬ (order = .col ∧ ldx < n) ∧
      ¬ (order = .row ∧ ldx < p) := by
    intro h
    constructor
    · rintro ⟨rfl, h'⟩; rw [if_pos rfl] at h; omega
    · rintro ⟨rfl, h'⟩; rw [if_neg (by decide)] at h; omega
  refine ⟨?_, ?_⟩
  · intro h
    unfold covCorr
    by_cases h1 : order = .col ∧ ldx < n
    · rw [if_pos h1]
    · rw [if_neg h1]
      by_cases h2 : order = .row ∧ ldx < p
      · rw [if_pos h2]
      · rw [if_neg h2, if_pos]
        rcases h with h | h
        · exfalso
          cases order
          · exact h1 ⟨rfl, by simpa using h⟩
          · exact h2 ⟨rfl, by simpa using h⟩
        · exact h
  · intro h1 h2
    obtain ⟨a1, a2⟩ := hneg h1
    refine ⟨?_, ?_⟩
    · intro h
      unfold covCorr
      rw [if_neg a1, if_neg a2, if_neg (by omega), if_pos h]
    · intro h3 h4
      unfold covCorr
      rw [if_neg a1, if_neg a2, if_neg (by omega), if_neg (by omega)]
      refine ⟨?_, ?_⟩
      · intro h
        cases x with
        | none => rfl
        | some x =>
          cases mat with
          | none => rfl
          | some m => rcases h with h | h <;> cases h
      · intro h5 h6 h7 h8
        cases x with
        | none => exact absurd rfl h5
        | some x =>
          cases mat with
          | none => exact absurd rfl h6
          | some m => simp only; rw [if_pos ⟨h7, h8⟩]

end Cov

/-- C113, in full for the covariance: a call that reports success has computed the matrix. -/
def C113_statement : Prop :=
  ∀ (sqrt : Rat → Rat) (thr : Nat) (e : CovEnv Rat) (order : Order) (n p ldx ldmat : Nat)
    (x : List Rat) (X : Nat → Nat → Rat) (dof : Int) (mat m' : List Rat), 2 ≤ n → 1 ≤ p → 0 < thr →
    e.Ok thr order n p → LdOk order n p ldx → Holds order n p ldx x X → p ≤ ldmat →
    (∀ i < p, ∀ j < p, at' order ldmat i j < mat.length) →
    covariance sqrt thr e order n p (some x) ldx dof (some mat) ldmat 0 = .ok (.success, some m') →
    ∀ i < p, ∀ j < p, ∃ c, m'[at' order ldmat i j]? = some c ∧
      (((if dof < 0 then (n : Int) else if dof = 0 then (n : Int) - 1 else dof) : Int) : Rat) * c =
        ∑ l ∈ range n, (X l i - (∑ l ∈ range n, X l i) / (n : Rat)) *
          (X l j - (∑ l ∈ range n, X l j) / (n : Rat))

/-- Every loop in order, one block after the other on thread 0. -/
def plainSyrk (override : Option Nat) (alloc : Bool) : SyrkEnv where
  maxThreads := 2
  nested := false
  override := override
  alloc := alloc
  owner := fun _ _ _ => 0
  seq := fun _ nb => List.range nb

theorem plainSyrk_ok (override : Option Nat) (alloc : Bool) (h : override ≠ some 0) :
    (plainSyrk override alloc).Ok := by
  refine ⟨by show 0 < 2; decide, h, fun _ _ _ _ => List.Perm.refl _, fun _ _ h _ _ _ => h,
    fun _ _ _ _ => rfl, ?_⟩
  intro nt nb _ _
  have := List.pairwise_lt_range (n := nb)
  apply this.imp
  intro a b h _
  exact h

/-- C113 does not hold: the status of `da_syrk` is ignored.  With 8192 rows it cuts the data
into blocks; if their temporary results cannot be allocated, the call reports success and the
matrix is not written.  Here the data are constant, and the result stays 5 instead of 0. -/
theorem C113_success_violated : ¬ C113_statement := by
  intro h
  obtain ⟨e, hE⟩ : ∃ e : CovEnv Rat, e = ⟨fun _ => Env.plain 2048 2 1 8192, [],
    List.replicate (8192 * 1) 0, plainSyrk none false, []⟩ := ⟨_, rfl⟩
  have he : e.Ok 2048 .col 8192 1 := by
    rw [hE]
    exact ⟨fun _ => Moments.Env.plain_ok 2048 2 1 8192 (by decide), by rw [List.length_replicate],
      plainSyrk_ok none false (by decide), List.Perm.refl _⟩
  have hx : Holds .col 8192 1 8192 (List.replicate 8192 (1 : Rat)) (fun _ _ => 1) := by
    intro i hi j hj
    have hj0 : j = 0 := by omega
    subst hj0
    rw [List.getElem?_replicate, if_pos]
    simp only [at']
    omega
  have hin : ∀ i < 1, ∀ j < 1, at' .col 1 i j < [(5 : Rat)].length := by
    intro i hi j hj
    simp only [at', List.length_singleton]
    omega
  have hplan : syrkPlan e.syrk 1 8192 = .ok (4, 2048, 2048) := by
    rw [hE]; decide +kernel
  obtain ⟨m', h1, h2⟩ := C113_no_memory (fun q : Rat => q) 2048 e .col (List.replicate 8192 1)
    (fun _ _ => 1) 0 [5] 0 (by decide) (by decide) (by decide) he (by rw [hE]; rfl)
    (by show 8192 ≤ 8192; decide) hx (Nat.le_refl 1) hin (Or.inl rfl) 4 2048 2048 hplan (by decide)
  obtain ⟨c, h3, h4⟩ := h (fun q => q) 2048 e .col 8192 1 8192 1 (List.replicate 8192 1)
    (fun _ _ => 1) 0 [5] m' (by decide) (by decide) (by decide) he
    (by show 8192 ≤ 8192; decide) hx (Nat.le_refl 1) hin h1 0 (by decide) 0 (by decide)
  have h5 := h2 0 (by decide)
  rw [h3] at h5
  have h6 : c = 5 := by
    have : ([(5 : Rat)] : List Rat)[at' .col 1 0 0]? = some 5 := rfl
    rw [this] at h5
    exact Option.some.inj h5
  rw [h6] at h4
  rw [sum_const, card_range, sum_const, card_range] at h4
  norm_num at h4

/-- Two columns 1, 2, 6 and 2, 4, 0, by rows with a cell of padding; the product runs in
blocks of one row, and the padding of the result stays. -/
example : covariance (fun q : Rat => q) 2 ⟨fun _ => Env.plain 2 1 3 2, [], List.replicate 6 9,
    plainSyrk (some 1) true, [0]⟩ .row 3 2 (some [1, 2, 77, 2, 4, 77, 6, 0]) 3 0
    (some [5, 5, 88, 5, 5]) 3 0 = .ok (.success, some [7, -4, 88, -4, 4]) := by decide +kernel

/-- A column with sum of squares one, and a constant column. -/
example : correlation (fun q : Rat => q) 2 ⟨fun _ => Env.plain 2 1 2 4, [], List.replicate 8 9,
    plainSyrk none true, [0]⟩ .col 4 2
    (some [1 / 2, -1 / 2, 1 / 2, -1 / 2, 3, 3, 3, 3]) 4 (some [5, 5, 5, 5]) 2 =
    .ok (.success, some [1, 0, 0, 1]) := by decide +kernel

/-- One row is refused. -/
example : covariance (fun q : Rat => q) 2 ⟨fun _ => Env.plain 2 1 1 1, [], [0],
    plainSyrk none true, []⟩ .col 1 1 (some [3]) 1 (-1) (some [5]) 1 0 =
    .ok (.invalidDim, some [5]) := by decide +kernel

end Verif.Cov
