import Verif.PairDist.Kernels

/-
The five loops and the choice of the storage order.
-/
namespace Verif.PairDist

open Verif.Logistic (loop upd)
open Finset (range)

set_option linter.unusedSectionVars false

variable {K : Type*} [Field K] [LinearOrder K]

/-- The sum over `k` features. -/
def total (f : K → K → K) (k : Nat) (x y : Nat → K) : K := ∑ l ∈ range k, f (x l) (y l)

/-- Sizes that fit, as the `static_assert`s say (partitioning_infrastructure.hpp:199-200). -/
structure Sizes.Ok (z : Sizes) : Prop where
  mr : 0 < z.MR
  nr : 0 < z.NR
  mc : 0 < z.MC
  nc : 0 < z.NC
  kc : 0 < z.KC
  mcmr : z.MR ∣ z.MC
  ncnr : z.NR ∣ z.NC

/-- The schedules take every block of rows once. -/
def Env.Ok (z : Sizes) (m : Nat) (e : Env K) : Prop :=
  ∀ jj p, (e.sched jj p).Perm (List.range (rowBlocks z m))

theorem loopOne_wr (kd : Kern) (pw : K → K) {MR NR m n ldc : Nat} (first : Bool) (hMR : 0 < MR)
    (hn : n ≤ NR) (hl : m ≤ ldc) (k : Nat) (A B : Nat → K) (bo co : Nat) (x y : Nat → Nat → K)
    (hA : ∀ t q r, q < k → r < MR → t * MR + r < m → A (t * MR * k + q * MR + r) = x (t * MR + r) q)
    (hB : ∀ c q, q < k → c < n → B (bo + c + q * NR) = y c q) :
    Wr (fun C => loopOne kd pw MR NR first m n k A B bo C co ldc) (fun i j => co + j * ldc + i)
      (fun i j => i < m ∧ j < n)
      fun i j v => (if first then 0 else v) + total (term kd pw) k (x i) (y j) := by
  refine Wr.rowSteps (f := fun i C => kernelOp kd pw MR NR first (min MR (m - i)) n k A (i * k) B bo
    C (co + i) ldc) hMR (inj_cols hl) fun t ht => ?_
  refine (kernelOp_wr kd pw first (m := min MR (m - t * MR)) (by omega) hn (by omega) k A
    (t * MR * k) B bo (co + t * MR)).congr (fun _ => rfl) (fun i j _ => by omega)
    (fun _ _ => Iff.rfl) fun i j v d => ?_
  congr 1
  refine Finset.sum_congr rfl fun q hq => ?_
  rw [Finset.mem_range] at hq
  rw [hA t q i hq (by omega) (by omega), hB j q hq d.2]

theorem loopTwo_wr (kd : Kern) (pw : K → K) {MR NR m n ldc : Nat} (first : Bool) (hMR : 0 < MR)
    (hNR : 0 < NR) (hl : m ≤ ldc) (k : Nat) (A B : Nat → K) (co : Nat) (x y : Nat → Nat → K)
    (hA : ∀ t q r, q < k → r < MR → t * MR + r < m → A (t * MR * k + q * MR + r) = x (t * MR + r) q)
    (hB : ∀ t q r, q < k → r < NR → t * NR + r < n → B (t * NR * k + q * NR + r) = y (t * NR + r) q) :
    Wr (fun C => loopTwo kd pw MR NR first m n k A B C co ldc) (fun i j => co + j * ldc + i)
      (fun i j => i < m ∧ j < n)
      fun i j v => (if first then 0 else v) + total (term kd pw) k (x i) (y j) := by
  refine Wr.cols (f := fun j C => loopOne kd pw MR NR first m (min NR (n - j)) k A B (j * k) C
    (co + j * ldc) ldc) hNR (inj_cols hl) fun t ht => ?_
  refine (loopOne_wr kd pw first hMR (n := min NR (n - t * NR)) (by omega) hl k A B (t * NR * k)
    (co + t * NR * ldc) x (fun s => y (t * NR + s)) hA (fun c q hq hc => ?_)).congr (fun _ => rfl)
    (fun i j _ => by rw [Nat.add_mul]; omega) (fun _ _ => Iff.rfl) fun _ _ _ _ => rfl
  rw [← hB t q c hq (by omega) (by omega)]
  congr 1; omega

theorem loopThree_wr (kd : Kern) (pw : K → K) {z : Sizes} (hz : z.Ok) (first : Bool)
    {sched : List Nat} {m n ldc : Nat} (hs : sched.Perm (List.range (rowBlocks z m)))
    (buf : Nat → Nat → K) (hl : m ≤ ldc) (k : Nat) (A : Nat → K) (ao lda : Nat) (Bt : Nat → K)
    (co : Nat) (y : Nat → Nat → K)
    (hB : ∀ t q r, q < k → r < z.NR → t * z.NR + r < n →
      Bt (t * z.NR * k + q * z.NR + r) = y (t * z.NR + r) q) :
    Wr (fun C => loopThree kd pw z first sched buf m n k A ao lda Bt C co ldc)
      (fun i j => co + j * ldc + i) (fun i j => i < m ∧ j < n)
      fun i j v => (if first then 0 else v) +
        total (term kd pw) k (fun l => A (ao + i + l * lda)) (y j) := by
  refine Wr.rows (f := fun t C => loopTwo kd pw z.MR z.NR first (min z.MC (m - t * z.MC)) n k
    (packBlock z.MR (min z.MC (m - t * z.MC)) k A (ao + t * z.MC) lda (buf t)) Bt C (co + t * z.MC)
    ldc) hz.mc hs (inj_cols hl) fun t ht => ?_
  refine (loopTwo_wr kd pw first hz.mr hz.nr (m := min z.MC (m - t * z.MC)) (n := n) (by omega) k _
    Bt (co + t * z.MC) (fun i q => A (ao + (t * z.MC + i) + q * lda)) y
    (fun s q r hq hr hm => ?_) hB).congr (fun _ => rfl) (fun i j _ => by omega)
    (fun _ _ => Iff.rfl) fun _ _ _ _ => rfl
  rw [packBlock_at hz.mr _ _ _ _ hq hr hm]
  congr 1; omega

theorem total_add (f : K → K → K) (k w : Nat) (x y : Nat → K) :
    total f (k + w) x y = total f k x y + total f w (fun l => x (k + l)) fun l => y (k + l) := by
  unfold total
  exact Finset.sum_range_add (fun l => f (x l) (y l)) k w

theorem loopFour_wr (kd : Kern) (pw : K → K) {z : Sizes} (hz : z.Ok) {m : Nat} {e : Env K}
    (he : e.Ok z m) (jj : Nat) {n ldc : Nat} (hl : m ≤ ldc) (k : Nat) (A : Nat → K) (lda : Nat)
    (B : Nat → K) (bo ldb co : Nat) :
    Wr (fun C => loopFour kd pw z e jj m n k A lda B bo ldb C co ldc)
      (fun i j => co + j * ldc + i) (fun i j => i < m ∧ j < n)
      fun i j _ => total (term kd pw) k (fun l => A (i + l * lda)) fun l => B (bo + j + l * ldb) := by
  have first : Wr (fun C => loopThree kd pw z true (e.sched jj 0) (e.abuf jj 0) m n (min z.KC k) A 0
      lda (packBlock z.NR n (min z.KC k) B bo ldb (e.bbuf jj 0)) C co ldc)
      (fun i j => co + j * ldc + i) (fun i j => i < m ∧ j < n)
      fun i j _ => total (term kd pw) (min z.KC k) (fun l => A (i + l * lda))
        fun l => B (bo + j + l * ldb) := by
    refine (loopThree_wr kd pw hz true (he jj 0) (e.abuf jj 0) hl (min z.KC k) A 0 lda _ co
      (fun j l => B (bo + j + l * ldb)) (fun t q r hq hr hm => ?_)).congr (fun _ => rfl)
      (fun _ _ _ => rfl) (fun _ _ => Iff.rfl) fun i j v _ => by simp
    rw [packBlock_at hz.nr _ _ _ _ hq hr hm]
  have key : ∀ N, N ≤ (k - z.KC + z.KC - 1) / z.KC →
      Wr (fun C => loop N (loopThree kd pw z true (e.sched jj 0) (e.abuf jj 0) m n (min z.KC k) A 0
        lda (packBlock z.NR n (min z.KC k) B bo ldb (e.bbuf jj 0)) C co ldc) fun t C =>
          loopThree kd pw z false (e.sched jj (z.KC + t * z.KC)) (e.abuf jj (z.KC + t * z.KC)) m n
            (min z.KC (k - (z.KC + t * z.KC))) A ((z.KC + t * z.KC) * lda) lda
            (packBlock z.NR n (min z.KC (k - (z.KC + t * z.KC))) B (bo + (z.KC + t * z.KC) * ldb) ldb
              (e.bbuf jj (z.KC + t * z.KC))) C co ldc)
      (fun i j => co + j * ldc + i) (fun i j => i < m ∧ j < n)
      fun i j _ => total (term kd pw) (min (z.KC + N * z.KC) k) (fun l => A (i + l * lda))
        fun l => B (bo + j + l * ldb) := by
    intro N
    induction N with
    | zero => intro _; simpa [loop] using first
    | succ N ih =>
      intro hN
      have hN' : N * z.KC < k - z.KC := (lt_steps hz.kc).1 hN
      refine ((ih (by omega)).comp (loopThree_wr kd pw hz false (he jj (z.KC + N * z.KC))
        (e.abuf jj (z.KC + N * z.KC)) hl (min z.KC (k - (z.KC + N * z.KC))) A
        ((z.KC + N * z.KC) * lda) lda _ co
        (fun j l => B (bo + (z.KC + N * z.KC) * ldb + j + l * ldb))
        (fun t q r hq hr hm => ?_))).congr (fun _ => rfl)
        (fun _ _ _ => rfl) (fun _ _ => Iff.rfl) fun i j v _ => ?_
      · rw [packBlock_at hz.nr _ _ _ _ hq hr hm]
      · have e1 : min (z.KC + N * z.KC) k = z.KC + N * z.KC := by omega
        have e2 : min (z.KC + (N + 1) * z.KC) k =
            z.KC + N * z.KC + min z.KC (k - (z.KC + N * z.KC)) := by
          rw [Nat.add_mul, Nat.one_mul]; omega
        simp only [Bool.false_eq_true, if_false]
        rw [e1, e2, total_add _ (z.KC + N * z.KC)]
        refine congrArg₂ (· + ·) rfl (Finset.sum_congr rfl fun l _ => ?_)
        simp only
        rw [show (z.KC + N * z.KC) * lda + i + l * lda = i + (z.KC + N * z.KC + l) * lda by ring,
          show bo + (z.KC + N * z.KC) * ldb + j + l * ldb = bo + j + (z.KC + N * z.KC + l) * ldb by
            ring]
  refine (key _ (le_refl _)).congr (fun _ => rfl) (fun _ _ _ => rfl) (fun _ _ => Iff.rfl)
    fun i j v _ => ?_
  have : ¬ (k - z.KC + z.KC - 1) / z.KC * z.KC < k - z.KC :=
    fun h => (Nat.lt_irrefl _) ((lt_steps hz.kc).2 h)
  rw [Nat.min_eq_right (by omega)]

/-- What a `postOp` does to the entries of a block with at most `N` columns.  `P` is told the
column within the block. -/
def PostIs (post : Post K) (m N : Nat) (P : Nat → Nat → K → K) : Prop :=
  ∀ n co ldc, n ≤ N → m ≤ ldc → Wr (fun C => post m n C co ldc) (fun i j => co + j * ldc + i)
    (fun i j => i < m ∧ j < n) P

theorem loopFive_wr (kd : Kern) (pw : K → K) {z : Sizes} (hz : z.Ok) {m : Nat} {e : Env K}
    (he : e.Ok z m) {n ldc : Nat} {post : Post K} {P : Nat → Nat → K → K} (hp : PostIs post m n P)
    (hl : m ≤ ldc) (k : Nat) (A : Nat → K) (lda : Nat) (B : Nat → K) (ldb : Nat) :
    Wr (fun C => loopFive kd pw z e post m n k A lda B ldb C ldc)
      (fun i j => j * ldc + i) (fun i j => i < m ∧ j < n)
      fun i j _ => P i (j % z.NC)
        (total (term kd pw) k (fun l => A (i + l * lda)) fun l => B (j + l * ldb)) := by
  refine Wr.cols (f := fun j C => post m (min z.NC (n - j)) (loopFour kd pw z e j m
    (min z.NC (n - j)) k A lda B j ldb C (j * ldc) ldc) (j * ldc) ldc) hz.nc
    (by have := inj_cols (co := 0) (n := n) hl; simpa only [Nat.zero_add] using this) fun t ht => ?_
  refine ((loopFour_wr kd pw hz he (t * z.NC) (n := min z.NC (n - t * z.NC)) hl k A lda B (t * z.NC)
    ldb (t * z.NC * ldc)).comp (hp (min z.NC (n - t * z.NC)) (t * z.NC * ldc) ldc (by omega) hl)).congr
    (fun _ => rfl) (fun i j _ => by rw [Nat.add_mul]) (fun _ _ => Iff.rfl) fun i j v d => ?_
  rw [Nat.add_comm (t * z.NC) j, Nat.add_mul_mod_self_right, Nat.mod_eq_of_lt (by omega)]

theorem noPost_is (m N : Nat) : PostIs (noPost : Post K) m N fun _ _ v => v :=
  fun _ _ _ _ _ _ => ⟨fun _ _ _ => rfl, fun _ _ => rfl⟩

theorem inj_cell (row : Bool) {m n ld : Nat} (h : if row then n ≤ ld else m ≤ ld) :
    Inj (cell row ld) fun i j => i < m ∧ j < n := by
  intro i j i' j' d d' e
  cases row with
  | true =>
    simp only [if_true] at h
    exact Verif.Logistic.cell_inj (by omega) (by omega) e
  | false =>
    simp only [Bool.false_eq_true, if_false] at h
    have := Verif.Logistic.cell_inj (by omega) (by omega) e
    exact ⟨this.2, this.1⟩

theorem rowToCol_at (m n : Nat) (A : Nat → K) (lda : Nat) (B : Nat → K) {ldb : Nat} (h : m ≤ ldb)
    {i j : Nat} (hi : i < m) (hj : j < n) :
    rowToCol m n A lda B ldb (j * ldb + i) = A (i * lda + j) := by
  have := (Wr.rect (m := n) (n := m) (idx := fun j i => j * ldb + i)
    (G := fun j i _ => A (i * lda + j)) (fun i j i' j' d d' e =>
      Verif.Logistic.cell_inj (by omega) (by omega) e) B).1 j i ⟨hj, hi⟩
  exact this

theorem colToRow_wr (m n : Nat) (A : Nat → K) (lda : Nat) {ldb : Nat} (h : n ≤ ldb) :
    Wr (fun B => colToRow m n A lda B ldb) (cell true ldb) (fun i j => i < m ∧ j < n)
      fun i j _ => A (i + j * lda) := by
  have inj : Inj (fun i j => j + i * ldb) (fun i j => i < m ∧ j < n) := fun i j i' j' d d' e =>
    Verif.Logistic.cell_inj (ns := ldb) (by omega) (by omega) (by simp only at e; omega)
  exact (Wr.rect inj (G := fun i j _ => A (i + j * lda))).congr (fun _ => rfl)
    (fun i j _ => by simp only [cell, if_true]; omega) (fun _ _ => Iff.rfl) fun _ _ _ _ => rfl

/-- The number of rows of the second matrix. -/
def rowsY (Y : Option (Nat → K)) (m n : Nat) : Nat := if Y.isNone then m else n

/-- Row `j` of the second matrix. -/
def rowY (row : Bool) (X : Nat → K) (ldx : Nat) (Y : Option (Nat → K)) (ldy j l : Nat) : K :=
  if Y.isNone then X (cell row ldx j l) else (Y.getD X) (cell row ldy j l)

theorem dispatch_wr (kd : Kern) (pw : K → K) {z : Sizes} (hz : z.Ok) {m : Nat} {e : Env K}
    (he : e.Ok z m) {n ldd : Nat} {Y : Option (Nat → K)} {post : Post K} {P : Nat → Nat → K → K}
    (hp : PostIs post m (rowsY Y m n) P) {row : Bool}
    (hl : if row then rowsY Y m n ≤ ldd else m ≤ ldd) (k : Nat) (X : Nat → K) (ldx ldy : Nat) :
    Wr (fun D => dispatch kd pw z e post row m n k X ldx Y ldy D ldd) (cell row ldd)
      (fun i j => i < m ∧ j < rowsY Y m n)
      fun i j _ => P i (j % z.NC)
        (total (term kd pw) k (fun l => X (cell row ldx i l)) (rowY row X ldx Y ldy j)) := by
  obtain ⟨Y', hY'⟩ : ∃ Y', Y' = Y.getD X := ⟨_, rfl⟩
  obtain ⟨ld', hld'⟩ : ∃ ld', ld' = if Y.isNone then ldx else ldy := ⟨_, rfl⟩
  have hrow : ∀ j l, rowY row X ldx Y ldy j l = Y' (cell row ld' j l) := by
    intro j l
    unfold rowY
    rw [hY', hld']
    cases Y <;> simp
  cases row with
  | false =>
    simp only [Bool.false_eq_true, if_false] at hl
    refine (loopFive_wr kd pw hz he hp hl k X ldx Y' ld').congr (fun D => ?_)
      (fun i j _ => by simp [cell]) (fun _ _ => Iff.rfl) fun i j v _ => ?_
    · unfold dispatch
      simp only [Bool.false_eq_true, if_false, ← hY', ← hld']
      rfl
    · congr 1
      unfold total
      refine Finset.sum_congr rfl fun l _ => ?_
      rw [hrow]
      simp only [cell, Bool.false_eq_true, if_false]
      rw [Nat.add_comm (l * ldx), Nat.add_comm (l * ld')]
  | true =>
    simp only [if_true] at hl
    intro D
    obtain ⟨N, hN⟩ : ∃ N, N = rowsY Y m n := ⟨_, rfl⟩
    have E : dispatch kd pw z e post true m n k X ldx Y ldy D ldd =
        colToRow m N (loopFive kd pw z e post m N k (rowToCol m k X ldx (fun _ => 0) m) m
          (rowToCol N k Y' ld' (fun _ => 0) N) N (fun _ => 0) m) m D ldd := by
      unfold dispatch
      rw [if_pos rfl, hN, hY', hld']
      rfl
    rw [← hN] at hl hp
    have h5 := loopFive_wr kd pw hz he hp (le_refl m) k (rowToCol m k X ldx (fun _ => 0) m) m
      (rowToCol N k Y' ld' (fun _ => 0) N) N (fun _ => 0)
    have hc := colToRow_wr m N (loopFive kd pw z e post m N k (rowToCol m k X ldx (fun _ => 0) m) m
          (rowToCol N k Y' ld' (fun _ => 0) N) N (fun _ => 0) m) m hl D
    rw [← hN]
    simp only [E]
    refine ⟨fun i j d => (hc.1 i j d).trans ?_, hc.2⟩
    have := h5.1 i j d
    simp only at this
    simp only
    rw [Nat.add_comm i, this]
    congr 1
    unfold total
    refine Finset.sum_congr rfl fun l hlk => ?_
    rw [Finset.mem_range] at hlk
    simp only
    rw [hrow, Nat.add_comm i, Nat.add_comm j, rowToCol_at m k X ldx _ (le_refl m) d.1 hlk,
      rowToCol_at N k Y' ld' _ (le_refl N) d.2 hlk]
    simp [cell]

/-- The buffers are large enough: packing writes `MC × KC` and `NC × KC` cells at most. -/
theorem packBlock_fits {B BC m k : Nat} (hB : 0 < B) (hd : B ∣ BC) (hm : m ≤ BC) (KC : Nat)
    (hk : k ≤ KC) (X : Nat → K) (xo ldx : Nat) (T : Nat → K) {c : Nat} (hc : BC * KC ≤ c) :
    packBlock B m k X xo ldx T c = T c := by
  refine (packBlock_wr hB X xo ldx T).2 c fun r j d e => ?_
  obtain ⟨q, hq⟩ := hd
  have h1 : (m + B - 1) / B ≤ q := by
    rw [← Nat.lt_succ_iff]
    refine (Nat.div_lt_iff_lt_mul hB).2 ?_
    rw [Nat.succ_mul, Nat.mul_comm q]
    omega
  have h2 : (m + B - 1) / B * k ≤ q * KC := Nat.mul_le_mul h1 hk
  have h3 : (j + 1) * B ≤ q * KC * B := Nat.mul_le_mul_right B (by omega)
  rw [Nat.add_mul, Nat.one_mul] at h3
  simp only at e
  have h4 : q * KC * B = BC * KC := by rw [hq]; ring
  omega

end Verif.PairDist
