import Verif.KernelFn.Proof
import Verif.KernelFn.Spec

/-
From the loops to the words of the specification.
-/
namespace Verif.KernelFn

open Verif.Logistic (loop upd)
open Verif.PairDist (cell gemm syrk sqNorms gemmDistance Wr Inj inj_cell total gemm_wr syrk_wr sqOf
  sqNorms_at Status)
open Verif.PairDist.Spec (Call Filled pos)
open Finset (range)

set_option linter.unusedSectionVars false

variable {K : Type*} [Field K] [LinearOrder K]

theorem expFlat_wr (o : Ops K) {simd : Option Nat} (hs : ∀ w, simd = some w → 0 < w)
    {a b ldd : Nat} (hl : a ≤ ldd) (mu : K) (FN SN : Nat → K) :
    Wr (fun D => expKernel o simd a b D ldd mu FN SN) (fun j i => i * ldd + j)
      (fun j i => j < a ∧ i < b) fun j i v => o.exp (mu * (v + FN j + SN i)) := by
  cases hsimd : simd with
  | none => exact scalarLoops_wr hl fun i j v => o.exp (mu * (v + FN j + SN i))
  | some w =>
    exact simdLoops_wr (f := fun i j v => o.exp (mu * (v + FN j + SN i)))
      (vec := fun i j v => o.exp ((v + FN j + SN i) * mu)) (hs w hsimd) hl
      (fun i j v => by rw [mul_comm]) fun _ _ _ => rfl

theorem expKernel_wr (o : Ops K) {simd : Option Nat} (hs : ∀ w, simd = some w → 0 < w)
    {row : Bool} {m n ldd : Nat} (hl : if row then n ≤ ldd else m ≤ ldd) (mu : K) (XN YN : Nat → K) :
    Wr (fun D => if row then expKernel o simd n m D ldd mu YN XN else expKernel o simd m n D ldd mu XN YN)
      (cell row ldd) (fun i j => i < m ∧ j < n) fun i j v => o.exp (mu * (v + (XN i + YN j))) := by
  cases row with
  | true =>
    refine (byOrder (row := true) (m := m) (n := n) (ldd := ldd)
      (g := fun i j v => o.exp (mu * (v + YN j + XN i))) (f := fun D => expKernel o simd n m D ldd mu YN XN)
      ?_).congr (fun _ => rfl) (fun _ _ _ => rfl) (fun _ _ => Iff.rfl) fun i j v _ => ?_
    · exact expFlat_wr o hs hl mu YN XN
    · simp only [if_true]
      congr 2
      ring
  | false =>
    refine (byOrder (row := false) (m := m) (n := n) (ldd := ldd)
      (g := fun i j v => o.exp (mu * (v + XN j + YN i))) (f := fun D => expKernel o simd m n D ldd mu XN YN)
      ?_).congr (fun _ => rfl) (fun _ _ _ => rfl) (fun _ _ => Iff.rfl) fun i j v _ => ?_
    · exact expFlat_wr o hs hl mu XN YN
    · simp only [Bool.false_eq_true, if_false]
      congr 2
      ring

/-- What becomes of a product. -/
def mathVal (o : Ops K) (f : Math K) (v : K) : K :=
  match f with
  | .none => v
  | .power coef0 degree => ipow degree (v + coef0)
  | .tanh coef0 => o.tanh (v + coef0)

theorem applyMath_wr {o : Ops K} (ht : ∀ x, 2 / (1 + o.exp (x * -2)) - 1 = o.tanh x)
    {simd : Option Nat} (hs : ∀ w, simd = some w → 0 < w) (f : Math K) {row : Bool} {m n ldd : Nat}
    (hl : if row then n ≤ ldd else m ≤ ldd) :
    Wr (fun D => if row then applyMath o simd f n m D ldd else applyMath o simd f m n D ldd)
      (cell row ldd) (fun i j => i < m ∧ j < n) fun _ _ v => mathVal o f v := by
  have key : Wr (fun D => applyMath o simd f (if row then n else m) (if row then m else n) D ldd)
      (fun j i => i * ldd + j)
      (fun j i => j < (if row then n else m) ∧ i < (if row then m else n))
      fun _ _ v => mathVal o f v := by
    have hl' : (if row then n else m) ≤ ldd := by cases row <;> simpa using hl
    cases f with
    | none => exact fun C => ⟨fun _ _ _ => rfl, fun _ _ => rfl⟩
    | power coef0 degree =>
      cases hsimd : simd with
      | none => exact scalarLoops_wr hl' fun _ _ v => ipow degree (v + coef0)
      | some w =>
        exact simdLoops_wr (f := fun _ _ v => ipow degree (v + coef0)) (hs w hsimd) hl'
          (fun _ _ _ => rfl) fun _ _ _ => rfl
    | tanh coef0 =>
      cases hsimd : simd with
      | none => exact scalarLoops_wr hl' fun _ _ v => o.tanh (v + coef0)
      | some w =>
        exact simdLoops_wr (f := fun _ _ v => o.tanh (v + coef0)) (hs w hsimd) hl'
          (fun _ _ _ => ht _) fun _ _ _ => rfl
  refine (byOrder (g := fun _ _ v => mathVal o f v) key).congr (fun D => ?_) (fun _ _ _ => rfl)
    (fun _ _ => Iff.rfl) fun i j v _ => by cases row <;> rfl
  cases row <;> rfl

theorem cell_off (row : Bool) (ld i0 i l : Nat) :
    (if row then i0 * ld else i0) + cell row ld i l = cell row ld (i0 + i) l := by
  cases row
  · simp only [cell, Bool.false_eq_true, if_false]; omega
  · simp only [cell, if_true]; rw [Nat.add_mul]; omega

theorem fits {row : Bool} {m n ldd p q : Nat} (hl : if row then n ≤ ldd else m ≤ ldd)
    (hp : p ≤ m) (hq : q ≤ n) : if row then q ≤ ldd else p ≤ ldd := by
  cases row
  · simp only [Bool.false_eq_true, if_false] at hl ⊢; omega
  · simp only [if_true] at hl ⊢; omega

/-- `kernel_setup` for two matrices. -/
theorem setup_two {o : Ops K} (ht : ∀ x, 2 / (1 + o.exp (x * -2)) - 1 = o.tanh x) {r : Run}
    (hs : ∀ w, r.simd = some w → 0 < w) {row : Bool} {m n ldd : Nat} (hm : 0 < m) (hn : 0 < n)
    (hL : r.sched.Perm
      (List.range (blockCount m (min m maxBlock) * blockCount n (min n maxBlock))))
    (hl : if row then n ≤ ldd else m ≤ ldd) (k : Nat) (X : Nat → K) (ldx : Nat) (Y : Nat → K)
    (ldy : Nat) (gamma : K) (f : Math K) :
    ∃ F, (∀ D, kernelSetup o r row m n k X ldx (some Y) ldy D ldd gamma f = some (F D)) ∧
      Wr F (cell row ldd) (fun i j => i < m ∧ j < n) fun i j _ => mathVal o f
        (gamma * total (fun a b => a * b) k (fun l => X (cell row ldx i l))
          fun l => Y (cell row ldy j l)) := by
  by_cases hb : blocked r.threads m n = true
  · refine ⟨_, fun D => by unfold kernelSetup; rw [if_pos hb], ?_⟩
    refine overBlocks_wr hm hn hl ldx ldy hL fun i0 j0 p q _ _ hi hj hp hq => ?_
    have hl' : if row then q ≤ ldd else p ≤ ldd := fits hl (by omega) (by omega)
    refine ((gemm_wr row hl' k gamma _ ldx _ ldy).comp (applyMath_wr ht hs f hl')).congr
      (fun _ => rfl) (fun _ _ _ => rfl) (fun _ _ => Iff.rfl) fun i j v _ => ?_
    simp only [cell_off]
  · refine ⟨_, fun D => by unfold kernelSetup; rw [if_neg hb], ?_⟩
    refine ((gemm_wr row hl k gamma X ldx Y ldy).comp (applyMath_wr ht hs f hl)).congr
      (fun D => ?_) (fun _ _ _ => rfl) (fun _ _ => Iff.rfl) fun i j v _ => rfl
    cases row <;> rfl

theorem total_comm (k : Nat) (x y : Nat → K) :
    total (fun a b => a * b) k x y = total (fun a b => a * b) k y x :=
  Finset.sum_congr rfl fun _ _ => mul_comm _ _

/-- `kernel_setup` for one matrix, not divided. -/
theorem setup_one {o : Ops K} (ht : ∀ x, 2 / (1 + o.exp (x * -2)) - 1 = o.tanh x) {r : Run}
    (hs : ∀ w, r.simd = some w → 0 < w) {row : Bool} {m ldd : Nat}
    (hb : ¬ blocked r.threads m m = true) (hl : m ≤ ldd) (k : Nat) (X : Nat → K) (ldx ldy : Nat)
    (gamma : K) (f : Math K) :
    ∃ F, (∀ D, kernelSetup o r row m m k X ldx none ldy D ldd gamma f = some (F D)) ∧
      Wr F (cell row ldd) (fun i j => i < m ∧ j < m) fun i j _ => mathVal o f
        (gamma * total (fun a b => a * b) k (fun l => X (cell row ldx i l))
          fun l => X (cell row ldx j l)) := by
  refine ⟨_, fun D => by unfold kernelSetup; rw [if_neg hb], ?_⟩
  have W : Wr (fun D => fillUpper row m (syrk row m k gamma X ldx D ldd) ldd) (cell row ldd)
      (fun i j => i < m ∧ j < m) fun i j _ => gamma * total (fun a b => a * b) k
        (fun l => X (cell row ldx i l)) fun l => X (cell row ldx j l) := by
    intro D
    have S := syrk_wr row hl k gamma X ldx D
    obtain ⟨U, hU⟩ : ∃ U, U = syrk row m k gamma X ldx D ldd := ⟨_, rfl⟩
    simp only at S
    simp only
    rw [← hU] at S ⊢
    have M := fillUpper_at row hl U
    refine ⟨fun i j d => ?_, fun c hc => ?_⟩
    · rw [M.1 i j d.1 d.2]
      by_cases h : j < i
      · rw [if_pos h, S.1 j i (by omega), total_comm]
      · rw [if_neg h, S.1 i j (by omega)]
    · rw [M.2 c fun i j hi hj => hc i j ⟨hi, hj⟩, S.2 c fun i j d => hc i j (by omega)]
  have hl' : if row then m ≤ ldd else m ≤ ldd := by cases row <;> simpa using hl
  refine (W.comp (applyMath_wr ht hs f hl')).congr (fun D => ?_) (fun _ _ _ => rfl)
    (fun _ _ => Iff.rfl) fun i j v _ => rfl
  cases row <;> rfl

/-- `rbf_kernel_internal` for two matrices. -/
theorem rbf_two (o : Ops K) {r : Run}
    (hs : ∀ w, r.simd = some w → 0 < w) {row : Bool} {m n ldd : Nat} (hm : 0 < m) (hn : 0 < n)
    (hL : r.sched.Perm
      (List.range (blockCount m (min m maxBlock) * blockCount n (min n maxBlock))))
    (hl : if row then n ≤ ldd else m ≤ ldd) (k : Nat) (X XN : Nat → K) (ldx : Nat) (Y YN : Nat → K)
    (ldy : Nat) (gamma : K) :
    Wr (fun D => rbfInternal o r row m n k X XN ldx (some Y) YN ldy D ldd gamma)
      (cell row ldd) (fun i j => i < m ∧ j < n) fun i j _ => o.exp (-gamma *
        (-2 * total (fun a b => a * b) k (fun l => X (cell row ldx i l))
          (fun l => Y (cell row ldy j l)) + (sqOf k (fun l => X (cell row ldx i l)) +
            sqOf k fun l => Y (cell row ldy j l)))) := by
  by_cases hb : blocked r.threads m n = true
  · have E : (fun D => rbfInternal o r row m n k X XN ldx (some Y) YN ldy D ldd gamma) =
        overBlocks row m n ldx ldy ldd r.sched fun mIn nIn xo yo xn yn D =>
        if row then
          expKernel o r.simd nIn mIn (gemmDistance (fun x => x) row mIn nIn k (fun c => X (xo + c)) ldx
          (fun c => Y (yo + c)) ldy D ldd (fun _ => 0) 0 (fun _ => 0) 0 true false) ldd (-gamma)
            (fun c => sqNorms row n k Y ldy YN (yn + c)) fun c => sqNorms row m k X ldx XN (xn + c)
        else
          expKernel o r.simd mIn nIn (gemmDistance (fun x => x) row mIn nIn k (fun c => X (xo + c)) ldx
          (fun c => Y (yo + c)) ldy D ldd (fun _ => 0) 0 (fun _ => 0) 0 true false) ldd (-gamma)
            (fun c => sqNorms row m k X ldx XN (xn + c)) fun c => sqNorms row n k Y ldy YN (yn + c) := by
      funext D
      unfold rbfInternal
      simp only [if_pos hb]
      rfl
    rw [E]
    refine overBlocks_wr hm hn hl ldx ldy hL fun i0 j0 p q _ _ hi hj hp hq => ?_
    have hl' : if row then q ≤ ldd else p ≤ ldd := fits hl (by omega) (by omega)
    refine ((PairDist.gemmDistance_wr (fun x => x) row hl' k _ ldx _ ldy (fun _ => 0) 0 (fun _ => 0) 0
      true).comp (expKernel_wr o hs hl' (-gamma) _ _)).congr (fun _ => rfl) (fun _ _ _ => rfl)
      (fun _ _ => Iff.rfl) fun i j v d => ?_
    simp only [cell_off, PairDist.normsUsed, if_true, add_zero]
    rw [sqNorms_at row (show i0 + i < m by omega), sqNorms_at row (show j0 + j < n by omega)]
  · have E : (fun D => rbfInternal o r row m n k X XN ldx (some Y) YN ldy D ldd gamma) = fun D =>
        if row then
          expKernel o r.simd n m (gemmDistance (fun x => x) row m n k X ldx
          Y ldy D ldd (fun _ => 0) 0 (fun _ => 0) 0 true false) ldd (-gamma)
            (sqNorms row n k Y ldy YN) (sqNorms row m k X ldx XN)
        else
          expKernel o r.simd m n (gemmDistance (fun x => x) row m n k X ldx
          Y ldy D ldd (fun _ => 0) 0 (fun _ => 0) 0 true false) ldd (-gamma)
            (sqNorms row m k X ldx XN) (sqNorms row n k Y ldy YN) := by
      funext D
      unfold rbfInternal
      simp only [if_neg hb]
      rfl
    rw [E]
    refine ((PairDist.gemmDistance_wr (fun x => x) row hl k X ldx Y ldy (fun _ => 0) 0 (fun _ => 0) 0
      true).comp (expKernel_wr o hs hl (-gamma) _ _)).congr (fun _ => rfl) (fun _ _ _ => rfl)
      (fun _ _ => Iff.rfl) fun i j v d => ?_
    simp only [PairDist.normsUsed, if_true, add_zero]
    rw [sqNorms_at row d.1, sqNorms_at row d.2]

/-- `euclidean_gemm_distance` for one matrix, without norms: only the upper triangle. -/
theorem gemmDistance_one (row : Bool) {m n ldd : Nat} (hmn : m = n) (hl : m ≤ ldd) (k : Nat)
    (X : Nat → K) (ldx : Nat) (Y : Nat → K) (ldy : Nat) :
    Wr (fun D => gemmDistance (fun x => x) row m n k X ldx Y ldy D ldd (fun _ => 0) 0 (fun _ => 0) 0
      true true) (cell row ldd) (fun i j => i < m ∧ j < n) fun i j v =>
      if i ≤ j then -2 * total (fun a b => a * b) k (fun l => X (cell row ldx i l))
        (fun l => X (cell row ldx j l)) else v := by
  subst hmn
  have inj := inj_cell row (m := m) (n := m) (ld := ldd) (by cases row <;> simpa using hl)
  refine (Wr.widen (syrk_wr row hl k (-2) X ldx) inj fun i j d => by omega).congr (fun D => rfl)
    (fun _ _ _ => rfl) (fun _ _ => Iff.rfl) fun i j v d => ?_
  by_cases h : i ≤ j
  · rw [if_pos h, if_pos (by omega)]
  · rw [if_neg h, if_neg (by omega)]

/-- `rbf_kernel_internal` for one matrix, not divided. -/
theorem rbf_one (o : Ops K) {r : Run} (hs : ∀ w, r.simd = some w → 0 < w) {row : Bool}
    {m ldd : Nat} (hb : ¬ blocked r.threads m m = true) (hl : m ≤ ldd) (k : Nat) (X XN : Nat → K)
    (ldx : Nat) (YN : Nat → K) (ldy : Nat) (gamma : K) :
    Wr (fun D => rbfInternal o r row m m k X XN ldx none YN ldy D ldd gamma)
      (cell row ldd) (fun i j => i < m ∧ j < m) fun i j _ => o.exp (-gamma *
        (-2 * total (fun a b => a * b) k (fun l => X (cell row ldx i l))
          (fun l => X (cell row ldx j l)) + (sqOf k (fun l => X (cell row ldx i l)) +
            sqOf k fun l => X (cell row ldx j l)))) := by
  obtain ⟨N, hN⟩ : ∃ N, N = sqNorms row m k X ldx XN := ⟨_, rfl⟩
  have hl' : if row then m ≤ ldd else m ≤ ldd := by cases row <;> simpa using hl
  intro D
  have S := ((gemmDistance_one row (rfl : m = m) hl k X ldx (fun _ => 0) ldy).comp
    (expKernel_wr o hs hl' (-gamma) N N)) D
  simp only at S
  obtain ⟨U, hU⟩ : ∃ U, U = if row then
          expKernel o r.simd m m (gemmDistance (fun x => x) row m m k X ldx
          (fun _ => 0) ldy D ldd (fun _ => 0) 0 (fun _ => 0) 0 true true) ldd (-gamma) N N
        else
          expKernel o r.simd m m (gemmDistance (fun x => x) row m m k X ldx
          (fun _ => 0) ldy D ldd (fun _ => 0) 0 (fun _ => 0) 0 true true) ldd (-gamma) N N :=
    ⟨_, rfl⟩
  have E : rbfInternal o r row m m k X XN ldx none YN ldy D ldd gamma = fillUpper row m U ldd := by
    rw [hU, hN]
    unfold rbfInternal
    simp only [if_neg hb]
    rfl
  rw [← hU] at S
  simp only
  rw [E]
  have M := fillUpper_at row hl U
  refine ⟨fun i j d => ?_, fun c hc => ?_⟩
  · rw [M.1 i j d.1 d.2]
    by_cases h : j < i
    · rw [if_pos h, S.1 j i (by omega), if_pos (by omega), hN, sqNorms_at row d.1,
        sqNorms_at row d.2, total_comm]
      congr 2
      ring
    · rw [if_neg h, S.1 i j (by omega), if_pos (by omega), hN, sqNorms_at row d.1,
        sqNorms_at row d.2]
  · rw [M.2 c fun i j hi hj => hc i j ⟨hi, hj⟩, S.2 c hc]

/-- `rbf_kernel_internal` for one matrix, divided into full blocks: what it computes instead. -/
theorem rbf_one_blocked (o : Ops K) {r : Run} (hs : ∀ w, r.simd = some w → 0 < w) {row : Bool}
    {m ldd : Nat} (hm : 0 < m) (hd : maxBlock ∣ m) (hb : blocked r.threads m m = true)
    (hL : r.sched.Perm
      (List.range (blockCount m (min m maxBlock) * blockCount m (min m maxBlock))))
    (hl : m ≤ ldd) (k : Nat) (X XN : Nat → K) (ldx : Nat) (YN : Nat → K) (ldy : Nat) (gamma : K)
    (D : Nat → K) :
    ∀ i j, i ≤ j → j < m → rbfInternal o r row m m k X XN ldx none YN ldy D ldd gamma
      (cell row ldd i j) = o.exp (-gamma *
        ((if i % maxBlock ≤ j % maxBlock then
          -2 * total (fun a b => a * b) k (fun l => X (cell row ldx i l))
          (fun l => X (cell row ldx (i / maxBlock * maxBlock + j % maxBlock) l))
          else D (cell row ldd i j)) + (sqOf k (fun l => X (cell row ldx i l)) +
            sqOf k fun l => X (cell row ldx j l)))) := by
  obtain ⟨N, hN⟩ : ∃ N, N = sqNorms row m k X ldx XN := ⟨_, rfl⟩
  have hl' : if row then m ≤ ldd else m ≤ ldd := by cases row <;> simpa using hl
  have pb : 0 < maxBlock := by decide
  have hmb : maxBlock ≤ m := Nat.le_of_dvd hm hd
  have hmin : min m maxBlock = maxBlock := by omega
  have W : Wr (overBlocks row m m ldx ldy ldd r.sched fun mIn nIn xo yo xn yn D =>
        if row then
          expKernel o r.simd nIn mIn (gemmDistance (fun x => x) row mIn nIn k (fun c => X (xo + c)) ldx
          (fun c => (fun _ => 0) (yo + c)) ldy D ldd (fun _ => 0) 0 (fun _ => 0) 0 true true) ldd (-gamma)
            (fun c => N (yn + c)) fun c => N (xn + c)
        else
          expKernel o r.simd mIn nIn (gemmDistance (fun x => x) row mIn nIn k (fun c => X (xo + c)) ldx
          (fun c => (fun _ => 0) (yo + c)) ldy D ldd (fun _ => 0) 0 (fun _ => 0) 0 true true) ldd (-gamma)
            (fun c => N (xn + c)) fun c => N (yn + c)) (cell row ldd) (fun i j => i < m ∧ j < m)
      fun i j v => o.exp (-gamma *
        ((if i % maxBlock ≤ j % maxBlock then
          -2 * total (fun a b => a * b) k (fun l => X (cell row ldx i l))
          (fun l => X (cell row ldx (i / maxBlock * maxBlock + j % maxBlock) l))
          else v) + (N i + N j))) := by
    refine overBlocks_wr hm hm hl' ldx ldy hL fun i0 j0 p q di dj hi hj hp hq => ?_
    rw [hmin] at di dj hp hq
    obtain ⟨a, rfl⟩ := di
    obtain ⟨b, rfl⟩ := dj
    obtain ⟨e, rfl⟩ := hd
    have ha : maxBlock * a + maxBlock ≤ maxBlock * e := by
      have : a < e := lt_of_mul_lt_mul_left hi (Nat.zero_le _)
      have := Nat.mul_le_mul_left maxBlock (show a + 1 ≤ e from this)
      rw [Nat.mul_add] at this; omega
    have hb' : maxBlock * b + maxBlock ≤ maxBlock * e := by
      have : b < e := lt_of_mul_lt_mul_left hj (Nat.zero_le _)
      have := Nat.mul_le_mul_left maxBlock (show b + 1 ≤ e from this)
      rw [Nat.mul_add] at this; omega
    have hp' : p = maxBlock := by omega
    have hq' : q = maxBlock := by omega
    have hlb : if row then q ≤ ldd else p ≤ ldd := fits hl' (by omega) (by omega)
    refine ((gemmDistance_one row (show p = q by omega) (by omega) k _ ldx _ ldy).comp
      (expKernel_wr o hs hlb (-gamma) _ _)).congr (fun _ => rfl) (fun _ _ _ => rfl)
      (fun _ _ => Iff.rfl) fun i j v d => ?_
    have m1 : (maxBlock * a + i) % maxBlock = i := by
      rw [Nat.mul_add_mod]; exact Nat.mod_eq_of_lt (by omega)
    have m2 : (maxBlock * b + j) % maxBlock = j := by
      rw [Nat.mul_add_mod]; exact Nat.mod_eq_of_lt (by omega)
    have m3 : (maxBlock * a + i) / maxBlock = a := by
      rw [Nat.mul_add_div pb, Nat.div_eq_of_lt (by omega), Nat.add_zero]
    simp only [cell_off, m1, m2, m3, Nat.mul_comm a]
  obtain ⟨U, hU⟩ : ∃ U, U = overBlocks row m m ldx ldy ldd r.sched (fun mIn nIn xo yo xn yn D =>
        if row then
          expKernel o r.simd nIn mIn (gemmDistance (fun x => x) row mIn nIn k (fun c => X (xo + c)) ldx
          (fun c => (fun _ => 0) (yo + c)) ldy D ldd (fun _ => 0) 0 (fun _ => 0) 0 true true) ldd (-gamma)
            (fun c => N (yn + c)) fun c => N (xn + c)
        else
          expKernel o r.simd mIn nIn (gemmDistance (fun x => x) row mIn nIn k (fun c => X (xo + c)) ldx
          (fun c => (fun _ => 0) (yo + c)) ldy D ldd (fun _ => 0) 0 (fun _ => 0) 0 true true) ldd (-gamma)
            (fun c => N (xn + c)) fun c => N (yn + c)) D := ⟨_, rfl⟩
  have E : rbfInternal o r row m m k X XN ldx none YN ldy D ldd gamma = fillUpper row m U ldd := by
    rw [hU, hN]
    unfold rbfInternal
    simp only [if_pos hb]
    rfl
  have S := W D
  rw [← hU] at S
  intro i j hij hj
  rw [E, (fillUpper_at row hl U).1 i j (by omega) hj, if_neg (by omega), S.1 i j ⟨by omega, hj⟩]
  simp only
  rw [hN, sqNorms_at row (show i < m by omega), sqNorms_at row hj]

end Verif.KernelFn
