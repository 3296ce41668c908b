import Mathlib.Analysis.InnerProductSpace.GramSchmidtOrtho
import Mathlib.Analysis.InnerProductSpace.PiL2
import Mathlib.Analysis.Real.Cardinality
import Verif.TallSkinny.ProofQr
import Verif.TallSkinny.Props

/-
C152.
-/
namespace Verif.TallSkinny

open Verif.Logistic Spec

set_option linter.unusedSectionVars false

/-- C152.  Whenever the blocks are at least as high as wide (see C151), `da_qr` gives the triangle of a
QR factorisation of `A`, and `da_qr_apply` multiplies any matrix by the orthogonal factor of the
same factorisation, for all orders in which the blocks are done in both and all contents of the arrays
beforehand. -/
theorem C152_qr {K : Type*} [Field K] [LinearOrder K] (la : Lapack K) (hla : la.Sound)
    (threads m n : Nat) (ov : Option Nat) (A : Nat → K) (lda nb bs fin : Nat) (L : List Nat)
    (tau0 tauR0 : Nat → K) (ht : 0 < threads) (hn : 0 < n) (hm : n ≤ m) (hl : m ≤ lda)
    (ho : ov ≠ some 0) (hp : qrPlan threads m n ov = some (nb, bs, fin)) (hb : nb = 1 ∨ n ≤ bs)
    (hL : L.Perm (List.range nb)) :
    ∃ Q : Nat → Nat → K, Factorised m n A lda Q (daQr la n A lda nb bs fin L tau0 tauR0).R ∧
      ∀ r C ldc L', m ≤ ldc → L'.Perm (List.range nb) → Applied m n r Q C ldc
        (daQrApply la n (daQr la n A lda nb bs fin L tau0 tauR0) lda nb bs fin r C ldc L') := by
  obtain ⟨nb', bs', fin', e, h1, h2, h3⟩ := C151_extent threads m n ov ht hn hm ho
  rw [hp] at e
  simp only [Option.some.injEq, Prod.mk.injEq] at e
  obtain ⟨rfl, rfl, rfl⟩ := e
  exact qr_correct hla ⟨h1, h2, (h3.2 hb).tall⟩ hl tau0 tauR0 hL

/-- C152.  Up to 1024 columns and without the hidden setting this is always so. -/
theorem C152_qr_1024 {K : Type*} [Field K] [LinearOrder K] (la : Lapack K) (hla : la.Sound)
    (threads m n : Nat) (A : Nat → K) (lda nb bs fin : Nat) (L : List Nat)
    (tau0 tauR0 : Nat → K) (ht : 0 < threads) (hn : 0 < n) (hm : n ≤ m) (hl : m ≤ lda)
    (hc : n ≤ 1024) (hp : qrPlan threads m n none = some (nb, bs, fin))
    (hL : L.Perm (List.range nb)) :
    ∃ Q : Nat → Nat → K, Factorised m n A lda Q (daQr la n A lda nb bs fin L tau0 tauR0).R ∧
      ∀ r C ldc L', m ≤ ldc → L'.Perm (List.range nb) → Applied m n r Q C ldc
        (daQrApply la n (daQr la n A lda nb bs fin L tau0 tauR0) lda nb bs fin r C ldc L') := by
  have h := C151_blocks_partial threads m n nb bs fin ht hn hm hc hp
  refine C152_qr la hla threads m n none A lda nb bs fin L tau0 tauR0 ht hn hm hl (by simp) hp ?_ hL
  by_cases h1 : nb = 1
  · exact Or.inl h1
  · have := h.tall 0 h.some
    rw [height, if_neg (by have := h.some; omega)] at this
    exact Or.inr this

/-- Every real matrix that is at least as high as wide has a QR factorisation. -/
theorem qr_exists (h n : Nat) (B : Nat → Nat → ℝ) (hn : n ≤ h) : ∃ Q R : Nat → Nat → ℝ,
    Orthonormal h n Q ∧ ∀ r c, r < h → c < n →
      B r c = ∑ l ∈ Finset.range n, Q r l * if l ≤ c then R l c else 0 := by
  let f : Fin h → EuclideanSpace ℝ (Fin h) := fun c => WithLp.toLp 2 fun r => B r c
  have hd : Module.finrank ℝ (EuclideanSpace ℝ (Fin h)) = Fintype.card (Fin h) := by simp
  let b := InnerProductSpace.gramSchmidtOrthonormalBasis hd f
  refine ⟨fun r l => if hr : r < h ∧ l < h then b ⟨l, hr.2⟩ ⟨r, hr.1⟩ else 0,
    fun l c => if hr : l < h ∧ c < h then inner ℝ (b ⟨l, hr.1⟩) (f ⟨c, hr.2⟩) else 0,
    fun a a' ha ha' => ?_, fun r c hr hc => ?_⟩
  · have := orthonormal_iff_ite.1 b.orthonormal ⟨a, by omega⟩ ⟨a', by omega⟩
    rw [PiLp.inner_apply] at this
    rw [Finset.sum_range]
    simp only [Fin.mk.injEq] at this
    rw [← this]
    refine Finset.sum_congr rfl fun i _ => ?_
    simp only
    rw [dif_pos ⟨i.2, by omega⟩, dif_pos ⟨i.2, by omega⟩]
    simp [mul_comm]
  · have h1 := congrArg (fun v : EuclideanSpace ℝ (Fin h) => v ⟨r, hr⟩)
      (b.sum_repr' (f ⟨c, by omega⟩))
    simp only at h1
    have h2 : (f ⟨c, by omega⟩ : EuclideanSpace ℝ (Fin h)) ⟨r, hr⟩ = B r c := rfl
    rw [h2] at h1
    rw [← h1]
    have h3 : ∀ g : Nat → ℝ, (∀ l, n ≤ l → l < h → g l = 0) →
        ∑ l ∈ Finset.range n, g l = ∑ l ∈ Finset.range h, g l := fun g hg =>
      Finset.sum_subset (Finset.range_mono hn) fun l hl hl' =>
        hg l (by simpa using hl') (Finset.mem_range.1 hl)
    rw [h3 _ fun l hl _ => by rw [if_neg (by omega), mul_zero], Finset.sum_range]
    simp only [WithLp.ofLp_sum, Finset.sum_apply, WithLp.ofLp_smul, Pi.smul_apply, smul_eq_mul]
    refine Finset.sum_congr rfl fun l _ => ?_
    rw [dif_pos ⟨hr, l.2⟩, mul_comm]
    by_cases hlc : (l : Nat) ≤ c
    · rw [if_pos hlc, dif_pos ⟨l.2, by omega⟩]
    · rw [if_neg hlc]
      have : inner ℝ (b l) (f ⟨c, by omega⟩) = 0 :=
        InnerProductSpace.gramSchmidtOrthonormalBasis_inv_triangular hd f
          (show (⟨c, by omega⟩ : Fin h) < l from Fin.lt_def.2 (by simpa using hlc))
      rw [this]

/-- The assumption on LAPACK can be met. -/
theorem sound_exists : ∃ la : Lapack ℝ, la.Sound := by
  classical
  have hcode : ∃ code : (Nat → Nat → ℝ) → ℝ, Function.Injective code := by
    have : Cardinal.mk (Nat → Nat → ℝ) ≤ Cardinal.mk ℝ := by
      simp [Cardinal.mk_real]
    obtain ⟨e⟩ := this
    exact ⟨e, e.injective⟩
  obtain ⟨code, hcode⟩ := hcode
  refine ⟨⟨fun h n B => if hn : n ≤ h then ((qr_exists h n B hn).choose_spec.choose,
    fun _ => code (qr_exists h n B hn).choose) else (B, fun _ => 0),
    fun _ _ _ tau => Function.invFun code (tau 0)⟩, fun h n B hn => ?_⟩
  simp only [dif_pos hn]
  obtain ⟨s1, s2⟩ := (qr_exists h n (seen h n B) hn).choose_spec.choose_spec
  rcases Nat.eq_zero_or_pos n with rfl | hp
  · exact ⟨fun a b ha => by omega, fun r c _ hc => by omega⟩
  · have e : upTo n (fun _ => code (qr_exists h n (seen h n B) hn).choose) 0 =
        code (qr_exists h n (seen h n B) hn).choose := if_pos hp
    rw [e, Function.leftInverse_invFun hcode]
    refine ⟨s1, fun r c hr hc => ?_⟩
    rw [← s2 r c hr hc]
    simp [seen, hr, hc]

/-- Three blocks: 3000 rows and two columns on two threads. -/
example : qrPlan 2 3000 2 none = some (3, 1024, 952) := by decide +kernel

example (A : Nat → ℝ) (tau0 tauR0 : Nat → ℝ) : ∃ la : Lapack ℝ, ∃ Q : Nat → Nat → ℝ,
    Factorised 3000 2 A 3000 Q (daQr la 2 A 3000 3 1024 952 [2, 0, 1] tau0 tauR0).R := by
  obtain ⟨la, h⟩ := sound_exists
  obtain ⟨Q, h1, -⟩ := C152_qr_1024 la h 2 3000 2 A 3000 3 1024 952 [2, 0, 1] tau0 tauR0 (by omega)
    (by omega) (by omega) (by omega) (by omega) (by decide +kernel) (by decide)
  exact ⟨la, Q, h1⟩

end Verif.TallSkinny
