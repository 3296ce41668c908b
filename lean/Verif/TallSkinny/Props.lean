import Mathlib.Algebra.Order.Field.Rat
import Verif.TallSkinny.Proof

/-
C150 and C151.
-/
namespace Verif.TallSkinny

open Verif.Logistic Verif.PairDist Verif.Blocking Spec

set_option linter.unusedSectionVars false

/-- C150.  `da_syrk` computes the triangle of `alpha op(A) op(A)ᵀ + beta C` and nothing else, for all
storage orders, triangles, transpositions, sizes, numbers of threads, block sizes forced by the
hidden setting and runs of the parallel loop. -/
theorem C150_syrk {K : Type*} [Field K] [LinearOrder K] (row upper trans : Bool) (n k : Nat)
    (alpha : K) (A : Nat → K) (lda : Nat) (beta : K) (C : Nat → K) (ldc threads : Nat)
    (ov : Option Nat) (team : Nat → Nat → List (Nat × Nat)) (hn : 0 < n) (hl : n ≤ ldc)
    (ht : 0 < threads) (ho : ov ≠ some 0)
    (hteam : ∀ nb t, 0 < t → t ≤ nb → Run nb t (team nb t)) :
    ∃ D, daSyrk row upper trans n k alpha A lda beta C ldc threads ov team = some D ∧
      Updated row upper trans n k alpha A lda beta C ldc D := by
  obtain ⟨nb, bs, fin, e, a, b⟩ := syrkPlan_some (threads := threads) (k := k) hn ho
  unfold daSyrk
  by_cases hq : alpha = 0 ∧ beta = 1
  · rw [if_pos hq]
    refine ⟨C, rfl, ⟨fun i j _ _ _ => ?_, fun _ _ => rfl⟩⟩
    rw [hq.1, hq.2, zero_mul, zero_add, one_mul]
  · rw [if_neg hq, e]
    by_cases h1 : nb = 1
    · simp only [if_pos h1]
      exact ⟨_, rfl, Wr.updated (syrkTri_wr row upper trans hl k alpha A lda beta) C⟩
    · simp only [if_neg h1]
      exact ⟨_, rfl, Wr.updated (blocked_wr row upper trans alpha A lda beta hl a (b h1)
        (by omega) (hteam nb (min threads nb) (by omega) (Nat.min_le_right _ _))) C⟩

/-- There are such runs: block `i` on thread `i % t`. -/
theorem run_cyclic (nb t : Nat) (ht : 0 < t) (h : t ≤ nb) :
    Run nb t ((List.range nb).map fun i => (i, i % t)) where
  blocks := by rw [List.map_map]; exact List.Perm.of_eq (List.map_id _)
  threads x hx := by
    obtain ⟨i, -, rfl⟩ := List.mem_map.1 hx
    exact Nat.mod_lt _ ht
  order := List.pairwise_map.2 (List.pairwise_lt_range.imp fun {a b} h (_ : a % t = b % t) => h)
  first := ⟨(0, 0 % t), List.mem_map.2 ⟨0, List.mem_range.2 (by omega), rfl⟩, Nat.zero_mod t⟩

/-- Four samples of two features with blocks of one forced, two threads: `Aᵀ A + 10 C`. -/
example : (daSyrk false true true 2 4 1 (fun c => [1, 2, 3, 4, 5, 6, 7, 8].getD c 0) 4 10
    (fun _ => (1 : ℚ)) 2 2 (some 1) fun nb t => (List.range nb).map fun i => (i, i % t)).map
    (fun D => (D 0, D 1, D 2, D 3)) = some (40, 1, 80, 184) := by decide +kernel

example : syrkPlan 2 2 4 (some 1) = some (4, 1, 1) := by decide +kernel
example : syrkPlan 4 10 20000 none = some (10, 2048, 1568) := by decide +kernel

/-- What `da_qr` does with its blocks. -/
abbrev Blocks (m n nb bs fin : Nat) : Prop :=
  QrBlocks m n nb (start bs) (height nb bs fin) (tauCell n) (tauSize n nb bs fin) (rRow bs)

/-- C151 in full: the blocks of `da_qr` are as its comment demands. -/
def C151_statement : Prop :=
  ∀ threads m n nb bs fin, 0 < threads → 0 < n → n ≤ m →
    qrPlan threads m n none = some (nb, bs, fin) → Blocks m n nb bs fin

/-- C151.  The blocks cover the rows, and they are as demanded except if the common block size is
below the number of columns. -/
theorem C151_extent (threads m n : Nat) (ov : Option Nat) (ht : 0 < threads) (hn : 0 < n)
    (hm : n ≤ m) (ho : ov ≠ some 0) : ∃ nb bs fin, qrPlan threads m n ov = some (nb, bs, fin) ∧
      0 < nb ∧ (nb - 1) * bs + fin = m ∧
      (Blocks m n nb bs fin ↔ nb = 1 ∨ n ≤ bs) := by
  have key : ∀ nb bs fin, 0 < nb → (nb - 1) * bs + fin = m → (n ≤ fin ∨ bs ≤ fin) →
      (nb = 1 → fin = m) →
      (Blocks m n nb bs fin ↔ nb = 1 ∨ n ≤ bs) := by
    intro nb bs fin h1 h2 h3 h4
    constructor
    · intro q
      by_cases h : nb = 1
      · exact Or.inl h
      · have := q.tall 0 h1
        rw [height, if_neg (by omega)] at this
        exact Or.inr this
    · intro h
      have hf : n ≤ fin := by
        rcases h with h | h
        · rw [h4 h]; exact hm
        · omega
      have hh : ∀ i, i < nb → n ≤ height nb bs fin i := fun i hi => by
        unfold height
        by_cases e : i = nb - 1
        · rw [if_pos e]; exact hf
        · rw [if_neg e]; omega
      have hlast : height nb bs fin (nb - 1) = fin := if_pos rfl
      refine ⟨h1, by simp [start], fun i hi => ?_, by rw [hlast]; exact h2, hh, fun i r hi hr _ => ?_,
        fun i r i' r' _ hr _ _ hr' _ e => cell_inj hr hr' e, fun i r hi hr => ⟨rfl, ?_⟩⟩
      · unfold start height
        rw [if_neg (by omega), Nat.add_mul, Nat.one_mul]
      · unfold tauSize tauCell
        rw [Nat.min_eq_right hf]
        have hb : (nb - 1) * n ≤ (nb - 1) * min bs n := by
          by_cases e : nb = 1
          · subst e; simp
          · rw [Nat.min_eq_right (by omega)]
        have : i * n ≤ (nb - 1) * n := Nat.mul_le_mul_right _ (by omega)
        omega
      · have := hh i hi
        omega
  unfold qrPlan
  simp only
  have hm' : 0 < ov.getD 1024 := by
    cases ov with
    | none => simp
    | some v => simp at ho ⊢; omega
  obtain ⟨mx, hx⟩ : ∃ mx, mx = (if ov.isSome = true then 256 else
      min (max (min 256 (3 * (threads - 1) * m / ((3 * threads - 1) * n))) 1) threads) := ⟨_, rfl⟩
  rw [← hx]
  have hx0 : 0 < mx := by
    rw [hx]; split_ifs <;> omega
  by_cases h : mx = 1
  · rw [if_pos h]
    exact ⟨1, m, m, rfl, by omega, by omega, key 1 m m (by omega) (by omega) (by omega) fun _ => rfl⟩
  · rw [if_neg h]
    obtain ⟨nb, bs, fin, e, a, b, c, d, f, g⟩ := scheme (n := m) (mb := ov.getD 1024) (mx := mx)
      (mf := n) (by omega) hm' hx0
    exact ⟨nb, bs, fin, e, a, c, key nb bs fin a c f g⟩

/-- C151 finding.  With four or more threads a matrix of 4072 rows and 1025 columns is divided into
blocks of 1024, 1024 and 2024 rows. -/
theorem C151_short_blocks (threads : Nat) (ht : 4 ≤ threads) :
    qrPlan threads 4072 1025 none = some (3, 1024, 2024) := by
  have h : 3 * (threads - 1) * 4072 / ((3 * threads - 1) * 1025) = 3 := by
    rw [Nat.div_eq_iff (by omega)]
    omega
  unfold qrPlan
  simp only [h]
  rw [show min (max (min 256 3) 1) threads = 3 by omega]
  decide

/-- C151 finding.  Then the reflectors of the last block end two cells behind the array, and the
triangle of the first block is copied in part from the rows of the second. -/
theorem C151_violated : ¬ C151_statement := by
  intro h
  have q := h 4 4072 1025 3 1024 2024 (by omega) (by omega) (by omega)
    (C151_short_blocks 4 (by omega))
  have := q.bound 2 1024 (by omega) (by omega) (by decide)
  revert this
  decide

/-- C151 finding.  In general the last block of too short ones writes `(nb - 1) (n - bs)` cells behind
the array. -/
theorem C151_overflow (n nb bs fin : Nat) (h : bs < n) (hf : 0 < fin) :
    tauCell n (nb - 1) (min fin n - 1) + 1 = tauSize n nb bs fin + (nb - 1) * (n - bs) := by
  unfold tauCell tauSize
  rw [Nat.min_eq_left (Nat.le_of_lt h)]
  obtain ⟨d, rfl⟩ : ∃ d, n = bs + d := ⟨n - bs, by omega⟩
  rw [Nat.add_sub_cancel_left, Nat.mul_add]
  omega

/-- C151.  Up to 1024 columns the blocks are as demanded.  (Missing for the full claim: more columns,
see above.) -/
theorem C151_blocks_partial (threads m n nb bs fin : Nat) (ht : 0 < threads) (hn : 0 < n)
    (hm : n ≤ m) (hc : n ≤ 1024) (h : qrPlan threads m n none = some (nb, bs, fin)) :
    Blocks m n nb bs fin := by
  obtain ⟨nb', bs', fin', e, -, -, f⟩ := C151_extent threads m n none ht hn hm (by simp)
  rw [h] at e
  simp only [Option.some.injEq, Prod.mk.injEq] at e
  obtain ⟨rfl, rfl, rfl⟩ := e
  refine f.2 ?_
  unfold qrPlan at h
  simp only [Option.isSome_none, Bool.false_eq_true, if_false, Option.getD_none] at h
  split_ifs at h with h1
  · simp only [Option.some.injEq, Prod.mk.injEq] at h; omega
  · obtain ⟨_, _, _, e, -, -, -, d, -⟩ := scheme (n := m) (mb := 1024)
      (mx := min (max (min 256 (3 * (threads - 1) * m / ((3 * threads - 1) * n))) 1) threads)
      (mf := n) (by omega) (by omega) (by omega)
    rw [h] at e
    simp only [Option.some.injEq, Prod.mk.injEq] at e
    omega

example : qrPlan 8 10000 1000 none = some (8, 1280, 1040) := by decide +kernel
example : Blocks 10000 1000 8 1280 1040 :=
  C151_blocks_partial 8 10000 1000 8 1280 1040 (by omega) (by omega) (by omega) (by omega)
    (by decide +kernel)

end Verif.TallSkinny
