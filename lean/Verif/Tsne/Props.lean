import Mathlib.Analysis.Complex.ExponentialBounds
import Mathlib.Analysis.SpecialFunctions.Exp
import Verif.Tsne.Deriv

/-
C119–C124: neighbour lists, row probabilities, affinities, gradient, divergence and update of t-SNE.
-/
namespace Verif.Tsne

set_option linter.unusedSectionVars false

open Moments (M Fault rd wr forUp divM ok_bind rd_ok wr_ok)
open Finset (range)

variable {K : Type} [Field K] [LinearOrder K] [IsStrictOrderedRing K]

/-- C119: the lists of the exact method hold, for every sample, every other sample once, in
ascending order, with its distance. -/
theorem C119_exact {n : Nat} (dm : List K) (D : Nat → Nat → K) (hsym : ∀ i j, D i j = D j i)
    (hdm : ∀ i j, i < j → j < n → dm[i * n + j]? = some (D i j)) (ind0 : List Nat) (sq0 : List K)
    (h1 : ind0.length = n * (n - 1)) (h2 : sq0.length = n * (n - 1)) :
    ∃ ind sq, distancesExact n dm (ind0, sq0) = .ok (ind, sq) ∧
      ind.length = n * (n - 1) ∧ sq.length = n * (n - 1) ∧
      (∀ i < n, ∀ t < n - 1, ∃ j < n, j ≠ i ∧ ind[i * (n - 1) + t]? = some j ∧
        sq[i * (n - 1) + t]? = some (D i j) ∧
        ∀ u < t, ∃ j' < j, ind[i * (n - 1) + u]? = some j') ∧
      ∀ i < n, ∀ j < n, j ≠ i → ∃ t < n - 1, ind[i * (n - 1) + t]? = some j := by
  obtain ⟨r, g1, g2, g3, g4⟩ := distancesExact_ok hdm (r := (ind0, sq0)) h1 h2
  refine ⟨r.1, r.2, g1, g2, g3, fun i hi t ht => ?_, fun i hi j hj hne => ?_⟩
  · obtain ⟨a, b⟩ := g4 i hi t ht trivial
    refine ⟨other i t, by unfold other; split <;> omega, other_ne i t, a, ?_, fun u hu => ?_⟩
    · rw [b]
      by_cases h : i ≤ other i t
      · rw [min_eq_left h, max_eq_right h]
      · rw [min_eq_right (by omega), max_eq_left (by omega), hsym]
    · exact ⟨other i u, by unfold other; split <;> split <;> omega, (g4 i hi u (by omega) trivial).1⟩
  · by_cases h : j < i
    · refine ⟨j, by omega, ?_⟩
      rw [(g4 i hi j (by omega) trivial).1]
      unfold other
      rw [if_pos h]
    · refine ⟨j - 1, by omega, ?_⟩
      rw [(g4 i hi (j - 1) (by omega) trivial).1]
      unfold other
      rw [if_neg (by omega), show j - 1 + 1 = j by omega]

/-- Three samples; the lower triangle of the distances is not read. -/
example : distancesExact 3 ([0, 1, 4, 77, 0, 9, 77, 77, 0] : List ℚ)
    (List.replicate 6 0, List.replicate 6 0) =
    .ok ([1, 2, 0, 2, 0, 1], [1, 4, 1, 9, 4, 9]) := by decide +kernel

/-- C119: from the `k + 1` nearest neighbours of every sample the `k` first ones other than the
sample itself are kept, in the order given, with the squares of their distances. -/
theorem C119_nearest {n k : Nat} (nind : List Nat) (ndist : List K) (J : Nat → Nat → Nat)
    (V : Nat → Nat → K) (hJ : ∀ i < n, ∀ p ≤ k, nind[i * (k + 1) + p]? = some (J i p))
    (hV : ∀ i < n, ∀ p ≤ k, ndist[i * (k + 1) + p]? = some (V i p))
    (hne : ∀ i < n, ∀ p ≤ k, ∀ q < p, J i q ≠ J i p) (ind0 : List Nat) (sq0 : List K)
    (h1 : ind0.length = n * k) (h2 : sq0.length = n * k) :
    ∃ ind sq, distancesKnn n k nind ndist (ind0, sq0) = .ok (ind, sq) ∧
      ind.length = n * k ∧ sq.length = n * k ∧
      ∀ i < n, ∃ pos : Nat → Nat, (∀ t < k, ∀ u < t, pos u < pos t) ∧ (∀ t < k, pos t ≤ k) ∧
        (∀ p ≤ k, (∃ t < k, pos t = p) ∨ J i p = i ∨ p = k) ∧
        ∀ t < k, J i (pos t) ≠ i ∧ ind[i * k + t]? = some (J i (pos t)) ∧
          sq[i * k + t]? = some (V i (pos t) * V i (pos t)) := by
  obtain ⟨r, g1, g2, g3, g4⟩ := distancesKnn_ok hJ hV hne (r := (ind0, sq0)) h1 h2
  exact ⟨r.1, r.2, g1, g2, g3, g4⟩

/-- Two samples and two neighbours.  Sample 1 is not among its own neighbours, as when there are
copies of it; the last neighbour is then dropped. -/
example : distancesKnn 2 2 [0, 3, 1, 4, 0, 5] ([0, 2, 3, 0, 1, 7] : List ℚ)
    (List.replicate 4 9, List.replicate 4 9) = .ok ([3, 1, 4, 0], [4, 9, 0, 1]) := by decide +kernel

/-- C120: the probabilities of a row are not negative and sum to 1.  They are proportional to
`exp (-b * distance)` for a bandwidth `b` that gives the target entropy, or is an end of a bracket
of the target that has been halved at every trial but those that found it, or is what doubling or
halving at every trial gives; when all terms together are below the smallest normal number they are
all equal.  Nothing but the row is written. -/
theorem C120_row {exp log : K → K} (hexp : ∀ x, 0 ≤ exp x) {maxIter : Nat} (hm : 0 < maxIter)
    {tol tiny : K} (htiny : 0 < tiny) (sq : List K) (o : Nat) {k : Nat} (hk : 0 < k) (d : Nat → K)
    (hsq : ∀ j < k, sq[o + j]? = some (d j)) (target : K) (prob : List K) (hl : o + k ≤ prob.length) :
    ∃ prob', ∃ p : Nat → K,
      rowProbabilities exp log maxIter tol tiny sq o k target prob = .ok prob' ∧
      prob'.length = prob.length ∧ (∀ j < k, prob'[o + j]? = some (p j)) ∧
      (∀ q, q < o ∨ o + k ≤ q → prob'[q]? = prob[q]?) ∧
      (∀ j < k, 0 ≤ p j) ∧ ∑ j ∈ range k, p j = 1 ∧
      ∃ b, Chosen exp log k d target tol maxIter b ∧
        ((tiny ≤ ∑ j ∈ range k, exp (-b * d j) ∧
            ∀ j < k, p j = exp (-b * d j) / ∑ j ∈ range k, exp (-b * d j)) ∨
          (∑ j ∈ range k, exp (-b * d j)) < tiny ∧ ∀ j < k, p j = 1 / k) := by
  obtain ⟨l', p, h1, h2, h3⟩ := rowProbabilities_ok (log := log) hexp hm htiny hk hsq target hl (tol := tol)
  exact ⟨l', p, h1, h2.len, h2.row, h2.rest, h3⟩

/-- An increasing function in place of the exponential. -/
def testExp (x : ℚ) : ℚ := if 0 ≤ x then 1 else 1 / (1 - x)

/-- Bandwidths 1, 2, 3/2 are tried; the last one is a hit. -/
example : rowProbabilities testExp (fun x => 10 * x) 9 (1 / 10) (1 / 1000) [7, 1, 3, 7] 1 2 (83 / 10)
    [8, 8, 8, 8] = .ok [8, 11 / 16, 5 / 16, 8] := by decide +kernel

/-- All terms vanish. -/
example : rowProbabilities (fun _ => (0 : ℚ)) (fun _ => 0) 3 (1 / 100) (1 / 1000) [1, 3] 0 2 1
    [8, 8] = .ok [1 / 2, 1 / 2] := by decide +kernel

/-- C120: with the exponential and the logarithm themselves, a bandwidth that gives the target
exactly lies between the ends of every bracket. -/
theorem C120_root {k : Nat} (hk : 0 < k) (d : Nat → ℝ) {target tol l h : ℝ} (hlh : l < h)
    (htol : 0 < tol) (hl : Even Real.exp Real.log k d target tol l)
    (hh : Narrow Real.exp Real.log k d target tol h) :
    ∃ b, l < b ∧ b < h ∧ Real.log (∑ j ∈ range k, Real.exp (-b * d j)) +
      b * (∑ j ∈ range k, d j * Real.exp (-b * d j)) / (∑ j ∈ range k, Real.exp (-b * d j)) = target := by
  have hpos : ∀ b, 0 < mass Real.exp k d b := fun b =>
    Finset.sum_pos (fun j _ => Real.exp_pos _) ⟨0, Finset.mem_range.2 hk⟩
  have hc : Continuous fun b => mass Real.exp k d b := by
    unfold mass
    fun_prop
  have hcont : Continuous fun b => entropy Real.exp Real.log k d b := by
    unfold entropy
    refine (hc.log fun b => (hpos b).ne').add (Continuous.div ?_ hc fun b => (hpos b).ne')
    fun_prop
  have hlo : target < entropy Real.exp Real.log k d l := hl.2.1
  have hhi : entropy Real.exp Real.log k d h < target := by
    rcases hh with hh | hh
    · exact absurd (hpos h) (not_lt.2 hh)
    · linarith [hh.2]
  obtain ⟨b, hb, he⟩ := intermediate_value_Ioo' hlh.le hcont.continuousOn ⟨hhi, hlo⟩
  exact ⟨b, hb.1, hb.2, he⟩

/-- Two neighbours at distances 0 and 1: bandwidth 0 is too small and 10 too large for entropy 1/2. -/
example : Even Real.exp Real.log 2 (fun j => (j : ℝ)) (1 / 2) (1 / 10) 0 ∧
    Narrow Real.exp Real.log 2 (fun j => (j : ℝ)) (1 / 2) (1 / 10) 10 := by
  have h2 := Real.log_two_gt_d9
  have m0 : mass Real.exp 2 (fun j => (j : ℝ)) 0 = 2 := by
    simp [mass]
  have e0 : entropy Real.exp Real.log 2 (fun j => (j : ℝ)) 0 = Real.log 2 := by
    unfold entropy; rw [m0]; simp
  refine ⟨⟨by rw [m0]; norm_num, by rw [e0]; linarith, by rw [e0]; linarith⟩, Or.inr ?_⟩
  obtain ⟨x, hx⟩ : ∃ x, x = Real.exp (-10) := ⟨_, rfl⟩
  have hpos : 0 < x := by rw [hx]; exact Real.exp_pos _
  have hsmall : x * 36 ≤ 1 := by
    have h5 : (6 : ℝ) ≤ Real.exp 5 := by have := Real.add_one_le_exp (5 : ℝ); linarith
    have h10 : (36 : ℝ) ≤ Real.exp 10 := by
      rw [show (10 : ℝ) = 5 + 5 by norm_num, Real.exp_add]
      nlinarith
    have hm : x * Real.exp 10 = 1 := by rw [hx, ← Real.exp_add]; norm_num
    nlinarith
  have m1 : mass Real.exp 2 (fun j => (j : ℝ)) 10 = 1 + x := by
    simp [mass, Finset.sum_range_succ, hx]
  have e1 : entropy Real.exp Real.log 2 (fun j => (j : ℝ)) 10 = Real.log (1 + x) + 10 * x / (1 + x) := by
    unfold entropy; rw [m1]; simp [Finset.sum_range_succ, hx]
  have l1 : Real.log (1 + x) ≤ x := by
    have := Real.log_le_sub_one_of_pos (show 0 < 1 + x by linarith); linarith
  have l2 : 10 * x / (1 + x) ≤ 10 * x := div_le_self (by linarith) (by linarith)
  rw [e1]
  exact ⟨by linarith, by linarith⟩

/-- The conditional probability of `b` given `a` that a row of neighbours `J a` and probabilities
`p a` gives. -/
def given (k : Nat) (J : Nat → Nat → Nat) (p : Nat → Nat → K) (a b : Nat) : K :=
  ∑ t ∈ range k, if J a t = b then p a t else 0

/-- C121: the affinities are the matrix with entries `(p(b|a) + p(a|b)) / (2 n)`, in compressed rows
with ascending columns and nothing but entries that are not 0.  It is symmetric, its diagonal is 0,
its entries are not negative and sum to 1.  This holds for every order in which the threads treat the
rows. -/
theorem C121_affinities {exp log : K → K} (hexp : ∀ x, 0 ≤ exp x) {maxIter : Nat} (hm : 0 < maxIter)
    {tol tiny : K} (htiny : 0 < tiny) {sort : List (Nat × K) → List (Nat × K)}
    (hsort : ∀ l, (sort l).Perm l ∧ (sort l).Pairwise fun a b => a.1 ≤ b.1)
    {n k : Nat} (hn : 0 < n) (hk : 0 < k) {order : List Nat} (ho : order.Perm (List.range n))
    (target : K) (ind : List Nat) (sq : List K) (J : Nat → Nat → Nat) (d : Nat → Nat → K)
    (hJ : ∀ i < n, ∀ t < k, ind[i * k + t]? = some (J i t)) (hlt : ∀ i < n, ∀ t < k, J i t < n)
    (hself : ∀ i < n, ∀ t < k, J i t ≠ i)
    (hd : ∀ i < n, ∀ t < k, sq[i * k + t]? = some (d i t)) (prob : List K) (hprob : prob.length = n * k)
    (ptr0 : List Nat) (hptr : ptr0.length = n + 1) :
    ∃ ptr col val, ∃ p : Nat → Nat → K,
      affinities exp log maxIter tol tiny sort order n k target ind sq prob ptr0 = .ok (ptr, col, val) ∧
      (∀ i < n, (∀ t < k, 0 ≤ p i t) ∧ ∑ t ∈ range k, p i t = 1 ∧
        ∃ b, Chosen exp log k (d i) target tol maxIter b ∧
          ((tiny ≤ ∑ j ∈ range k, exp (-b * d i j) ∧
              ∀ j < k, p i j = exp (-b * d i j) / ∑ j ∈ range k, exp (-b * d i j)) ∨
            (∑ j ∈ range k, exp (-b * d i j)) < tiny ∧ ∀ j < k, p i j = 1 / k)) ∧
      ∃ Q : Nat → Nat → K, Csr n Q ptr col val ∧
        (∀ a < n, ∀ b < n, Q a b = (given k J p a b + given k J p b a) / (2 * n) ∧ Q a b = Q b a ∧ 0 ≤ Q a b) ∧
        (∀ a < n, Q a a = 0) ∧ ∑ a ∈ range n, ∑ b ∈ range n, Q a b = 1 := by
  have hrow : ∀ i < n, ∀ l : List K, l.length = prob.length → ∃ l' p,
      rowProbabilities exp log maxIter tol tiny sq (i * k) k target l = .ok l' ∧
      Holds l (i * k) k p l' ∧ (∀ j < k, 0 ≤ p j) ∧ ∑ j ∈ range k, p j = 1 ∧
      ∃ b, Chosen exp log k (d i) target tol maxIter b ∧
        ((tiny ≤ mass exp k (d i) b ∧ ∀ j < k, p j = exp (-b * d i j) / mass exp k (d i) b) ∨
          mass exp k (d i) b < tiny ∧ ∀ j < k, p j = 1 / k) := by
    intro i hi l hl
    refine rowProbabilities_ok hexp hm htiny hk (hd i hi) target ?_
    rw [hl, hprob]
    have : (i + 1) * k ≤ n * k := Nat.mul_le_mul_right k hi
    rw [Nat.add_mul, Nat.one_mul] at this
    exact this
  obtain ⟨pr, h1, h2, h3⟩ := BarnesHut.foldlM_prefix (fun prob i =>
    rowProbabilities exp log maxIter tol tiny sq (i * k) k target prob) (fun pre l =>
      l.length = prob.length ∧ ∀ i ∈ pre, ∃ p : Nat → K, (∀ j < k, l[i * k + j]? = some (p j)) ∧
        (∀ j < k, 0 ≤ p j) ∧ ∑ j ∈ range k, p j = 1 ∧
        ∃ b, Chosen exp log k (d i) target tol maxIter b ∧
        ((tiny ≤ mass exp k (d i) b ∧ ∀ j < k, p j = exp (-b * d i j) / mass exp k (d i) b) ∨
          mass exp k (d i) b < tiny ∧ ∀ j < k, p j = 1 / k)) order prob ⟨rfl, by simp⟩ (by
      intro pre i post l hl hI
      have hi : i < n := List.mem_range.1 (ho.mem_iff.1 (by rw [hl]; simp))
      obtain ⟨l', p, g1, g2, g3⟩ := hrow i hi l hI.1
      refine ⟨l', g1, g2.len.trans hI.1, fun a ha => ?_⟩
      rw [List.mem_append, List.mem_singleton] at ha
      by_cases hai : a = i
      · rw [hai]; exact ⟨p, g2.row, g3⟩
      · obtain ⟨q, q1, q2⟩ := hI.2 a (ha.resolve_right hai)
        refine ⟨q, fun j hj => ?_, q2⟩
        rw [g2.rest, q1 j hj]
        by_contra hc
        exact hai (cell_eq hj (t' := a * k + j - i * k) (r' := i) (by omega) (by omega)).1)
  have hp : ∀ i, ∃ p : Nat → K, i < n → (∀ j < k, pr[i * k + j]? = some (p j)) ∧
      (∀ j < k, 0 ≤ p j) ∧ ∑ j ∈ range k, p j = 1 ∧
      ∃ b, Chosen exp log k (d i) target tol maxIter b ∧
        ((tiny ≤ mass exp k (d i) b ∧ ∀ j < k, p j = exp (-b * d i j) / mass exp k (d i) b) ∨
          mass exp k (d i) b < tiny ∧ ∀ j < k, p j = 1 / k) := by
    intro i
    by_cases hi : i < n
    · obtain ⟨p, hp⟩ := h3 i (ho.mem_iff.2 (List.mem_range.2 hi))
      exact ⟨p, fun _ => hp⟩
    · exact ⟨fun _ => 0, fun h => absurd h hi⟩
  choose p hp using hp
  obtain ⟨ptr, col, val, s1, s2⟩ := symmetrize_ok hsort hn hJ hlt (fun i hi t ht => (hp i hi).1 t ht)
    (fun i hi t ht => (hp i hi).2.1 t ht) hptr (T := ∑ a ∈ range n, ∑ b ∈ range n, joint n k J p a b) rfl
  have hn0 : (n : K) ≠ 0 := Nat.cast_ne_zero.2 (by omega)
  have hT : ∑ a ∈ range n, ∑ b ∈ range n, joint n k J p a b = 1 := by
    rw [joint_total hlt, Finset.sum_congr rfl fun i hi => (hp i (Finset.mem_range.1 hi)).2.2.1,
      Finset.sum_const, Finset.card_range, nsmul_eq_mul, mul_one]
    push_cast
    field_simp
  rw [hT, if_pos one_pos] at s2
  simp only [div_one, mul_one] at s2
  refine ⟨ptr, col, val, p, ?_, fun i hi => (hp i hi).2, joint n k J p, s2, fun a ha b hb => ⟨?_, ?_, ?_⟩, ?_, hT⟩
  · unfold affinities
    rw [h1, ok_bind, s1]
  · unfold joint given
    push_cast
    rfl
  · unfold joint
    rw [add_comm]
  · exact joint_nonneg (fun i hi t ht => (hp i hi).2.1 t ht) ha hb
  · intro a ha
    unfold joint
    have : ∑ t ∈ range k, (if J a t = a then p a t else 0) = 0 :=
      Finset.sum_eq_zero fun t ht => if_neg (hself a ha t (Finset.mem_range.1 ht))
    rw [this]
    simp

/-- Three samples with one neighbour each. -/
example : affinities testExp (fun _ => 0) 3 (1 / 100) (1 / 1000) (fun l => l.insertionSort fun a b => a.1 ≤ b.1)
    [2, 0, 1] 3 1 (1 / 2) [1, 0, 0] ([1, 1, 3] : List ℚ) [8, 8, 8] [0, 0, 0, 0] =
    .ok ([0, 2, 3, 4], [1, 2, 0, 0], [1 / 3, 1 / 6, 1 / 3, 1 / 6]) := by decide +kernel

/-- C122: the kernels that use vector registers give what the plain loop gives, for all row lengths,
register widths and orders of the horizontal sums. -/
theorem C122_kernels {n D : Nat} (y : Nat → Nat → K) (emb : List K)
    (he : ∀ i < n, ∀ d < D, emb[i * D + d]? = some (y i d)) (col : List Nat) (val : List K)
    (J : Nat → Nat) (P : Nat → K) {start stop : Nat} (hle : start ≤ stop)
    (hp : ∀ p, start ≤ p → p < stop → col[p]? = some (J p) ∧ J p < n ∧ val[p]? = some (P p))
    (a : Nat → K) (ex : K) :
    ∃ g, scalarKernel D a col val emb ex start stop = .ok g ∧
      (∀ d < D, g d = ∑ u ∈ range (stop - start), P (start + u) * ex *
        (1 / (1 + ∑ c ∈ range D, (a c - y (J (start + u)) c) * (a c - y (J (start + u)) c))) *
        (a d - y (J (start + u)) d)) ∧
      (∀ W, D ≤ W → ∃ g', ktKernel W D a col val emb ex start stop = .ok g' ∧ ∀ d < D, g' d = g d) ∧
      (D = 2 → ∀ m, ∃ g', multiKernel (2 ^ m) (hreduce m) a col val emb ex start stop = .ok g' ∧
        ∀ d < D, g' d = g d) ∧
      (D = 2 → ∀ N, 0 < N → ∃ g', multiKernel N (hreduceSeq N) a col val emb ex start stop = .ok g' ∧
        ∀ d < D, g' d = g d) := by
  have hp' : Part n col val J P start stop :=
    ⟨fun p h1 h2 => (hp p h1 h2).1, fun p h1 h2 => (hp p h1 h2).2.1, fun p h1 h2 => (hp p h1 h2).2.2⟩
  obtain ⟨g, g1, g2⟩ := scalarKernel_ok he hp' a ex
  refine ⟨g, g1, fun d hd => g2 d hd, fun W hW => ?_, fun hD m => ?_, fun hD N hN => ?_⟩
  · obtain ⟨g', h1, h2⟩ := ktKernel_ok hW he hp' a ex
    exact ⟨g', h1, fun d hd => (h2 d hd).trans (g2 d hd).symm⟩
  · subst hD
    obtain ⟨g', h1, h2⟩ := multiKernel_ok (Nat.two_pow_pos m) (fun v d _ => hreduce_ok m v d) he hle hp' a ex
    exact ⟨g', h1, fun d hd => (h2 d hd).trans (g2 d hd).symm⟩
  · subst hD
    obtain ⟨g', h1, h2⟩ := multiKernel_ok hN (fun v d _ => hreduceSeq_ok N v d) he hle hp' a ex
    exact ⟨g', h1, fun d hd => (h2 d hd).trans (g2 d hd).symm⟩

/-- Three neighbours of a point, in a group of two and a rest of one. -/
example : ((multiKernel 2 (hreduce 1) (fun d => if d = 0 then 1 else 2) [0, 1, 2] [1 / 2, 1 / 4, 1 / 4]
    [0, 0, 1, 1, 3, 2] 2 0 3 : M (Nat → ℚ)).map fun g => (g 0, g 1)) =
    .ok (1 / 6 - 1 / 5, 1 / 3 + 1 / 4) := by decide +kernel

/-- C122: the gradient of the exact method is
`4 Σ_j (ex * p_ij - q_ij / Z) q_ij (y_i - y_j)` with `q_ij = 1 / (1 + |y_i - y_j|²)` and `Z` the sum of
all `q_kl` with `k ≠ l` — for every order of the threads, from the compressed matrix to the array. -/
theorem C122_exact {n D : Nat} (hn : 2 ≤ n) (y : Nat → Nat → K) (emb : List K)
    (he : ∀ i < n, ∀ d < D, emb[i * D + d]? = some (y i d)) {Q : Nat → Nat → K} (ptr col : List Nat)
    (val : List K) (hQ : Csr n Q ptr col val) {order1 order2 : List Nat}
    (ho1 : order1.Perm (List.range n)) (ho2 : order2.Perm (List.range n)) (ex : K)
    (work grad : List K) (hw : n ≤ work.length) (hg : grad.length = n * D) :
    ∃ P Z work' grad', denseP n ptr col val = .ok P ∧ exactSumQ order1 n D emb work = .ok (Z, work') ∧
      exactGradient order2 n D emb P ex Z grad = .ok grad' ∧
      Z = ∑ i ∈ range n, ∑ j ∈ (range n).erase i,
        1 / (1 + ∑ c ∈ range D, (y i c - y j c) * (y i c - y j c)) ∧ 0 < Z ∧
      grad'.length = n * D ∧
      ∀ i < n, ∀ d < D, grad'[i * D + d]? = some (4 * ∑ j ∈ range n,
        (Q i j * ex - 1 / (1 + ∑ c ∈ range D, (y i c - y j c) * (y i c - y j c)) / Z) *
          (1 / (1 + ∑ c ∈ range D, (y i c - y j c) * (y i c - y j c))) * (y i d - y j d)) := by
  obtain ⟨P, p1, p2, p3⟩ := denseP_ok hQ
  obtain ⟨w, w1, w2⟩ := exactSumQ_ok ho1 he hw
  have hZ := zsum_pos hn D y
  rw [if_neg (not_le.2 hZ)] at w1
  obtain ⟨g, g1, g2, g3⟩ := exactGradient_ok ho2 he p3 ex hZ.ne' hg
  exact ⟨P, zsum n D y, w, g, p1, w1, g1, rfl, hZ, g2, g3⟩

/-- Two points at distance 1; one attracts the other less than it repels it. -/
example : (do
    let P ← denseP 2 [0, 1, 2] [1, 0] ([1 / 4, 1 / 4] : List ℚ)
    let r ← exactSumQ [1, 0] 2 1 [0, 1] [0, 0]
    let g ← exactGradient [1, 0] 2 1 [0, 1] P 1 r.1 [8, 8]
    .ok (r.1, g) : M (ℚ × List ℚ)) = .ok (1, [1 / 2, - 1 / 2]) := by decide +kernel

/-- C122: the gradient that is put together from the attraction and given repulsive forces, for all
kernels, and it is that of the exact method when the forces and the normalisation are exact. -/
theorem C122_parts {n D : Nat} (y : Nat → Nat → K) (emb : List K)
    (he : ∀ i < n, ∀ d < D, emb[i * D + d]? = some (y i d)) {Q : Nat → Nat → K} (ptr col : List Nat)
    (val : List K) (hQ : Csr n Q ptr col val) {order : List Nat} (ho : order.Perm (List.range n))
    (ex : K) (rep : List K) (R : Nat → Nat → K) (hR : ∀ i < n, ∀ d < D, rep[i * D + d]? = some (R i d))
    {Z : K} (hZ : Z ≠ 0) (grad : List K) (hg : grad.length = n * D) (kernel : Kernel K)
    (hker : kernel = scalarKernel D ∨ (∃ W, D ≤ W ∧ kernel = ktKernel W D) ∨
      D = 2 ∧ ((∃ m, kernel = multiKernel (2 ^ m) (hreduce m)) ∨
        ∃ N, 0 < N ∧ kernel = multiKernel N (hreduceSeq N))) :
    ∃ g, attractiveForces kernel order D ex ptr col val emb rep Z grad = .ok g ∧ g.length = n * D ∧
      ∀ i < n, ∀ d < D, ∃ v, g[i * D + d]? = some v ∧
        v = 4 * ((∑ j ∈ range n, Q i j * ex *
          (1 / (1 + ∑ c ∈ range D, (y i c - y j c) * (y i c - y j c))) * (y i d - y j d)) - R i d / Z) ∧
        (R i d = ∑ j ∈ range n, (1 / (1 + ∑ c ∈ range D, (y i c - y j c) * (y i c - y j c))) ^ 2 *
            (y i d - y j d) →
          v = 4 * ∑ j ∈ range n,
            (Q i j * ex - 1 / (1 + ∑ c ∈ range D, (y i c - y j c) * (y i c - y j c)) / Z) *
            (1 / (1 + ∑ c ∈ range D, (y i c - y j c) * (y i c - y j c))) * (y i d - y j d)) := by
  have hk : ∀ col val J P s e a ex, s ≤ e → Part n col val J P s e →
      ∃ g, kernel a col val emb ex s e = .ok g ∧ ∀ d < D, g d = pull D y a J P ex s (e - s) d := by
    intro col val J P s e a ex hse hp
    rcases hker with h | ⟨W, hW, h⟩ | ⟨hD, ⟨m, h⟩ | ⟨N, hN, h⟩⟩
    · rw [h]; exact scalarKernel_ok he hp a ex
    · rw [h]; exact ktKernel_ok hW he hp a ex
    · subst hD
      rw [h]; exact multiKernel_ok (Nat.two_pow_pos m) (fun v d _ => hreduce_ok m v d) he hse hp a ex
    · subst hD
      rw [h]; exact multiKernel_ok hN (fun v d _ => hreduceSeq_ok N v d) he hse hp a ex
  obtain ⟨g, g1, g2, g3⟩ := attractiveForces_ok hk ho he hQ ex hR hZ hg
  refine ⟨g, g1, g2, fun i hi d hd => ⟨_, g3 i hi d hd, rfl, fun hRe => ?_⟩⟩
  rw [hRe, Finset.sum_div, ← Finset.sum_sub_distrib]
  congr 1
  refine Finset.sum_congr rfl fun j _ => ?_
  unfold qk sqd
  ring

/-- The two points of before, with the exact forces. -/
example : attractiveForces (ktKernel 2 1) [1, 0] 1 1 [0, 1, 2] [1, 0] ([1 / 4, 1 / 4] : List ℚ) [0, 1]
    [-1 / 4, 1 / 4] 1 [8, 8] = .ok [1 / 2, -1 / 2] := by decide +kernel

/-- C123: the divergence that is reported is `Σ p log (p / q)` over the entries of the matrix, with
`p` and `q` not below `eps`, whether the normalisation is passed on or computed. -/
theorem C123_value {log : K → K} {n D : Nat} (hn : 2 ≤ n) (y : Nat → Nat → K) (emb : List K)
    (he : ∀ i < n, ∀ d < D, emb[i * D + d]? = some (y i d)) {Q : Nat → Nat → K} (ptr col : List Nat)
    (val : List K) (hQ : Csr n Q ptr col val) {order1 order2 : List Nat}
    (ho1 : order1.Perm (List.range n)) (ho2 : order2.Perm (List.range n)) {eps : K} (heps : 0 < eps)
    (work : List K) (Z given : K) (hgiven : given ≤ 0 ∨ given = Z)
    (hZ : Z = ∑ i ∈ range n, ∑ j ∈ (range n).erase i,
      1 / (1 + ∑ c ∈ range D, (y i c - y j c) * (y i c - y j c))) :
    klDivergence log order1 order2 n D eps ptr col val emb given work =
      .ok (∑ i ∈ range n, ∑ j ∈ (range n).filter (fun j => Q i j ≠ 0), max (Q i j) eps *
        log (max (Q i j) eps /
          max (1 / (1 + ∑ c ∈ range D, (y i c - y j c) * (y i c - y j c)) / Z) eps)) := by
  have hz : Z = zsum n D y := hZ
  have hpos := zsum_pos hn D y
  rw [klDivergence_ok ho1 ho2 he hQ heps]
  have hw : (if given ≤ 0 then (if zsum n D y ≤ 0 then 1 else zsum n D y) else given) = Z := by
    rcases hgiven with h | h
    · rw [if_pos h, if_neg (not_le.2 hpos), hz]
    · by_cases h' : given ≤ 0
      · rw [if_pos h', if_neg (not_le.2 hpos), hz]
      · rw [if_neg h', h]
  rw [hw]
  rfl

/-- The two points of before; the number itself in place of its logarithm. -/
example : klDivergence (fun x : ℚ => x) [1, 0] [0, 1] 2 1 (1 / 1000) [0, 1, 2] [1, 0] [1 / 4, 3 / 4]
    [0, 1] (-1) [] = .ok (1 / 8 + 9 / 8) := by decide +kernel

/-- C123: the gradient of the exact method without exaggeration is the derivative of the divergence
of the affinities from the embedding, with respect to every coordinate of every point; the value
that is reported is that divergence as long as neither lower bound takes effect. -/
theorem C123_derivative {n D : Nat} (hn : 2 ≤ n) (y Q : Nat → Nat → ℝ) (hsym : ∀ a b, Q a b = Q b a)
    (hsum : ∑ a ∈ range n, ∑ b ∈ range n, Q a b = 1) (q : (Nat → Nat → ℝ) → Nat → Nat → ℝ)
    (hq : ∀ y i j, q y i j = 1 / (1 + ∑ c ∈ range D, (y i c - y j c) * (y i c - y j c)))
    (Z : (Nat → Nat → ℝ) → ℝ) (hZ : ∀ y, Z y = ∑ i ∈ range n, ∑ j ∈ (range n).erase i, q y i j)
    (kl : (Nat → Nat → ℝ) → ℝ)
    (hkl : ∀ y, kl y = ∑ i ∈ range n, ∑ j ∈ (range n).filter (fun j => Q i j ≠ 0),
      Q i j * Real.log (Q i j / (q y i j / Z y))) :
    (∀ i < n, ∀ d < D, HasDerivAt
      (fun t => kl fun a b => if a = i ∧ b = d then t else y a b)
      (4 * ∑ j ∈ range n, (Q i j * 1 - q y i j / Z y) * q y i j * (y i d - y j d)) (y i d)) ∧
    ∀ eps, (∀ i < n, ∀ j < n, Q i j ≠ 0 → eps ≤ Q i j ∧ eps ≤ q y i j / Z y) →
      (∑ i ∈ range n, ∑ j ∈ (range n).filter (fun j => Q i j ≠ 0), max (Q i j) eps *
        Real.log (max (Q i j) eps / max (q y i j / Z y) eps)) = kl y := by
  have e1 : ∀ y i j, q y i j = qk D (y i) (y j) := hq
  have e2 : ∀ y, Z y = zsum n D y := fun y => by
    rw [hZ]; unfold zsum; simp only [e1]
  have e3 : kl = fun y => divergence n D y Q := by
    funext y
    rw [hkl]; unfold divergence; simp only [e1, e2]
  refine ⟨fun i hi d hd => ?_, fun eps h => ?_⟩
  · have h := divergence_deriv y Q hn hsym hsum hi hd
    simp only [e1, e2, e3]
    exact h
  · simp only [e1, e2, e3] at h ⊢
    exact klOf_eq y Q h

/-- The conditions are met by two points with affinities of one half. -/
example : (∀ a b : Nat, (if a ≠ b ∧ a < 2 ∧ b < 2 then (1 / 2 : ℝ) else 0) =
      if b ≠ a ∧ b < 2 ∧ a < 2 then 1 / 2 else 0) ∧
    ∑ a ∈ range 2, ∑ b ∈ range 2, (if a ≠ b ∧ a < 2 ∧ b < 2 then (1 / 2 : ℝ) else 0) = 1 := by
  constructor
  · intro a b
    by_cases h : a ≠ b ∧ a < 2 ∧ b < 2
    · rw [if_pos h, if_pos ⟨h.1.symm, h.2.2, h.2.1⟩]
    · rw [if_neg h, if_neg fun h' => h ⟨h'.1.symm, h'.2.2, h'.2.1⟩]
  · simp [Finset.sum_range_succ]
    norm_num

/-- C124: one step of the descent.  A gain grows by a fifth when the last change and the gradient
have opposite signs and shrinks by a fifth of itself otherwise, and is never below a hundredth; the
change is the momentum times the last one minus rate times gain times gradient and is added to the
embedding.  Every entry is treated once, in any order. -/
theorem C124_update {m : Nat} {order : List Nat} (ho : order.Perm (List.range m)) (mom rate : K)
    (grad iY gains emb : List K) (hG : grad.length = m) (hY : iY.length = m) (hA : gains.length = m)
    (hE : emb.length = m) :
    ∃ iY' gains' emb', updateEmbedding order mom rate grad (iY, gains, emb) = .ok (iY', gains', emb') ∧
      iY'.length = m ∧ gains'.length = m ∧ emb'.length = m ∧ ∀ i, ∀ hi : i < m, ∃ a v,
        a = max (if iY[i] * grad[i] < 0 then gains[i] + 1 / 5 else gains[i] * (4 / 5)) (1 / 100) ∧
        1 / 100 ≤ a ∧ v = mom * iY[i] - rate * a * grad[i] ∧
        gains'[i]? = some a ∧ iY'[i]? = some v ∧ emb'[i]? = some (emb[i] + v) := by
  have hget : ∀ {l : List K}, l.length = m → ∀ i < m, l[i]? = some (l.getD i 0) := by
    intro l hl i hi
    rw [List.getD, List.getElem?_eq_getElem (by omega)]; rfl
  obtain ⟨a, b, c, h1, h2, h3, h4, h5⟩ := updateEmbedding_ok ho mom rate (hget hG) hY (hget hY) hA
    (hget hA) hE (hget hE)
  refine ⟨a, b, c, h1, h2, h3, h4, fun i hi => ?_⟩
  obtain ⟨g, v, k1, k2, k3, k4, k5⟩ := h5 i hi
  have e : ∀ {l : List K} (hl : l.length = m), l.getD i 0 = l[i] := by
    intro l hl
    rw [List.getD, List.getElem?_eq_getElem (by omega)]; rfl
  rw [e hG, e hY, e hA] at k1
  rw [e hG, e hY] at k2
  rw [e hE] at k5
  exact ⟨g, v, k1, by rw [k1]; exact le_max_right _ _, k2, k3, k4, k5⟩

/-- Opposite signs, equal signs, and a gain at the lower bound. -/
example : updateEmbedding [2, 0, 1] (1 / 2) 10 ([1, 2, 3] : List ℚ) ([-1, 1, 0], [1, 1, 1 / 100], [0, 0, 0]) =
    .ok ([-25 / 2, -31 / 2, -3 / 10], [6 / 5, 4 / 5, 1 / 100], [-25 / 2, -31 / 2, -3 / 10]) := by
  decide +kernel

end Verif.Tsne
