import Verif.Tsne.Row
import Verif.Tsne.Grad

/-
The kernels for the attractive forces.
-/
namespace Verif.Tsne

set_option linter.unusedSectionVars false

open Moments (M Fault rd wr forUp divM ok_bind rd_ok wr_ok forUp_zero forUp_succ)
open Finset (range)

variable {K : Type} [Field K] [LinearOrder K] [IsStrictOrderedRing K]

/-- The squared distance of two points. -/
def sqd (D : Nat) (a b : Nat → K) : K := ∑ d ∈ range D, (a d - b d) * (a d - b d)

/-- The kernel of the embedding. -/
def qk (D : Nat) (a b : Nat → K) : K := 1 / (1 + sqd D a b)

theorem sqd_nonneg (D : Nat) (a b : Nat → K) : 0 ≤ sqd D a b :=
  Finset.sum_nonneg fun d _ => mul_self_nonneg _

theorem sqd_congr {D : Nat} {a a' b b' : Nat → K} (h : ∀ d < D, a d = a' d) (h' : ∀ d < D, b d = b' d) :
    sqd D a b = sqd D a' b' :=
  Finset.sum_congr rfl fun d hd => by
    rw [h d (Finset.mem_range.1 hd), h' d (Finset.mem_range.1 hd)]

theorem sqd_self (D : Nat) (a : Nat → K) : sqd D a a = 0 := by simp [sqd]

theorem sqd_comm (D : Nat) (a b : Nat → K) : sqd D a b = sqd D b a :=
  Finset.sum_congr rfl fun d _ => by ring

theorem one_add_ne (D : Nat) (a b : Nat → K) : 1 + sqd D a b ≠ 0 := by
  have := sqd_nonneg D a b
  linarith

/-- The embedding. -/
def Emb (n D : Nat) (y : Nat → Nat → K) (emb : List K) : Prop :=
  ∀ i < n, ∀ d < D, emb[i * D + d]? = some (y i d)

variable {n D : Nat} {y : Nat → Nat → K} {emb : List K}

theorem put_apply (f : Nat → K) (i : Nat) (v : K) (j : Nat) :
    put f i v j = if j = i then v else f j := rfl

theorem point_ok (he : Emb n D y emb) {j : Nat} (hj : j < n) :
    ∃ f, point D emb (j * D) = .ok f ∧ ∀ d < D, f d = y j d := by
  unfold point
  have key := forUp_inv D (fun d l => do
    let x ← rd emb (j * D + d)
    .ok (l ++ [x])) ([] : List K) (fun m l => l.length = m ∧ ∀ d < m, l[d]? = some (y j d))
    ⟨rfl, by simp⟩ ?_
  · obtain ⟨l, h1, h2, h3⟩ := key
    rw [h1, ok_bind]
    exact ⟨_, rfl, fun d hd => by rw [List.getD, h3 d hd]; rfl⟩
  · intro d hd l hI
    refine ⟨l ++ [y j d], by rw [rd_ok (he j hj d hd), ok_bind], by rw [List.length_append, hI.1]; rfl, ?_⟩
    intro a ha
    by_cases h : a < d
    · rw [List.getElem?_append_left (by rw [hI.1]; exact h)]; exact hI.2 a h
    · rw [List.getElem?_append_right (by omega), show a - l.length = 0 by omega,
        show a = d by omega]
      rfl

/-- A loop over the components that changes one component of a function at a time. -/
theorem put_loop (D : Nat) (f : Nat → (Nat → K) → M (Nat → K)) (v : Nat → K) (g : Nat → K)
    (hf : ∀ d < D, ∀ g', g' d = g d → f d g' = .ok (put g' d (v d))) :
    ∃ g', forUp D f g = .ok g' ∧ (∀ d < D, g' d = v d) ∧ ∀ d, D ≤ d → g' d = g d := by
  have key := forUp_inv D f g (fun m g' => (∀ d < m, g' d = v d) ∧ ∀ d, m ≤ d → g' d = g d)
    ⟨by simp, fun _ _ => rfl⟩ ?_
  · exact key
  · intro d hd g' hI
    refine ⟨put g' d (v d), hf d hd g' (hI.2 d (Nat.le_refl d)), fun a ha => ?_, fun a ha => ?_⟩
    · rw [put_apply]
      by_cases h : a = d
      · rw [if_pos h, h]
      · rw [if_neg h]; exact hI.1 a (by omega)
    · rw [put_apply, if_neg (by omega)]; exact hI.2 a (by omega)

/-- The attraction that a sample with position `a` feels from the entries from `start` on. -/
def pull (D : Nat) (y : Nat → Nat → K) (a : Nat → K) (J : Nat → Nat) (P : Nat → K) (ex : K)
    (start m d : Nat) : K :=
  ∑ u ∈ range m, P (start + u) * ex * qk D a (y (J (start + u))) * (a d - y (J (start + u)) d)

theorem pull_succ (D : Nat) (y : Nat → Nat → K) (a : Nat → K) (J : Nat → Nat) (P : Nat → K) (ex : K)
    (start m d : Nat) : pull D y a J P ex start (m + 1) d = pull D y a J P ex start m d +
      P (start + m) * ex * qk D a (y (J (start + m))) * (a d - y (J (start + m)) d) :=
  Finset.sum_range_succ _ _

theorem pull_add (D : Nat) (y : Nat → Nat → K) (a : Nat → K) (J : Nat → Nat) (P : Nat → K) (ex : K)
    (start m m' d : Nat) : pull D y a J P ex start (m + m') d = pull D y a J P ex start m d +
      pull D y a J P ex (start + m) m' d := by
  unfold pull
  rw [Finset.sum_range_add]
  simp only [Nat.add_assoc]

/-- Part of a row of the matrix. -/
structure Part (n : Nat) (col : List Nat) (val : List K) (J : Nat → Nat) (P : Nat → K) (start stop : Nat) :
    Prop where
  col : ∀ p, start ≤ p → p < stop → col[p]? = some (J p)
  lt : ∀ p, start ≤ p → p < stop → J p < n
  val : ∀ p, start ≤ p → p < stop → val[p]? = some (P p)

variable {col : List Nat} {val : List K} {J : Nat → Nat} {P : Nat → K} {start stop : Nat}

theorem scalarKernel_ok (he : Emb n D y emb) (hp : Part n col val J P start stop) (a : Nat → K) (ex : K) :
    ∃ g, scalarKernel D a col val emb ex start stop = .ok g ∧
      ∀ d < D, g d = pull D y a J P ex start (stop - start) d := by
  unfold scalarKernel
  have key := forUp_inv (stop - start) (fun u g => do
    let j ← rd col (start + u)
    let p ← rd val (start + u)
    let yj ← point D emb (j * D)
    let r ← forUp D (fun d (r : (Nat → K) × K) =>
      let x := a d - yj d
      .ok (put r.1 d x, r.2 + x * x)) ((fun _ => 0), 0)
    let q ← divM 1 (1 + r.2)
    forUp D (fun d g => .ok (put g d (g d + p * ex * q * r.1 d))) g) (fun _ => 0)
    (fun m g => ∀ d < D, g d = pull D y a J P ex start m d) (fun d _ => by simp [pull]) ?_
  · exact key
  · intro u hu g hI
    have hj := hp.lt (start + u) (by omega) (by omega)
    obtain ⟨f, f1, f2⟩ := point_ok he hj
    rw [rd_ok (hp.col (start + u) (by omega) (by omega)), ok_bind,
      rd_ok (hp.val (start + u) (by omega) (by omega)), ok_bind, f1, ok_bind]
    have key2 := forUp_inv D (fun d (r : (Nat → K) × K) =>
      let x := a d - f d
      .ok (put r.1 d x, r.2 + x * x)) ((fun _ => 0), 0) (fun m r => (∀ d < m, r.1 d = a d - y (J (start + u)) d) ∧
        r.2 = sqd m a (y (J (start + u)))) ⟨by simp, by simp [sqd]⟩ ?_
    · obtain ⟨r, r1, r2, r3⟩ := key2
      rw [r1, ok_bind, r3, divM_ok (one_add_ne D _ _), ok_bind]
      obtain ⟨g', g1, g2, _⟩ := put_loop D (fun d g => .ok (put g d (g d +
          P (start + u) * ex * (1 / (1 + sqd D a (y (J (start + u))))) * r.1 d)))
        (fun d => g d + P (start + u) * ex * (1 / (1 + sqd D a (y (J (start + u))))) * r.1 d) g
        (fun d _ g' hg => by rw [hg])
      refine ⟨g', g1, fun d hd => ?_⟩
      rw [g2 d hd, hI d hd, r2 d hd, pull_succ]
      rfl
    · intro d hd r hr
      refine ⟨_, rfl, fun b hb => ?_, ?_⟩
      · simp only
        rw [put_apply]
        by_cases h : b = d
        · rw [if_pos h, h, f2 d hd]
        · rw [if_neg h]; exact hr.1 b (by omega)
      · simp only
        rw [hr.2, f2 d hd]
        exact (Finset.sum_range_succ _ _).symm

theorem hsum_eq (W : Nat) (v : Nat → K) : hsum W v = ∑ l ∈ range W, v l := by
  unfold hsum
  induction W with
  | zero => rfl
  | succ W ih => rw [List.range_succ, List.foldl_append, ih, Finset.sum_range_succ]; rfl

theorem ktKernel_ok {W : Nat} (hW : D ≤ W) (he : Emb n D y emb) (hp : Part n col val J P start stop)
    (a : Nat → K) (ex : K) :
    ∃ g, ktKernel W D a col val emb ex start stop = .ok g ∧
      ∀ d < D, g d = pull D y a J P ex start (stop - start) d := by
  unfold ktKernel
  simp only
  have hload : ∀ (f : Nat → K) l, l < D → (if D = W then f l else if l < D then f l else 0) = f l := by
    intro f l hl
    by_cases h : D = W
    · rw [if_pos h]
    · rw [if_neg h, if_pos hl]
  have key := forUp_inv (stop - start) (fun u vg => do
    let j ← rd col (start + u)
    let yj ← point D emb (j * D)
    let p ← rd val (start + u)
    let q ← divM 1 (1 + hsum W fun l =>
      ((if D = W then a l else if l < D then a l else 0) -
        (if D = W then yj l else if l < D then yj l else 0)) *
      ((if D = W then a l else if l < D then a l else 0) -
        (if D = W then yj l else if l < D then yj l else 0)))
    .ok fun l => p * ex * q * ((if D = W then a l else if l < D then a l else 0) -
      (if D = W then yj l else if l < D then yj l else 0)) + vg l) (fun _ => 0)
    (fun m g => ∀ d < D, g d = pull D y a J P ex start m d) (fun d _ => by simp [pull]) ?_
  · exact key
  · intro u hu g hI
    have hj := hp.lt (start + u) (by omega) (by omega)
    obtain ⟨f, f1, f2⟩ := point_ok he hj
    rw [rd_ok (hp.col (start + u) (by omega) (by omega)), ok_bind, f1, ok_bind,
      rd_ok (hp.val (start + u) (by omega) (by omega)), ok_bind]
    have hs : hsum W (fun l =>
      ((if D = W then a l else if l < D then a l else 0) -
        (if D = W then f l else if l < D then f l else 0)) *
      ((if D = W then a l else if l < D then a l else 0) -
        (if D = W then f l else if l < D then f l else 0))) = sqd D a (y (J (start + u))) := by
      rw [hsum_eq, show W = D + (W - D) by omega, Finset.sum_range_add]
      rw [Finset.sum_eq_zero (s := range (W - D)), add_zero]
      · refine Finset.sum_congr rfl fun l hl => ?_
        have hl' := Finset.mem_range.1 hl
        rw [show D + (W - D) = W by omega, hload a l hl', hload f l hl', f2 l hl']
      · intro l hl
        have hl' := Finset.mem_range.1 hl
        rw [if_neg (by omega), if_neg (by omega), if_neg (by omega), if_neg (by omega)]
        ring
    rw [hs, divM_ok (one_add_ne D _ _), ok_bind]
    refine ⟨_, rfl, fun d hd => ?_⟩
    rw [hload a d hd, hload f d hd, f2 d hd, hI d hd, pull_succ, add_comm]
    rfl

/-- The sum of the lanes of component `d`. -/
def laneSum (N : Nat) (v : Nat → K) (d : Nat) : K := ∑ i ∈ range N, v (2 * i + d)

theorem hreduce_ok (m : Nat) (v : Nat → K) (d : Nat) : hreduce m v d = laneSum (2 ^ m) v d := by
  induction m generalizing v with
  | zero => simp [hreduce, laneSum]
  | succ m ih =>
    unfold hreduce
    rw [ih]
    unfold laneSum
    rw [Finset.sum_add_distrib, pow_succ, mul_two, Finset.sum_range_add]
    congr 1
    refine Finset.sum_congr rfl fun i _ => ?_
    congr 1
    ring

theorem hreduceSeq_ok (N : Nat) (v : Nat → K) (d : Nat) : hreduceSeq N v d = laneSum N v d := by
  unfold hreduceSeq laneSum
  induction N with
  | zero => rfl
  | succ N ih => rw [List.range_succ, List.foldl_append, ih, Finset.sum_range_succ]; rfl

theorem sqd_two (a b : Nat → K) :
    sqd 2 a b = (a 0 - b 0) * (a 0 - b 0) + (a 1 - b 1) * (a 1 - b 1) := by
  unfold sqd
  rw [Finset.sum_range_succ, Finset.sum_range_one]

theorem multiGroups_ok {N : Nat} (he : Emb n 2 y emb) (a : Nat → K) (ex : K) (m : Nat)
    (hp : Part n col val J P start (start + m * N)) :
    ∃ vg, multiGroups N a col val emb ex start m = .ok vg ∧
      ∀ d < 2, laneSum N vg d = pull 2 y a J P ex start (m * N) d := by
  unfold multiGroups
  have key := forUp_inv m (fun g vg => do
    let idx := start + g * N
    let r ← forUp N (fun k (r : (Nat → K) × (Nat → K)) => do
      let j ← rd col (idx + k)
      let x ← rd emb (j * 2)
      let y ← rd emb (j * 2 + 1)
      let v ← rd val (idx + k)
      let p := v * ex
      .ok (put (put r.1 (2 * k) x) (2 * k + 1) y, put (put r.2 (2 * k) p) (2 * k + 1) p))
      ((fun _ => 0), fun _ => 0)
    let diff := fun l => a (l % 2) - r.1 l
    let dist2 := fun l => diff l * diff l + diff (swapLane l) * diff (swapLane l)
    let q ← forUp (2 * N) (fun l q => do
      let v ← divM 1 (1 + dist2 l)
      .ok (put q l v)) (fun _ => 0)
    .ok fun l => r.2 l * q l * diff l + vg l) (fun _ => 0)
    (fun g vg => ∀ d < 2, laneSum N vg d = pull 2 y a J P ex start (g * N) d)
    (fun d _ => by simp [laneSum, pull]) ?_
  · exact key
  · intro g hg vg hI
    simp only
    have hin : ∀ k < N, start + g * N + k < start + m * N := by
      intro k hk
      have := cell_lt hg hk
      omega
    have key2 := forUp_inv N (fun k (r : (Nat → K) × (Nat → K)) => do
      let j ← rd col (start + g * N + k)
      let x ← rd emb (j * 2)
      let y ← rd emb (j * 2 + 1)
      let v ← rd val (start + g * N + k)
      .ok (put (put r.1 (2 * k) x) (2 * k + 1) y, put (put r.2 (2 * k) (v * ex)) (2 * k + 1) (v * ex)))
      ((fun _ => 0), fun _ => 0) (fun m r => ∀ k < m, ∀ d < 2,
        r.1 (2 * k + d) = y (J (start + g * N + k)) d ∧ r.2 (2 * k + d) = P (start + g * N + k) * ex)
        (by simp) ?_
    · obtain ⟨r, r1, r2⟩ := key2
      rw [r1, ok_bind]
      have hd : ∀ k < N, ∀ d < 2,
          (a ((2 * k + d) % 2) - r.1 (2 * k + d)) * (a ((2 * k + d) % 2) - r.1 (2 * k + d)) +
          (a (swapLane (2 * k + d) % 2) - r.1 (swapLane (2 * k + d))) *
            (a (swapLane (2 * k + d) % 2) - r.1 (swapLane (2 * k + d))) =
          sqd 2 a (y (J (start + g * N + k))) := by
        intro k hk d hd
        rw [sqd_two]
        have e0 := (r2 k hk 0 (by omega)).1
        have e1 := (r2 k hk 1 (by omega)).1
        rcases (show d = 0 ∨ d = 1 by omega) with rfl | rfl
        · have hsw : swapLane (2 * k + 0) = 2 * k + 1 := by unfold swapLane; rw [if_pos (by omega)]
          rw [hsw, e0, e1, show (2 * k + 0) % 2 = 0 by omega, show (2 * k + 1) % 2 = 1 by omega]
        · have hsw : swapLane (2 * k + 1) = 2 * k + 0 := by unfold swapLane; rw [if_neg (by omega)]; omega
          rw [hsw, e0, e1, show (2 * k + 0) % 2 = 0 by omega, show (2 * k + 1) % 2 = 1 by omega, add_comm]
      have key3 := forUp_inv (2 * N) (fun l q => do
        let v ← divM 1 (1 + ((a (l % 2) - r.1 l) * (a (l % 2) - r.1 l) +
          (a (swapLane l % 2) - r.1 (swapLane l)) * (a (swapLane l % 2) - r.1 (swapLane l))))
        .ok (put q l v)) (fun _ => (0 : K)) (fun m q => ∀ k < N, ∀ d < 2, 2 * k + d < m →
          q (2 * k + d) = qk 2 a (y (J (start + g * N + k)))) (fun k _ d _ h => by omega) ?_
      · obtain ⟨q, q1, q2⟩ := key3
        rw [q1, ok_bind]
        refine ⟨_, rfl, fun d hd2 => ?_⟩
        unfold laneSum at hI ⊢
        rw [Finset.sum_add_distrib, hI d hd2, Nat.add_mul, Nat.one_mul, pull_add, add_comm]
        congr 1
        unfold pull
        refine Finset.sum_congr rfl fun k hk => ?_
        have hk' := Finset.mem_range.1 hk
        rw [(r2 k hk' d hd2).1, (r2 k hk' d hd2).2, q2 k hk' d hd2 (by omega),
          show (2 * k + d) % 2 = d by omega]
      · intro l hl q hq
        have hd' := hd (l / 2) (by omega) (l % 2) (by omega)
        rw [show 2 * (l / 2) + l % 2 = l by omega] at hd'
        rw [hd', divM_ok (one_add_ne 2 _ _), ok_bind]
        refine ⟨_, rfl, fun k hk d hd2 hlt => ?_⟩
        rw [put_apply]
        by_cases h : 2 * k + d = l
        · rw [if_pos h, show l / 2 = k by omega]; rfl
        · rw [if_neg h]; exact hq k hk d hd2 (by omega)
    · intro k hk r hr
      have hb := hin k hk
      have hj := hp.lt (start + g * N + k) (by omega) hb
      rw [rd_ok (hp.col (start + g * N + k) (by omega) hb), ok_bind,
        rd_ok (show emb[J (start + g * N + k) * 2]? = some (y (J (start + g * N + k)) 0) from
          he _ hj 0 (by omega)), ok_bind, rd_ok (he _ hj 1 (by omega)), ok_bind,
        rd_ok (hp.val (start + g * N + k) (by omega) hb), ok_bind]
      refine ⟨_, rfl, fun k' hk' d hd => ?_⟩
      simp only [put_apply]
      by_cases h : k' = k
      · subst h
        rcases (show d = 0 ∨ d = 1 by omega) with rfl | rfl
        · rw [if_neg (by omega), if_pos (by omega), if_neg (by omega), if_pos (by omega)]
          exact ⟨rfl, rfl⟩
        · rw [if_pos rfl, if_pos rfl]
          exact ⟨rfl, rfl⟩
      · rw [if_neg (by omega), if_neg (by omega), if_neg (by omega), if_neg (by omega)]
        exact hr k' (by omega) d hd

theorem multiKernel_ok {N : Nat} (hN : 0 < N) {reduce : (Nat → K) → Nat → K}
    (hred : ∀ v, ∀ d < 2, reduce v d = laneSum N v d) (he : Emb n 2 y emb) (hle : start ≤ stop)
    (hp : Part n col val J P start stop) (a : Nat → K) (ex : K) :
    ∃ g, multiKernel N reduce a col val emb ex start stop = .ok g ∧
      ∀ d < 2, g d = pull 2 y a J P ex start (stop - start) d := by
  unfold multiKernel
  simp only
  have hdiv : (stop - start) / N * N ≤ stop - start := Nat.div_mul_le_self _ _
  obtain ⟨vg, v1, v2⟩ := multiGroups_ok (N := N) he a ex ((stop - start) / N)
    (show Part n col val J P start (start + (stop - start) / N * N) from
      ⟨fun p h1 h2 => hp.col p h1 (by omega), fun p h1 h2 => hp.lt p h1 (by omega),
        fun p h1 h2 => hp.val p h1 (by omega)⟩)
  obtain ⟨t, t1, t2⟩ := scalarKernel_ok (start := start + (stop - start) / N * N) (stop := stop) he
    ⟨fun p h1 h2 => hp.col p (by omega) h2, fun p h1 h2 => hp.lt p (by omega) h2,
      fun p h1 h2 => hp.val p (by omega) h2⟩ a ex
  rw [v1, ok_bind, t1, ok_bind]
  refine ⟨_, rfl, fun d hd => ?_⟩
  rw [hred vg d hd, v2 d hd, t2 d hd, ← pull_add]
  congr 1
  omega

end Verif.Tsne
