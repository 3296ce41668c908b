import Verif.Tsne.Kernels
import Verif.BarnesHut.Build

/-
The gradient and the update of the embedding.
-/
namespace Verif.Tsne

set_option linter.unusedSectionVars false

open Moments (M Fault rd wr forUp divM ok_bind rd_ok wr_ok forUp_zero forUp_succ)
open Finset (range)

variable {K : Type} [Field K] [LinearOrder K] [IsStrictOrderedRing K]

/-- A parallel loop over the samples in which sample `i` writes row `i` only. -/
theorem rows_ok {order : List Nat} {n D : Nat} (ho : order.Perm (List.range n))
    (f : List K → Nat → M (List K)) (v : Nat → Nat → K) {s : List K} (hs : n * D ≤ s.length)
    (hf : ∀ i < n, ∀ l : List K, l.length = s.length → ∃ l', f l i = .ok l' ∧ Holds l (i * D) D (v i) l') :
    ∃ s', order.foldlM f s = .ok s' ∧ s'.length = s.length ∧
      ∀ i < n, ∀ d < D, s'[i * D + d]? = some (v i d) := by
  obtain ⟨s', h1, h2, h3⟩ := BarnesHut.foldlM_prefix f (fun pre l => l.length = s.length ∧
    ∀ i ∈ pre, ∀ d < D, l[i * D + d]? = some (v i d)) order s ⟨rfl, by simp⟩ (by
      intro pre i post l hl hI
      have hi : i < n := List.mem_range.1 (ho.mem_iff.1 (by rw [hl]; simp))
      have hnd : (pre ++ i :: post).Nodup := by
        rw [← hl]; exact ho.nodup_iff.2 List.nodup_range
      obtain ⟨l', g1, g2⟩ := hf i hi l hI.1
      refine ⟨l', g1, g2.len.trans hI.1, fun a ha d hd => ?_⟩
      rw [List.mem_append, List.mem_singleton] at ha
      by_cases hai : a = i
      · rw [hai]; exact g2.row d hd
      · have hpre := ha.resolve_right hai
        rw [g2.rest]
        · exact hI.2 a hpre d hd
        · by_contra hc
          exact hai (cell_eq hd (t' := a * D + d - i * D) (r' := i) (by omega) (by omega)).1)
  exact ⟨s', h1, h2, fun i hi d hd => h3 i (ho.mem_iff.2 (List.mem_range.2 hi)) d hd⟩

/-- A sum that is taken in index order. -/
theorem sumUp_ok (n : Nat) (f : Nat → M K) (v : Nat → K) (hf : ∀ i < n, f i = .ok (v i)) :
    forUp n (fun i s => do
      let w ← f i
      .ok (s + w)) (0 : K) = .ok (∑ i ∈ range n, v i) := by
  have key := forUp_inv n (fun i s => do
      let w ← f i
      .ok (s + w)) (0 : K) (fun m s => s = ∑ i ∈ range m, v i) (by simp) ?_
  · obtain ⟨s, h1, h2⟩ := key
    rw [h1, h2]
  · intro i hi s hs
    exact ⟨s + v i, by rw [hf i hi, ok_bind], by rw [Finset.sum_range_succ, hs]⟩

/-- A sum over the stored entries of a row is a sum over the entries of the row that are not zero. -/
theorem csr_fold {n : Nat} {Q : Nat → K} {col : List Nat} {val : List K} {s e : Nat}
    (h : RowAt n Q col val s e) (F : K → Nat → K) :
    ∑ u ∈ range (e - s), F (val.getD (s + u) 0) (col.getD (s + u) 0) =
      ∑ j ∈ (range n).filter (fun j => Q j ≠ 0), F (Q j) j := by
  have hcol : ∀ u < e - s, ∃ j < n, col[s + u]? = some j ∧ col.getD (s + u) 0 = j ∧ Q j ≠ 0 ∧
      val.getD (s + u) 0 = Q j := by
    intro u hu
    obtain ⟨j, h1, h2, h3, h4⟩ := h.entry (s + u) (by omega) (by omega)
    exact ⟨j, h1, h2, by rw [List.getD, h2]; rfl, h3, by rw [List.getD, h4]; rfl⟩
  refine Finset.sum_bij (fun u _ => col.getD (s + u) 0) ?_ ?_ ?_ ?_
  · intro u hu
    obtain ⟨j, h1, _, h3, h4, _⟩ := hcol u (Finset.mem_range.1 hu)
    rw [Finset.mem_filter, Finset.mem_range, h3]
    exact ⟨h1, h4⟩
  · intro u hu u' hu' heq
    have hu := Finset.mem_range.1 hu
    have hu' := Finset.mem_range.1 hu'
    obtain ⟨j, _, h2, h3, _, _⟩ := hcol u hu
    obtain ⟨j', _, h2', h3', _, _⟩ := hcol u' hu'
    rw [h3, h3'] at heq
    rcases Nat.lt_trichotomy u u' with hlt | hlt | hlt
    · have := h.up (s + u) (s + u') j j' (by omega) (by omega) (by omega) h2 h2'
      omega
    · exact hlt
    · have := h.up (s + u') (s + u) j' j (by omega) (by omega) (by omega) h2' h2
      omega
  · intro j hj
    rw [Finset.mem_filter, Finset.mem_range] at hj
    obtain ⟨p, h1, h2, h3⟩ := h.all j hj.1 hj.2
    refine ⟨p - s, Finset.mem_range.2 (by omega), ?_⟩
    rw [show s + (p - s) = p by omega, List.getD, h3]
    rfl
  · intro u hu
    obtain ⟨j, _, _, h3, _, h5⟩ := hcol u (Finset.mem_range.1 hu)
    rw [h3, h5]

/-- The sum over the stored entries of a row is the sum over the row. -/
theorem csr_sum {n : Nat} {Q : Nat → K} {col : List Nat} {val : List K} {s e : Nat}
    (h : RowAt n Q col val s e) (F : Nat → K) :
    ∑ u ∈ range (e - s), val.getD (s + u) 0 * F (col.getD (s + u) 0) = ∑ j ∈ range n, Q j * F j := by
  rw [csr_fold h fun v j => v * F j, Finset.sum_filter]
  refine Finset.sum_congr rfl fun j _ => ?_
  by_cases hq : Q j = 0
  · rw [if_neg (not_not.2 hq), hq, zero_mul]
  · rw [if_pos hq]

theorem RowAt.part {n : Nat} {Q : Nat → K} {col : List Nat} {val : List K} {s e : Nat}
    (h : RowAt n Q col val s e) :
    Part n col val (fun p => col.getD p 0) (fun p => val.getD p 0) s e := by
  refine ⟨fun p h1 h2 => ?_, fun p h1 h2 => ?_, fun p h1 h2 => ?_⟩
  · obtain ⟨j, _, g2, _, _⟩ := h.entry p h1 h2
    rw [List.getD, g2]; rfl
  · obtain ⟨j, g1, g2, _, _⟩ := h.entry p h1 h2
    rw [List.getD, g2]; exact g1
  · obtain ⟨j, _, _, _, g4⟩ := h.entry p h1 h2
    rw [List.getD, g4]; rfl

/-- The attraction of row `i` for the whole matrix. -/
theorem pull_row {n D : Nat} {Q : Nat → K} {col : List Nat} {val : List K} {s e : Nat}
    (h : RowAt n Q col val s e) (y : Nat → Nat → K) (a : Nat → K) (ex : K) (d : Nat) :
    pull D y a (fun p => col.getD p 0) (fun p => val.getD p 0) ex s (e - s) d =
      ∑ j ∈ range n, Q j * ex * qk D a (y j) * (a d - y j d) := by
  have := csr_sum h fun j => ex * qk D a (y j) * (a d - y j d)
  unfold pull
  simp only [mul_assoc] at this ⊢
  exact this

variable {n D : Nat} {y : Nat → Nat → K} {emb : List K}

/-- The gradient by the attraction and given repulsive forces. -/
theorem attractiveForces_ok {kernel : Kernel K}
    (hker : ∀ col val J P s e a ex, s ≤ e → Part n col val J P s e →
      ∃ g, kernel a col val emb ex s e = .ok g ∧ ∀ d < D, g d = pull D y a J P ex s (e - s) d)
    {order : List Nat} (ho : order.Perm (List.range n)) (he : Emb n D y emb) {Q : Nat → Nat → K}
    {ptr col : List Nat} {val : List K} (hQ : Csr n Q ptr col val) (ex : K) {rep : List K}
    {R : Nat → Nat → K} (hR : ∀ i < n, ∀ d < D, rep[i * D + d]? = some (R i d)) {sumQ : K}
    (hs : sumQ ≠ 0) {grad : List K} (hg : grad.length = n * D) :
    ∃ g, attractiveForces kernel order D ex ptr col val emb rep sumQ grad = .ok g ∧
      g.length = n * D ∧ ∀ i < n, ∀ d < D, g[i * D + d]? = some (4 * ((∑ j ∈ range n,
        Q i j * ex * qk D (y i) (y j) * (y i d - y j d)) - R i d / sumQ)) := by
  unfold attractiveForces
  obtain ⟨g, h1, h2, h3⟩ := rows_ok (D := D) ho (fun grad i => do
    let yi ← point D emb (i * D)
    let s ← rd ptr i
    let e ← rd ptr (i + 1)
    let g ← kernel yi col val emb ex s e
    let grad ← store D grad (i * D) g
    forUp D (fun k grad => do
      let g ← rd grad (i * D + k)
      let r ← rd rep (i * D + k)
      let f ← divM r sumQ
      wr grad (i * D + k) (4 * (g - f))) grad)
    (fun i d => 4 * ((∑ j ∈ range n, Q i j * ex * qk D (y i) (y j) * (y i d - y j d)) - R i d / sumQ))
    (s := grad) (by omega) (by
      intro i hi l hl
      obtain ⟨f, f1, f2⟩ := point_ok he hi
      obtain ⟨s, e, p1, p2, p3⟩ := hQ.rows i hi
      obtain ⟨g, g1, g2⟩ := hker col val _ _ s e f ex p3.le p3.part
      have hrow : i * D + D ≤ l.length := by
        rw [hl, hg]
        have : (i + 1) * D ≤ n * D := Nat.mul_le_mul_right D hi
        rw [Nat.add_mul, Nat.one_mul] at this
        exact this
      obtain ⟨l1, a1, a2⟩ := fill_ok (o := i * D) (k := D) g (fun d l => wr l (i * D + d) (g d)) hrow
        (fun _ _ _ _ _ => rfl)
      obtain ⟨l2, b1, b2⟩ := fill_ok (o := i * D) (k := D) (l := l1)
        (fun d => 4 * (g d - R i d / sumQ)) (fun k grad => do
          let g ← rd grad (i * D + k)
          let r ← rd rep (i * D + k)
          let f ← divM r sumQ
          wr grad (i * D + k) (4 * (g - f))) (by rw [a2.len]; exact hrow) (by
            intro d hd l' _ hsame
            rw [rd_ok (hsame.trans (a2.row d hd)), ok_bind, rd_ok (hR i hi d hd), ok_bind,
              divM_ok hs, ok_bind])
      refine ⟨l2, ?_, ?_⟩
      · rw [f1, ok_bind, rd_ok p1, ok_bind, rd_ok p2, ok_bind, g1, ok_bind]
        unfold store
        rw [a1, ok_bind, b1]
      · refine ⟨b2.len.trans a2.len, fun d hd => ?_, (a2.trans b2).rest⟩
        rw [b2.row d hd, g2 d hd, pull_row p3]
        congr 1
        congr 2
        refine Finset.sum_congr rfl fun j _ => ?_
        unfold qk
        rw [sqd_congr f2 (fun _ _ => rfl), f2 d hd])
  exact ⟨g, h1, h2.trans hg, h3⟩

theorem pairDist2_ok (he : Emb n D y emb) {i j : Nat} (hi : i < n) (hj : j < n) :
    pairDist2 D emb i j = .ok (sqd D (y i) (y j)) := by
  unfold pairDist2
  have key := forUp_inv D (fun k s => do
    let a ← rd emb (i * D + k)
    let b ← rd emb (j * D + k)
    .ok (s + (a - b) * (a - b))) (0 : K) (fun m s => s = sqd m (y i) (y j)) (by simp [sqd]) ?_
  · obtain ⟨s, h1, h2⟩ := key
    rw [h1, h2]
  · intro k hk s hs
    refine ⟨s + (y i k - y j k) * (y i k - y j k), ?_, ?_⟩
    · rw [rd_ok (he i hi k hk), ok_bind, rd_ok (he j hj k hk), ok_bind]
    · rw [hs]
      exact (Finset.sum_range_succ _ _).symm

/-- The normalisation of the embedding. -/
def zsum (n D : Nat) (y : Nat → Nat → K) : K :=
  ∑ i ∈ range n, ∑ j ∈ (range n).erase i, qk D (y i) (y j)

theorem qk_pos (D : Nat) (a b : Nat → K) : 0 < qk D a b := by
  unfold qk
  have := sqd_nonneg D a b
  exact one_div_pos.2 (by linarith)

theorem qk_self (D : Nat) (a : Nat → K) : qk D a a = 1 := by
  unfold qk; rw [sqd_self]; simp

theorem zsum_nonneg (n D : Nat) (y : Nat → Nat → K) : 0 ≤ zsum n D y :=
  Finset.sum_nonneg fun _ _ => Finset.sum_nonneg fun _ _ => (qk_pos D _ _).le

theorem zsum_pos {n : Nat} (hn : 2 ≤ n) (D : Nat) (y : Nat → Nat → K) : 0 < zsum n D y := by
  unfold zsum
  refine Finset.sum_pos (fun i _ => Finset.sum_pos (fun j _ => qk_pos D _ _) ?_) ⟨0, Finset.mem_range.2 (by omega)⟩
  by_cases h : i = 0
  · exact ⟨1, Finset.mem_erase.2 ⟨by omega, Finset.mem_range.2 (by omega)⟩⟩
  · exact ⟨0, Finset.mem_erase.2 ⟨fun h' => h h'.symm, Finset.mem_range.2 (by omega)⟩⟩

theorem work_ok {order : List Nat} {n : Nat} (ho : order.Perm (List.range n)) (f : Nat → M K)
    (v : Nat → K) (hf : ∀ i < n, f i = .ok (v i)) {work : List K} (hw : n ≤ work.length) :
    ∃ w, order.foldlM (fun work i => do
        let x ← f i
        wr work i x) work = .ok w ∧ w.length = work.length ∧
      forUp n (fun i s => do
        let x ← rd w i
        .ok (s + x)) (0 : K) = .ok (∑ i ∈ range n, v i) := by
  obtain ⟨w, h1, h2, h3⟩ := rows_ok (D := 1) ho (fun work i => do
        let x ← f i
        wr work i x) (fun i _ => v i) (s := work) (by omega) (by
      intro i hi l hl
      refine ⟨l.set i (v i), by rw [hf i hi, ok_bind, wr_ok _ (by omega)], by rw [List.length_set], ?_, ?_⟩
      · intro d hd
        rw [show i * 1 + d = i by omega, get_set (by omega), if_pos rfl]
      · intro p hp
        rw [get_set (by omega), if_neg (by omega)])
  refine ⟨w, h1, h2, sumUp_ok n (fun i => rd w i) v fun i hi => ?_⟩
  have := h3 i hi 0 (by omega)
  rw [Nat.mul_one, Nat.add_zero] at this
  exact rd_ok this

theorem exactSumQ_ok {order : List Nat} (ho : order.Perm (List.range n)) (he : Emb n D y emb)
    {work : List K} (hw : n ≤ work.length) :
    ∃ w, exactSumQ order n D emb work = .ok (if zsum n D y ≤ 0 then 1 else zsum n D y, w) ∧
      w.length = work.length := by
  unfold exactSumQ
  obtain ⟨w, h1, h2, h3⟩ := work_ok ho (fun i => do
      let p ← forUp n (fun j a => do
        let d ← pairDist2 D emb i j
        let q ← divM 1 (1 + d)
        .ok (a + q)) (0 : K)
      .ok (p - 1)) (fun i => ∑ j ∈ (range n).erase i, qk D (y i) (y j)) (by
        intro i hi
        have := sumUp_ok n (fun j => do
          let d ← pairDist2 D emb i j
          divM 1 (1 + d)) (fun j => qk D (y i) (y j)) (by
            intro j hj
            rw [pairDist2_ok he hi hj, ok_bind, divM_ok (one_add_ne D _ _)]
            rfl)
        simp only [bind_assoc] at this
        rw [this, ok_bind, ← Finset.add_sum_erase _ _ (Finset.mem_range.2 hi), qk_self]
        congr 1
        ring) hw
  simp only [bind_assoc] at h1
  have h1' : order.foldlM (fun work i => do
      let p ← forUp n (fun j a => do
        let d ← pairDist2 D emb i j
        let q ← divM 1 (1 + d)
        .ok (a + q)) (0 : K)
      wr work i (p - 1)) work = .ok w := h1
  rw [h1', ok_bind, h3, ok_bind]
  exact ⟨w, rfl, h2⟩

theorem denseP_ok {Q : Nat → Nat → K} {ptr col : List Nat} {val : List K} (hQ : Csr n Q ptr col val) :
    ∃ P, denseP n ptr col val = .ok P ∧ P.length = n * n ∧
      ∀ i < n, ∀ j < n, P[i * n + j]? = some (Q i j) := by
  unfold denseP
  have key := forUp_inv n (fun i P => do
    let s ← rd ptr i
    let e ← rd ptr (i + 1)
    forUp (e - s) (fun u P => do
      let j ← rd col (s + u)
      let v ← rd val (s + u)
      wr P (i * n + j) v) P) (List.replicate (n * n) (0 : K)) (fun m P => P.length = n * n ∧
      ∀ i < n, ∀ j < n, P[i * n + j]? = some (if i < m then Q i j else 0))
    ⟨List.length_replicate, fun i hi j hj => by
      rw [List.getElem?_replicate, if_pos (cell_lt hi hj), if_neg (by omega)]⟩ ?_
  · obtain ⟨P, h1, h2, h3⟩ := key
    exact ⟨P, h1, h2, fun i hi j hj => by rw [h3 i hi j hj, if_pos hi]⟩
  · intro i hi P hP
    obtain ⟨s, e, p1, p2, p3⟩ := hQ.rows i hi
    rw [rd_ok p1, ok_bind, rd_ok p2, ok_bind]
    have key := forUp_inv (e - s) (fun u P => do
      let j ← rd col (s + u)
      let v ← rd val (s + u)
      wr P (i * n + j) v) P (fun m P' => P'.length = n * n ∧
      (∀ a < n, ∀ j < n, a ≠ i → P'[a * n + j]? = P[a * n + j]?) ∧
      ∀ j < n, ((∃ p, s ≤ p ∧ p < s + m ∧ col[p]? = some j) ∧ P'[i * n + j]? = some (Q i j)) ∨
        (¬ (∃ p, s ≤ p ∧ p < s + m ∧ col[p]? = some j) ∧ P'[i * n + j]? = some 0))
      ⟨hP.1, fun _ _ _ _ _ => rfl, fun j hj => Or.inr ⟨fun ⟨p, h1, h2, _⟩ => by omega, by
        rw [hP.2 i hi j hj, if_neg (by omega)]⟩⟩ ?_
    · obtain ⟨P', q1, q2, q3, q4⟩ := key
      refine ⟨P', q1, q2, fun a ha j hj => ?_⟩
      by_cases hai : a = i
      · subst hai
        rw [if_pos (by omega)]
        rcases q4 j hj with h | h
        · exact h.2
        · rw [h.2]
          by_cases hz : Q a j = 0
          · rw [hz]
          · obtain ⟨p, g1, g2, g3⟩ := p3.all j hj hz
            exact absurd ⟨p, g1, by have := p3.le; omega, g3⟩ h.1
      · rw [q3 a ha j hj hai, hP.2 a ha j hj]
        by_cases h : a < i
        · rw [if_pos h, if_pos (by omega)]
        · rw [if_neg h, if_neg (by omega)]
    · intro u hu P' hI
      obtain ⟨j, g1, g2, g3, g4⟩ := p3.entry (s + u) (by omega) (by omega)
      have hc : i * n + j < P'.length := by rw [hI.1]; exact cell_lt hi g1
      refine ⟨P'.set (i * n + j) (Q i j), ?_, by rw [List.length_set, hI.1], ?_, ?_⟩
      · rw [rd_ok g2, ok_bind, rd_ok g4, ok_bind, wr_ok _ hc]
      · intro a ha b hb hne
        rw [get_set hc, if_neg (fun h => hne (cell_eq hb g1 h).1)]
        exact hI.2.1 a ha b hb hne
      · intro b hb
        rw [get_set hc]
        by_cases hbj : b = j
        · rw [hbj, if_pos rfl]
          exact Or.inl ⟨⟨s + u, by omega, by omega, g2⟩, rfl⟩
        · rw [if_neg (fun h => hbj (cell_eq hb g1 h).2)]
          rcases hI.2.2 b hb with ⟨⟨p, k1, k2, k3⟩, h⟩ | ⟨h, h'⟩
          · exact Or.inl ⟨⟨p, k1, by omega, k3⟩, h⟩
          · refine Or.inr ⟨fun ⟨p, k1, k2, k3⟩ => ?_, h'⟩
            by_cases hp : p = s + u
            · rw [hp, g2] at k3
              exact hbj (Option.some.inj k3).symm
            · exact h ⟨p, k1, by omega, k3⟩

/-- The gradient of the exact method. -/
def gradOf (n D : Nat) (y Q : Nat → Nat → K) (ex Z : K) (i d : Nat) : K :=
  4 * ∑ j ∈ range n, (Q i j * ex - qk D (y i) (y j) / Z) * qk D (y i) (y j) * (y i d - y j d)

theorem exactGradient_ok {order : List Nat} (ho : order.Perm (List.range n)) (he : Emb n D y emb)
    {Q : Nat → Nat → K} {P : List K} (hP : ∀ i < n, ∀ j < n, P[i * n + j]? = some (Q i j)) (ex : K)
    {Z : K} (hZ : Z ≠ 0) {grad : List K} (hg : grad.length = n * D) :
    ∃ g, exactGradient order n D emb P ex Z grad = .ok g ∧ g.length = n * D ∧
      ∀ i < n, ∀ d < D, g[i * D + d]? = some (gradOf n D y Q ex Z i d) := by
  unfold exactGradient
  rw [divM_ok hZ, ok_bind]
  obtain ⟨g, h1, h2, h3⟩ := rows_ok (D := D) ho (fun grad i => do
    let grad ← store D grad (i * D) fun _ => 0
    let grad ← forUp n (fun j grad => do
      let d ← pairDist2 D emb i j
      let q ← divM 1 (1 + d)
      let p ← rd P (i * n + j)
      let f := (p * ex - q * (1 / Z)) * q
      forUp D (fun k grad => do
        let a ← rd emb (i * D + k)
        let b ← rd emb (j * D + k)
        let g ← rd grad (i * D + k)
        wr grad (i * D + k) (g + f * (a - b))) grad) grad
    forUp D (fun k grad => do
      let g ← rd grad (i * D + k)
      wr grad (i * D + k) (g * 4)) grad) (gradOf n D y Q ex Z) (s := grad) (by omega) (by
      intro i hi l hl
      have hrow : i * D + D ≤ l.length := by
        rw [hl, hg]
        have : (i + 1) * D ≤ n * D := Nat.mul_le_mul_right D hi
        rw [Nat.add_mul, Nat.one_mul] at this
        exact this
      obtain ⟨l1, a1, a2⟩ := fill_ok (o := i * D) (k := D) (fun _ => (0 : K))
        (fun d l => wr l (i * D + d) 0) hrow (fun _ _ _ _ _ => rfl)
      have key := forUp_inv n (fun j grad => do
        let d ← pairDist2 D emb i j
        let q ← divM 1 (1 + d)
        let p ← rd P (i * n + j)
        let f := (p * ex - q * (1 / Z)) * q
        forUp D (fun k grad => do
          let a ← rd emb (i * D + k)
          let b ← rd emb (j * D + k)
          let g ← rd grad (i * D + k)
          wr grad (i * D + k) (g + f * (a - b))) grad) l1 (fun m l' => Holds l1 (i * D) D
            (fun d => ∑ j ∈ range m, (Q i j * ex - qk D (y i) (y j) / Z) * qk D (y i) (y j) *
              (y i d - y j d)) l') ⟨rfl, fun d hd => by rw [a2.row d hd]; simp, fun _ _ => rfl⟩ (by
          intro j hj l' hI
          simp only
          rw [pairDist2_ok he hi hj, ok_bind, divM_ok (one_add_ne D _ _), ok_bind, rd_ok (hP i hi j hj),
            ok_bind]
          obtain ⟨l2, b1, b2⟩ := fill_ok (o := i * D) (k := D) (l := l') (fun d =>
            (∑ j ∈ range j, (Q i j * ex - qk D (y i) (y j) / Z) * qk D (y i) (y j) *
              (y i d - y j d)) + (Q i j * ex - 1 / (1 + sqd D (y i) (y j)) * (1 / Z)) *
                (1 / (1 + sqd D (y i) (y j))) * (y i d - y j d))
            (fun k grad => do
              let a ← rd emb (i * D + k)
              let b ← rd emb (j * D + k)
              let g ← rd grad (i * D + k)
              wr grad (i * D + k) (g + (Q i j * ex - 1 / (1 + sqd D (y i) (y j)) * (1 / Z)) *
                (1 / (1 + sqd D (y i) (y j))) * (a - b))) (by rw [hI.len, a2.len]; exact hrow) (by
              intro d hd l'' _ hsame
              rw [rd_ok (he i hi d hd), ok_bind, rd_ok (he j hj d hd), ok_bind,
                rd_ok (hsame.trans (hI.row d hd)), ok_bind])
          refine ⟨l2, b1, ?_⟩
          have := hI.trans b2
          refine ⟨this.len, fun d hd => ?_, this.rest⟩
          rw [this.row d hd, Finset.sum_range_succ]
          unfold qk
          rw [mul_one_div (1 / (1 + sqd D (y i) (y j))) Z])
      obtain ⟨l2, c1, c2⟩ := key
      obtain ⟨l3, d1, d2⟩ := fill_ok (o := i * D) (k := D) (l := l2) (gradOf n D y Q ex Z i)
        (fun k grad => do
          let g ← rd grad (i * D + k)
          wr grad (i * D + k) (g * 4)) (by rw [c2.len, a2.len]; exact hrow) (by
          intro d hd l'' _ hsame
          rw [rd_ok (hsame.trans (c2.row d hd)), ok_bind]
          unfold gradOf
          rw [mul_comm _ (4 : K)])
      refine ⟨l3, ?_, (a2.trans c2).trans d2⟩
      unfold store
      rw [a1, ok_bind, c1, ok_bind, d1])
  exact ⟨g, h1, h2.trans hg, h3⟩

theorem updateEmbedding_ok {m : Nat} {order : List Nat} (ho : order.Perm (List.range m)) (mom rate : K)
    {grad iY gains emb : List K} {G V A E : Nat → K} (hG : ∀ i < m, grad[i]? = some (G i))
    (hY : iY.length = m) (hV : ∀ i < m, iY[i]? = some (V i)) (hA' : gains.length = m)
    (hA : ∀ i < m, gains[i]? = some (A i)) (hE' : emb.length = m) (hE : ∀ i < m, emb[i]? = some (E i)) :
    ∃ iY' gains' emb', updateEmbedding order mom rate grad (iY, gains, emb) = .ok (iY', gains', emb') ∧
      iY'.length = m ∧ gains'.length = m ∧ emb'.length = m ∧ ∀ i < m, ∃ a v,
        a = max (if V i * G i < 0 then A i + 1 / 5 else A i * (4 / 5)) (1 / 100) ∧
        v = mom * V i - rate * a * G i ∧
        gains'[i]? = some a ∧ iY'[i]? = some v ∧ emb'[i]? = some (E i + v) := by
  unfold updateEmbedding
  obtain ⟨r, h1, h2⟩ := BarnesHut.foldlM_prefix (fun s i => updateEntry mom rate grad i s)
    (fun pre s => s.1.length = m ∧ s.2.1.length = m ∧ s.2.2.length = m ∧
      (∀ i < m, i ∉ pre → s.1[i]? = some (V i) ∧ s.2.1[i]? = some (A i) ∧ s.2.2[i]? = some (E i)) ∧
      ∀ i ∈ pre, ∃ a v, a = max (if V i * G i < 0 then A i + 1 / 5 else A i * (4 / 5)) (1 / 100) ∧
        v = mom * V i - rate * a * G i ∧
        s.2.1[i]? = some a ∧ s.1[i]? = some v ∧ s.2.2[i]? = some (E i + v)) order (iY, gains, emb)
    ⟨hY, hA', hE', fun i hi _ => ⟨hV i hi, hA i hi, hE i hi⟩, by simp⟩ (by
      intro pre i post s hl ⟨i1, i2, i3, i4, i5⟩
      have hi : i < m := List.mem_range.1 (ho.mem_iff.1 (by rw [hl]; simp))
      have hnd : (pre ++ i :: post).Nodup := by
        rw [← hl]; exact ho.nodup_iff.2 List.nodup_range
      have hni : i ∉ pre := by
        intro h
        have := (List.nodup_append.1 hnd).2.2 i h i (by simp)
        exact this rfl
      obtain ⟨e1, e2, e3⟩ := i4 i hi hni
      unfold updateEntry
      rw [rd_ok e1, ok_bind, rd_ok (hG i hi), ok_bind, rd_ok e2, ok_bind, wr_ok _ (by omega), ok_bind,
        rd_ok (by rw [get_set (by omega), if_pos rfl]), ok_bind,
        wr_ok _ (by rw [List.length_set]; omega), ok_bind,
        rd_ok (by rw [get_set (by rw [List.length_set]; omega), if_pos rfl]), ok_bind,
        wr_ok _ (by omega), ok_bind, rd_ok e3, ok_bind,
        rd_ok (by rw [get_set (by omega), if_pos rfl]), ok_bind, wr_ok _ (by omega), ok_bind]
      refine ⟨_, rfl, by simp only [List.length_set]; exact i1, by simp only [List.length_set]; exact i2,
        by simp only [List.length_set]; exact i3, ?_, ?_⟩
      · intro a ha hna
        rw [List.mem_append, List.mem_singleton, not_or] at hna
        simp only
        rw [get_set (by omega), if_neg hna.2, get_set (by rw [List.length_set]; omega), if_neg hna.2,
          get_set (by omega), if_neg hna.2, get_set (by omega), if_neg hna.2]
        exact i4 a ha hna.1
      · intro a ha
        rw [List.mem_append, List.mem_singleton] at ha
        simp only
        rw [get_set (l := s.2.1.set i _) (by rw [List.length_set]; omega), get_set (l := s.2.1) (by omega),
          get_set (l := s.1) (by omega), get_set (l := s.2.2) (by omega)]
        by_cases hai : a = i
        · subst hai
          rw [if_pos rfl, if_pos rfl, if_pos rfl]
          exact ⟨_, _, rfl, rfl, rfl, rfl, rfl⟩
        · rw [if_neg hai, if_neg hai, if_neg hai, if_neg hai]
          exact i5 a (ha.resolve_right hai))
  obtain ⟨b1, b2, b3, _, b5⟩ := h2
  exact ⟨r.1, r.2.1, r.2.2, h1, b1, b2, b3, fun i hi => b5 i (ho.mem_iff.2 (List.mem_range.2 hi))⟩

/-- The upper triangle counted twice is the sum over all ordered pairs. -/
theorem zsum_upper (n D : Nat) (y : Nat → Nat → K) :
    ∑ i ∈ range n, ∑ u ∈ range (n - (i + 1)), 2 / (1 + sqd D (y i) (y (i + 1 + u))) = zsum n D y := by
  have hq : ∀ a b, qk D (y a) (y b) = qk D (y b) (y a) := fun a b => by unfold qk; rw [sqd_comm]
  induction n with
  | zero => simp [zsum]
  | succ n ih =>
    have e1 : zsum (n + 1) D y = zsum n D y + 2 * ∑ i ∈ range n, qk D (y i) (y n) := by
      unfold zsum
      rw [Finset.sum_range_succ]
      have e2 : (range (n + 1)).erase n = range n := by
        ext a; simp only [Finset.mem_erase, Finset.mem_range]; omega
      have e3 : ∀ i ∈ range n, ∑ j ∈ (range (n + 1)).erase i, qk D (y i) (y j) =
          (∑ j ∈ (range n).erase i, qk D (y i) (y j)) + qk D (y i) (y n) := by
        intro i hi
        have hi := Finset.mem_range.1 hi
        have : (range (n + 1)).erase i = insert n ((range n).erase i) := by
          ext a; simp only [Finset.mem_erase, Finset.mem_range, Finset.mem_insert]; omega
        rw [this, Finset.sum_insert (by simp), add_comm]
      rw [e2, Finset.sum_congr rfl e3, Finset.sum_add_distrib, two_mul,
        Finset.sum_congr rfl fun i _ => hq n i]
      ring
    rw [e1, ← ih, Finset.sum_range_succ, show n + 1 - (n + 1) = 0 by omega, Finset.sum_range_zero, add_zero,
      Finset.mul_sum, ← Finset.sum_add_distrib]
    refine Finset.sum_congr rfl fun i hi => ?_
    have hi := Finset.mem_range.1 hi
    rw [show n + 1 - (i + 1) = (n - (i + 1)) + 1 by omega, Finset.sum_range_succ,
      show i + 1 + (n - (i + 1)) = n by omega]
    congr 1
    unfold qk
    ring

/-- The divergence that is reported, with the normalisation that was used. -/
def klOf (log : K → K) (n D : Nat) (eps : K) (y Q : Nat → Nat → K) (Z : K) : K :=
  ∑ i ∈ range n, ∑ j ∈ (range n).filter (fun j => Q i j ≠ 0),
    max (Q i j) eps * log (max (Q i j) eps / max (qk D (y i) (y j) / Z) eps)

theorem klDivergence_ok {log : K → K} {order1 order2 : List Nat} (ho1 : order1.Perm (List.range n))
    (ho2 : order2.Perm (List.range n)) (he : Emb n D y emb) {Q : Nat → Nat → K} {ptr col : List Nat}
    {val : List K} (hQ : Csr n Q ptr col val) {eps : K} (heps : 0 < eps) (sumQ : K) (work : List K) :
    klDivergence log order1 order2 n D eps ptr col val emb sumQ work =
      .ok (klOf log n D eps y Q (if sumQ ≤ 0 then (if zsum n D y ≤ 0 then 1 else zsum n D y) else sumQ)) := by
  unfold klDivergence
  obtain ⟨w0, hw0⟩ : ∃ w0, w0 = if work.length < n then work ++ List.replicate (n - work.length) 0 else work :=
    ⟨_, rfl⟩
  have hlen : n ≤ w0.length := by
    rw [hw0]
    by_cases h : work.length < n
    · rw [if_pos h, List.length_append, List.length_replicate]; omega
    · rw [if_neg h]; omega
  obtain ⟨Z, hZ⟩ : ∃ Z, Z = if sumQ ≤ 0 then (if zsum n D y ≤ 0 then 1 else zsum n D y) else sumQ := ⟨_, rfl⟩
  have hpre : ∃ r : K × List K, klNormaliser order1 n D emb sumQ w0 = .ok r ∧ (if r.1 ≤ 0 then 1 else r.1) = Z ∧ n ≤ r.2.length := by
    unfold klNormaliser
    by_cases h : sumQ ≤ 0
    · rw [if_pos h]
      obtain ⟨w, h1, h2, h3⟩ := work_ok ho1 (fun i => forUp (n - (i + 1)) (fun u a => do
          let d ← pairDist2 D emb i (i + 1 + u)
          let q ← divM 2 (1 + d)
          .ok (a + q)) (0 : K))
        (fun i => ∑ u ∈ range (n - (i + 1)), 2 / (1 + sqd D (y i) (y (i + 1 + u)))) (by
          intro i hi
          have := sumUp_ok (n - (i + 1)) (fun u => do
            let d ← pairDist2 D emb i (i + 1 + u)
            divM 2 (1 + d)) (fun u => 2 / (1 + sqd D (y i) (y (i + 1 + u)))) (by
              intro u hu
              rw [pairDist2_ok he hi (by omega), ok_bind, divM_ok (one_add_ne D _ _)])
          simp only [bind_assoc] at this
          exact this) hlen
      rw [zsum_upper] at h3
      refine ⟨(zsum n D y, w), by rw [h1, ok_bind, h3, ok_bind], ?_, by rw [h2]; exact hlen⟩
      rw [hZ, if_pos h]
    · rw [if_neg h]
      refine ⟨(sumQ, w0), rfl, ?_, hlen⟩
      rw [hZ, if_neg h, if_neg h]
  have hZp : 0 < Z := by
    rw [hZ]
    by_cases h : sumQ ≤ 0
    · rw [if_pos h]
      by_cases h' : zsum n D y ≤ 0
      · rw [if_pos h']; exact one_pos
      · rw [if_neg h']; exact not_le.1 h'
    · rw [if_neg h]; exact not_le.1 h
  obtain ⟨r, r1, r2, r3⟩ := hpre
  rw [← hw0, ← hZ]
  simp only
  rw [r1, ok_bind]
  simp only [r2]
  obtain ⟨w, h1, h2, h3⟩ := work_ok ho2 (fun i => do
      let s ← rd ptr i
      let e ← rd ptr (i + 1)
      forUp (e - s) (fun u a => do
        let j ← rd col (s + u)
        let d ← pairDist2 D emb i j
        let v ← rd val (s + u)
        let p := max v eps
        let q ← divM 1 ((1 + d) * Z)
        let q := max q eps
        let x ← divM p q
        .ok (a + p * log x)) (0 : K)) (fun i => ∑ j ∈ (range n).filter (fun j => Q i j ≠ 0),
          max (Q i j) eps * log (max (Q i j) eps / max (qk D (y i) (y j) / Z) eps)) (by
      intro i hi
      obtain ⟨s, e, p1, p2, p3⟩ := hQ.rows i hi
      have hp := p3.part
      rw [rd_ok p1, ok_bind, rd_ok p2, ok_bind, ← csr_fold p3 (fun v j =>
        max v eps * log (max v eps / max (qk D (y i) (y j) / Z) eps))]
      have := sumUp_ok (e - s) (fun u => do
        let j ← rd col (s + u)
        let d ← pairDist2 D emb i j
        let v ← rd val (s + u)
        let p := max v eps
        let q ← divM 1 ((1 + d) * Z)
        let q := max q eps
        let x ← divM p q
        .ok (p * log x)) (fun u => max (val.getD (s + u) 0) eps * log (max (val.getD (s + u) 0) eps /
          max (qk D (y i) (y (col.getD (s + u) 0)) / Z) eps)) (by
          intro u hu
          obtain ⟨j, g1, g2, g3, g4⟩ := p3.entry (s + u) (by omega) (by omega)
          have c1 : col.getD (s + u) 0 = j := by rw [List.getD, g2]; rfl
          have c2 : val.getD (s + u) 0 = Q i j := by rw [List.getD, g4]; rfl
          rw [rd_ok g2, ok_bind, pairDist2_ok he hi g1, ok_bind, rd_ok g4, ok_bind,
            divM_ok (mul_ne_zero (one_add_ne D _ _) hZp.ne'), ok_bind]
          simp only
          rw [divM_ok (lt_of_lt_of_le heps (le_max_right _ _)).ne', ok_bind, c1, c2]
          unfold qk
          rw [div_div])
      simp only [bind_assoc] at this
      exact this) r3
  simp only [bind_assoc] at h1
  rw [h1, ok_bind, h3]
  rfl

end Verif.Tsne
