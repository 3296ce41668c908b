/-
C30: radius search with trees.  C31: k nearest neighbours with trees.
-/
import Verif.NnTree.Build
namespace Verif.NnTree

/-! ### What the searches have to do -/

/-- The samples a search may return: all of them, without the query itself if it is a sample (`X` absent, row `i`). -/
def candidates (n : Nat) (X : Option (Nat → Nat → ℝ)) (i : Nat) : List Nat :=
  (List.range n).filter fun s => !(X.isNone && s == i)

/-- The query point. -/
def queryRow (A : Nat → Nat → ℝ) (X : Option (Nat → Nat → ℝ)) (i : Nat) : Nat → ℝ :=
  match X with
  | none => A i
  | some X => X i

/-- The distances handed back by the trees: squared for the Euclidean distance. -/
noncomputable def reported (metric : Metric) (p : ℝ) (d : Nat) (x a : Nat → ℝ) : ℝ :=
  if metric = .euclidean ∨ metric = .euclideanGemm ∨ (metric = .minkowski ∧ p = 2) then
    trueDist metric p d x a ^ 2
  else trueDist metric p d x a

/-- Right answer of a radius search. -/
def RadiusAnswer (metric : Metric) (p : ℝ) (n d : Nat) (A : Nat → Nat → ℝ) (X : Option (Nat → Nat → ℝ)) (i : Nat)
    (eps : ℝ) (ret : Bool) (out : List Nat × List ℝ) : Prop :=
  out.1.Nodup ∧
  (∀ s, s ∈ out.1 ↔ s < n ∧ ¬ (X.isNone ∧ s = i) ∧ trueDist metric p d (queryRow A X i) (A s) ≤ eps) ∧
  out.2 = if ret then out.1.map fun s => reported metric p d (queryRow A X i) (A s) else []

/-- Right answer of a search for the `k` nearest: the row holds different samples with their distances, no candidate
left out is closer than one of them, and nothing is written past the row. -/
def NearestAnswer (metric : Metric) (p : ℝ) (n d : Nat) (A : Nat → Nat → ℝ) (X : Option (Nat → Nat → ℝ)) (i k : Nat)
    (kInd : Nat → Nat) (kDist : Nat → ℝ) (h : Heap.MaxHeap ℝ) : Prop :=
  h.size = min k (candidates n X i).length ∧
  (∃ rest, ((List.range h.size).map h.indices ++ rest).Perm (candidates n X i) ∧
    ∀ j, j < h.size → ∀ s ∈ rest, h.distances j ≤ reported metric p d (queryRow A X i) (A s)) ∧
  (∀ j, j < h.size → h.distances j = reported metric p d (queryRow A X i) (A (h.indices j))) ∧
  (∀ j, k ≤ j → h.indices j = kInd j ∧ h.distances j = kDist j)

/-- What the callers guarantee: samples, features, a leaf size, an admissible metric. -/
structure Setting (n d leaf : Nat) (metric : Metric) (p : ℝ) : Prop where
  n : 0 < n
  d : 0 < d
  leaf : 0 < leaf
  metric : Admissible metric p

/-- What the k-d tree's constructor may rely on: `std::nth_element`, an index of the largest variance within the
features, and every block of samples handled by one thread. -/
structure KdEnv (nth : (Nat → Nat → Bool) → Nat → List Nat → List Nat) (rootDim n d : Nat)
    (orderLo orderHi : List (List Nat)) : Prop where
  nth : NthOk nth
  dim : rootDim < d
  lo : orderLo.flatten.Perm (List.range (kdBlocks n))
  hi : orderHi.flatten.Perm (List.range (kdBlocks n))

/-! ### Proofs -/

theorem candidates_eq (n : Nat) (X : Option (Nat → Nat → ℝ)) (i : Nat) (q : Query ℝ) (h1 : q.isA = X.isNone)
    (h2 : q.index = i) : candidates n X i = (List.range n).filter (other q) := by
  unfold candidates
  apply List.filter_congr
  intro s _
  simp [other, h1, h2]

theorem reported_store (M : ℝ) (n d : Nat) (A : Nat → Nat → ℝ) (leaf : Nat) (metric : Metric) (p : ℝ)
    (ha : Admissible metric p) (hl : 0 < leaf) (hd : 0 < d) (q : Query ℝ) (s : Nat)
    (hq : QueryOk (storeData (realFns M) n d A leaf metric p) q) :
    qd (storeData (realFns M) n d A leaf metric p) q s = reported metric p d q.x (A s) := by
  have g := good_store M n d A leaf metric p hl hd ha
  rw [qd, distance_tdist g s q.x q.xNorm hq]
  have e : (storeData (realFns M) n d A leaf metric p).A = A := rfl
  rw [e, tdist_store M n d A leaf metric p ha]
  unfold reported
  have c : (storeData (realFns M) n d A leaf metric p).isEuclid = true ↔
      (metric = .euclidean ∨ metric = .euclideanGemm ∨ (metric = .minkowski ∧ p = 2)) := by
    rw [isEuclid_iff]
    cases metric <;> simp [storeData]
    split <;> simp_all
  by_cases h : (storeData (realFns M) n d A leaf metric p).isEuclid = true
  · rw [if_pos h, if_pos (c.1 h), sq]
  · rw [if_neg h, if_neg fun h' => h (c.2 h')]

/-- When the query of a row can be made. -/
theorem makeQuery_spec (t : Tree ℝ) (X : Option (Nat → Nat → ℝ)) (i : Nat) (h : t.metric = .euclideanGemm → i < t.n) :
    ∃ q, makeQuery t X i = some q ∧ QueryOk t q ∧ q.isA = X.isNone ∧ q.index = i ∧ q.x = queryRow t.A X i := by
  have hrow : (X.getD t.A) i = queryRow t.A X i := by cases X <;> rfl
  unfold makeQuery
  by_cases hm : t.metric = .euclideanGemm
  · simp only [hm, if_true, if_pos (h hm)]
    refine ⟨_, rfl, ?_, rfl, rfl, hrow⟩
    intro _
    cases X <;> simp
  · simp only [hm, if_false]
    exact ⟨_, rfl, fun h => absurd h hm, rfl, rfl, hrow⟩

section
variable {n d leaf : Nat} {metric : Metric} {p : ℝ} (st : Setting n d leaf metric p) (M : ℝ) (A : Nat → Nat → ℝ)
  (X : Option (Nat → Nat → ℝ)) (i : Nat)
include st

/-- From the samples found to the right answer. -/
theorem radius_answer (eps : ℝ) (he : 0 ≤ eps) (ret : Bool) (q : Query ℝ)
    (hq : QueryOk (storeData (realFns M) n d A leaf metric p) q) (h1 : q.isA = X.isNone) (h2 : q.index = i)
    (h3 : q.x = queryRow A X i) (idx out : List Nat) (hidx : idx.Perm (List.range n))
    (hout : out.Perm (hits (storeData (realFns M) n d A leaf metric p) q
      (epsInternal (storeData (realFns M) n d A leaf metric p) eps) idx)) :
    RadiusAnswer metric p n d A X i eps ret (grown (storeData (realFns M) n d A leaf metric p) q ret ([], []) out) := by
  have g := good_store M n d A leaf metric p st.leaf st.d st.metric
  have hnd : idx.Nodup := hidx.nodup_iff.2 List.nodup_range
  refine ⟨?_, ?_, ?_⟩
  · simp only [grown, List.nil_append]
    exact hout.nodup_iff.2 (hnd.filter _)
  · intro s
    simp only [grown, List.nil_append]
    rw [hout.mem_iff, hits, List.mem_filter, hidx.mem_iff, List.mem_range]
    rw [Bool.and_eq_true, decide_eq_true_eq, qd, within_iff g s q.x q.xNorm hq eps he,
      tdist_store M n d A leaf metric p st.metric, h3]
    have : other q s = true ↔ ¬ (X.isNone ∧ s = i) := by cases X <;> simp [other, h1, h2]
    rw [this]
    rfl
  · cases ret
    · rfl
    · simp only [grown, List.nil_append, if_true]
      apply List.map_congr_left
      intro s _
      rw [reported_store M n d A leaf metric p st.metric st.leaf st.d q s hq, h3]

theorem nearest_answer (k : Nat) (kInd : Nat → Nat) (kDist : Nat → ℝ) (q : Query ℝ)
    (hq : QueryOk (storeData (realFns M) n d A leaf metric p) q) (h1 : q.isA = X.isNone) (h2 : q.index = i)
    (h3 : q.x = queryRow A X i) (idx : List Nat) (hidx : idx.Perm (List.range n)) (h : Heap.MaxHeap ℝ)
    (b : Heap.Best k ([] ++ cand (storeData (realFns M) n d A leaf metric p) q idx) h)
    (f : Frame k (Heap.create k kInd kDist) h) : NearestAnswer metric p n d A X i k kInd kDist h := by
  have hc : (idx.filter (other q)).Perm (candidates n X i) := by
    rw [candidates_eq n X i q h1 h2]; exact hidx.filter _
  have hrep := fun s => reported_store M n d A leaf metric p st.metric st.leaf st.d q s hq
  rw [h3] at hrep
  obtain ⟨rest, p1, p2⟩ := b.sel
  rw [List.nil_append] at p1
  have hpair : ∀ c ∈ Heap.cells h.size h ++ rest, c.2 = reported metric p d (queryRow A X i) (A c.1) := by
    intro c hc
    obtain ⟨s, _, rfl⟩ := List.mem_map.1 (p1.subset hc)
    exact hrep s
  have hcell : ∀ j, j < h.size → ((h.indices j, h.distances j) : Nat × ℝ) ∈ Heap.cells h.size h := fun j hj =>
    List.mem_map.2 ⟨j, List.mem_range.2 hj, rfl⟩
  refine ⟨?_, ⟨rest.map (·.1), ?_, ?_⟩, ?_, f⟩
  · rw [b.size, List.nil_append, cand, List.length_map, hc.length_eq]
  · have := p1.map (·.1)
    rw [List.map_append, cand, List.map_map] at this
    refine List.Perm.trans ?_ (this.trans ?_)
    · rw [Heap.cells, List.map_map]; exact List.Perm.refl _
    · rw [show ((fun x : Nat × ℝ => x.1) ∘ fun s => (s, qd (storeData (realFns M) n d A leaf metric p) q s)) = id from rfl,
        List.map_id]
      exact hc
  · intro j hj s hs
    obtain ⟨c, hc, rfl⟩ := List.mem_map.1 hs
    rw [← hpair c (List.mem_append_right _ hc)]
    exact p2 _ (hcell j hj) c hc
  · intro j hj
    exact hpair _ (List.mem_append_left _ (hcell j hj))

end

/-! ### C30 -/

/-- C30, k-d tree: the full property. -/
def C30_kd_statement : Prop :=
  ∀ (n d leaf : Nat) (metric : Metric) (p : ℝ), Setting n d leaf metric p →
  ∀ (M : ℝ) (A : Nat → Nat → ℝ) nth rootDim orderLo orderHi, KdEnv nth rootDim n d orderLo orderHi →
  ∀ (X : Option (Nat → Nat → ℝ)) (i : Nat), (X.isNone → i < n) → ∀ (eps : ℝ), 0 ≤ eps → ∀ (ret : Bool),
  ∃ tree out, kdCreate (storeData (realFns M) n d A leaf metric p) nth rootDim orderLo orderHi = some tree ∧
    kdRadiusRow (storeData (realFns M) n d A leaf metric p) tree X eps ret i = some out ∧
    RadiusAnswer metric p n d A X i eps ret out

/-- C30, ball tree: the full property. -/
def C30_ball_statement : Prop :=
  ∀ (n d leaf : Nat) (metric : Metric) (p : ℝ), Setting n d leaf metric p →
  ∀ (M : ℝ) (A : Nat → Nat → ℝ) (threads : Nat), 0 < threads →
  ∀ (X : Option (Nat → Nat → ℝ)) (i : Nat), (X.isNone → i < n) → ∀ (eps : ℝ), 0 ≤ eps → ∀ (ret : Bool),
  ∃ out, ballRadiusRow (storeData (realFns M) n d A leaf metric p)
      (ballCreate (storeData (realFns M) n d A leaf metric p) threads) X eps ret i = some out ∧
    RadiusAnswer metric p n d A X i eps ret out

theorem store_gemm {M : ℝ} {n d : Nat} {A : Nat → Nat → ℝ} {leaf : Nat} {metric : Metric} {p : ℝ}
    (h : (storeData (realFns M) n d A leaf metric p).metric = .euclideanGemm) : metric = .euclideanGemm := by
  simp only [storeData] at h
  split at h
  · simp at h
  · exact h

/-- C30, k-d tree.  The radius search returns exactly the samples within the radius, each once, for every metric of
the property, every data set, leaf size, radius and query and every schedule of the threads.  Missing for the full
property: for the metric `euclidean_gemm` the row must be one of the first `n_samples` ones. -/
theorem C30_kd_partial {n d leaf : Nat} {metric : Metric} {p : ℝ} (st : Setting n d leaf metric p) (M : ℝ)
    (A : Nat → Nat → ℝ) {nth rootDim orderLo orderHi} (env : KdEnv nth rootDim n d orderLo orderHi)
    (X : Option (Nat → Nat → ℝ)) (i : Nat) (hi : metric = .euclideanGemm → i < n) (eps : ℝ) (he : 0 ≤ eps) (ret : Bool) :
    ∃ tree out, kdCreate (storeData (realFns M) n d A leaf metric p) nth rootDim orderLo orderHi = some tree ∧
      kdRadiusRow (storeData (realFns M) n d A leaf metric p) tree X eps ret i = some out ∧
      RadiusAnswer metric p n d A X i eps ret out := by
  have g := good_store M n d A leaf metric p st.leaf st.d st.metric
  obtain ⟨k, idx, e1, p1, w, e2⟩ := kdCreate_spec g env.nth rootDim env.dim st.n orderLo orderHi env.lo env.hi
  obtain ⟨q, e3, hq, h1, h2, h3⟩ := makeQuery_spec (storeData (realFns M) n d A leaf metric p) X i
    fun h => hi (store_gemm h)
  obtain ⟨out, e4, p4⟩ := kdRadius_spec g hq idx eps he ret k w ([], [])
  rw [e2] at p4
  refine ⟨(k, idx), _, e1, ?_, radius_answer st M A X i eps he ret q hq h1 h2 h3 idx out p1 p4⟩
  unfold kdRadiusRow
  rw [e3, Option.bind_some, e4]

/-- C30, ball tree, as for the k-d tree.  Missing for the full property: `euclidean_gemm` as for the k-d tree, and
the samples left over by the root's blocks must be fewer than a block has. -/
theorem C30_ball_partial {n d leaf : Nat} {metric : Metric} {p : ℝ} (st : Setting n d leaf metric p) (M : ℝ)
    (A : Nat → Nat → ℝ) {threads : Nat} (ht : 0 < threads)
    (hb : n - rootBlocks threads n * (n / rootBlocks threads n) < n / rootBlocks threads n)
    (X : Option (Nat → Nat → ℝ)) (i : Nat) (hi : metric = .euclideanGemm → i < n) (eps : ℝ) (he : 0 ≤ eps) (ret : Bool) :
    ∃ out, ballRadiusRow (storeData (realFns M) n d A leaf metric p)
        (ballCreate (storeData (realFns M) n d A leaf metric p) threads) X eps ret i = some out ∧
      RadiusAnswer metric p n d A X i eps ret out := by
  have g := good_store M n d A leaf metric p st.leaf st.d st.metric
  obtain ⟨p1, w, e2⟩ := ballCreate_spec g (threads := threads) st.n (root_cover ht hb)
  obtain ⟨q, e3, hq, h1, h2, h3⟩ := makeQuery_spec (storeData (realFns M) n d A leaf metric p) X i
    fun h => hi (store_gemm h)
  obtain ⟨out, e4, p4⟩ := ballRadius_spec g hq _ eps he ret _ w ([], [])
  rw [e2] at p4
  refine ⟨_, ?_, radius_answer st M A X i eps he ret q hq h1 h2 h3 _ out p1 p4⟩
  unfold ballRadiusRow
  rw [e3, Option.bind_some, e4]

/-- C30, ball tree, for at most 256 threads. -/
theorem C30_ball_threads_partial {n d leaf : Nat} {metric : Metric} {p : ℝ} (st : Setting n d leaf metric p) (M : ℝ)
    (A : Nat → Nat → ℝ) {threads : Nat} (ht : 0 < threads) (ht' : threads ≤ 256)
    (X : Option (Nat → Nat → ℝ)) (i : Nat) (hi : metric = .euclideanGemm → i < n) (eps : ℝ) (he : 0 ≤ eps) (ret : Bool) :
    ∃ out, ballRadiusRow (storeData (realFns M) n d A leaf metric p)
        (ballCreate (storeData (realFns M) n d A leaf metric p) threads) X eps ret i = some out ∧
      RadiusAnswer metric p n d A X i eps ret out :=
  C30_ball_partial st M A ht (root_small ht ht' st.n) X i hi eps he ret

/-! ### C31 -/

/-- The largest number is not exceeded by a distance. -/
def TopOk (M : ℝ) (metric : Metric) (p : ℝ) (n d : Nat) (A : Nat → Nat → ℝ) (x : Nat → ℝ) : Prop :=
  ∀ s, s < n → reported metric p d x (A s) ≤ M

/-- C31, k-d tree: the full property. -/
def C31_kd_statement : Prop :=
  ∀ (n d leaf : Nat) (metric : Metric) (p : ℝ), Setting n d leaf metric p →
  ∀ (M : ℝ) (A : Nat → Nat → ℝ) nth rootDim orderLo orderHi, KdEnv nth rootDim n d orderLo orderHi →
  ∀ (X : Option (Nat → Nat → ℝ)) (i : Nat), (X.isNone → i < n) → TopOk M metric p n d A (queryRow A X i) →
  ∀ (k : Nat), 0 < k → ∀ kInd kDist,
  ∃ tree h, kdCreate (storeData (realFns M) n d A leaf metric p) nth rootDim orderLo orderHi = some tree ∧
    kdNearestRow (storeData (realFns M) n d A leaf metric p) tree X k kInd kDist i = some h ∧
    NearestAnswer metric p n d A X i k kInd kDist h

/-- C31, ball tree: the full property. -/
def C31_ball_statement : Prop :=
  ∀ (n d leaf : Nat) (metric : Metric) (p : ℝ), Setting n d leaf metric p →
  ∀ (M : ℝ) (A : Nat → Nat → ℝ) (threads : Nat), 0 < threads →
  ∀ (X : Option (Nat → Nat → ℝ)) (i : Nat), (X.isNone → i < n) → TopOk M metric p n d A (queryRow A X i) →
  ∀ (k : Nat), 0 < k → ∀ kInd kDist,
  ∃ h, ballNearestRow (storeData (realFns M) n d A leaf metric p)
      (ballCreate (storeData (realFns M) n d A leaf metric p) threads) X k kInd kDist i = some h ∧
    NearestAnswer metric p n d A X i k kInd kDist h

/-- C31, k-d tree.  The search leaves in the row the `k` nearest samples (all candidates if there are fewer) with
their distances.  Missing: as in `C30_kd_partial`. -/
theorem C31_kd_partial {n d leaf : Nat} {metric : Metric} {p : ℝ} (st : Setting n d leaf metric p) (M : ℝ)
    (A : Nat → Nat → ℝ) {nth rootDim orderLo orderHi} (env : KdEnv nth rootDim n d orderLo orderHi)
    (X : Option (Nat → Nat → ℝ)) (i : Nat) (hi : metric = .euclideanGemm → i < n)
    (hM : TopOk M metric p n d A (queryRow A X i)) (k : Nat) (hk : 0 < k) (kInd : Nat → Nat) (kDist : Nat → ℝ) :
    ∃ tree h, kdCreate (storeData (realFns M) n d A leaf metric p) nth rootDim orderLo orderHi = some tree ∧
      kdNearestRow (storeData (realFns M) n d A leaf metric p) tree X k kInd kDist i = some h ∧
      NearestAnswer metric p n d A X i k kInd kDist h := by
  have g := good_store M n d A leaf metric p st.leaf st.d st.metric
  obtain ⟨kd, idx, e1, p1, w, e2⟩ := kdCreate_spec g env.nth rootDim env.dim st.n orderLo orderHi env.lo env.hi
  obtain ⟨q, e3, hq, h1, h2, h3⟩ := makeQuery_spec (storeData (realFns M) n d A leaf metric p) X i
    fun h => hi (store_gemm h)
  obtain ⟨h, e4, b, f⟩ := kdNearest_spec g hq idx hk (by
    intro s hs
    rw [reported_store M n d A leaf metric p st.metric st.leaf st.d q s hq, h3]
    exact hM s (List.mem_range.1 (p1.subset hs))) kd w [] _ (Heap.best_create k kInd kDist)
  rw [e2] at b
  refine ⟨(kd, idx), h, e1, ?_, nearest_answer st M A X i k kInd kDist q hq h1 h2 h3 idx p1 h b f⟩
  unfold kdNearestRow
  rw [e3, Option.bind_some, e4]

/-- C31, ball tree, with any number of threads: a wrong ball of the root (see `C30_ball_violated`) is not looked at.
Missing: as in `C30_kd_partial`. -/
theorem C31_ball_partial {n d leaf : Nat} {metric : Metric} {p : ℝ} (st : Setting n d leaf metric p) (M : ℝ)
    (A : Nat → Nat → ℝ) (threads : Nat)
    (X : Option (Nat → Nat → ℝ)) (i : Nat) (hi : metric = .euclideanGemm → i < n)
    (hM : TopOk M metric p n d A (queryRow A X i)) (k : Nat) (hk : 0 < k) (kInd : Nat → Nat) (kDist : Nat → ℝ) :
    ∃ h, ballNearestRow (storeData (realFns M) n d A leaf metric p)
        (ballCreate (storeData (realFns M) n d A leaf metric p) threads) X k kInd kDist i = some h ∧
      NearestAnswer metric p n d A X i k kInd kDist h := by
  have g := good_store M n d A leaf metric p st.leaf st.d st.metric
  obtain ⟨bt, p1, w, e2, e0⟩ := ballCreate_nearest g threads st.n
  obtain ⟨q, e3, hq, h1, h2, h3⟩ := makeQuery_spec (storeData (realFns M) n d A leaf metric p) X i
    fun h => hi (store_gemm h)
  obtain ⟨h, e4, b, f⟩ := ballNearest_spec g hq _ hk (by
    intro s hs
    rw [reported_store M n d A leaf metric p st.metric st.leaf st.d q s hq, h3]
    exact hM s (List.mem_range.1 (p1.subset hs))) _ w [] _ (Heap.best_create k kInd kDist) (by simp)
  rw [e2] at b
  refine ⟨h, ?_, nearest_answer st M A X i k kInd kDist q hq h1 h2 h3 _ p1 h b f⟩
  unfold ballNearestRow
  rw [e3, Option.bind_some, e0 q k _ (by simpa [Heap.create] using hk), e4]

/-! ### Instances -/

/-- Sorting is one way to implement `std::nth_element`. -/
def sortNth (lt : Nat → Nat → Bool) (_ : Nat) (l : List Nat) : List Nat := l.mergeSort fun x y => !lt y x

theorem sortNth_ok : NthOk sortNth := by
  intro key mid l hm
  have hs : List.Pairwise (fun a b => (!decide (key b < key a)) = true)
      (l.mergeSort fun x y => !decide (key y < key x)) := by
    apply List.pairwise_mergeSort
    · intro a b c
      simp only [Bool.not_eq_true', decide_eq_false_iff_not, not_lt]
      exact le_trans
    · intro a b
      rcases le_total (key a) (key b) with h | h
      · simp [not_lt.2 h]
      · simp [not_lt.2 h]
  have hlen : (l.mergeSort fun x y => !decide (key y < key x)).length = l.length := List.length_mergeSort _
  have hget : ∀ i j (hj : j < l.length), i < j →
      ¬ key ((l.mergeSort fun x y => !decide (key y < key x)).getD j 0)
        < key ((l.mergeSort fun x y => !decide (key y < key x)).getD i 0) := by
    intro i j hj hij
    have := List.pairwise_iff_getElem.1 hs i j (by omega) (by omega) hij
    rw [List.getD_eq_getElem?_getD, List.getD_eq_getElem?_getD, List.getElem?_eq_getElem (by omega),
      List.getElem?_eq_getElem (by omega)]
    simpa using this
  exact ⟨List.mergeSort_perm _ _, fun i hi => hget i mid hm hi, fun i h1 h2 => hget mid i h2 h1⟩

/-- The hypotheses of the k-d tree theorems are satisfiable: seven points in the plane, one thread, and the search
works with real exponents, too. -/
example (A : Nat → Nat → ℝ) (x : Nat → ℝ) :
    ∃ tree out, kdCreate (storeData (realFns 1000) 7 2 A 1 .minkowski 3) sortNth 0 [[0]] [[0]] = some tree ∧
      kdRadiusRow (storeData (realFns 1000) 7 2 A 1 .minkowski 3) tree (some fun _ => x) 2 true 0 = some out ∧
      RadiusAnswer .minkowski 3 7 2 A (some fun _ => x) 0 2 true out :=
  C30_kd_partial ⟨by decide, by decide, by decide, by simp [Admissible]⟩ _ A
    ⟨sortNth_ok, by decide, by decide, by decide⟩ _ _ (by simp) 2 (by norm_num) true

example (A : Nat → Nat → ℝ) :
    ∃ out, ballRadiusRow (storeData (realFns 1000) 700 2 A 30 .euclidean 2)
        (ballCreate (storeData (realFns 1000) 700 2 A 30 .euclidean 2) 64) none 2 true 5 = some out ∧
      RadiusAnswer .euclidean 2 700 2 A none 5 2 true out :=
  C30_ball_threads_partial ⟨by decide, by decide, by decide, by simp [Admissible]⟩ _ A (by decide) (by decide) _ _
    (by simp) 2 (by norm_num) true

example (A : Nat → Nat → ℝ) (hM : TopOk 1000 .euclidean 2 700 2 A (queryRow A none 5)) :
    ∃ h, ballNearestRow (storeData (realFns 1000) 700 2 A 30 .euclidean 2)
        (ballCreate (storeData (realFns 1000) 700 2 A 30 .euclidean 2) 64) none 10 (fun _ => 0) (fun _ => 0) 5 = some h ∧
      NearestAnswer .euclidean 2 700 2 A none 5 10 (fun _ => 0) (fun _ => 0) h :=
  C31_ball_partial ⟨by decide, by decide, by decide, by simp [Admissible]⟩ _ A _ _ _ (by simp) hM 10 (by decide) _ _

example (A : Nat → Nat → ℝ) (hM : TopOk 1000 .manhattan 1 7 2 A (queryRow A none 5)) :
    ∃ tree h, kdCreate (storeData (realFns 1000) 7 2 A 1 .manhattan 1) sortNth 0 [[0]] [[0]] = some tree ∧
      kdNearestRow (storeData (realFns 1000) 7 2 A 1 .manhattan 1) tree none 3 (fun _ => 0) (fun _ => 0) 5 = some h ∧
      NearestAnswer .manhattan 1 7 2 A none 5 3 (fun _ => 0) (fun _ => 0) h :=
  C31_kd_partial ⟨by decide, by decide, by decide, by simp [Admissible]⟩ _ A
    ⟨sortNth_ok, by decide, by decide, by decide⟩ _ _ (by simp) hM 3 (by decide) _ _

/-- Rational numbers: the functions can be run. -/
def qTree (metric : Metric) (leaf : Nat) : Tree ℚ :=
  storeData ⟨id, fun x _ => x, 100000⟩ 7 2
    (fun s j => (([[0, 0], [1, 5], [4, 4], [9, 1], [3, 3], [8, 8], [4, 5]] : List (List ℚ)).getD s []).getD j 0) leaf metric 1

/-- Insertion sort, for evaluation by the kernel. -/
def insertBy (lt : Nat → Nat → Bool) (x : Nat) : List Nat → List Nat
  | [] => [x]
  | y :: ys => if lt x y then x :: y :: ys else y :: insertBy lt x ys
def runNth (lt : Nat → Nat → Bool) (_ : Nat) (l : List Nat) : List Nat := l.foldr (insertBy lt) []

/-- The k-d tree has three levels; the radius search around (4, 3) finds the samples 2, 4 and 6. -/
example : ((kdCreate (qTree .manhattan 1) runNth 0 [[0]] [[0]]).map fun tree =>
    (tree.2, kdRadiusRow (qTree .manhattan 1) tree (some fun _ j => if j = 0 then 4 else 3) 2 true 0)) =
    some ([0, 4, 1, 6, 3, 2, 5], some ([6, 4, 2], [2, 1, 1])) := by decide +kernel

example : ((kdCreate (qTree .euclidean 1) runNth 0 [[0]] [[0]]).map fun tree =>
    (kdNearestRow (qTree .euclidean 1) tree none 2 (fun _ => 0) (fun _ => 0) 4).map fun h =>
      ([h.indices 0, h.indices 1], [h.distances 0, h.distances 1])) = some (some ([6, 2], [5, 2])) := by decide +kernel

example : (ballRadiusRow (qTree .manhattan 1) (ballCreate (qTree .manhattan 1) 8)
    (some fun _ j => if j = 0 then 4 else 3) 2 true 0) = some ([6, 2, 4], [2, 1, 1]) := by decide +kernel

example : (ballNearestRow (qTree .manhattan 1) (ballCreate (qTree .manhattan 1) 8) none 3 (fun _ => 0) (fun _ => 0) 4).map
    (fun h => ([h.indices 0, h.indices 1, h.indices 2], [h.distances 0, h.distances 1, h.distances 2])) =
    some ([1, 2, 6], [4, 2, 3]) := by decide +kernel

/-! ### Where the code departs from the property -/

/-- C30 and C31 finding: with the metric `euclidean_gemm` the query with number `n_samples` reads past the end of
`A_norms`; one sample and two queries suffice. -/
theorem C30_kd_violated : ¬ C30_kd_statement := by
  intro h
  obtain ⟨tree, out, _, h2, _⟩ := h 1 1 1 .euclideanGemm 2 ⟨by decide, by decide, by decide, by simp [Admissible]⟩ 10
    (fun _ _ => 0) sortNth 0 [[0]] [[0]] ⟨sortNth_ok, by decide, by decide, by decide⟩ (some fun _ _ => 0) 1 (by simp) 1
    (by norm_num) true
  simp [kdRadiusRow, makeQuery, storeData] at h2

theorem C31_kd_violated : ¬ C31_kd_statement := by
  intro h
  obtain ⟨tree, out, _, h2, _⟩ := h 1 1 1 .euclideanGemm 2 ⟨by decide, by decide, by decide, by simp [Admissible]⟩ 10
    (fun _ _ => 0) sortNth 0 [[0]] [[0]] ⟨sortNth_ok, by decide, by decide, by decide⟩ (some fun _ _ => 0) 1 (by simp)
    (by intro s _; simp [reported, trueDist, queryRow]) 1 (by decide) (fun _ => 0) (fun _ => 0)
  simp [kdNearestRow, makeQuery, storeData] at h2

theorem C31_ball_violated : ¬ C31_ball_statement := by
  intro h
  obtain ⟨out, h2, _⟩ := h 1 1 1 .euclideanGemm 2 ⟨by decide, by decide, by decide, by simp [Admissible]⟩ 10
    (fun _ _ => 0) 1 (by decide) (some fun _ _ => 0) 1 (by simp)
    (by intro s _; simp [reported, trueDist, queryRow]) 1 (by decide) (fun _ => 0) (fun _ => 0)
  simp [ballNearestRow, makeQuery, storeData] at h2

/-- The condition on the row is exact: without it there is no result, whatever the tree. -/
theorem C30_norms_exact (t : Tree ℝ) (hm : t.metric = .euclideanGemm) (X : Option (Nat → Nat → ℝ)) (i : Nat) (hi : t.n ≤ i)
    (kd : Kd ℝ × List Nat) (bt : Ball ℝ × List Nat) (eps : ℝ) (ret : Bool) (k : Nat) (kInd : Nat → Nat) (kDist : Nat → ℝ) :
    kdRadiusRow t kd X eps ret i = none ∧ ballRadiusRow t bt X eps ret i = none ∧
    kdNearestRow t kd X k kInd kDist i = none ∧ ballNearestRow t bt X k kInd kDist i = none := by
  have : makeQuery t X i = none := by simp [makeQuery, hm, not_lt.2 hi]
  simp [kdRadiusRow, ballRadiusRow, kdNearestRow, ballNearestRow, this]

/-- All samples at 0, the last one at 1000. -/
noncomputable def farTree : Tree ℝ :=
  storeData (realFns 5000) 66048 1 (fun s _ => if s = 66047 then 1000 else 0) 66048 .manhattan 1

theorem far_block {b i : Nat} (hb : b < rootBlocks 257 66048) (h : i ∈ rootBlock 257 66048 b) : i ≠ 66047 := by
  have e : rootBlocks 257 66048 = 257 := by decide
  unfold rootBlock at h
  rw [e] at hb h
  dsimp only at h
  split at h <;> rw [List.mem_range'_1] at h <;> omega

theorem far_zero : ∀ (l : List Nat), (∀ i ∈ l, i ≠ 66047) → l.foldl (fun m i => m + farTree.A i 0) 0 = 0 := by
  intro l
  induction l with
  | nil => intro _; rfl
  | cons a l ih =>
    intro h
    have e : farTree.A a 0 = 0 := if_neg (h a List.mem_cons_self)
    rw [List.foldl_cons, e, add_zero]
    exact ih fun i hi => h i (List.mem_cons_of_mem _ hi)

theorem far_centroid : rootCentroid farTree 257 0 = 0 := by
  unfold rootCentroid
  have : ∀ (l : List Nat), (∀ b ∈ l, b < rootBlocks 257 66048) → l.foldl (fun (s : ℝ) b =>
      s + (rootBlock 257 66048 b).foldl (fun m i => m + farTree.A i 0) 0 / ((rootBlock 257 66048 b).length : ℝ) *
        ((rootBlock 257 66048 b).length : ℝ)) 0 = 0 := by
    intro l
    induction l with
    | nil => intro _; rfl
    | cons b l ih =>
      intro h
      rw [List.foldl_cons, far_zero _ fun i hi => far_block (h b List.mem_cons_self) hi, zero_div, zero_mul, add_zero]
      exact ih fun i hi => h i (List.mem_cons_of_mem _ hi)
  have h := this (List.range (rootBlocks 257 66048)) fun b hb => List.mem_range.1 hb
  have e : farTree.n = 66048 := rfl
  rw [e]
  dsimp only
  rw [h, zero_div]

theorem amax_zero : ∀ (l : List ℝ), (∀ y ∈ l, y = 0) → amax l = 0 := by
  intro l hl
  have hm : ∀ (l : List ℝ) (m : ℝ), (∀ y ∈ l, y = 0) → m = 0 →
      l.foldl (fun m y => if |m| < |y| then y else m) m = 0 := by
    intro l
    induction l with
    | nil => intro m _ h; exact h
    | cons a l ih =>
      intro m h1 h2
      rw [List.foldl_cons]
      apply ih _ fun y hy => h1 y (List.mem_cons_of_mem _ hy)
      split
      · exact h1 a List.mem_cons_self
      · exact h2
  cases l with
  | nil => rfl
  | cons a l => exact hm l a (fun y hy => hl y (List.mem_cons_of_mem _ hy)) (hl a List.mem_cons_self)

theorem far_radius : rootRadius farTree 257 = 0 := by
  unfold rootRadius
  apply amax_zero
  intro y hy
  obtain ⟨b, hb, rfl⟩ := List.mem_map.1 hy
  apply amax_zero
  intro y hy
  obtain ⟨i, hi, rfl⟩ := List.mem_map.1 hy
  have hne := far_block (List.mem_range.1 hb) hi
  have e : farTree.A i 0 = 0 := if_neg hne
  show sumTo 1 (fun j => |farTree.A i j - rootCentroid farTree 257 j|) = 0
  rw [sumTo_eq, Finset.sum_range_one, e, far_centroid]
  simp

/-- C30 finding: with 257 threads and 66048 samples the last 256 samples count neither for the centroid nor for
the radius of the root (`block_rem = block_size + n % block_size`); here the root is a ball of radius zero and the
search at the last sample finds nothing, although the sample itself is at distance zero. -/
theorem C30_ball_violated : ¬ C30_ball_statement := by
  intro h
  obtain ⟨out, h1, h2⟩ := h 66048 1 66048 .manhattan 1 ⟨by decide, by decide, by decide, by simp [Admissible]⟩ 5000
    (fun s _ => if s = 66047 then 1000 else 0) 257 (by decide) (some fun _ _ => 1000) 0 (by simp) 1 (by norm_num) true
  change ballRadiusRow farTree (ballCreate farTree 257) (some fun _ _ => 1000) 1 true 0 = some out at h1
  have hq : makeQuery farTree (some fun _ _ => 1000) 0 = some ⟨fun _ => 1000, 0, false, 0⟩ := rfl
  have hl : (List.range farTree.n).length = 66048 := List.length_range
  have hc : (ballCreate farTree 257).1 = .node true 0 66048 (rootCentroid farTree 257) (rootRadius farTree 257) .null .null := by
    unfold ballCreate
    unfold ballBuild
    rw [if_neg (by rw [hl]; decide), if_pos (by rw [hl]; exact Nat.le_refl _), hl]
    dsimp only [Option.getD_some]
  unfold ballRadiusRow at h1
  rw [hq, Option.bind_some, hc] at h1
  unfold ballRadius at h1
  have hout : (checkBall farTree (fun _ => 1000) 1 (rootCentroid farTree 257) (rootRadius farTree 257)).1 = .outside := by
    have e : checkBall farTree (fun _ => 1000) 1 (rootCentroid farTree 257) (rootRadius farTree 257) =
        (if sumTo 1 (fun i => |(1000 : ℝ) - rootCentroid farTree 257 i|) + rootRadius farTree 257 ≤ 1 then .inside
         else if sumTo 1 (fun i => |(1000 : ℝ) - rootCentroid farTree 257 i|) - rootRadius farTree 257 ≤ 1 then .within
         else .outside, sumTo 1 (fun i => |(1000 : ℝ) - rootCentroid farTree 257 i|)) := rfl
    rw [e, far_radius, sumTo_eq, Finset.sum_range_one, far_centroid]
    norm_num
  dsimp only at h1
  rw [hout] at h1
  have := (h2.2.1 66047).2 ⟨by decide, by simp, by simp [trueDist, queryRow]⟩
  rw [← Option.some.inj h1] at this
  simp at this

end Verif.NnTree
