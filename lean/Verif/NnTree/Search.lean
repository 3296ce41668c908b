/-
The searches on well-formed trees.
-/
import Verif.NnTree.Geometry
import Verif.Heap.Proof
namespace Verif.NnTree
open Verif.Heap

/-- The part of `indices` that belongs to a node. -/
def seg (idx : List Nat) (off n : Nat) : List Nat := (idx.drop off).take n

def Kd.pts (idx : List Nat) : Kd ℝ → List Nat
  | .null => []
  | .node _ _ _ off n _ _ _ _ => seg idx off n

/-- Well-formed k-d trees. -/
def KdWF (t : Tree ℝ) (idx : List Nat) : Kd ℝ → Prop
  | .null => False
  | .node isLeaf dim pt off n lo hi l r =>
    off + n ≤ idx.length ∧
    (∀ s ∈ seg idx off n, ∀ j, j < t.d → lo j ≤ t.A s j ∧ t.A s j ≤ hi j) ∧
    (isLeaf = false → dim < t.d ∧ KdWF t idx l ∧ KdWF t idx r ∧
      seg idx off n = l.pts idx ++ pt :: r.pts idx ∧
      (∀ s ∈ l.pts idx, t.A s dim ≤ t.A pt dim) ∧ (∀ s ∈ r.pts idx, t.A pt dim ≤ t.A s dim))

def Ball.pts (idx : List Nat) : Ball ℝ → List Nat
  | .null => []
  | .node _ off n _ _ _ _ => seg idx off n

/-- Well-formed ball trees. -/
def BallWF (t : Tree ℝ) (idx : List Nat) : Ball ℝ → Prop
  | .null => False
  | .node isLeaf off n c radius l r =>
    off + n ≤ idx.length ∧ 0 < n ∧
    (∀ s ∈ seg idx off n, tdist t c (t.A s) ≤ radius) ∧
    (isLeaf = false → BallWF t idx l ∧ BallWF t idx r ∧ seg idx off n = l.pts idx ++ r.pts idx)

/-- The query is consistent with the tree. -/
def QueryOk (t : Tree ℝ) (q : Query ℝ) : Prop := t.metric = .euclideanGemm → q.xNorm = norm t.d q.x

/-- Distance of a sample to the query, as computed. -/
noncomputable def qd (t : Tree ℝ) (q : Query ℝ) (s : Nat) : ℝ := computeDistance t s q.x q.xNorm

/-- Not the query itself. -/
def other (q : Query ℝ) (s : Nat) : Bool := !(q.isA && s == q.index)

/-- What a radius search has to find in a list of samples. -/
noncomputable def hits (t : Tree ℝ) (q : Query ℝ) (epsI : ℝ) (is : List Nat) : List Nat :=
  is.filter fun s => other q s && decide (qd t q s ≤ epsI)

/-- Appending found samples. -/
noncomputable def grown (t : Tree ℝ) (q : Query ℝ) (ret : Bool) (acc : List Nat × List ℝ) (out : List Nat) :
    List Nat × List ℝ :=
  (acc.1 ++ out, if ret then acc.2 ++ out.map (qd t q) else acc.2)

section
variable (t : Tree ℝ) (q : Query ℝ) (ret : Bool)

theorem grown_nil (acc : List Nat × List ℝ) : grown t q ret acc [] = acc := by
  simp [grown]

theorem grown_grown (acc : List Nat × List ℝ) (a b : List Nat) :
    grown t q ret (grown t q ret acc a) b = grown t q ret acc (a ++ b) := by
  cases ret <;> simp [grown]

theorem push_grown (acc : List Nat × List ℝ) (i : Nat) :
    push ret acc i (computeDistance t i q.x q.xNorm) = grown t q ret acc [i] := by
  cases ret <;> simp [push, grown, qd]

theorem addAll_eq : ∀ (is : List Nat) (acc : List Nat × List ℝ),
    addAll t q ret is acc = grown t q ret acc (is.filter (other q)) := by
  intro is
  induction is with
  | nil => intro acc; simp [addAll, grown_nil]
  | cons i is ih =>
    intro acc
    have e : addAll t q ret (i :: is) acc = addAll t q ret is
        (if q.isA && i == q.index then acc else push ret acc i (computeDistance t i q.x q.xNorm)) := rfl
    rw [e, ih]
    cases h : (q.isA && i == q.index)
    · have : other q i = true := by simp only [other, h]; rfl
      rw [List.filter_cons_of_pos this]
      simp only [Bool.false_eq_true, if_false]
      rw [push_grown, grown_grown]; rfl
    · have : ¬ other q i = true := by simp only [other, h]; simp
      rw [List.filter_cons_of_neg this]
      simp

theorem addClose_eq (epsI : ℝ) : ∀ (is : List Nat) (acc : List Nat × List ℝ),
    addClose t q epsI ret is acc = grown t q ret acc (hits t q epsI is) := by
  intro is
  induction is with
  | nil => intro acc; simp [addClose, hits, grown_nil]
  | cons i is ih =>
    intro acc
    have e : addClose t q epsI ret (i :: is) acc = addClose t q epsI ret is
        (if q.isA && i == q.index then acc
          else if computeDistance t i q.x q.xNorm ≤ epsI then push ret acc i (computeDistance t i q.x q.xNorm) else acc) := rfl
    rw [e, ih]
    cases h : (q.isA && i == q.index)
    · have h1 : other q i = true := by simp only [other, h]; rfl
      by_cases h2 : computeDistance t i q.x q.xNorm ≤ epsI
      · simp only [Bool.false_eq_true, if_false, h2, if_true]
        rw [push_grown, grown_grown, hits, hits, List.filter_cons_of_pos (by simp [h1, qd, h2])]; rfl
      · simp only [Bool.false_eq_true, if_false, h2]
        rw [hits, hits, List.filter_cons_of_neg (by simp [qd, h2])]
    · have : ¬ other q i = true := by simp only [other, h]; simp
      simp only [if_true]
      rw [hits, hits, List.filter_cons_of_neg (by simp [this])]

theorem readIdx_eq {idx : List Nat} {off n : Nat} (h : off + n ≤ idx.length) : readIdx idx off n = some (seg idx off n) :=
  if_pos h

theorem hits_none {epsI : ℝ} {is : List Nat} (h : ∀ s ∈ is, epsI < qd t q s) : hits t q epsI is = [] := by
  rw [hits, List.filter_eq_nil_iff]
  intro s hs
  simp [not_le.2 (h s hs)]

theorem hits_all {epsI : ℝ} {is : List Nat} (h : ∀ s ∈ is, qd t q s ≤ epsI) : hits t q epsI is = is.filter (other q) := by
  rw [hits]
  apply List.filter_congr
  intro s hs
  simp [h s hs]

theorem hits_append (epsI : ℝ) (a b : List Nat) : hits t q epsI (a ++ b) = hits t q epsI a ++ hits t q epsI b :=
  List.filter_append ..

theorem hits_middle (epsI : ℝ) (a : List Nat) (p : Nat) (b : List Nat) :
    (hits t q epsI [p] ++ (hits t q epsI a ++ hits t q epsI b)).Perm (hits t q epsI (a ++ p :: b)) := by
  have : a ++ p :: b = a ++ ([p] ++ b) := rfl
  rw [this, hits_append, hits_append, ← List.append_assoc, ← List.append_assoc]
  exact List.perm_append_comm.append_right _

end

section
variable {t : Tree ℝ} (g : Good t) {q : Query ℝ} (hq : QueryOk t q)
include g hq

theorem kdRadius_spec (idx : List Nat) (eps : ℝ) (he : 0 ≤ eps) (ret : Bool) : ∀ (k : Kd ℝ), KdWF t idx k →
    ∀ acc, ∃ out, kdRadius t idx q eps (epsInternal t eps) ret k acc = some (grown t q ret acc out) ∧
      out.Perm (hits t q (epsInternal t eps) (k.pts idx)) := by
  intro k
  induction k with
  | null => intro h; exact h.elim
  | node isLeaf dim pt off n lo hi l r ihl ihr =>
    rintro ⟨hlen, hbox, hsplit⟩ acc
    unfold kdRadius
    cases hc : checkBox t q.x (epsInternal t eps) lo hi with
    | outside =>
      refine ⟨[], by rw [grown_nil], ?_⟩
      rw [Kd.pts, hits_none t q (fun s hs => (checkBox_spec g q.x _ lo hi s q.xNorm hq (hbox s hs)).1 hc)]
    | inside =>
      refine ⟨(seg idx off n).filter (other q), by rw [readIdx_eq hlen]; simp [addAll_eq], ?_⟩
      rw [Kd.pts, hits_all t q (fun s hs => (checkBox_spec g q.x _ lo hi s q.xNorm hq (hbox s hs)).2 hc)]
    | within =>
      dsimp only
      cases isLeaf with
      | true =>
        refine ⟨hits t q (epsInternal t eps) (seg idx off n), ?_, List.Perm.refl _⟩
        simp [readIdx_eq hlen, addClose_eq]
      | false =>
        obtain ⟨hd, wl, wr, hseg, hL, hR⟩ := hsplit rfl
        simp only [Bool.false_eq_true, if_false]
        -- the splitting point
        have e1 : (if (!(q.isA && pt == q.index)) = true then
              if computeDistance t pt q.x q.xNorm ≤ epsInternal t eps then
                push ret acc pt (computeDistance t pt q.x q.xNorm) else acc
            else acc) = grown t q ret acc (hits t q (epsInternal t eps) [pt]) := by
          have := addClose_eq t q ret (epsInternal t eps) [pt] acc
          rw [← this]
          show _ = (if q.isA && pt == q.index then acc else _)
          cases (q.isA && pt == q.index) <;> simp
        rw [e1]
        -- pruning by the splitting plane
        have hleft : ¬ q.x dim - t.A pt dim ≤ eps → hits t q (epsInternal t eps) (l.pts idx) = [] := by
          intro h
          apply hits_none
          intro s hs
          have h1 : q.x dim - t.A pt dim ≤ |q.x dim - t.A s dim| := by
            have := hL s hs
            exact le_trans (by linarith) (le_abs_self _)
          have h2 := coord_le g q.x s dim hd q.xNorm hq (by linarith [not_le.1 h]) h1
          refine lt_of_lt_of_le ?_ h2
          unfold epsInternal
          split
          · exact mul_self_lt_mul_self he (not_le.1 h)
          · exact not_le.1 h
        have hright : ¬ -eps ≤ q.x dim - t.A pt dim → hits t q (epsInternal t eps) (r.pts idx) = [] := by
          intro h
          apply hits_none
          intro s hs
          have h0 := not_le.1 h
          have h1 : t.A pt dim - q.x dim ≤ |q.x dim - t.A s dim| := by
            have := hR s hs
            rw [abs_sub_comm]
            exact le_trans (by linarith) (le_abs_self _)
          have h2 := coord_le g q.x s dim hd q.xNorm hq (by linarith) h1
          refine lt_of_lt_of_le ?_ h2
          unfold epsInternal
          split
          · exact mul_self_lt_mul_self he (by linarith)
          · linarith
        -- left child
        have hl : ∀ acc, ∃ out, (if q.x dim - t.A pt dim ≤ eps then kdRadius t idx q eps (epsInternal t eps) ret l acc
            else some acc) = some (grown t q ret acc out) ∧ out.Perm (hits t q (epsInternal t eps) (l.pts idx)) := by
          intro acc
          split
          · exact ihl wl acc
          · next h => exact ⟨[], by rw [grown_nil], by rw [hleft h]⟩
        have hr : ∀ acc, ∃ out, (if -eps ≤ q.x dim - t.A pt dim then kdRadius t idx q eps (epsInternal t eps) ret r acc
            else some acc) = some (grown t q ret acc out) ∧ out.Perm (hits t q (epsInternal t eps) (r.pts idx)) := by
          intro acc
          split
          · exact ihr wr acc
          · next h => exact ⟨[], by rw [grown_nil], by rw [hright h]⟩
        obtain ⟨o1, q1, p1⟩ := hl (grown t q ret acc (hits t q (epsInternal t eps) [pt]))
        rw [q1]
        dsimp only
        obtain ⟨o2, q2, p2⟩ := hr (grown t q ret (grown t q ret acc (hits t q (epsInternal t eps) [pt])) o1)
        rw [q2]
        refine ⟨hits t q (epsInternal t eps) [pt] ++ (o1 ++ o2), ?_, ?_⟩
        · rw [grown_grown, grown_grown]
        · rw [Kd.pts, hseg]
          exact (List.Perm.append_left _ (p1.append p2)).trans (hits_middle t q _ _ _ _)

theorem ballRadius_spec (idx : List Nat) (eps : ℝ) (he : 0 ≤ eps) (ret : Bool) : ∀ (k : Ball ℝ), BallWF t idx k →
    ∀ acc, ∃ out, ballRadius t idx q eps (epsInternal t eps) ret k acc = some (grown t q ret acc out) ∧
      out.Perm (hits t q (epsInternal t eps) (k.pts idx)) := by
  intro k
  induction k with
  | null => intro h; exact h.elim
  | node isLeaf off n c radius l r ihl ihr =>
    rintro ⟨hlen, hpos, hball, hsplit⟩ acc
    unfold ballRadius
    cases hc : (checkBall t q.x eps c radius).1 with
    | outside =>
      refine ⟨[], by rw [grown_nil], ?_⟩
      rw [Ball.pts, hits_none t q]
      intro s hs
      have := (checkBall_spec g q.x eps c radius (t.A s) (hball s hs)).1 hc
      exact not_le.1 fun h => absurd ((within_iff g s q.x q.xNorm hq eps he).1 h) (not_le.2 this)
    | inside =>
      refine ⟨(seg idx off n).filter (other q), by rw [readIdx_eq hlen]; simp [addAll_eq], ?_⟩
      rw [Ball.pts, hits_all t q]
      intro s hs
      exact (within_iff g s q.x q.xNorm hq eps he).2 ((checkBall_spec g q.x eps c radius (t.A s) (hball s hs)).2 hc)
    | within =>
      dsimp only
      cases isLeaf with
      | true =>
        refine ⟨hits t q (epsInternal t eps) (seg idx off n), ?_, List.Perm.refl _⟩
        simp [readIdx_eq hlen, addClose_eq]
      | false =>
        obtain ⟨wl, wr, hseg⟩ := hsplit rfl
        simp only [Bool.false_eq_true, if_false]
        obtain ⟨o1, q1, p1⟩ := ihl wl acc
        rw [q1]
        dsimp only
        obtain ⟨o2, q2, p2⟩ := ihr wr (grown t q ret acc o1)
        rw [q2]
        refine ⟨o1 ++ o2, by rw [grown_grown], ?_⟩
        rw [Ball.pts, hseg, hits_append]
        exact p1.append p2

/-! ### k nearest neighbours -/

omit g hq in
theorem ball_nonempty {idx : List Nat} {k : Ball ℝ} (w : BallWF t idx k) : ∃ s, s ∈ k.pts idx := by
  cases k with
  | null => exact w.elim
  | node isLeaf off n c radius l r =>
    obtain ⟨h1, h2, _⟩ := w
    have : 0 < (seg idx off n).length := by
      simp only [seg, List.length_take, List.length_drop]; omega
    exact ⟨_, List.getElem_mem this⟩

end

/-- The candidates of a list of samples. -/
noncomputable def cand (t : Tree ℝ) (q : Query ℝ) (is : List Nat) : List (Nat × ℝ) :=
  (is.filter (other q)).map fun s => (s, qd t q s)

theorem cand_append (t : Tree ℝ) (q : Query ℝ) (a b : List Nat) : cand t q (a ++ b) = cand t q a ++ cand t q b := by
  simp [cand]

/-- Nothing is stored outside the row. -/
def Frame (k : Nat) (h h' : MaxHeap ℝ) : Prop :=
  ∀ j, k ≤ j → h'.indices j = h.indices j ∧ h'.distances j = h.distances j

theorem Frame.refl (k : Nat) (h : MaxHeap ℝ) : Frame k h h := fun _ _ => ⟨rfl, rfl⟩
theorem Frame.trans {k : Nat} {a b c : MaxHeap ℝ} (h1 : Frame k a b) (h2 : Frame k b c) : Frame k a c :=
  fun j hj => ⟨(h2 j hj).1.trans (h1 j hj).1, (h2 j hj).2.trans (h1 j hj).2⟩

theorem insertLeaf_spec (t : Tree ℝ) (q : Query ℝ) {k : Nat} (hk : 0 < k) : ∀ (is : List Nat) (C : List (Nat × ℝ))
    (h : MaxHeap ℝ), Best k C h → Best k (C ++ cand t q is) (insertLeaf t q is h) ∧ Frame k h (insertLeaf t q is h) := by
  intro is
  induction is with
  | nil => intro C h b; simpa [insertLeaf, cand] using ⟨b, Frame.refl k h⟩
  | cons i is ih =>
    intro C h b
    have e : insertLeaf t q (i :: is) h = insertLeaf t q is
        (if q.isA && i == q.index then h else Heap.insert h i (computeDistance t i q.x q.xNorm)) := rfl
    rw [e]
    cases hs : (q.isA && i == q.index)
    · have h1 : other q i = true := by simp only [other, hs]; rfl
      simp only [Bool.false_eq_true, if_false]
      obtain ⟨b1, f1⟩ := best_insert b hk i (computeDistance t i q.x q.xNorm)
      obtain ⟨b2, f2⟩ := ih _ _ b1
      refine ⟨?_, Frame.trans f1 f2⟩
      rw [cand, List.filter_cons_of_pos h1, List.map_cons]
      rw [List.append_assoc] at b2
      exact b2
    · have h1 : ¬ other q i = true := by simp only [other, hs]; simp
      simp only [if_true]
      obtain ⟨b2, f2⟩ := ih _ _ b
      refine ⟨?_, f2⟩
      rw [cand, List.filter_cons_of_neg h1]
      exact b2

/-- Samples that are no closer than the maximum of a full heap may be passed over. -/
theorem skip_spec (t : Tree ℝ) (q : Query ℝ) {k : Nat} {C : List (Nat × ℝ)} {h : MaxHeap ℝ} (b : Best k C h)
    (is : List Nat) (hs : ¬ h.size < k) (hd : ∀ s ∈ is, h.distances 0 ≤ qd t q s) : Best k (C ++ cand t q is) h := by
  apply best_skip b
  intro _
  refine ⟨by have := b.size; omega, ?_⟩
  intro p hp
  obtain ⟨s, h1, rfl⟩ := List.mem_map.1 hp
  exact hd s (List.mem_filter.1 h1).1

theorem max_full {k : Nat} {C : List (Nat × ℝ)} {h : MaxHeap ℝ} (b : Best k C h) (top : ℝ) (hs : ¬ h.size < k) :
    getMaxDist top h = h.distances 0 := by
  unfold getMaxDist
  rw [b.cap, if_neg hs]

theorem max_free {k : Nat} {C : List (Nat × ℝ)} {h : MaxHeap ℝ} (b : Best k C h) (top : ℝ) (hs : h.size < k) :
    getMaxDist top h = top := by
  unfold getMaxDist
  rw [b.cap, if_pos hs]

/-- The maximum kept by a heap does not grow when candidates are added. -/
theorem max_mono {k : Nat} {C P : List (Nat × ℝ)} {h h1 : MaxHeap ℝ} (b : Best k C h) (b1 : Best k (C ++ P) h1)
    (hk : 0 < k) (top : ℝ) (hC : ∀ p ∈ C ++ P, p.2 ≤ top) : getMaxDist top h1 ≤ getMaxDist top h := by
  by_cases hs1 : h1.size < k
  · have : h.size < k := by
      have h2 := b1.size; have h3 := b.size
      rw [List.length_append] at h2
      omega
    rw [max_free b _ this, max_free b1 _ hs1]
  rw [max_full b1 _ hs1]
  have z1 : h1.size = k := by have := b1.size; omega
  obtain ⟨rest1, p1, o1⟩ := b1.sel
  have hroot : ((h1.indices 0, h1.distances 0) : Nat × ℝ) ∈ cells h1.size h1 := by
    exact List.mem_map.2 ⟨0, List.mem_range.2 (by omega), rfl⟩
  by_cases hs : h.size < k
  · rw [max_free b _ hs]
    exact hC _ (p1.subset (List.mem_append_left _ hroot))
  rw [max_full b _ hs]
  have z : h.size = k := by have := b.size; omega
  obtain ⟨rest, p0, o0⟩ := b.sel
  by_contra hlt
  rw [not_le] at hlt
  let f : Nat × ℝ → Bool := fun p => decide (p.2 ≤ h.distances 0)
  have c0 : (cells h.size h).countP f = k := by
    rw [List.countP_eq_length.2, cells, List.length_map, List.length_range, z]
    intro p hp
    obtain ⟨j, hj, rfl⟩ := mem_cells hp
    exact decide_eq_true (ordered_root b.ordered j hj)
  have c1 : (cells h.size h).countP f ≤ (C ++ P).countP f := by
    rw [List.countP_append, ← p0.countP_eq, List.countP_append]; omega
  have c2 : rest1.countP f = 0 := by
    rw [List.countP_eq_zero]
    intro p hp
    have := o1 _ hroot p hp
    simp only [f, decide_eq_true_eq, not_le]
    exact lt_of_lt_of_le hlt this
  have c3 : (cells h1.size h1).countP f < k := by
    rw [z1]
    have : (cells k h1).length = k := by rw [cells, List.length_map, List.length_range]
    refine lt_of_le_of_ne (le_trans List.countP_le_length (le_of_eq this)) ?_
    intro e
    rw [z1] at hroot
    have := List.countP_eq_length.1 (e.trans this.symm) _ hroot
    simp only [f, decide_eq_true_eq] at this
    exact absurd (lt_of_lt_of_le hlt this) (lt_irrefl _)
  rw [← p1.countP_eq, List.countP_append] at c1
  omega

section
variable {t : Tree ℝ} (g : Good t) {q : Query ℝ} (hq : QueryOk t q)
include g hq

omit hq in
theorem heapMax_mono {h h1 : MaxHeap ℝ} (hm : getMaxDist t.fns.top h1 ≤ getMaxDist t.fns.top h) :
    heapMax t h1 ≤ heapMax t h := by
  unfold heapMax
  split
  · rw [g.sqrt]; exact Real.sqrt_le_sqrt hm
  · exact hm

theorem kdNearest_spec (idx : List Nat) {k : Nat} (hk : 0 < k) (htop : ∀ s ∈ idx, qd t q s ≤ t.fns.top) :
    ∀ (kd : Kd ℝ), KdWF t idx kd → ∀ C h, Best k C h →
    ∃ h', kdNearest t idx q k kd h = some h' ∧ Best k (C ++ cand t q (kd.pts idx)) h' ∧ Frame k h h' := by
  intro kd
  induction kd with
  | null => intro h; exact h.elim
  | node isLeaf dim pt off n lo hi l r ihl ihr =>
    rintro ⟨hlen, hbox, hsplit⟩ C h b
    unfold kdNearest
    dsimp only
    by_cases hout : (if h.size < k then Region.within else checkBox t q.x (getMaxDist t.fns.top h) lo hi) = .outside
    · rw [if_pos hout]
      by_cases hs : h.size < k
      · rw [if_pos hs] at hout; simp at hout
      rw [if_neg hs, max_full b _ hs] at hout
      refine ⟨h, rfl, skip_spec t q b _ hs ?_, Frame.refl k h⟩
      intro s hs'
      exact le_of_lt ((checkBox_spec g q.x _ lo hi s q.xNorm hq (hbox s hs')).1 hout)
    rw [if_neg hout]
    cases isLeaf with
    | true =>
      obtain ⟨b1, f1⟩ := insertLeaf_spec t q hk (seg idx off n) C h b
      exact ⟨_, by simp [readIdx_eq hlen], b1, f1⟩
    | false =>
      obtain ⟨hd, wl, wr, hseg, hL, hR⟩ := hsplit rfl
      simp only [Bool.false_eq_true, if_false]
      have e1 : (if (!(q.isA && pt == q.index)) = true then Heap.insert h pt (computeDistance t pt q.x q.xNorm) else h)
          = insertLeaf t q [pt] h := by
        show _ = (if q.isA && pt == q.index then h else _)
        cases (q.isA && pt == q.index) <;> simp
      rw [e1]
      obtain ⟨b0, f0⟩ := insertLeaf_spec t q hk [pt] C h b
      generalize insertLeaf t q [pt] h = h0 at *
      -- bound on the splitting point
      have hpt : pt ∈ idx := by
        have : pt ∈ seg idx off n := by rw [hseg]; simp
        exact List.mem_of_mem_drop (List.mem_of_mem_take this)
      have hpm := htop pt hpt
      have perm1 : (cand t q [pt] ++ (cand t q (l.pts idx) ++ cand t q (r.pts idx))).Perm (cand t q (seg idx off n)) := by
        rw [hseg, show l.pts idx ++ pt :: r.pts idx = l.pts idx ++ ([pt] ++ r.pts idx) from rfl, cand_append, cand_append,
          ← List.append_assoc, ← List.append_assoc]
        exact List.perm_append_comm.append_right _
      have perm2 : (cand t q [pt] ++ (cand t q (r.pts idx) ++ cand t q (l.pts idx))).Perm (cand t q (seg idx off n)) :=
        (List.Perm.append_left _ List.perm_append_comm).trans perm1
      by_cases hneg : q.x dim - t.A pt dim < 0
      · rw [if_pos hneg]
        obtain ⟨h1, e, b1, f1⟩ := ihl wl _ _ b0
        rw [e]
        dsimp only
        by_cases hc : -getMaxDist t.fns.top h1 ≤
            (if t.isEuclid = true then (q.x dim - t.A pt dim) * |q.x dim - t.A pt dim| else q.x dim - t.A pt dim)
        · rw [if_pos hc]
          obtain ⟨h2, e2, b2, f2⟩ := ihr wr _ _ b1
          refine ⟨h2, e2, best_perm b2 ?_, f0.trans (f1.trans f2)⟩
          rw [List.append_assoc, List.append_assoc]
          exact List.Perm.append_left _ perm1
        · rw [if_neg hc]
          have hval : (if t.isEuclid = true then (q.x dim - t.A pt dim) * |q.x dim - t.A pt dim| else q.x dim - t.A pt dim) =
              -(if t.isEuclid = true then (t.A pt dim - q.x dim) * (t.A pt dim - q.x dim) else (t.A pt dim - q.x dim)) := by
            rw [abs_of_neg hneg]
            split <;> ring
          rw [hval, not_le, neg_lt_neg_iff] at hc
          have hs : ¬ h1.size < k := by
            intro hs
            rw [max_free b1 _ hs] at hc
            have := coord_le g q.x pt dim hd q.xNorm hq (u := t.A pt dim - q.x dim) (by linarith)
              (by rw [abs_sub_comm]; exact le_abs_self _)
            exact absurd (lt_of_lt_of_le hc (le_trans this hpm)) (lt_irrefl _)
          rw [max_full b1 _ hs] at hc
          have b2 := skip_spec t q b1 (r.pts idx) hs (by
            intro s hs'
            have h1 : t.A pt dim - q.x dim ≤ |q.x dim - t.A s dim| := by
              have := hR s hs'
              rw [abs_sub_comm]
              exact le_trans (by linarith) (le_abs_self _)
            exact le_of_lt (lt_of_lt_of_le hc (coord_le g q.x s dim hd q.xNorm hq (by linarith) h1)))
          refine ⟨h1, rfl, best_perm b2 ?_, f0.trans f1⟩
          rw [List.append_assoc, List.append_assoc]
          exact List.Perm.append_left _ perm1
      · rw [if_neg hneg]
        have hnn := not_lt.1 hneg
        obtain ⟨h1, e, b1, f1⟩ := ihr wr _ _ b0
        rw [e]
        dsimp only
        by_cases hc : (if t.isEuclid = true then (q.x dim - t.A pt dim) * |q.x dim - t.A pt dim| else q.x dim - t.A pt dim)
            ≤ getMaxDist t.fns.top h1
        · rw [if_pos hc]
          obtain ⟨h2, e2, b2, f2⟩ := ihl wl _ _ b1
          refine ⟨h2, e2, best_perm b2 ?_, f0.trans (f1.trans f2)⟩
          rw [List.append_assoc, List.append_assoc]
          exact List.Perm.append_left _ perm2
        · rw [if_neg hc]
          rw [abs_of_nonneg hnn, not_le] at hc
          have hs : ¬ h1.size < k := by
            intro hs
            rw [max_free b1 _ hs] at hc
            have := coord_le g q.x pt dim hd q.xNorm hq (u := q.x dim - t.A pt dim) hnn (le_abs_self _)
            exact absurd (lt_of_lt_of_le hc (le_trans this hpm)) (lt_irrefl _)
          rw [max_full b1 _ hs] at hc
          have b2 := skip_spec t q b1 (l.pts idx) hs (by
            intro s hs'
            have h1 : q.x dim - t.A pt dim ≤ |q.x dim - t.A s dim| := by
              have := hL s hs'
              exact le_trans (by linarith) (le_abs_self _)
            exact le_of_lt (lt_of_lt_of_le hc (coord_le g q.x s dim hd q.xNorm hq hnn h1)))
          refine ⟨h1, rfl, best_perm b2 ?_, f0.trans f1⟩
          rw [List.append_assoc, List.append_assoc]
          exact List.Perm.append_left _ perm2

/-- A distance beyond the heap's bound means a computed distance beyond the heap's maximum. -/
theorem beyond {h : MaxHeap ℝ} (s : Nat) (hb : heapMax t h < tdist t q.x (t.A s)) :
    getMaxDist t.fns.top h < qd t q s := by
  unfold heapMax at hb
  rw [qd, distance_tdist g s q.x q.xNorm hq]
  cases c : t.isEuclid
  · simpa [c] using hb
  · simp only [c, if_true, g.sqrt] at hb ⊢
    have h0 := Real.sqrt_nonneg (getMaxDist t.fns.top h)
    rcases le_or_gt 0 (getMaxDist t.fns.top h) with h1 | h1
    · have := mul_self_lt_mul_self h0 hb
      rwa [Real.mul_self_sqrt h1] at this
    · exact lt_of_lt_of_le h1 (mul_self_nonneg _)

theorem ballNearest_spec (idx : List Nat) {k : Nat} (hk : 0 < k) (htop : ∀ s ∈ idx, qd t q s ≤ t.fns.top) :
    ∀ (bt : Ball ℝ), BallWF t idx bt → ∀ C h, Best k C h → (∀ p ∈ C, p.2 ≤ t.fns.top) →
    ∃ h', ballNearest t idx q k bt h = some h' ∧ Best k (C ++ cand t q (bt.pts idx)) h' ∧ Frame k h h' := by
  have hmem : ∀ (bt : Ball ℝ) s, s ∈ bt.pts idx → s ∈ idx := by
    intro bt s hs
    cases bt with
    | null => simp [Ball.pts] at hs
    | node _ _ _ _ _ _ _ => exact List.mem_of_mem_drop (List.mem_of_mem_take hs)
  have htc : ∀ (bt : Ball ℝ) (C : List (Nat × ℝ)), (∀ p ∈ C, p.2 ≤ t.fns.top) →
      ∀ p ∈ C ++ cand t q (bt.pts idx), p.2 ≤ t.fns.top := by
    intro bt C hC p hp
    rcases List.mem_append.1 hp with h | h
    · exact hC p h
    · obtain ⟨s, h1, rfl⟩ := List.mem_map.1 h
      exact htop s (hmem bt s (List.mem_filter.1 h1).1)
  -- passing over a whole subtree
  have pass : ∀ (bt : Ball ℝ), BallWF t idx bt → ∀ C h, Best k C h →
      (∀ s ∈ bt.pts idx, heapMax t h < tdist t q.x (t.A s)) → Best k (C ++ cand t q (bt.pts idx)) h := by
    intro bt w C h b hfar
    have hs : ¬ h.size < k := by
      intro hs
      obtain ⟨s, hs'⟩ := ball_nonempty w
      have := beyond g hq s (hfar s hs')
      rw [max_free b _ hs] at this
      exact absurd (lt_of_lt_of_le this (htop s (hmem bt s hs'))) (lt_irrefl _)
    apply skip_spec t q b _ hs
    intro s hs'
    have := beyond g hq s (hfar s hs')
    rw [max_full b _ hs] at this
    exact le_of_lt this
  intro bt
  induction bt with
  | null => intro h; exact h.elim
  | node isLeaf off n c radius l r ihl ihr =>
    intro w C h b hC
    have w' := w
    obtain ⟨hlen, hpos, hball, hsplit⟩ := w
    unfold ballNearest
    dsimp only
    by_cases hout : (if h.size < k then Region.within else (checkBall t q.x (heapMax t h) c radius).1) = .outside
    · rw [if_pos hout]
      by_cases hs : h.size < k
      · rw [if_pos hs] at hout; simp at hout
      rw [if_neg hs] at hout
      refine ⟨h, rfl, pass _ w' C h b ?_, Frame.refl k h⟩
      intro s hs'
      exact (checkBall_spec g q.x _ c radius (t.A s) (hball s hs')).1 hout
    rw [if_neg hout]
    cases isLeaf with
    | true =>
      obtain ⟨b1, f1⟩ := insertLeaf_spec t q hk (seg idx off n) C h b
      exact ⟨_, by simp [readIdx_eq hlen], b1, f1⟩
    | false =>
      obtain ⟨wl, wr, hseg⟩ := hsplit rfl
      simp only [Bool.false_eq_true, if_false]
      -- spheres of the children
      have sph : ∀ (bt : Ball ℝ), BallWF t idx bt → ∃ s, bt.sphere = some s ∧ ∀ i ∈ bt.pts idx, tdist t s.1 (t.A i) ≤ s.2 := by
        intro bt w
        cases bt with
        | null => exact w.elim
        | node _ _ _ c' r' _ _ => exact ⟨(c', r'), rfl, w.2.2.1⟩
      obtain ⟨sl, el, hl⟩ := sph l wl
      obtain ⟨sr, er, hr⟩ := sph r wr
      rw [el, er]
      dsimp only
      have perm1 : (cand t q (l.pts idx) ++ cand t q (r.pts idx)).Perm (cand t q (seg idx off n)) := by
        rw [hseg, cand_append]
      have perm2 : (cand t q (r.pts idx) ++ cand t q (l.pts idx)).Perm (cand t q (seg idx off n)) :=
        List.perm_append_comm.trans perm1
      -- one child
      have first : ∀ (bt : Ball ℝ) (s : (Nat → ℝ) × ℝ), BallWF t idx bt →
          (∀ i ∈ bt.pts idx, tdist t s.1 (t.A i) ≤ s.2) →
          (∀ C h, Best k C h → (∀ p ∈ C, p.2 ≤ t.fns.top) → ∃ h', ballNearest t idx q k bt h = some h' ∧ Best k (C ++ cand t q (bt.pts idx)) h' ∧ Frame k h h') →
          ∃ h', (if (checkBall t q.x (heapMax t h) s.1 s.2).1 ≠ .outside then ballNearest t idx q k bt h else some h) = some h' ∧
            Best k (C ++ cand t q (bt.pts idx)) h' ∧ Frame k h h' := by
        intro bt s w hs ih
        split
        · exact ih C h b hC
        · next hne =>
          refine ⟨h, rfl, pass bt w C h b ?_, Frame.refl k h⟩
          intro i hi
          exact (checkBall_spec g q.x _ s.1 s.2 (t.A i) (hs i hi)).1 (not_not.1 hne)
      have second : ∀ (bt : Ball ℝ) (s : (Nat → ℝ) × ℝ), BallWF t idx bt →
          (∀ i ∈ bt.pts idx, tdist t s.1 (t.A i) ≤ s.2) →
          (∀ C h, Best k C h → (∀ p ∈ C, p.2 ≤ t.fns.top) → ∃ h', ballNearest t idx q k bt h = some h' ∧ Best k (C ++ cand t q (bt.pts idx)) h' ∧ Frame k h h') →
          ∀ C1 h1, Best k C1 h1 → (∀ p ∈ C1, p.2 ≤ t.fns.top) → heapMax t h1 ≤ heapMax t h →
          ∃ h', (if (checkBall t q.x (heapMax t h) s.1 s.2).1 ≠ .outside ∧
              (checkBall t q.x (heapMax t h) s.1 s.2).2 - s.2 ≤ heapMax t h1 then ballNearest t idx q k bt h1 else some h1) = some h' ∧
            Best k (C1 ++ cand t q (bt.pts idx)) h' ∧ Frame k h1 h' := by
        intro bt s w hs ih C1 h1 b1 hC1 hle
        split
        · exact ih C1 h1 b1 hC1
        · next hne =>
          refine ⟨h1, rfl, pass bt w C1 h1 b1 ?_, Frame.refl k h1⟩
          intro i hi
          by_cases hne1 : (checkBall t q.x (heapMax t h) s.1 s.2).1 = .outside
          · exact lt_of_le_of_lt hle ((checkBall_spec g q.x _ s.1 s.2 (t.A i) (hs i hi)).1 hne1)
          · have h2 : ¬ (checkBall t q.x (heapMax t h) s.1 s.2).2 - s.2 ≤ heapMax t h1 := fun h2 => hne ⟨hne1, h2⟩
            rw [checkBall_dist g, not_le] at h2
            have t2 := tdist_triangle g q.x (t.A i) s.1
            rw [tdist_comm (t.A i) s.1] at t2
            have := hs i hi
            linarith
      by_cases hcl : (checkBall t q.x (heapMax t h) sl.1 sl.2).2 < (checkBall t q.x (heapMax t h) sr.1 sr.2).2
      · rw [if_pos hcl]
        obtain ⟨h1, e1, b1, f1⟩ := first l sl wl hl (ihl wl)
        rw [e1]
        dsimp only
        have c1 := htc l C hC
        obtain ⟨h2, e2, b2, f2⟩ := second r sr wr hr (ihr wr) _ h1 b1 c1 (heapMax_mono g (max_mono b b1 hk _ c1))
        refine ⟨h2, e2, best_perm b2 ?_, f1.trans f2⟩
        rw [List.append_assoc]
        exact List.Perm.append_left _ perm1
      · rw [if_neg hcl]
        obtain ⟨h1, e1, b1, f1⟩ := first r sr wr hr (ihr wr)
        rw [e1]
        dsimp only
        have c1 := htc r C hC
        obtain ⟨h2, e2, b2, f2⟩ := second l sl wl hl (ihl wl) _ h1 b1 c1 (heapMax_mono g (max_mono b b1 hk _ c1))
        refine ⟨h2, e2, best_perm b2 ?_, f1.trans f2⟩
        rw [List.append_assoc]
        exact List.Perm.append_left _ perm2
end
end Verif.NnTree
