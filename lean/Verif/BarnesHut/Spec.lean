import Verif.BarnesHut.Forces
import Verif.BarnesHut.Demand

/-
The forces in terms of sets of points, and the arenas.
-/
set_option linter.unusedSectionVars false

namespace Verif.BarnesHut

open Moments (M Fault rd wr forUp divM ok_bind rd_ok wr_ok forUp_zero forUp_succ)

variable {K : Type} [Field K] [LinearOrder K] [IsStrictOrderedRing K]

/-- The mean of some points. -/
def meanOf (X : Nat → Nat → K) (S : List Nat) (d : Nat) : K := (S.map fun p => X p d).sum / (S.length : K)

/-- What some points, taken as one body at their mean, add to the normalisation for point `i`. -/
def share (D : Nat) (eps : K) (X : Nat → Nat → K) (i : Nat) (S : List Nat) : K :=
  if S = [i] then 0 else (S.length : K) / (sqDist D (X i) (meanOf X S) + eps)

/-- What some points, taken as one body at their mean, add to the force on point `i`. -/
def force (D : Nat) (eps : K) (X : Nat → Nat → K) (i d : Nat) (S : List Nat) : K :=
  if S = [i] then 0
  else (S.length : K) * (X i d - meanOf X S d) / (sqDist D (X i) (meanOf X S) + eps) ^ 2

/-- Some points may act on `i` as one body: it is one point, or `i` is not among them and they lie in
a cube of a width that is at most `theta` times the distance of `i` from their mean. -/
def MayJoin (D : Nat) (X : Nat → Nat → K) (theta floor : K) (i : Nat) (S : List Nat) : Prop :=
  (∃ p, S = [p]) ∨ (i ∉ S ∧ 0 < theta ∧ ∃ (c : Nat → K) (w : K),
    (∀ p ∈ S, ∀ d < D, |X p d - c d| ≤ w / 2) ∧
    w ^ 2 + theta ^ 2 * floor ≤ theta ^ 2 * sqDist D (X i) (meanOf X S))

/-- The points of a body. -/
def Body.points (ord : Nat → Nat) (β : Body) : List Nat := (List.range' β.lo (β.hi - β.lo)).map ord

variable {D n : Nat} {X : Nat → Nat → K}

theorem sum_range' (f : Nat → K) (s : Nat) : ∀ m, ((List.range' s m).map f).sum =
    ∑ i ∈ Finset.Ico s (s + m), f i := by
  intro m
  induction m with
  | zero => simp
  | succ m ih =>
    rw [List.range'_concat, List.map_append, List.sum_append, ih, ← Nat.add_assoc,
      Finset.sum_Ico_succ_top (by omega)]
    simp

theorem points_mean {ord : Nat → Nat} {β : Body} (h : β.lo < β.hi) :
    meanOf X (β.points ord) = β.mean X ord := by
  funext d
  unfold meanOf Body.mean Body.points
  rw [List.map_map, List.length_map, List.length_range']
  have := sum_range' (fun i => X (ord i) d) β.lo (β.hi - β.lo)
  rw [show β.lo + (β.hi - β.lo) = β.hi by omega] at this
  rw [← this]
  rfl

theorem points_own {ord : Nat → Nat} {β : Body} (h : β.lo < β.hi) (p : Nat) :
    β.points ord = [p] ↔ β.isOwn ord p := by
  unfold Body.points Body.isOwn
  constructor
  · intro he
    have hlen : β.hi - β.lo = 1 := by
      have := congrArg List.length he
      simpa using this
    rw [hlen] at he
    simp at he
    exact ⟨by omega, he⟩
  · intro ⟨h1, h2⟩
    rw [h1, show β.lo + 1 - β.lo = 1 by omega]
    simp [h2]

theorem points_share {eps : K} {ord : Nat → Nat} {β : Body} (h : β.lo < β.hi) (p : Nat) :
    share D eps X p (β.points ord) = β.share D eps X ord p := by
  unfold share Body.share
  rw [points_mean h]
  simp only [points_own h]
  by_cases ho : β.isOwn ord p
  · rw [if_pos ho, if_pos ho]
  · rw [if_neg ho, if_neg ho]
    unfold Body.points
    rw [List.length_map, List.length_range']

theorem points_force {eps : K} {ord : Nat → Nat} {β : Body} (h : β.lo < β.hi) (p d : Nat) :
    force D eps X p d (β.points ord) = β.force D eps X ord p d := by
  unfold force Body.force
  rw [points_mean h]
  simp only [points_own h]
  by_cases ho : β.isOwn ord p
  · rw [if_pos ho, if_pos ho]
  · rw [if_neg ho, if_neg ho]
    unfold Body.points
    rw [List.length_map, List.length_range']

theorem Covers.lt {l : List Body} {s e : Nat} (h : Covers l s e) : ∀ β ∈ l, β.lo < β.hi := by
  induction l generalizing s with
  | nil => intro β hβ; cases hβ
  | cons γ l ih =>
    intro β hβ
    rcases List.mem_cons.1 hβ with rfl | hβ
    · exact h.2.1
    · exact ih h.2.2 β hβ

theorem Covers.le {l : List Body} {s e : Nat} (h : Covers l s e) : s ≤ e := by
  induction l generalizing s with
  | nil => exact Nat.le_of_eq h
  | cons γ l ih => have := ih h.2.2; have := h.2.1; have := h.1; omega

theorem Covers.flatten {ord : Nat → Nat} {l : List Body} {s e : Nat} (h : Covers l s e) :
    (l.map (Body.points ord)).flatten = (List.range' s (e - s)).map ord := by
  induction l generalizing s with
  | nil => cases h; simp
  | cons γ l ih =>
    obtain ⟨rfl, h2, h3⟩ := h
    have := h3.le
    rw [List.map_cons, List.flatten_cons, ih h3]
    unfold Body.points
    rw [← List.map_append, show e - γ.lo = (γ.hi - γ.lo) + (e - γ.hi) by omega, ← List.range'_append_1,
      show γ.lo + (γ.hi - γ.lo) = γ.hi by omega]

theorem allowed_join {H theta floor : K} {ord : Nat → Nat} {β : Body} (h : β.lo < β.hi) {p : Nat}
    (hal : β.Allowed D X ord H (threshold H theta floor) [p]) :
    MayJoin D X theta floor p (β.points ord) := by
  rcases hal with hal | ⟨h1, ⟨c, hc⟩, v, h3, h4⟩
  · left
    refine ⟨ord β.lo, (points_own h _).2 ⟨hal, rfl⟩⟩
  · right
    unfold threshold at h3
    by_cases ht : theta > 0
    swap
    · rw [if_neg ht] at h3; cases h3
    rw [if_pos ht] at h3
    have h3 := Option.some.inj h3
    refine ⟨?_, ht, c, 2 * (H / 2 ^ β.level), ?_, ?_⟩
    · unfold Body.points
      rw [List.mem_map]
      rintro ⟨i, hi, he⟩
      rw [List.mem_range'_1] at hi
      exact h1 i hi.1 (by omega) (by rw [he]; simp)
    · intro q hq d hd
      unfold Body.points at hq
      rw [List.mem_map] at hq
      obtain ⟨i, hi, rfl⟩ := hq
      rw [List.mem_range'_1] at hi
      have := hc i hi.1 (by omega) d hd
      linarith
    · rw [points_mean h]
      have h5 := h4 p (by simp)
      rw [← h3] at h5
      have h6 := mul_le_mul_of_nonneg_left h5 (sq_nonneg theta)
      refine le_trans (le_of_eq ?_) h6
      have ht' : theta ≠ 0 := ne_of_gt ht
      have h2 : (2 : K) ^ β.level ≠ 0 := pow_ne_zero _ two_ne_zero
      have h4' : (4 : K) ^ β.level = 2 ^ β.level * 2 ^ β.level := by
        rw [← mul_pow]; norm_num
      rw [one_div, inv_pow, h4']
      field_simp
      ring

theorem share_nonneg {eps : K} (heps : 0 < eps) (i : Nat) (S : List Nat) : 0 ≤ share D eps X i S := by
  unfold share
  by_cases h : S = [i]
  · rw [if_pos h]
  · rw [if_neg h]
    have := sqDist_nonneg D (X i) (meanOf X S)
    positivity

theorem share_pos {eps : K} (heps : 0 < eps) {i : Nat} {S : List Nat} (h : S ≠ [i]) (h' : S ≠ []) :
    0 < share D eps X i S := by
  unfold share
  rw [if_neg h]
  have := sqDist_nonneg D (X i) (meanOf X S)
  have : 0 < S.length := List.length_pos_iff.2 h'
  positivity

theorem sum_shares_pos {eps : K} (heps : 0 < eps) {i : Nat} {l : List (List Nat)}
    (h : ∃ S ∈ l, S ≠ [i] ∧ S ≠ []) : 0 < (l.map (share D eps X i)).sum := by
  obtain ⟨S, hS, h1, h2⟩ := h
  refine lt_of_lt_of_le (share_pos (D := D) (X := X) heps h1 h2) ?_
  exact List.single_le_sum (by
    intro x hx
    rw [List.mem_map] at hx
    obtain ⟨S, _, rfl⟩ := hx
    exact share_nonneg heps i S) _ (List.mem_map.2 ⟨S, hS, rfl⟩)

/-- Forces and normalisation in terms of sets of points. -/
theorem forces_points {eps H theta floor total : K} (heps : 0 < eps) {rep : List K} {idx : List Nat}
    (hn : 0 < n) (hperm : idx.Perm (List.range n)) {L : Nat → List Body}
    (hL : ∀ k < n, Covers (L k) 0 n ∧
        (∀ β ∈ L k, β.Allowed D X (fun i => idx.getD i 0) H (threshold H theta floor) [idx.getD k 0]) ∧
        ∀ d < D, rep[idx.getD k 0 * D + d]? =
          some ((L k).map (Body.force D eps X (fun i => idx.getD i 0) (idx.getD k 0) d)).sum)
    (htot : ∃ s, s = ∑ k ∈ Finset.range n,
          ((L k).map (Body.share D eps X (fun i => idx.getD i 0) (idx.getD k 0))).sum ∧
        total = if s = 0 then 1 else s) :
    ∃ B : Nat → List (List Nat), (∀ i < n, (B i).flatten.Perm (List.range n) ∧
      (∀ S ∈ B i, MayJoin D X theta floor i S) ∧
      ∀ d < D, rep[i * D + d]? = some ((B i).map (force D eps X i d)).sum) ∧
      total = if n = 1 then 1 else ∑ i ∈ Finset.range n, ((B i).map (share D eps X i)).sum := by
  obtain ⟨q1, q2, q3, q4⟩ := perm_range hperm
  choose! pos hpos using q4
  obtain ⟨ord, hord⟩ : ∃ ord : Nat → Nat, ord = fun i => idx.getD i 0 := ⟨_, rfl⟩
  have hordk : ∀ k, idx.getD k 0 = ord k := by intro k; rw [hord]
  simp only [hordk] at hL htot hpos q2 q3
  have hmap : (List.range n).map ord = idx := by
    apply List.ext_getElem?
    intro k
    rw [List.getElem?_map]
    by_cases hk : k < n
    · rw [List.getElem?_range hk, getElem?_getD (idx := idx) (by omega), hordk, Option.map_some]
    · rw [List.getElem?_eq_none (by simp; omega), List.getElem?_eq_none (by omega)]
      rfl
  have hflat : ∀ k < n, ((L k).map (Body.points ord)).flatten.Perm (List.range n) := by
    intro k hk
    rw [(hL k hk).1.flatten, Nat.sub_zero, ← List.range_eq_range', hmap]
    exact hperm
  have hshare : ∀ k < n, (((L k).map (Body.points ord)).map (share D eps X (ord k))).sum =
      ((L k).map (Body.share D eps X ord (ord k))).sum := by
    intro k hk
    rw [List.map_map]
    congr 1
    apply List.map_congr_left
    intro β hβ
    exact points_share ((hL k hk).1.lt β hβ) _
  refine ⟨fun i => (L (pos i)).map (Body.points ord), ?_, ?_⟩
  · intro i hi
    obtain ⟨hk, he⟩ := hpos i hi
    obtain ⟨g1, g2, g3⟩ := hL (pos i) hk
    rw [he] at g2 g3
    refine ⟨hflat _ hk, ?_, ?_⟩
    · intro S hS
      rw [List.mem_map] at hS
      obtain ⟨β, hβ, rfl⟩ := hS
      exact allowed_join (g1.lt β hβ) (g2 β hβ)
    · intro d hd
      rw [g3 d hd, List.map_map]
      congr 2
      apply List.map_congr_left
      intro β hβ
      exact (points_force (g1.lt β hβ) _ _).symm
  · obtain ⟨s, hs1, hs2⟩ := htot
    have hs3 : s = ∑ i ∈ Finset.range n, (((L (pos i)).map (Body.points ord)).map (share D eps X i)).sum := by
      rw [hs1]
      apply Finset.sum_bij (fun k _ => ord k)
      · intro k hk
        rw [Finset.mem_range] at hk ⊢
        exact q2 k hk
      · intro a ha b hb h
        rw [Finset.mem_range] at ha hb
        exact q3 a ha b hb h
      · intro i hi
        rw [Finset.mem_range] at hi
        exact ⟨pos i, Finset.mem_range.2 (hpos i hi).1, (hpos i hi).2⟩
      · intro k hk
        rw [Finset.mem_range] at hk
        have : pos (ord k) = k := q3 _ (hpos _ (q2 k hk)).1 _ hk (hpos _ (q2 k hk)).2
        rw [this, hshare k hk]
    rw [hs2, ← hs3]
    by_cases h1 : n = 1
    · rw [if_pos h1, if_pos]
      rw [hs3, h1, Finset.sum_range_one]
      have hf := hflat (pos 0) (hpos 0 hn).1
      have hc := (hL (pos 0) (hpos 0 hn).1).1
      rw [h1] at hf hc
      apply List.sum_eq_zero
      intro x hx
      rw [List.mem_map] at hx
      obtain ⟨S, hS, rfl⟩ := hx
      have hS0 : S ≠ [] := by
        rw [List.mem_map] at hS
        obtain ⟨β, hβ, rfl⟩ := hS
        have := hc.lt β hβ
        intro he
        have := congrArg List.length he
        unfold Body.points at this
        simp at this
        omega
      have hf1 : ((L (pos 0)).map (Body.points ord)).flatten = [0] := by
        have : (List.range 1) = [0] := rfl
        rw [this] at hf
        exact List.perm_singleton.1 hf
      have hSsub : S.Sublist [0] := hf1 ▸ List.sublist_flatten_of_mem hS
      have hS1 : S = [0] := by
        rcases List.sublist_singleton.1 hSsub with h | h
        · exact absurd h hS0
        · exact h
      unfold share
      rw [if_pos hS1]
    · rw [if_neg h1, if_neg]
      apply ne_of_gt
      rw [hs3]
      apply Finset.sum_pos
      swap
      · exact ⟨0, Finset.mem_range.2 hn⟩
      intro i hi
      rw [Finset.mem_range] at hi
      have hf := hflat (pos i) (hpos i hi).1
      obtain ⟨j, hj, hji⟩ : ∃ j < n, j ≠ i := by
        by_cases h : i = 0
        · exact ⟨1, by omega, by omega⟩
        · exact ⟨0, by omega, by omega⟩
      have : j ∈ ((L (pos i)).map (Body.points ord)).flatten := hf.mem_iff.2 (List.mem_range.2 hj)
      rw [List.mem_flatten] at this
      obtain ⟨S, hS, hjS⟩ := this
      refine sum_shares_pos heps ⟨S, hS, ?_, ?_⟩
      · intro he
        rw [he, List.mem_singleton] at hjS
        exact hji hjS
      · intro he
        rw [he] at hjS
        cases hjS

/-- If every body is a single point, the force is the sum over all other points. -/
theorem force_exact {eps : K} {i d : Nat} (hi : i < n) {l : List (List Nat)}
    (hperm : l.flatten.Perm (List.range n)) (hone : ∀ S ∈ l, ∃ p, S = [p]) :
    (l.map (force D eps X i d)).sum = ∑ j ∈ (Finset.range n).erase i,
      (X i d - X j d) / (sqDist D (X i) (X j) + eps) ^ 2 := by
  have h1 : l = l.flatten.map fun p => [p] := by
    clear hperm
    induction l with
    | nil => rfl
    | cons S l ih =>
      obtain ⟨p, rfl⟩ := hone S (by simp)
      rw [List.flatten_cons, List.singleton_append, List.map_cons, ← ih fun S hS => hone S (by simp [hS])]
  have h2 : (l.map (force D eps X i d)).sum = (l.flatten.map fun p => force D eps X i d [p]).sum := by
    conv_lhs => rw [h1]
    rw [List.map_map]
    rfl
  rw [h2, (hperm.map _).sum_eq]
  have h3 : ((List.range n).map fun p => force D eps X i d [p]).sum =
      ∑ p ∈ Finset.range n, force D eps X i d [p] := by
    have := sum_range' (fun p => force D eps X i d [p]) 0 n
    rw [← List.range_eq_range', Nat.zero_add] at this
    rw [this, Nat.Ico_zero_eq_range]
  rw [h3, ← Finset.add_sum_erase _ _ (Finset.mem_range.2 hi)]
  have h4 : force D eps X i d [i] = 0 := by unfold force; rw [if_pos rfl]
  rw [h4, zero_add]
  apply Finset.sum_congr rfl
  intro j hj
  have hne : j ≠ i := Finset.ne_of_mem_erase hj
  have hm : meanOf X [j] = X j := by funext d; unfold meanOf; simp
  unfold force
  rw [if_neg (by simp [hne]), hm]
  simp

section Arenas

/-- The slots below `num_nodes` are in use. -/
theorem serial_ok (cap : Nat) :
    (Arena.serial cap).Ok cap (fun s k => k < s) (fun s => s) := by
  refine ⟨fun _ _ => List.Perm.refl _, ?_, ?_, ⟨by intro k; show k < 1 ↔ _; omega, rfl⟩, fun _ _ h => h⟩
  · intro s path ne f s' h
    have h : (if s + ne > cap then (none, s) else (some s, s + ne)) = (some f, s') := h
    by_cases hc : s + ne > cap
    · rw [if_pos hc] at h; cases h
    · rw [if_neg hc] at h
      cases h
      exact ⟨by omega, fun k h1 _ => by omega, fun k => by omega, rfl⟩
  · intro s path ne s' h
    have h : (if s + ne > cap then (none, s) else (some s, s + ne)) = (none, s') := h
    by_cases hc : s + ne > cap
    · rw [if_pos hc] at h; cases h; exact ⟨fun _ => Iff.rfl, rfl⟩
    · rw [if_neg hc] at h; cases h

end Arenas

/-- Whether the leaves below a slot have at most `thr` points or are at the greatest depth. -/
def shallow (thr : Nat) (nodes : List (Node K)) : (left slot : Nat) → Bool
  | 0, _ => true
  | left + 1, slot => match nodes[slot]? with
    | none => true
    | some nd => if nd.kids = 0 then decide (nd.cnt ≤ thr)
      else (List.range nd.kids).all fun j => shallow thr nodes left (nd.first + j)

theorem Cell.shallow {thr : Nat} {nodes : List (Node K)} {idx : List Nat} {P : Nat → Prop}
    {left slot s e : Nat} {hw : K} (h : Cell D thr False X nodes idx P left slot s e hw) :
    BarnesHut.shallow thr nodes left slot = true := by
  induction h with
  | @leaf left slot s e hw nd hP hnd hok hk why =>
    cases left with
    | zero => rfl
    | succ left =>
      unfold BarnesHut.shallow
      simp only [hnd, if_pos hk, decide_eq_true_eq]
      rcases why with h | h | h
      · rw [hok.cnt]; exact h
      · omega
      · exact h.elim
  | split nd hP hnd hok hk1 hk2 why b hb0 hbm hlt hkid ih =>
    unfold BarnesHut.shallow
    simp only [hnd]
    rw [if_neg (by omega), List.all_eq_true]
    intro j hj
    exact ih j (List.mem_range.1 hj)

end Verif.BarnesHut
