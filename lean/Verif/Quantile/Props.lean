/- Property C34: quantiles are those of the sorted sample. -/
import Verif.Quantile.Proof
import Mathlib.Data.List.Perm.Lattice
import Mathlib.Data.Rat.Floor
set_option linter.unusedSectionVars false
namespace Verif.Quantile
open Verif.Copies (Order cell Fits)

variable {K : Type} [Field K] [LinearOrder K] [FloorRing K] [IsStrictOrderedRing K]

/-! #### Values -/

theorem atRank_eq (s : List K) (hs : s ≠ []) (r : Int) : atRank s r = s.getD (clamp (r - 1) s.length) 0 := by
  have hl : 0 < s.length := List.length_pos_iff.mpr hs
  unfold atRank clamp
  congr 1
  (repeat' split) <;> omega

theorem index_eq (t : QType) (n : Nat) (q : K) : quantileIndex t (n : K) q = location t n q - 1 := by
  cases t <;> rfl

theorem nearbyint_spec (x : K) : |x - nearbyint x| ≤ 1 / 2 ∧ (|x - nearbyint x| = 1 / 2 → nearbyint x % 2 = 0) := by
  have h1 := Int.floor_le x
  have h2 := Int.lt_floor_add_one x
  unfold nearbyint
  split
  · rename_i h
    rw [abs_of_nonneg (by linarith)]
    exact ⟨h.le, fun h' => absurd h (by rw [h']; exact lt_irrefl _)⟩
  · rename_i h
    push Not at h
    split
    · rename_i h'
      rw [abs_of_neg (by push_cast; linarith)]
      push_cast
      exact ⟨by linarith, fun h'' => by exfalso; linarith⟩
    · rename_i h'
      push Not at h'
      have e : x - ⌊x⌋ = 1 / 2 := le_antisymm h' h
      split
      · rename_i h0
        rw [abs_of_nonneg (by linarith)]
        exact ⟨h', fun _ => h0⟩
      · rw [abs_of_neg (by push_cast; linarith)]
        push_cast
        exact ⟨by linarith, fun _ => by omega⟩

theorem interp_spec (s : List K) (hs : s ≠ []) (h : K) (t : QType) (h1 : t ≠ .t1) (h2 : t ≠ .t2) (h3 : t ≠ .t3) :
    combine t (h - 1) (clamp ⌊h - 1⌋ s.length) (clamp ⌈h - 1⌉ s.length) (s.getD (clamp ⌊h - 1⌋ s.length) 0)
      (s.getD (clamp ⌈h - 1⌉ s.length) 0) =
    some (atRank s ⌊h⌋ + (h - ⌊h⌋) * (atRank s ⌈h⌉ - atRank s ⌊h⌋)) := by
  rw [atRank_eq s hs, atRank_eq s hs, ← Int.floor_sub_one, ← Int.ceil_sub_one]
  unfold combine
  split
  · rename_i e; rw [← e]; simp
  · rename_i hne
    simp only [if_pos (show t ≠ QType.t1 ∧ t ≠ QType.t3 from ⟨h1, h3⟩)]
    have hl : 0 < s.length := List.length_pos_iff.mpr hs
    have e : ((clamp ⌊h - 1⌋ s.length : Nat) : Int) = ⌊h - 1⌋ := by
      have := ceil_eq_floor_or (h - 1)
      unfold clamp at hne ⊢
      rcases this with ⟨_, h2⟩ | ⟨_, h2⟩ <;> rw [h2] at hne
      · exact absurd rfl hne
      · revert hne; (repeat' split) <;> omega
    have e' : ((clamp ⌊h - 1⌋ s.length : Nat) : K) = ⌊h⌋ - 1 := by
      have : (((clamp ⌊h - 1⌋ s.length : Nat) : Int) : K) = ((⌊h - 1⌋ : Int) : K) := by rw [e]
      rw [Int.floor_sub_one] at this
      push_cast at this
      rw [← Int.floor_sub_one] at this
      exact this
    rw [e']
    congr 2
    ring

theorem value_spec (t : QType) (s : List K) (hs : s ≠ []) (q : K) :
    ∃ v, value t s (quantileIndex t (s.length : K) q) = some v ∧ IsQuantile t s q v := by
  rw [index_eq]
  unfold value IsQuantile
  generalize hh : location t s.length q = h
  cases t
  case t1 =>
    refine ⟨s.getD (clamp ⌈h - 1⌉ s.length) 0, by simp [ranks, combine], ?_⟩
    show _ = atRank s ⌈h⌉
    rw [atRank_eq s hs, ← Int.ceil_sub_one]
  case t2 =>
    have e1 : ⌈h - 1 - 1 / 2⌉ = ⌈h - 1 / 2⌉ - 1 := by rw [← Int.ceil_sub_one]; congr 1; ring
    have e2 : ⌊h - 1 + 1 / 2⌋ = ⌊h + 1 / 2⌋ - 1 := by rw [← Int.floor_sub_one]; congr 1; ring
    refine ⟨(atRank s ⌈h - 1 / 2⌉ + atRank s ⌊h + 1 / 2⌋) / 2, ?_, rfl⟩
    simp only [ranks, combine, atRank_eq s hs, e1, e2]
    split
    · rename_i e
      rw [e]; congr 1; ring
    · simp only [if_true]; congr 1; ring
  case t3 =>
    refine ⟨s.getD (clamp (nearbyint (h - 1)) s.length) 0, by simp [ranks, combine], nearbyint (h - 1) + 1, ?_⟩
    obtain ⟨a, b⟩ := nearbyint_spec (h - 1)
    have e : h - ((nearbyint (h - 1) + 1 : Int) : K) = h - 1 - nearbyint (h - 1) := by push_cast; ring
    refine ⟨by rw [e]; exact a, fun h0 => ?_, ?_⟩
    · rw [e] at h0; have := b h0; omega
    · rw [atRank_eq s hs]; congr 2; omega
  all_goals
    exact ⟨_, interp_spec s hs h _ (by decide) (by decide) (by decide), rfl⟩

theorem single_spec (t : QType) (a q : K) : IsQuantile t [a] q a := by
  obtain ⟨v, h1, h2⟩ := value_spec t [a] (by simp) q
  have hv : v = a := by
    have hc : ∀ r, clamp r 1 = 0 := by intro r; unfold clamp; (repeat' split) <;> omega
    unfold value at h1
    cases t <;> simp [ranks, combine, hc] at h1 <;> exact h1.symm
  rwa [hv] at h2

/-- The quantile is determined by the sorted sample, the type and the probability alone. -/
theorem isQuantile_unique (t : QType) (s : List K) (q v v' : K) (h : IsQuantile t s q v) (h' : IsQuantile t s q v') : v = v' := by
  unfold IsQuantile at h h'
  cases t
  case t3 =>
    obtain ⟨r, a1, a2, a3⟩ := h
    obtain ⟨r', b1, b2, b3⟩ := h'
    have : r = r' := by
      generalize location .t3 s.length q = h at *
      have c1 := abs_le.mp a1
      have c2 := abs_le.mp b1
      have d1 : ((r : Int) : K) ≤ ((r' + 1 : Int) : K) := by push_cast; linarith
      have d2 : ((r' : Int) : K) ≤ ((r + 1 : Int) : K) := by push_cast; linarith
      have d1' : r ≤ r' + 1 := by exact_mod_cast d1
      have d2' : r' ≤ r + 1 := by exact_mod_cast d2
      by_contra hne
      have hcase : r = r' + 1 ∨ r' = r + 1 := by omega
      rcases hcase with e | e
      · subst e
        push_cast at *
        have e1 : h - r' = 1 / 2 := by linarith
        have e2 : h - (r' + 1) = -(1 / 2) := by linarith
        have p1 := a2 (by rw [e2, abs_neg, abs_of_pos (by norm_num)])
        have p2 := b2 (by rw [e1, abs_of_pos (by norm_num)])
        omega
      · subst e
        push_cast at *
        have e1 : h - r = 1 / 2 := by linarith
        have e2 : h - (r + 1) = -(1 / 2) := by linarith
        have p1 := b2 (by rw [e2, abs_neg, abs_of_pos (by norm_num)])
        have p2 := a2 (by rw [e1, abs_of_pos (by norm_num)])
        omega
    rw [a3, b3, this]
  all_goals exact h.trans h'.symm

/-! #### Positions -/

theorem flatMap_swap {α β γ : Type} (f : α → β → γ) (l : List α) (m : List β) :
    (l.flatMap fun a => m.map (f a)).Perm (m.flatMap fun b => l.map fun a => f a b) := by
  induction l with
  | nil => simp
  | cons a l ih =>
    simp only [List.flatMap_cons, List.map_cons]
    exact ((List.Perm.refl _).append ih).trans (List.map_append_flatMap_perm m (f a) _)

theorem gather_perm (o : Order) (axis : Axis) (n p ld i : Nat) : (gather o axis n p ld i).Perm (positions o axis n p ld i) := by
  cases o <;> cases axis <;> simp [gather, positions, transposed, extents, cell, Nat.add_comm]
  exact flatMap_swap (fun a b => b + a * ld) (List.range p) (List.range n)

theorem extents_fst (axis : Axis) (n p : Nat) : (extents axis n p).1 = nStats axis n p := by cases axis <;> rfl
theorem extents_snd (o : Order) (axis : Axis) (n p ld i : Nat) : (extents axis n p).2 = (positions o axis n p ld i).length := by
  cases axis <;> simp [extents, positions]

theorem outIndex_eq (o : Order) (stats nq i j : Nat) : outIndex o stats nq i j = outCell o stats nq j i := by
  cases o <;> rfl
theorem range_blocks (a b : Nat) : ((List.range a).flatMap fun i => (List.range b).map fun j => i * b + j) = List.range (a * b) := by
  induction a with
  | zero => simp
  | succ a ih => rw [List.range_succ, List.flatMap_append, ih, Nat.succ_mul, List.range_add]; simp

theorem outIndex_perm (o : Order) (stats nq : Nat) :
    ((List.range stats).flatMap fun i => (List.range nq).map fun j => outIndex o stats nq i j).Perm (List.range (stats * nq)) := by
  cases o with
  | rowMajor =>
    refine (flatMap_swap _ _ _).trans ?_
    have := range_blocks nq stats
    simp only [outIndex, if_true]
    rw [this, Nat.mul_comm]
  | colMajor =>
    have := range_blocks stats nq
    simp only [outIndex, reduceCtorEq, if_false]
    rw [this]

theorem positions_lt {o : Order} {axis : Axis} {n p ld len i : Nat} (hx : Fits o n p ld len) (hi : i < nStats axis n p) :
    ∀ a ∈ positions o axis n p ld i, a < len := by
  intro a ha
  cases axis <;> simp only [positions, nStats, List.mem_map, List.mem_flatMap, List.mem_range] at ha hi
  · obtain ⟨r, hr, rfl⟩ := ha; exact hx.2 r i hr hi
  · obtain ⟨r, hr, rfl⟩ := ha; exact hx.2 i r hi hr
  · obtain ⟨r, hr, c, hc, rfl⟩ := ha; exact hx.2 r c hr hc

theorem mapM_read (x : List K) (l : List Nat) (h : ∀ a ∈ l, a < x.length) :
    (l.mapM fun a => x[a]?) = some (l.map fun a => x.getD a 0) := by
  induction l with
  | nil => rfl
  | cons a l ih =>
    have ha := h a (by simp)
    rw [List.mapM_cons, ih fun b hb => h b (by simp [hb]), List.getElem?_eq_getElem ha]
    simp [ha]

/-- Sorted sample `i`. -/
theorem sample_sorted {o : Order} {axis : Axis} {n p ld i : Nat} {x s : List K} (h1 : s.Pairwise (· ≤ ·))
    (h2 : (s.map some).Perm ((positions o axis n p ld i).map (x[·]?))) :
    SortedOf s ((gather o axis n p ld i).map fun a => x.getD a 0) := by
  refine ⟨h1, ?_⟩
  have e : s = (s.map some).map (·.getD 0) := by simp
  have e2 : ((gather o axis n p ld i).map fun a => x.getD a 0) = ((gather o axis n p ld i).map (x[·]?)).map (·.getD 0) := by simp
  rw [e, e2]
  exact (h2.trans (((gather_perm o axis n p ld i).map _).symm)).map _

theorem statWrites_spec {nth : List K → Nat → List K} (hn : NthElement nth) {sorted : List Nat} {t : QType} {o : Order} {axis : Axis}
    {n p ldx : Nat} {x h : List K} {i : Nat} (hx : Fits o n p ldx x.length) (hi : i < nStats axis n p)
    (hpos : 0 < n ∧ 0 < p) (hp : sorted.Perm (List.range h.length)) (hs : sorted.Pairwise fun a b => h.getD a 0 ≤ h.getD b 0)
    {s : List K} (hss : SortedOf s ((gather o axis n p ldx i).map fun a => x.getD a 0)) :
    statWrites nth sorted t o axis n p ldx x h i =
      some (some (sorted.map fun j => (outIndex o (nStats axis n p) h.length i j, value t s (h.getD j 0)))) := by
  have hg := gather_perm o axis n p ldx i
  have hlen : (extents axis n p).2 = s.length := by
    rw [extents_snd o axis n p ldx i, hss.2.length_eq, List.length_map, hg.length_eq]
  have hne : 0 < s.length := by
    rw [← hlen]; cases axis <;> simp [extents] <;> omega
  unfold statWrites
  rw [mapM_read x _ fun a ha => positions_lt hx hi a (hg.mem_iff.mp ha)]
  simp only [hlen]
  rw [loop_spec hn t (s := s) h sorted (first := true) ⟨hss, hne, by simp, Or.inl ⟨rfl, rfl⟩⟩
    (fun a ha => by simpa using hp.mem_iff.mp ha) hs (Or.inl rfl)]
  simp [extents_fst, Function.comp_def]

theorem allWrites_spec {nth : List K → Nat → List K} (hn : NthElement nth) {sorted : List Nat} {t : QType} {o : Order} {axis : Axis}
    {n p ldx : Nat} {x h : List K} (hx : Fits o n p ldx x.length)
    (hpos : 0 < n ∧ 0 < p) (hp : sorted.Perm (List.range h.length)) (hs : sorted.Pairwise fun a b => h.getD a 0 ≤ h.getD b 0)
    (s : Nat → List K) (is : List Nat) (his : ∀ i ∈ is, i < nStats axis n p)
    (hss : ∀ i, SortedOf (s i) ((gather o axis n p ldx i).map fun a => x.getD a 0)) :
    allWrites nth sorted t o axis n p ldx x h is =
      some (some (is.flatMap fun i => sorted.map fun j => (outIndex o (nStats axis n p) h.length i j, value t (s i) (h.getD j 0)))) := by
  induction is with
  | nil => rfl
  | cons i is ih =>
    rw [allWrites, statWrites_spec hn hx (his i (by simp)) hpos hp hs (hss i)]
    simp only [ih fun j hj => his j (by simp [hj])]
    rfl

theorem singleWrites_spec {o : Order} {axis : Axis} {n p ldx : Nat} {x : List K} (nq : Nat) (hx : Fits o n p ldx x.length)
    (hpos : 0 < n ∧ 0 < p) (h1 : (extents axis n p).2 = 1) :
    singleWrites o axis (nStats axis n p) ldx x nq =
      some ((List.range (nStats axis n p)).flatMap fun i => (List.range nq).map fun j =>
        (outIndex o (nStats axis n p) nq i j, some (x.getD ((gather o axis n p ldx i).headD 0) 0))) := by
  have key : ∀ i, i < nStats axis n p →
      i * (if transposed o axis then 1 else ldx) = (gather o axis n p ldx i).headD 0 ∧ (gather o axis n p ldx i).headD 0 < x.length := by
    intro i hi
    have hmem : (gather o axis n p ldx i).headD 0 ∈ gather o axis n p ldx i := by
      have hl : (gather o axis n p ldx i).length = 1 := by
        rw [(gather_perm o axis n p ldx i).length_eq, ← extents_snd o axis n p ldx i, h1]
      match hgl : gather o axis n p ldx i, hl with
      | [a], _ => simp
    refine ⟨?_, positions_lt hx hi _ ((gather_perm o axis n p ldx i).mem_iff.mp hmem)⟩
    cases axis
    · simp only [extents] at h1
      subst h1
      cases o <;> simp [gather, transposed, extents]
    · simp only [extents] at h1
      subst h1
      cases o <;> simp [gather, transposed, extents]
    · simp only [extents, nStats] at h1 hi
      obtain ⟨rfl, rfl⟩ : n = 1 ∧ p = 1 := by simpa using h1
      have : i = 0 := by omega
      subst this
      cases o <;> simp [gather]
  unfold singleWrites
  have gen : ∀ l : List (Nat × Nat), (∀ ij ∈ l, ij.1 < nStats axis n p) →
      (l.mapM fun ij => (x[ij.1 * (if transposed o axis then 1 else ldx)]?).map fun v => (outIndex o (nStats axis n p) nq ij.1 ij.2, some v)) =
      some (l.map fun ij => (outIndex o (nStats axis n p) nq ij.1 ij.2, some (x.getD ((gather o axis n p ldx ij.1).headD 0) 0))) := by
    intro l
    induction l with
    | nil => intro _; rfl
    | cons ij l ih =>
      intro hl
      obtain ⟨e1, e2⟩ := key ij.1 (hl ij (by simp))
      rw [List.mapM_cons, ih fun a ha => hl a (by simp [ha]), e1, List.getElem?_eq_getElem e2]
      simp only [List.map_cons, List.getD_eq_getElem?_getD, List.getElem?_eq_getElem e2]
      rfl
  rw [gen _ (by
    intro ij hij
    simp only [List.mem_flatMap, List.mem_map, List.mem_range] at hij
    obtain ⟨i, hi, j, _, rfl⟩ := hij
    exact hi)]
  simp [List.map_flatMap, Function.comp_def]

theorem validate_ok {o : Order} {n p ldx nq : Int} (h1 : 1 ≤ n) (h2 : 1 ≤ p) (h3 : 1 ≤ nq)
    (h4 : (match o with | .colMajor => n | .rowMajor => p) ≤ ldx) : validate true o n p ldx nq = .success := by
  unfold validate
  rw [if_neg (by simp), if_neg (by omega), if_neg (by omega)]
  cases o
  · rw [if_neg (by simp), if_neg (by simp only at h4; omega)]
  · rw [if_neg (by simp only at h4; omega), if_neg (by simp)]

/-- **C34.** For every matrix (either storage order, any leading dimension), axis, quantile type
and list of probabilities in [0,1], in any order and with repetitions, and whatever
`std::nth_element` and `std::sort` do within their contract, the call succeeds without undefined
behaviour, stores every element of the `n_q` by `nStats` result exactly once and nothing else,
and entry `(j, i)` is the quantile of the documented type for probability `q[j]` of the sorted
sample `i`.  Since that depends on `q[j]` alone (`isQuantile_unique`), the other requests do not matter. -/
theorem C34_quantile {nth : List K → Nat → List K} (hn : NthElement nth) {sortIdx : List K → List Nat} (hsrt : SortsIndices sortIdx)
    (o : Order) (axis : Axis) (n p : Nat) (x : List K) (ldx : Nat) (q : List K) (t : QType)
    (hpos : 0 < n ∧ 0 < p) (hx : Fits o n p ldx x.length) (hq0 : q ≠ []) (hq : ∀ v ∈ q, 0 ≤ v ∧ v ≤ 1) :
    ∃ w, quantile nth sortIdx true o axis n p x ldx q t = some (.success, w) ∧
      (w.map Prod.fst).Perm (List.range (nStats axis n p * q.length)) ∧
      ∀ i j, i < nStats axis n p → ∀ hj : j < q.length, ∀ s : List K, s.Pairwise (· ≤ ·) →
        (s.map some).Perm ((positions o axis n p ldx i).map (x[·]?)) →
        ∃ v, (outCell o (nStats axis n p) q.length j i, some v) ∈ w ∧ IsQuantile t s q[j] v := by
  have hql : 0 < q.length := List.length_pos_iff.mpr hq0
  have hv : validate true o n p ldx q.length = .success := by
    have := hx.1
    refine validate_ok (by omega) (by omega) (by omega) ?_
    cases o <;> simp only at this ⊢ <;> omega
  have hany : (q.any fun v => decide (v < 0 ∨ v > 1)) = false := by
    rw [List.any_eq_false]
    intro v hvq
    have := hq v hvq
    simp only [decide_eq_true_eq, not_or, not_lt, gt_iff_lt]
    exact this
  unfold quantile
  simp only [hv, ne_eq, not_true_eq_false, if_false, hany, Bool.false_eq_true, Int.toNat_natCast]
  choose S hS using fun i => exists_sorted ((gather o axis n p ldx i).map fun a => x.getD a 0)
  split
  · rename_i h1
    rw [extents_fst, singleWrites_spec _ hx hpos h1]
    refine ⟨_, rfl, ?_, ?_⟩
    · rw [List.map_flatMap]
      simp only [List.map_map, Function.comp_def]
      exact outIndex_perm o _ _
    · intro i j hi hj s hs1 hs2
      have hs := sample_sorted hs1 hs2
      refine ⟨x.getD ((gather o axis n p ldx i).headD 0) 0, ?_, ?_⟩
      · simp only [List.mem_flatMap, List.mem_map, List.mem_range]
        exact ⟨i, hi, j, hj, by rw [outIndex_eq]⟩
      · have hl : (gather o axis n p ldx i).length = 1 := by
          rw [(gather_perm o axis n p ldx i).length_eq, ← extents_snd o axis n p ldx i, h1]
        match hgl : gather o axis n p ldx i, hl with
        | [a], _ =>
          rw [hgl] at hs
          have : s = [x.getD a 0] := List.perm_singleton.mp hs.2
          rw [this]
          exact single_spec _ _ _
  · obtain ⟨hp1, hp2⟩ := hsrt (q.map (quantileIndex t ((extents axis n p).2 : K)))
    rw [extents_fst, allWrites_spec hn hx hpos hp1 hp2 S _ (fun i hi => by simpa using hi) hS]
    refine ⟨_, rfl, ?_, ?_⟩
    · rw [List.map_flatMap]
      simp only [List.map_map, Function.comp_def, List.length_map]
      refine List.Perm.trans ?_ (outIndex_perm o _ _)
      refine List.Perm.flatMap_left _ fun i _ => List.Perm.map _ ?_
      simpa using hp1
    · intro i j hi hj s hs1 hs2
      have hs := sample_sorted hs1 hs2
      have e : S i = s := (hS i).eq hs (List.Perm.refl _)
      have hlen : (extents axis n p).2 = s.length := by
        rw [extents_snd o axis n p ldx i, hs.2.length_eq, List.length_map, (gather_perm o axis n p ldx i).length_eq]
      have hne : s ≠ [] := by
        intro h0; rw [h0] at hlen; cases axis <;> simp [extents] at hlen <;> omega
      obtain ⟨v, hv1, hv2⟩ := value_spec t s hne q[j]
      refine ⟨v, ?_, hv2⟩
      simp only [List.mem_flatMap, List.mem_map, List.mem_range]
      refine ⟨i, hi, j, hp1.mem_iff.mpr (by simpa using hj), ?_⟩
      rw [outIndex_eq, e, List.length_map]
      have : (q.map (quantileIndex t ((extents axis n p).2 : K))).getD j 0 = quantileIndex t (s.length : K) q[j] := by
        rw [List.getD_eq_getElem?_getD, List.getElem?_map, List.getElem?_eq_getElem hj, hlen]; rfl
      rw [this, hv1]

/-- **C34**, rejected calls: nothing is stored, and the status is the documented one. -/
theorem C34_rejects (nth : List K → Nat → List K) (sortIdx : List K → List Nat) (ptrs : Bool)
    (o : Order) (axis : Axis) (n p : Int) (x : List K) (ldx : Int) (q : List K) (t : QType) :
    (ptrs = false → quantile nth sortIdx ptrs o axis n p x ldx q t = some (.invalidPointer, [])) ∧
    (ptrs = true → (n < 1 ∨ p < 1) → quantile nth sortIdx ptrs o axis n p x ldx q t = some (.invalidArrayDimension, [])) ∧
    (ptrs = true → 1 ≤ n → 1 ≤ p → q = [] → quantile nth sortIdx ptrs o axis n p x ldx q t = some (.invalidInput, [])) ∧
    (ptrs = true → 1 ≤ n → 1 ≤ p → q ≠ [] → ldx < (match o with | .colMajor => n | .rowMajor => p) →
      quantile nth sortIdx ptrs o axis n p x ldx q t = some (.invalidLeadingDimension, [])) ∧
    (ptrs = true → 1 ≤ n → 1 ≤ p → (match o with | .colMajor => n | .rowMajor => p) ≤ ldx → (∃ v ∈ q, v < 0 ∨ 1 < v) →
      quantile nth sortIdx ptrs o axis n p x ldx q t = some (.invalidInput, [])) := by
  refine ⟨?_, ?_, ?_, ?_, ?_⟩
  · rintro rfl; simp [quantile, validate]
  · rintro rfl h; simp [quantile, validate, h]
  · rintro rfl h1 h2 rfl
    have : ¬ (n < 1 ∨ p < 1) := by omega
    simp [quantile, validate, this]
  · rintro rfl h1 h2 hq h3
    have hql : 0 < q.length := List.length_pos_iff.mpr hq
    have a1 : ¬ (n < 1 ∨ p < 1) := by omega
    have a2 : ¬ ((q.length : Int) < 1) := by omega
    cases o <;> simp only at h3 <;> simp [quantile, validate, a1, a2, h3]
  · rintro rfl h1 h2 h3 ⟨v, hv, hv'⟩
    have hql : 0 < q.length := List.length_pos_of_mem hv
    have hs : validate true o n p ldx q.length = .success := validate_ok h1 h2 (by omega) h3
    have ha : (q.any fun v => decide (v < 0 ∨ v > 1)) = true := List.any_eq_true.mpr ⟨v, hv, by simpa using hv'⟩
    unfold quantile
    simp only [hs, ha]
    simp

/-! #### Examples -/

/-- A full sort is a correct `nth_element`. -/
theorem sort_nth : NthElement (K := K) fun l _ => l.insertionSort (· ≤ ·) := by
  intro l k hk
  have hpw' : (l.insertionSort (· ≤ ·)).Pairwise (· ≤ ·) := List.pairwise_insertionSort (· ≤ ·) l
  have hp : (l.insertionSort (· ≤ ·)).Perm l := List.perm_insertionSort (· ≤ ·) l
  simp only
  generalize l.insertionSort (· ≤ ·) = m at *
  refine ⟨hp, ?_, ?_⟩
  · have := hpw'
    rw [← List.take_append_drop k m, List.pairwise_append] at this
    exact this.2.2
  · intro b hb a ha
    have hk' : k < m.length := by rw [hp.length_eq]; exact hk
    rw [List.getElem?_eq_getElem hk'] at ha
    rw [List.drop_eq_getElem_cons hk'] at hb
    obtain rfl : m[k] = a := by simpa using ha
    rcases List.mem_cons.mp hb with rfl | hb
    · exact le_refl _
    · have := hpw'.sublist (List.drop_sublist k m)
      rw [List.drop_eq_getElem_cons hk', List.pairwise_cons] at this
      exact this.1 b hb

/-- A stable sort of the subscripts is a correct `std::sort`. -/
theorem sort_indices : SortsIndices (K := K) fun h => (List.range h.length).insertionSort fun a b => h.getD a 0 ≤ h.getD b 0 := by
  intro h
  refine ⟨List.perm_insertionSort _ _, ?_⟩
  have : Std.Total fun a b : Nat => h.getD a 0 ≤ h.getD b 0 := ⟨fun a b => le_total _ _⟩
  have : IsTrans Nat fun a b : Nat => h.getD a 0 ≤ h.getD b 0 := ⟨fun a b c => le_trans⟩
  exact List.pairwise_insertionSort _ _

/-- The hypotheses of `C34_quantile` are satisfiable: row samples of a row-major 2 by 2 matrix. -/
example : ∃ w, quantile (K := ℚ) (fun l _ => l.insertionSort (· ≤ ·))
    (fun h => (List.range h.length).insertionSort fun a b => h.getD a 0 ≤ h.getD b 0) true .rowMajor .row (2 : Nat) (2 : Nat)
    [4, 1, 3, 2] (2 : Nat) [1, 1 / 4] .t6 = some (.success, w) := by
  obtain ⟨w, h, _⟩ := C34_quantile (K := ℚ) sort_nth sort_indices .rowMajor .row 2 2 [4, 1, 3, 2] 2 [1, 1 / 4] .t6
    (by decide) ⟨by decide, by intro i j hi hj; simp only [cell, List.length_cons, List.length_nil]; omega⟩ (by simp) (by decide +kernel)
  exact ⟨w, h⟩

/-- The median of {4, 1, 3, 2} of type 7 and its 0.9 quantile of type 1, asked for in decreasing order, from
a column-major matrix with padding. -/
example : quantile (K := ℚ) (fun l _ => l.insertionSort (· ≤ ·)) (fun _ => [1, 0]) true .colMajor .col 4 1
    [4, 1, 3, 2, 99] 5 [9 / 10, 1 / 2] .t7 = some (.success, [(1, some (5 / 2)), (0, some (37 / 10))]) := by decide +kernel

example : IsQuantile (K := ℚ) .t2 [1, 2, 3, 4] (1 / 2) (5 / 2) := by
  unfold IsQuantile; decide +kernel

end Verif.Quantile
