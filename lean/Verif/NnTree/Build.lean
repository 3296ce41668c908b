/-
The constructed trees are well formed.
-/
import Verif.NnTree.Search
import Mathlib.Data.List.Perm.Basic
import Mathlib.Tactic.IntervalCases
namespace Verif.NnTree

/-- Contract of `std::nth_element` for a comparison by a key: the range is permuted, the element at `mid` is preceded
by no larger and followed by no smaller ones. -/
def NthOk (nth : (Nat → Nat → Bool) → Nat → List Nat → List Nat) : Prop :=
  ∀ (key : Nat → ℝ) (mid : Nat) (l : List Nat), mid < l.length →
    let r := nth (fun x y => decide (key x < key y)) mid l
    r.Perm l ∧
    (∀ i, i < mid → ¬ key (r.getD mid 0) < key (r.getD i 0)) ∧
    (∀ i, mid < i → i < l.length → ¬ key (r.getD i 0) < key (r.getD mid 0))

theorem seg_mid (pre m suf : List Nat) : seg (pre ++ m ++ suf) pre.length m.length = m := by
  rw [seg, List.append_assoc, List.drop_left, List.take_left]

theorem foldl_min_le (f : Nat → ℝ) : ∀ (l : List Nat) (m : ℝ), l.foldl (fun m i => min m (f i)) m ≤ m ∧
    ∀ s ∈ l, l.foldl (fun m i => min m (f i)) m ≤ f s := by
  intro l
  induction l with
  | nil => intro m; simp
  | cons a l ih =>
    intro m
    have h := ih (min m (f a))
    refine ⟨le_trans h.1 (min_le_left _ _), ?_⟩
    intro s hs
    rcases List.mem_cons.1 hs with rfl | hs
    · exact le_trans h.1 (min_le_right _ _)
    · exact h.2 s hs

theorem foldl_le_max (f : Nat → ℝ) : ∀ (l : List Nat) (m : ℝ), m ≤ l.foldl (fun m i => max m (f i)) m ∧
    ∀ s ∈ l, f s ≤ l.foldl (fun m i => max m (f i)) m := by
  intro l
  induction l with
  | nil => intro m; simp
  | cons a l ih =>
    intro m
    have h := ih (max m (f a))
    refine ⟨le_trans (le_max_left _ _) h.1, ?_⟩
    intro s hs
    rcases List.mem_cons.1 hs with rfl | hs
    · exact le_trans (le_max_right _ _) h.1
    · exact h.2 s hs

theorem bestDim_lt (t : Tree ℝ) (hd : 0 < t.d) (idx : List Nat) : bestDim t idx < t.d := by
  unfold bestDim
  have : ∀ (l : List Nat) (s : ℝ × Nat), (∀ i ∈ l, i < t.d) → s.2 < t.d →
      (l.foldl (fun (s : ℝ × Nat) i => if s.1 < variance t idx i then (variance t idx i, i) else s) s).2 < t.d := by
    intro l
    induction l with
    | nil => intro s _ h; exact h
    | cons a l ih =>
      intro s h1 h2
      rw [List.foldl_cons]
      apply ih _ fun i hi => h1 i (List.mem_cons_of_mem _ hi)
      split
      · exact h1 a List.mem_cons_self
      · exact h2
  exact this _ _ (fun i hi => List.mem_range.1 hi) hd

section
variable {t : Tree ℝ} (g : Good t)
include g

theorem kdBuild_spec {nth : (Nat → Nat → Bool) → Nat → List Nat → List Nat} (hnth : NthOk nth) (rootDim : Nat)
    (hroot : rootDim < t.d) : ∀ (fuel depth off : Nat) (idx : List Nat) (box : Option ((Nat → ℝ) × (Nat → ℝ))),
    idx.length < fuel → 0 < idx.length →
    (∀ b, box = some b → ∀ s ∈ idx, ∀ j, j < t.d → b.1 j ≤ t.A s j ∧ t.A s j ≤ b.2 j) →
    (kdBuild t nth rootDim fuel depth off idx box).2.Perm idx ∧
    (∀ x, (kdBuild t nth rootDim fuel depth off idx box).1.pts x = seg x off idx.length) ∧
    ∀ pre suf : List Nat, pre.length = off →
      KdWF t (pre ++ (kdBuild t nth rootDim fuel depth off idx box).2 ++ suf)
        (kdBuild t nth rootDim fuel depth off idx box).1 := by
  intro fuel
  induction fuel with
  | zero => intro _ _ _ _ h; omega
  | succ fuel ih =>
    intro depth off idx box hf hpos hbox
    unfold kdBuild
    rw [if_neg (by omega)]
    dsimp only
    generalize hlo : (box.getD (nodeLo t idx, nodeHi t idx)).1 = lo
    generalize hhi : (box.getD (nodeLo t idx, nodeHi t idx)).2 = hi
    have hb : ∀ s ∈ idx, ∀ j, j < t.d → lo j ≤ t.A s j ∧ t.A s j ≤ hi j := by
      intro s hs j hj
      cases box with
      | none =>
        subst hlo; subst hhi
        exact ⟨(foldl_min_le (fun i => t.A i j) idx _).2 s hs, (foldl_le_max (fun i => t.A i j) idx _).2 s hs⟩
      | some b => subst hlo; subst hhi; exact hbox b rfl s hs j hj
    by_cases hleaf : idx.length < 2 * t.leafSize ∨ idx.length = 2
    · rw [if_pos hleaf]
      refine ⟨List.Perm.refl _, fun _ => rfl, ?_⟩
      intro pre suf hp
      refine ⟨by simp; omega, ?_, by simp⟩
      subst hp
      dsimp only
      rw [seg_mid]
      exact hb
    · rw [if_neg hleaf]
      have hl := g.leaf
      have hlen : 3 ≤ idx.length := by omega
      generalize hdim : (if depth = 0 then rootDim else bestDim t idx) = dim
      have hdd : dim < t.d := by
        subst hdim
        split
        · exact hroot
        · exact bestDim_lt t g.dim idx
      generalize hmid : (idx.length - 1) / 2 = mid
      obtain ⟨hp, hL, hR⟩ := hnth (fun s => t.A s dim) mid idx (by omega)
      generalize nth (fun x y => decide (t.A x dim < t.A y dim)) mid idx = ys at *
      have hyl : ys.length = idx.length := hp.length_eq
      obtain ⟨pl, sl, wl⟩ := ih (depth + 1) off (ys.take mid) none (by simp; omega) (by simp; omega) (by simp)
      obtain ⟨pr, sr, wr⟩ := ih (depth + 1) (off + mid + 1) (ys.drop (mid + 1)) none (by simp; omega) (by simp; omega)
        (by simp)
      generalize kdBuild t nth rootDim fuel (depth + 1) off (ys.take mid) none = L at *
      generalize kdBuild t nth rootDim fuel (depth + 1) (off + mid + 1) (ys.drop (mid + 1)) none = R at *
      have hg : ys.getD mid 0 = ys[mid]'(by omega) := by
        rw [List.getD_eq_getElem?_getD, List.getElem?_eq_getElem (by omega), Option.getD_some]
      have hys : ys = ys.take mid ++ ys.getD mid 0 :: ys.drop (mid + 1) := by
        rw [hg, List.getElem_cons_drop, List.take_append_drop]
      have hperm : (L.2 ++ ys.getD mid 0 :: R.2).Perm idx := by
        refine List.Perm.trans ?_ hp
        conv_rhs => rw [hys]
        exact pl.append (pr.cons _)
      refine ⟨hperm, fun _ => rfl, ?_⟩
      intro pre suf hpre
      have hLl : L.2.length = mid := by rw [pl.length_eq, List.length_take]; omega
      have hRl : R.2.length = idx.length - mid - 1 := by rw [pr.length_eq, List.length_drop]; omega
      have e1 : pre ++ (L.2 ++ ys.getD mid 0 :: R.2) ++ suf = pre ++ L.2 ++ (ys.getD mid 0 :: R.2 ++ suf) := by simp
      have e2 : pre ++ (L.2 ++ ys.getD mid 0 :: R.2) ++ suf = (pre ++ L.2 ++ [ys.getD mid 0]) ++ R.2 ++ suf := by simp
      have q1 : L.1.pts (pre ++ (L.2 ++ ys.getD mid 0 :: R.2) ++ suf) = L.2 := by
        rw [e1, sl, show (ys.take mid).length = L.2.length from pl.length_eq.symm, ← hpre, seg_mid]
      have q2 : R.1.pts (pre ++ (L.2 ++ ys.getD mid 0 :: R.2) ++ suf) = R.2 := by
        rw [e2, sr, show (ys.drop (mid + 1)).length = R.2.length from pr.length_eq.symm,
          show off + mid + 1 = (pre ++ L.2 ++ [ys.getD mid 0]).length by simp; omega, seg_mid]
      have q0 : seg (pre ++ (L.2 ++ ys.getD mid 0 :: R.2) ++ suf) off idx.length = L.2 ++ ys.getD mid 0 :: R.2 := by
        rw [← hperm.length_eq, ← hpre, seg_mid]
      refine ⟨by simp; omega, ?_, ?_⟩
      · rw [q0]
        intro s hs
        exact hb s (hperm.subset hs)
      · intro _
        refine ⟨hdd, ?_, ?_, ?_, ?_, ?_⟩
        · rw [e1]; exact wl _ _ hpre
        · rw [e2]; exact wr _ _ (by simp; omega)
        · rw [q0, q1, q2]
        · rw [q1]
          intro s hs
          obtain ⟨i, hi, rfl⟩ := List.mem_iff_getElem.1 (pl.subset hs)
          have hi' : i < mid := by rw [List.length_take] at hi; omega
          have := not_lt.1 (hL i hi')
          rwa [List.getD_eq_getElem?_getD (i := i), List.getElem?_eq_getElem (by omega), Option.getD_some,
            ← List.getElem_take] at this
        · rw [q2]
          intro s hs
          obtain ⟨i, hi, rfl⟩ := List.mem_iff_getElem.1 (pr.subset hs)
          rw [List.length_drop] at hi
          have := not_lt.1 (hR (mid + 1 + i) (by omega) (by omega))
          rwa [List.getD_eq_getElem?_getD (i := mid + 1 + i), List.getElem?_eq_getElem (by omega), Option.getD_some,
            ← List.getElem_drop] at this

end

/-! ### Root box -/

theorem flat_min_le (f : Nat → ℝ) (blocks : Nat → List Nat) : ∀ (ks : List Nat) (m : ℝ),
    ks.foldl (fun m k => (blocks k).foldl (fun m i => min m (f i)) m) m =
    (ks.flatMap blocks).foldl (fun m i => min m (f i)) m := by
  intro ks
  induction ks with
  | nil => intro m; rfl
  | cons k ks ih => intro m; rw [List.foldl_cons, ih, List.flatMap_cons, List.foldl_append]

theorem flat_le_max (f : Nat → ℝ) (blocks : Nat → List Nat) : ∀ (ks : List Nat) (m : ℝ),
    ks.foldl (fun m k => (blocks k).foldl (fun m i => max m (f i)) m) m =
    (ks.flatMap blocks).foldl (fun m i => max m (f i)) m := by
  intro ks
  induction ks with
  | nil => intro m; rfl
  | cons k ks ih => intro m; rw [List.foldl_cons, ih, List.flatMap_cons, List.foldl_append]

theorem foldl_min_any {B : Type} (f : B → ℝ) : ∀ (l : List B) (m : ℝ), l.foldl (fun m i => min m (f i)) m ≤ m ∧
    ∀ s ∈ l, l.foldl (fun m i => min m (f i)) m ≤ f s := by
  intro l
  induction l with
  | nil => intro m; simp
  | cons a l ih =>
    intro m
    have h := ih (min m (f a))
    refine ⟨le_trans h.1 (min_le_left _ _), ?_⟩
    intro s hs
    rcases List.mem_cons.1 hs with rfl | hs
    · exact le_trans h.1 (min_le_right _ _)
    · exact h.2 s hs

theorem foldl_max_any {B : Type} (f : B → ℝ) : ∀ (l : List B) (m : ℝ), m ≤ l.foldl (fun m i => max m (f i)) m ∧
    ∀ s ∈ l, f s ≤ l.foldl (fun m i => max m (f i)) m := by
  intro l
  induction l with
  | nil => intro m; simp
  | cons a l ih =>
    intro m
    have h := ih (max m (f a))
    refine ⟨le_trans (le_max_left _ _) h.1, ?_⟩
    intro s hs
    rcases List.mem_cons.1 hs with rfl | hs
    · exact le_trans (le_max_right _ _) h.1
    · exact h.2 s hs

/-- The blocks of the constructor cover the samples. -/
theorem kd_blocks_cover {n nb rem : Nat} (hn : 0 < n) (h : Blocking.blockingScheme n (min 256 n) = some (nb, rem)) :
    ∀ s, s < n → ∃ k, k < nb ∧ s ∈ blockSamples n (min 256 n) nb rem k := by
  intro s hs
  generalize hm : min 256 n = m at *
  have hmp : 0 < m := by omega
  unfold Blocking.blockingScheme at h
  rw [if_neg (by omega)] at h
  simp only [Option.some.injEq, Prod.mk.injEq] at h
  obtain ⟨h1, h2⟩ := h
  have hdm := Nat.div_add_mod n m
  have hlt := Nat.mod_lt n hmp
  have hq := Nat.div_add_mod s m
  have hql := Nat.mod_lt s hmp
  have hle : s / m ≤ n / m := Nat.div_le_div_right (by omega)
  by_cases hlast : s / m = n / m
  · have hrem : 0 < n % m := by
      rw [hlast] at hq; omega
    refine ⟨n / m, by rw [if_pos hrem] at h1; omega, ?_⟩
    unfold blockSamples
    rw [if_pos hrem] at h1
    have hc : n / m = nb - 1 ∧ rem > 0 := by
      refine ⟨?_, by omega⟩
      rw [← h1]; rfl
    rw [if_pos hc, List.mem_range'_1]
    rw [hlast] at hq
    generalize m * (n / m) = z at *
    omega
  · refine ⟨s / m, by split at h1 <;> omega, ?_⟩
    unfold blockSamples
    have hmul : m * (s / m) = s / m * m := Nat.mul_comm _ _
    have hlt2 : s / m < n / m := by omega
    have hmul2 := Nat.mul_le_mul_left m (Nat.succ_le_of_lt hlt2)
    rw [Nat.mul_succ] at hmul2
    rw [if_neg (by
      intro hh
      rw [if_pos (by omega)] at h1
      omega), List.mem_range'_1]
    omega

section
variable {t : Tree ℝ} (g : Good t)
include g

/-- The k-d tree of the constructor is well formed and holds every sample once, whatever the threads do. -/
theorem kdCreate_spec {nth : (Nat → Nat → Bool) → Nat → List Nat → List Nat} (hnth : NthOk nth) (rootDim : Nat)
    (hroot : rootDim < t.d) (hn : 0 < t.n) (orderLo orderHi : List (List Nat))
    (hLo : orderLo.flatten.Perm (List.range (kdBlocks t.n))) (hHi : orderHi.flatten.Perm (List.range (kdBlocks t.n))) :
    ∃ k idx, kdCreate t nth rootDim orderLo orderHi = some (k, idx) ∧ idx.Perm (List.range t.n) ∧ KdWF t idx k ∧
      k.pts idx = idx := by
  unfold kdCreate
  cases hbs : Blocking.blockingScheme t.n (min 256 t.n) with
  | none =>
    unfold Blocking.blockingScheme at hbs
    rw [if_neg (by omega)] at hbs
    simp at hbs
  | some b =>
    obtain ⟨nb, rem⟩ := b
    have hk : kdBlocks t.n = nb := by simp [kdBlocks, hbs]
    rw [hk] at hLo hHi
    dsimp only
    generalize hlo : (fun j => orderLo.foldl (fun m ks => min m (threadLo t (blockSamples t.n (min 256 t.n) nb rem) ks j))
      t.fns.top) = lo
    generalize hhi : (fun j => orderHi.foldl (fun m ks => max m (threadHi t (blockSamples t.n (min 256 t.n) nb rem) ks j))
      (-t.fns.top)) = hi
    have hbox : ∀ b : (Nat → ℝ) × (Nat → ℝ), some (lo, hi) = some b → ∀ s ∈ List.range t.n, ∀ j, j < t.d →
        b.1 j ≤ t.A s j ∧ t.A s j ≤ b.2 j := by
      intro b hb s hs j _
      obtain rfl := Option.some.inj hb
      obtain ⟨k, hk, hsk⟩ := kd_blocks_cover hn hbs s (List.mem_range.1 hs)
      constructor
      · obtain ⟨ks, h1, h2⟩ := List.mem_flatten.1 (hLo.symm.subset (List.mem_range.2 hk))
        subst hlo
        refine le_trans ((foldl_min_any (fun ks => threadLo t _ ks j) orderLo _).2 ks h1) ?_
        unfold threadLo
        rw [flat_min_le (fun i => t.A i j)]
        exact (foldl_min_le (fun i => t.A i j) _ _).2 s (List.mem_flatMap.2 ⟨k, h2, hsk⟩)
      · obtain ⟨ks, h1, h2⟩ := List.mem_flatten.1 (hHi.symm.subset (List.mem_range.2 hk))
        subst hhi
        refine le_trans ?_ ((foldl_max_any (fun ks => threadHi t _ ks j) orderHi _).2 ks h1)
        unfold threadHi
        rw [flat_le_max (fun i => t.A i j)]
        exact (foldl_le_max (fun i => t.A i j) _ _).2 s (List.mem_flatMap.2 ⟨k, h2, hsk⟩)
    obtain ⟨h1, h2, h3⟩ := kdBuild_spec g hnth rootDim hroot (t.n + 1) 0 0 (List.range t.n) (some (lo, hi)) (by simp)
      (by simpa using hn) hbox
    have h3 := h3 [] [] rfl
    simp only [List.nil_append, List.append_nil] at h3
    refine ⟨_, _, by subst hlo; subst hhi; rw [hbs], h1, h3, ?_⟩
    rw [h2, List.length_range, seg, List.drop_zero, List.take_of_length_le]
    rw [h1.length_eq, List.length_range]

/-! ### Ball tree -/

omit g in
theorem swapAt_perm (l : List Nat) (i j : Nat) (hi : i < l.length) (hj : j < l.length) : (swapAt l i j).Perm l := by
  unfold swapAt
  have e1 : l.getD j 0 = l[j] := by rw [List.getD_eq_getElem?_getD, List.getElem?_eq_getElem hj, Option.getD_some]
  have e2 : l.getD i 0 = l[i] := by rw [List.getD_eq_getElem?_getD, List.getElem?_eq_getElem hi, Option.getD_some]
  rw [e1, e2]
  exact List.set_set_perm hi hj

omit g in
theorem partition_spec (choose : Nat → Bool) (idx : List Nat) :
    (partition choose idx).1.Perm idx ∧ (partition choose idx).2 ≤ idx.length := by
  unfold partition
  have : ∀ (m : Nat), m ≤ idx.length →
      let r := (List.range m).foldl (fun (s : List Nat × Nat) i =>
        if choose (s.1.getD i 0) then (swapAt s.1 i s.2, s.2 + 1) else s) (idx, 0)
      r.1.Perm idx ∧ r.2 ≤ m := by
    intro m
    induction m with
    | zero => intro _; simp
    | succ m ih =>
      intro hm
      obtain ⟨h1, h2⟩ := ih (by omega)
      rw [List.range_succ, List.foldl_append, List.foldl_cons, List.foldl_nil]
      dsimp only
      generalize (List.range m).foldl (fun (s : List Nat × Nat) i =>
        if choose (s.1.getD i 0) then (swapAt s.1 i s.2, s.2 + 1) else s) (idx, 0) = r at *
      have := h1.length_eq
      split
      · exact ⟨(swapAt_perm _ _ _ (by omega) (by omega)).trans h1, by dsimp only; omega⟩
      · exact ⟨h1, by omega⟩
  exact this _ (Nat.le_refl _)

theorem nodeRadius_spec (idx : List Nat) : ∀ s ∈ idx, tdist t (nodeCentroid t idx) (t.A s) ≤ nodeRadius t idx := by
  intro s hs
  unfold nodeRadius
  dsimp only
  generalize hx : (if t.metric = .euclideanGemm then norm t.d (nodeCentroid t idx) else 0) = xn
  have hn : t.metric = .euclideanGemm → xn = norm t.d (nodeCentroid t idx) := by
    intro h; rw [← hx, if_pos h]
  have h := (foldl_le_max (fun i => computeDistance t i (nodeCentroid t idx) xn) idx 0).2 s hs
  rw [distance_tdist g s _ xn hn] at h
  cases c : t.isEuclid
  · simpa [c] using h
  · simp only [c, if_true, g.sqrt] at h ⊢
    exact Real.le_sqrt_of_sq_le (by rw [sq]; exact h)

theorem ballBuild_spec : ∀ (fuel off : Nat) (idx : List Nat) (ball : Option ((Nat → ℝ) × ℝ)),
    idx.length < fuel → 0 < idx.length →
    (∀ b, ball = some b → ∀ s ∈ idx, tdist t b.1 (t.A s) ≤ b.2) →
    (ballBuild t fuel off idx ball).2.Perm idx ∧
    (∀ x, (ballBuild t fuel off idx ball).1.pts x = seg x off idx.length) ∧
    ∀ pre suf : List Nat, pre.length = off →
      BallWF t (pre ++ (ballBuild t fuel off idx ball).2 ++ suf) (ballBuild t fuel off idx ball).1 := by
  intro fuel
  induction fuel with
  | zero => intro _ _ _ h; omega
  | succ fuel ih =>
    intro off idx ball hf hpos hball
    unfold ballBuild
    rw [if_neg (by omega)]
    dsimp only
    generalize hc : (ball.getD (nodeCentroid t idx, nodeRadius t idx)).1 = c
    generalize hr : (ball.getD (nodeCentroid t idx, nodeRadius t idx)).2 = rad
    have hb : ∀ s ∈ idx, tdist t c (t.A s) ≤ rad := by
      intro s hs
      cases ball with
      | none => subst hc; subst hr; exact nodeRadius_spec g idx s hs
      | some b => subst hc; subst hr; exact hball b rfl s hs
    by_cases hleaf : idx.length ≤ t.leafSize
    · rw [if_pos hleaf]
      refine ⟨List.Perm.refl _, fun _ => rfl, ?_⟩
      intro pre suf hp
      refine ⟨by simp; omega, hpos, ?_, by simp⟩
      subst hp
      dsimp only
      rw [seg_mid]
      exact hb
    · rw [if_neg hleaf]
      generalize chooseCentroid t (idx.getD (furthestPoint t idx 0) 0)
        (idx.getD (furthestPoint t idx (furthestPoint t idx 0)) 0) = choose
      obtain ⟨hp, hm⟩ := partition_spec choose idx
      generalize partition choose idx = s at *
      have hsl := hp.length_eq
      by_cases hsmall : s.2 < t.leafSize ∨ idx.length - s.2 < t.leafSize
      · rw [if_pos hsmall]
        refine ⟨hp, fun _ => rfl, ?_⟩
        intro pre suf hpre
        refine ⟨by simp; omega, hpos, ?_, by simp⟩
        subst hpre
        dsimp only
        rw [← hsl, seg_mid]
        exact fun s hs => hb s (hp.subset hs)
      · rw [if_neg hsmall]
        have hl := g.leaf
        obtain ⟨pl, sl, wl⟩ := ih off (s.1.take s.2) none (by simp; omega) (by simp; omega) (by simp)
        obtain ⟨pr, sr, wr⟩ := ih (off + s.2) (s.1.drop s.2) none (by simp; omega) (by simp; omega) (by simp)
        generalize ballBuild t fuel off (s.1.take s.2) none = L at *
        generalize ballBuild t fuel (off + s.2) (s.1.drop s.2) none = R at *
        have hperm : (L.2 ++ R.2).Perm idx := by
          refine List.Perm.trans (pl.append pr) ?_
          rw [List.take_append_drop]
          exact hp
        refine ⟨hperm, fun _ => rfl, ?_⟩
        intro pre suf hpre
        have hLl : L.2.length = s.2 := by rw [pl.length_eq, List.length_take]; omega
        have hRl : R.2.length = idx.length - s.2 := by rw [pr.length_eq, List.length_drop]; omega
        have e1 : pre ++ (L.2 ++ R.2) ++ suf = pre ++ L.2 ++ (R.2 ++ suf) := by simp
        have e2 : pre ++ (L.2 ++ R.2) ++ suf = (pre ++ L.2) ++ R.2 ++ suf := by simp
        have q1 : L.1.pts (pre ++ (L.2 ++ R.2) ++ suf) = L.2 := by
          rw [e1, sl, show (s.1.take s.2).length = L.2.length from pl.length_eq.symm, ← hpre, seg_mid]
        have q2 : R.1.pts (pre ++ (L.2 ++ R.2) ++ suf) = R.2 := by
          rw [e2, sr, show (s.1.drop s.2).length = R.2.length from pr.length_eq.symm,
            show off + s.2 = (pre ++ L.2).length by simp; omega, seg_mid]
        have q0 : seg (pre ++ (L.2 ++ R.2) ++ suf) off idx.length = L.2 ++ R.2 := by
          rw [← hperm.length_eq, ← hpre, seg_mid]
        refine ⟨by simp; omega, hpos, ?_, ?_⟩
        · rw [q0]
          intro s hs
          exact hb s (hperm.subset hs)
        · intro _
          refine ⟨?_, ?_, ?_⟩
          · rw [e1]; exact wl _ _ hpre
          · rw [e2]; exact wr _ _ (by simp; omega)
          · rw [q0, q1, q2]

omit g in
theorem amax_spec : ∀ (l : List ℝ), (∀ y ∈ l, 0 ≤ y) → 0 ≤ amax l ∧ ∀ y ∈ l, y ≤ amax l := by
  intro l hl
  cases l with
  | nil => simp [amax]
  | cons a l =>
    have : ∀ (l : List ℝ) (m : ℝ), (∀ y ∈ l, 0 ≤ y) → 0 ≤ m →
        m ≤ l.foldl (fun m y => if |m| < |y| then y else m) m ∧
        ∀ y ∈ l, y ≤ l.foldl (fun m y => if |m| < |y| then y else m) m := by
      intro l
      induction l with
      | nil => intro m _ _; simp
      | cons b l ih =>
        intro m h1 h2
        have hb := h1 b List.mem_cons_self
        rw [List.foldl_cons, abs_of_nonneg h2, abs_of_nonneg hb]
        by_cases hmb : m < b
        · rw [if_pos hmb]
          obtain ⟨i1, i2⟩ := ih b (fun y hy => h1 y (List.mem_cons_of_mem _ hy)) hb
          refine ⟨le_trans (le_of_lt hmb) i1, ?_⟩
          intro y hy
          rcases List.mem_cons.1 hy with rfl | hy
          · exact i1
          · exact i2 y hy
        · rw [if_neg hmb]
          obtain ⟨i1, i2⟩ := ih m (fun y hy => h1 y (List.mem_cons_of_mem _ hy)) h2
          refine ⟨i1, ?_⟩
          intro y hy
          rcases List.mem_cons.1 hy with rfl | hy
          · exact le_trans (not_lt.1 hmb) i1
          · exact i2 y hy
    obtain ⟨i1, i2⟩ := this l a (fun y hy => hl y (List.mem_cons_of_mem _ hy)) (hl a List.mem_cons_self)
    refine ⟨le_trans (hl a List.mem_cons_self) i1, ?_⟩
    intro y hy
    rcases List.mem_cons.1 hy with rfl | hy
    · exact i1
    · exact i2 y hy

omit g in
/-- When the samples left over after `n_blocks` equal blocks are fewer than a block, the blocks cover all samples. -/
theorem root_cover {threads n : Nat} (ht : 0 < threads)
    (h : n - rootBlocks threads n * (n / rootBlocks threads n) < n / rootBlocks threads n) :
    ∀ s, s < n → ∃ b, b < rootBlocks threads n ∧ s ∈ rootBlock threads n b := by
  intro s hs
  unfold rootBlock
  have hnb : 0 < rootBlocks threads n := by unfold rootBlocks; omega
  generalize rootBlocks threads n = nb at *
  generalize hbs : n / nb = bs at *
  have hbs0 : 0 < bs := by omega
  have hle : nb * bs ≤ n := by rw [← hbs]; exact Nat.mul_div_le n nb
  have hmod : n % bs = n - nb * bs := by
    conv_lhs => rw [show n = (n - nb * bs) + bs * nb by rw [Nat.mul_comm bs nb]; omega]
    rw [Nat.add_mul_mod_self_left, Nat.mod_eq_of_lt h]
  have hq := Nat.div_add_mod s bs
  have hql := Nat.mod_lt s hbs0
  by_cases hlast : s / bs < nb - 1
  · refine ⟨s / bs, by omega, ?_⟩
    dsimp only
    rw [if_neg (by omega), List.mem_range'_1, Nat.mul_comm]
    omega
  · refine ⟨nb - 1, by omega, ?_⟩
    dsimp only
    rw [if_pos rfl, List.mem_range'_1, hmod]
    have h1 : (nb - 1) * bs + bs = nb * bs := by
      rw [← Nat.succ_mul, show (nb - 1).succ = nb by omega]
    have h2 : (nb - 1) * bs ≤ s / bs * bs := Nat.mul_le_mul_right _ (by omega)
    rw [Nat.mul_comm (s / bs)] at h2
    omega

omit g in
/-- With at most 256 threads they always are. -/
theorem root_small {threads n : Nat} (ht : 0 < threads) (h256 : threads ≤ 256) (hn : 0 < n) :
    n - rootBlocks threads n * (n / rootBlocks threads n) < n / rootBlocks threads n := by
  have hdm := Nat.div_add_mod n (rootBlocks threads n)
  have hnb : 0 < rootBlocks threads n := by unfold rootBlocks; omega
  have hlt := Nat.mod_lt n hnb
  have h2 : rootBlocks threads n ≤ 256 := by unfold rootBlocks; omega
  have h3 : rootBlocks threads n ≤ max (n / 256) 1 := by unfold rootBlocks; omega
  generalize rootBlocks threads n = nb at *
  by_cases h1 : nb = 1
  · subst h1; omega
  · have h4 : nb ≤ n / 256 := by omega
    have h5 : 256 ≤ n / nb := by
      rw [Nat.le_div_iff_mul_le hnb]
      have := Nat.mul_le_mul_left 256 h4
      have := Nat.mul_div_le n 256
      omega
    omega

theorem ballCreate_spec {threads : Nat} (hn : 0 < t.n)
    (hcov : ∀ s, s < t.n → ∃ b, b < rootBlocks threads t.n ∧ s ∈ rootBlock threads t.n b) :
    (ballCreate t threads).2.Perm (List.range t.n) ∧ BallWF t (ballCreate t threads).2 (ballCreate t threads).1 ∧
      (ballCreate t threads).1.pts (ballCreate t threads).2 = (ballCreate t threads).2 := by
  have hball : ∀ b : (Nat → ℝ) × ℝ, some (rootCentroid t threads, rootRadius t threads) = some b →
      ∀ s ∈ List.range t.n, tdist t b.1 (t.A s) ≤ b.2 := by
    intro b hb s hs
    obtain rfl := Option.some.inj hb
    obtain ⟨b, hb, hsb⟩ := hcov s (List.mem_range.1 hs)
    dsimp only
    have inner : ∀ b, 0 ≤ amax ((rootBlock threads t.n b).map fun i =>
        pairwise t.fns t.metric t.p t.d (t.A i) (rootCentroid t threads)) ∧
        ∀ s ∈ rootBlock threads t.n b, tdist t (rootCentroid t threads) (t.A s) ≤ amax ((rootBlock threads t.n b).map fun i =>
          pairwise t.fns t.metric t.p t.d (t.A i) (rootCentroid t threads)) := by
      intro b
      obtain ⟨h1, h2⟩ := amax_spec ((rootBlock threads t.n b).map fun i =>
        pairwise t.fns t.metric t.p t.d (t.A i) (rootCentroid t threads)) (by
          intro y hy
          obtain ⟨i, _, rfl⟩ := List.mem_map.1 hy
          rw [pairwise_tdist g]
          exact tdist_nonneg _ _)
      refine ⟨h1, ?_⟩
      intro s hs
      have := h2 _ (List.mem_map_of_mem hs)
      rwa [pairwise_tdist g, tdist_comm] at this
    refine le_trans ((inner b).2 s hsb) ?_
    unfold rootRadius
    exact (amax_spec _ (by
      intro y hy
      obtain ⟨i, _, rfl⟩ := List.mem_map.1 hy
      exact (inner i).1)).2 _ (List.mem_map.2 ⟨b, List.mem_range.2 hb, rfl⟩)
  obtain ⟨h1, h2, h3⟩ := ballBuild_spec g (t.n + 1) 0 (List.range t.n) _ (by simp) (by simpa using hn) hball
  have h3 := h3 [] [] rfl
  simp only [List.nil_append, List.append_nil] at h3
  refine ⟨h1, h3, ?_⟩
  have h1' := h1.length_eq
  unfold ballCreate
  rw [h2, List.length_range, seg, List.drop_zero, List.take_of_length_le]
  rw [h1', List.length_range]

omit g in
/-- With room in the heap the ball of the node itself is not looked at. -/
theorem ballNearest_room (idx : List Nat) (q : Query ℝ) (k : Nat) (b : Bool) (off n : Nat) (c c' : Nat → ℝ) (R R' : ℝ)
    (l r : Ball ℝ) (h : Heap.MaxHeap ℝ) (hs : h.size < k) :
    ballNearest t idx q k (.node b off n c R l r) h = ballNearest t idx q k (.node b off n c' R' l r) h := by
  rw [ballNearest, ballNearest]
  simp only [if_pos hs]

omit g in
theorem ballBuild_ball (fuel off : Nat) (idx : List Nat) (hpos : 0 < idx.length) (B B' : (Nat → ℝ) × ℝ) :
    ∃ b l r, (ballBuild t (fuel + 1) off idx (some B)).1 = .node b off idx.length B.1 B.2 l r ∧
      (ballBuild t (fuel + 1) off idx (some B')).1 = .node b off idx.length B'.1 B'.2 l r ∧
      (ballBuild t (fuel + 1) off idx (some B)).2 = (ballBuild t (fuel + 1) off idx (some B')).2 := by
  unfold ballBuild
  have h0 : ¬ idx.length = 0 := by omega
  simp only [if_neg h0]
  dsimp only [Option.getD_some]
  split
  · exact ⟨_, _, _, rfl, rfl, rfl⟩
  · split
    · exact ⟨_, _, _, rfl, rfl, rfl⟩
    · exact ⟨_, _, _, rfl, rfl, rfl⟩

/-- A search for neighbours on the constructed tree behaves as on a well-formed tree, even if the root's ball is wrong. -/
theorem ballCreate_nearest (threads : Nat) (hn : 0 < t.n) :
    ∃ bt, (ballCreate t threads).2.Perm (List.range t.n) ∧ BallWF t (ballCreate t threads).2 bt ∧
      bt.pts (ballCreate t threads).2 = (ballCreate t threads).2 ∧
      ∀ q k (h : Heap.MaxHeap ℝ), h.size < k → ballNearest t (ballCreate t threads).2 q k (ballCreate t threads).1 h =
        ballNearest t (ballCreate t threads).2 q k bt h := by
  let B : (Nat → ℝ) × ℝ := (fun _ => 0, (List.range t.n).foldl (fun m i => max m (tdist t (fun _ => 0) (t.A i))) 0)
  have hball : ∀ b : (Nat → ℝ) × ℝ, some B = some b → ∀ s ∈ List.range t.n, tdist t b.1 (t.A s) ≤ b.2 := by
    intro b hb s hs
    obtain rfl := Option.some.inj hb
    exact (foldl_le_max (fun i => tdist t (fun _ => 0) (t.A i)) (List.range t.n) 0).2 s hs
  obtain ⟨h1, h2, h3⟩ := ballBuild_spec g (t.n + 1) 0 (List.range t.n) (some B) (by simp) (by simpa using hn) hball
  have h3 := h3 [] [] rfl
  simp only [List.nil_append, List.append_nil] at h3
  obtain ⟨b, l, r, e1, e2, e3⟩ := ballBuild_ball (t := t) t.n 0 (List.range t.n) (by simpa using hn)
    (rootCentroid t threads, rootRadius t threads) B
  refine ⟨(ballBuild t (t.n + 1) 0 (List.range t.n) (some B)).1, ?_, ?_, ?_, ?_⟩
  · unfold ballCreate; rw [e3]; exact h1
  · unfold ballCreate; rw [e3]; exact h3
  · unfold ballCreate
    rw [h2, e3, List.length_range, seg, List.drop_zero, List.take_of_length_le]
    rw [h1.length_eq, List.length_range]
  · intro q k h hs
    rw [show (ballCreate t threads).1 = _ from e1, e2]
    exact ballNearest_room _ q k b 0 _ _ _ _ _ l r h hs

end
end Verif.NnTree
