import Verif.BarnesHut.Tree
import Verif.BarnesHut.Run
import Verif.BarnesHut.Build

/-
The traversal visits every point once.
-/
set_option linter.unusedSectionVars false

namespace Verif.BarnesHut

open Moments (M Fault rd wr forUp divM ok_bind rd_ok wr_ok forUp_zero forUp_succ)

variable {K : Type} [Field K] [LinearOrder K] [IsStrictOrderedRing K]

/-- The squared distance of two points. -/
def sqDist (D : Nat) (x y : Nat → K) : K := ∑ d ∈ Finset.range D, (x d - y d) ^ 2

/-- What acts on a point as one body: the points at positions `lo` to `hi - 1` of the order, which
come from a cell of this level. -/
structure Body where
  lo : Nat
  hi : Nat
  level : Nat
  deriving DecidableEq, Repr

/-- The bodies follow each other, from a position to another. -/
def Covers : List Body → Nat → Nat → Prop
  | [], s, e => s = e
  | β :: l, s, e => β.lo = s ∧ β.lo < β.hi ∧ Covers l β.hi e

/-- The mean of the points of a body. -/
def Body.mean (X : Nat → Nat → K) (ord : Nat → Nat) (β : Body) (d : Nat) : K :=
  (∑ i ∈ Finset.Ico β.lo β.hi, X (ord i) d) / ((β.hi - β.lo : Nat) : K)

/-- A body is the point `p` itself. -/
def Body.isOwn (ord : Nat → Nat) (p : Nat) (β : Body) : Prop := β.hi = β.lo + 1 ∧ ord β.lo = p

instance (ord : Nat → Nat) (p : Nat) (β : Body) : Decidable (β.isOwn ord p) := by
  unfold Body.isOwn; infer_instance

/-- What a body adds to the normalisation for the point `p`. -/
def Body.share (D : Nat) (eps : K) (X : Nat → Nat → K) (ord : Nat → Nat) (p : Nat) (β : Body) : K :=
  if β.isOwn ord p then 0
  else ((β.hi - β.lo : Nat) : K) / (sqDist D (X p) (β.mean X ord) + eps)

/-- What a body adds to the force on the point `p`. -/
def Body.force (D : Nat) (eps : K) (X : Nat → Nat → K) (ord : Nat → Nat) (p d : Nat) (β : Body) : K :=
  if β.isOwn ord p then 0
  else ((β.hi - β.lo : Nat) : K) * (X p d - β.mean X ord d) /
    (sqDist D (X p) (β.mean X ord) + eps) ^ 2

/-- When points may be taken together: a body is a single point, or its points lie in a cube with
half the width `H / 2 ^ level`, the mean is at least the threshold of the level away from every one of
the points `ps`, and it contains none of them. -/
def Body.Allowed (D : Nat) (X : Nat → Nat → K) (ord : Nat → Nat) (H : K) (th : Nat → Option K)
    (ps : List Nat) (β : Body) : Prop :=
  β.hi = β.lo + 1 ∨
    ((∀ i, β.lo ≤ i → i < β.hi → ord i ∉ ps) ∧
      (∃ c : Nat → K, ∀ i, β.lo ≤ i → i < β.hi → ∀ d < D, |X (ord i) d - c d| ≤ H / 2 ^ β.level) ∧
      ∃ v, th β.level = some v ∧ ∀ p ∈ ps, v ≤ sqDist D (X p) (β.mean X ord))

theorem Covers.append {l l' : List Body} {a b c : Nat} (h : Covers l a b) (h' : Covers l' b c) :
    Covers (l ++ l') a c := by
  induction l generalizing a with
  | nil => cases h; exact h'
  | cons β l ih => exact ⟨h.1, h.2.1, ih h.2.2⟩

theorem dist2_eq (D : Nat) (q : Nat → Nat → K) (c : Nat → K) (b : Nat) :
    dist2 D q c b = sqDist D (fun d => q d b) c := by
  unfold dist2 sqDist
  induction D with
  | zero => simp
  | succ D ih =>
    rw [List.range_succ, List.foldl_append, ih, Finset.sum_range_succ]
    simp [pow_two]

theorem sqDist_congr {D : Nat} {x x' y y' : Nat → K} (h1 : ∀ d < D, x d = x' d)
    (h2 : ∀ d < D, y d = y' d) : sqDist D x y = sqDist D x' y' := by
  unfold sqDist
  apply Finset.sum_congr rfl
  intro d hd
  rw [Finset.mem_range] at hd
  rw [h1 d hd, h2 d hd]

theorem sqDist_nonneg (D : Nat) (x y : Nat → K) : 0 ≤ sqDist D x y :=
  Finset.sum_nonneg fun _ _ => sq_nonneg _

theorem accum_sq (D : Nat) {eps : K} (heps : 0 < eps) (q : Nat → Nat → K) (c : Nat → K) (w : K)
    (incl : Nat → Bool) (a : Acc K) (b : Nat) :
    (accum D eps q c w incl a).sq b =
      a.sq b + if incl b then w / (sqDist D (fun d => q d b) c + eps) else 0 := by
  have h : sqDist D (fun d => q d b) c + eps ≠ 0 := by
    have := sqDist_nonneg D (fun d => q d b) c
    positivity
  simp only [accum, dist2_eq]
  by_cases hb : incl b = true
  · rw [if_pos hb, if_pos hb]
    field_simp
  · rw [if_neg hb, if_neg hb]
    simp

theorem accum_f (D : Nat) {eps : K} (heps : 0 < eps) (q : Nat → Nat → K) (c : Nat → K) (w : K)
    (incl : Nat → Bool) (a : Acc K) (d b : Nat) :
    (accum D eps q c w incl a).f d b =
      a.f d b + if incl b then w * (q d b - c d) / (sqDist D (fun d => q d b) c + eps) ^ 2 else 0 := by
  have h : sqDist D (fun d => q d b) c + eps ≠ 0 := by
    have := sqDist_nonneg D (fun d => q d b) c
    positivity
  simp only [accum, dist2_eq]
  by_cases hb : incl b = true
  · rw [if_pos hb, if_pos hb]
    field_simp
  · rw [if_neg hb, if_neg hb]
    simp

/-- The mean of a node is the mean of a body. -/
theorem NodeOk.mean {D : Nat} {X : Nat → Nat → K} {idx : List Nat} {nd : Node K} {s e : Nat} {hw : K}
    (h : NodeOk D X idx nd s e hw) (level : Nat) :
    ∀ d < D, nd.com.getD d 0 = Body.mean X (fun i => idx.getD i 0) ⟨s, e, level⟩ d := by
  intro d hd
  obtain ⟨v, h1, h2⟩ := h.com d hd
  have hne : ((e - s : Nat) : K) ≠ 0 := by
    have := h.pos
    exact_mod_cast (by omega : e - s ≠ 0)
  have hv : nd.com.getD d 0 = v := by
    unfold List.getD
    rw [h1]
    rfl
  rw [hv]
  show v = (∑ i ∈ Finset.Ico s e, X (idx.getD i 0) d) / ((e - s : Nat) : K)
  rw [← h2, mul_div_cancel_right₀ _ hne]

/-- The mean of one point. -/
theorem mean_single (X : Nat → Nat → K) (ord : Nat → Nat) (k level d : Nat) :
    Body.mean X ord ⟨k, k + 1, level⟩ d = X (ord k) d := by
  unfold Body.mean
  simp

/-- What is on the stack: cells that follow each other up to the last point.  `w` bounds the number
of nodes in them. -/
inductive Stack (D thr : Nat) (full : Prop) (X : Nat → Nat → K) (t : Tree K) (n : Nat) (H : K) :
    List (Nat × Nat) → (cur w : Nat) → Prop
  | nil : Stack D thr full X t n H [] n 0
  | cons {node level left cur e w : Nat} {rest : List (Nat × Nat)}
      (hcell : Cell D thr full X t.nodes t.idx (fun k => k < t.num) left node cur e (H / 2 ^ level))
      (hlev : left + level = maxDepth) (hlen : rest.length ≤ (2 ^ D - 1) * level)
      (hrest : Stack D thr full X t n H rest e w) :
      Stack D thr full X t n H ((node, level) :: rest) cur ((left + 1) * (e - cur) + w)

variable {D thr n : Nat} {full : Prop} {X : Nat → Nat → K} {t : Tree K} {H eps : K}
  {th : Nat → Option K} {pidx qpos : Nat → Nat} {q : Nat → Nat → K}

theorem push_ok {rest : List (Nat × Nat)} {first level left kids e w : Nat} {b : Nat → Nat}
    (hk : kids ≤ 2 ^ D) (hlev : left + 1 + level = maxDepth) (hlen : rest.length ≤ (2 ^ D - 1) * level)
    (hbm : b kids = e) (hlt : ∀ j < kids, b j < b (j + 1))
    (hkid : ∀ j < kids, Cell D thr full X t.nodes t.idx (fun k => k < t.num) left (first + j) (b j)
      (b (j + 1)) (H / 2 ^ level / 2))
    (hrest : Stack D thr full X t n H rest e w) :
    ∀ m j, j + m = kids → Stack D thr full X t n H
      (((List.range' j m).map fun c => (first + c, level + 1)) ++ rest) (b j)
      ((left + 1) * (e - b j) + w) := by
  intro m
  induction m with
  | zero =>
    intro j hj
    obtain rfl : j = kids := by omega
    rw [hbm, Nat.sub_self, Nat.mul_zero, Nat.zero_add]
    exact hrest
  | succ m ih =>
    intro j hj
    have h1 := ih (j + 1) (by omega)
    rw [List.range'_succ, List.map_cons, List.cons_append]
    have h2 := hlt j (by omega)
    have h3 : b (j + 1) ≤ e := by
      rw [← hbm]
      exact steps_mono hlt (by omega) (Nat.le_refl _)
    have hw : (left + 1) * (e - b j) + w =
        (left + 1) * (b (j + 1) - b j) + ((left + 1) * (e - b (j + 1)) + w) := by
      rw [← Nat.add_assoc, ← Nat.mul_add]
      congr 2
      omega
    rw [hw]
    refine .cons ?_ (by omega) ?_ h1
    · have := hkid j (by omega)
      rwa [div_div, ← pow_succ] at this
    · rw [List.length_append, List.length_map, List.length_range', Nat.mul_add, Nat.mul_one]
      omega

/-- The sums of the traversal after the bodies `l`. -/
def Added (D : Nat) (eps : K) (X : Nat → Nat → K) (ord : Nat → Nat) (pidx : Nat → Nat) (l : List Body)
    (a a' : Acc K) : Prop :=
  ∀ b < 4, a'.sq b = a.sq b + (l.map (Body.share D eps X ord (pidx b))).sum ∧
    ∀ d < D, a'.f d b = a.f d b + (l.map (Body.force D eps X ord (pidx b) d)).sum

theorem Added.trans {ord : Nat → Nat} {l l' : List Body} {a a' a'' : Acc K}
    (h : Added D eps X ord pidx l a a') (h' : Added D eps X ord pidx l' a' a'') :
    Added D eps X ord pidx (l ++ l') a a'' := by
  intro b hb
  refine ⟨?_, ?_⟩
  · rw [(h' b hb).1, (h b hb).1, List.map_append, List.sum_append, add_assoc]
  · intro d hd
    rw [(h' b hb).2 d hd, (h b hb).2 d hd, List.map_append, List.sum_append, add_assoc]

/-- One call of `accum_force`. -/
theorem accum_ok (heps : 0 < eps) (hq : ∀ b < 4, ∀ d < D, q d b = X (pidx b) d) {c : Nat → K}
    {ord : Nat → Nat} {β : Body} (hc : ∀ d < D, c d = β.mean X ord d) (w : K)
    (hw : w = ((β.hi - β.lo : Nat) : K)) (incl : Nat → Bool)
    (hincl : ∀ b < 4, incl b = true ↔ ¬ β.isOwn ord (pidx b)) (a : Acc K) :
    Added D eps X ord pidx [β] a (accum D eps q c w incl a) := by
  intro b hb
  have hs : sqDist D (fun d => q d b) c = sqDist D (X (pidx b)) (β.mean X ord) :=
    sqDist_congr (hq b hb) hc
  refine ⟨?_, ?_⟩
  · rw [accum_sq D heps, hs, List.map_singleton, List.sum_singleton, hw]
    unfold Body.share
    by_cases ho : β.isOwn ord (pidx b)
    · rw [if_pos ho, if_neg (by rw [hincl b hb]; exact not_not.2 ho)]
    · rw [if_neg ho, if_pos ((hincl b hb).2 ho)]
  · intro d hd
    rw [accum_f D heps, hs, hq b hb d hd, hc d hd, List.map_singleton, List.sum_singleton, hw]
    unfold Body.force
    by_cases ho : β.isOwn ord (pidx b)
    · rw [if_pos ho, if_neg (by rw [hincl b hb]; exact not_not.2 ho)]
    · rw [if_neg ho, if_pos ((hincl b hb).2 ho)]

theorem leafPoints_ok (heps : 0 < eps) (hq : ∀ b < 4, ∀ d < D, q d b = X (pidx b) d)
    (hidx : t.idx.length = n)
    (hsorted : ∀ k < n, ∀ d < D, t.sorted[k * D + d]? = some (X (t.idx.getD k 0) d)) (nd : Node K)
    (level : Nat) (hn : nd.start + nd.cnt ≤ n) (a : Acc K) :
    ∃ a', leafPoints D eps t pidx q nd a = .ok a' ∧
      Added D eps X (fun i => t.idx.getD i 0) pidx
        ((List.range nd.cnt).map fun c => ⟨nd.start + c, nd.start + c + 1, level⟩) a a' := by
  unfold leafPoints
  obtain ⟨m, hm⟩ : ∃ m, m = nd.cnt := ⟨_, rfl⟩
  rw [← hm] at hn ⊢
  clear hm
  induction m with
  | zero => exact ⟨a, rfl, fun b _ => ⟨by simp, fun d _ => by simp⟩⟩
  | succ m ih =>
    obtain ⟨a', h1, h2⟩ := ih (by omega)
    have hx : ∀ k ≤ D, forUp k (fun d l => do
        let v ← rd t.sorted ((nd.start + m) * D + d)
        .ok (l ++ [v])) [] = .ok ((List.range k).map fun d => X (t.idx.getD (nd.start + m) 0) d) := by
      intro k
      induction k with
      | zero => intro _; rfl
      | succ k ih =>
        intro hk
        rw [forUp_succ, ih (by omega), ok_bind, rd_ok (hsorted _ (by omega) k (by omega)), ok_bind,
          List.range_succ, List.map_append]
        rfl
    refine ⟨accum D eps q (fun d => ((List.range D).map fun d => X (t.idx.getD (nd.start + m) 0) d).getD d 0)
      1 (fun b => t.idx.getD (nd.start + m) 0 ≠ pidx b) a', ?_, ?_⟩
    · rw [forUp_succ, h1, ok_bind, rd_ok (getElem?_getD (by omega)), ok_bind, hx D (Nat.le_refl D), ok_bind]
    · rw [List.range_succ, List.map_append]
      refine h2.trans (accum_ok heps hq ?_ 1 (by simp) _ ?_ a')
      · intro d hd
        rw [mean_single]
        simp [hd]
      · intro b _
        simp [Body.isOwn]

theorem covers_points (s level : Nat) : ∀ m, Covers ((List.range m).map fun c =>
    (⟨s + c, s + c + 1, level⟩ : Body)) s (s + m) := by
  intro m
  induction m with
  | zero => rfl
  | succ m ih =>
    rw [List.range_succ, List.map_append]
    exact ih.append ⟨rfl, by simp, rfl⟩

theorem walk_ok (heps : 0 < eps) (hq : ∀ b < 4, ∀ d < D, q d b = X (pidx b) d)
    (hidx : t.idx.length = n) (hinj : ∀ i < n, ∀ j < n, t.idx.getD i 0 = t.idx.getD j 0 → i = j)
    (hsorted : ∀ k < n, ∀ d < D, t.sorted[k * D + d]? = some (X (t.idx.getD k 0) d))
    (hth : ∀ l < maxDepth, t.thr[l]? = some (th l))
    (hqpos : ∀ b < 4, qpos b < n ∧ t.idx.getD (qpos b) 0 = pidx b) :
    ∀ (fuel : Nat) (stack : List (Nat × Nat)) (cur w : Nat) (a : Acc K),
      Stack D thr full X t n H stack cur w → w < fuel →
      ∃ l a', walk D eps t pidx qpos q fuel stack a = .ok a' ∧ Covers l cur n ∧
        (∀ β ∈ l, β.Allowed D X (fun i => t.idx.getD i 0) H th ((List.range 4).map pidx)) ∧
        Added D eps X (fun i => t.idx.getD i 0) pidx l a a' := by
  intro fuel
  induction fuel with
  | zero => intro stack cur w a _ hw; omega
  | succ fuel ih =>
    intro stack cur w a hst hw
    have hle : ∀ {st : List (Nat × Nat)} {c w : Nat}, Stack D thr full X t n H st c w → c ≤ n := by
      intro st c w h
      induction h with
      | nil => exact Nat.le_refl _
      | cons hcell _ _ _ ih =>
        obtain ⟨nd, _, _, h3⟩ := hcell.ok
        have := h3.pos
        omega
    cases hst with
    | nil =>
      refine ⟨[], a, ?_, rfl, by simp, fun b _ => ⟨by simp, fun d _ => by simp⟩⟩
      unfold walk
      rfl
    | @cons node level left _ e w rest hcell hlev hlen hrest =>
      obtain ⟨nd, hP, hnd, hok⟩ := hcell.ok
      have he := hle hrest
      have hpos := hok.pos
      have hcnt := hok.cnt
      have hstart := hok.start
      have hw' : w < fuel := by
        have : 1 ≤ (left + 1) * (e - cur) := Nat.mul_pos (by omega) (by omega)
        omega
      have hidx' : (if level < maxDepth then level else maxDepth - 1) < maxDepth := by
        by_cases h : level < maxDepth
        · rw [if_pos h]; exact h
        · rw [if_neg h]; decide
      unfold walk
      rw [if_neg (show ¬ node ≥ t.num from Nat.not_le.2 hP), rd_ok hnd, ok_bind,
        if_neg (show ¬ nd.cnt = 0 by omega), rd_ok (hth _ hidx'), ok_bind]
      have hmean := hok.mean level
      by_cases h1 : nd.cnt = 1
      · rw [if_pos h1, rd_ok (getElem?_getD (show nd.start < t.idx.length by omega)), ok_bind]
        obtain ⟨l, a', r1, r2, r3, r4⟩ := ih rest e w (accum D eps q (fun d => nd.com.getD d 0) 1
          (fun b => t.idx.getD nd.start 0 ≠ pidx b) a) hrest hw'
        refine ⟨⟨cur, e, level⟩ :: l, a', r1, ⟨rfl, hpos, r2⟩, ?_, ?_⟩
        · intro β hβ
          rw [List.mem_cons] at hβ
          rcases hβ with rfl | hβ
          · left
            show e = cur + 1
            omega
          · exact r3 β hβ
        · refine Added.trans (l := [⟨cur, e, level⟩]) (accum_ok heps hq hmean 1 ?_ _ ?_ a) r4
          · show (1 : K) = ((e - cur : Nat) : K)
            rw [show e - cur = 1 by omega, Nat.cast_one]
          · intro b _
            rw [hstart]
            simp only [Body.isOwn, decide_eq_true_eq]
            rw [show (e = cur + 1) = True by simp; omega, true_and]
      · rw [if_neg h1]
        cases hcell with
        | leaf nd' _ hnd' _ hk _ =>
          obtain rfl : nd = nd' := Option.some.inj (hnd.symm.trans hnd')
          rw [if_pos hk]
          obtain ⟨a1, l1, l2⟩ := leafPoints_ok heps hq hidx hsorted nd level (by omega) a
          rw [l1, ok_bind]
          obtain ⟨l, a', r1, r2, r3, r4⟩ := ih rest e w a1 hrest hw'
          refine ⟨_ ++ l, a', r1, ?_, ?_, l2.trans r4⟩
          · have := covers_points nd.start level nd.cnt
            rw [hstart, show cur + nd.cnt = e by omega] at this
            rw [hstart]
            exact this.append r2
          · intro β hβ
            rw [List.mem_append] at hβ
            rcases hβ with hβ | hβ
            · rw [List.mem_map] at hβ
              obtain ⟨c, _, rfl⟩ := hβ
              exact Or.inl rfl
            · exact r3 β hβ
        | @split left _ _ _ _ nd' _ hnd' _ hk1 hk2 _ b hb0 hbm hlt hkid =>
          obtain rfl : nd = nd' := Option.some.inj (hnd.symm.trans hnd')
          rw [if_neg (show ¬ nd.kids = 0 by omega)]
          have hroom : ¬ rest.length + nd.kids > stackSize D := by
            unfold stackSize
            have hl : level ≤ maxDepth := by omega
            have h2 : (2 ^ D - 1) * level ≤ 2 ^ D * maxDepth := Nat.mul_le_mul (by omega) hl
            omega
          by_cases hfar : (allFar D q (fun d => nd.com.getD d 0)
              (th (if level < maxDepth then level else maxDepth - 1)) = true ∨
              rest.length + nd.kids > stackSize D) ∧ holdsQuery qpos nd = false
          · rw [if_pos hfar]
            obtain ⟨l, a', r1, r2, r3, r4⟩ := ih rest e w (accum D eps q (fun d => nd.com.getD d 0)
              (nd.cnt : K) (fun _ => true) a) hrest hw'
            have hnoq : ∀ i, cur ≤ i → i < e → t.idx.getD i 0 ∉ (List.range 4).map pidx := by
              intro i hi1 hi2 hmem
              rw [List.mem_map] at hmem
              obtain ⟨b, hb, hbe⟩ := hmem
              rw [List.mem_range] at hb
              obtain ⟨g1, g2⟩ := hqpos b hb
              have := hinj i (by omega) (qpos b) g1 (by rw [g2, hbe])
              have hf := hfar.2
              unfold holdsQuery at hf
              rw [List.any_eq_false] at hf
              have hf' := hf b (List.mem_range.2 hb)
              rw [decide_eq_true_eq] at hf'
              omega
            refine ⟨⟨cur, e, level⟩ :: l, a', r1, ⟨rfl, hpos, r2⟩, ?_, ?_⟩
            · intro β hβ
              rw [List.mem_cons] at hβ
              rcases hβ with rfl | hβ
              · right
                refine ⟨hnoq, hok.cube, ?_⟩
                have hf : allFar D q (fun d => nd.com.getD d 0)
                    (th (if level < maxDepth then level else maxDepth - 1)) = true :=
                  hfar.1.resolve_right hroom
                rw [if_pos (by omega)] at hf
                unfold allFar at hf
                rw [List.all_eq_true] at hf
                cases hv : th level with
                | none =>
                  rw [hv] at hf
                  exact absurd (hf 0 (by simp)) (by simp)
                | some v =>
                  rw [hv] at hf
                  refine ⟨v, rfl, ?_⟩
                  intro p hp
                  rw [List.mem_map] at hp
                  obtain ⟨b, hb, rfl⟩ := hp
                  have := hf b hb
                  simp only [Bool.not_eq_true', decide_eq_false_iff_not, not_lt] at this
                  rw [dist2_eq] at this
                  rwa [sqDist_congr (hq b (List.mem_range.1 hb)) hmean] at this
              · exact r3 β hβ
            · refine Added.trans (l := [⟨cur, e, level⟩]) (accum_ok heps hq hmean _ ?_ _ ?_ a) r4
              · rw [hcnt]
              · intro b hb
                simp only [true_iff]
                intro ho
                exact hnoq cur (Nat.le_refl _) hpos (by
                  rw [show t.idx.getD cur 0 = pidx b from ho.2]
                  exact List.mem_map.2 ⟨b, List.mem_range.2 hb, rfl⟩)
          · rw [if_neg hfar, if_neg hroom]
            have hpush := push_ok (n := n) (H := H) hk2 hlev hlen hbm hlt hkid hrest nd.kids 0 (by omega)
            rw [← List.range_eq_range', hb0] at hpush
            refine ih _ cur _ a hpush ?_
            have h5 : (left + 1 + 1) * (e - cur) = (left + 1) * (e - cur) + (e - cur) := by ring
            omega

end Verif.BarnesHut
