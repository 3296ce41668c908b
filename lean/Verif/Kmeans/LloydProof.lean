import Verif.Kmeans.Lloyd
import Verif.Kmeans.ElkanRun
import Mathlib.Algebra.Order.WithTop.Untop0
import Mathlib.Algebra.BigOperators.Group.Finset.Sigma
import Mathlib.Tactic.Abel

/-
Lemmas on Lloyd's method.
-/
namespace Verif.Kmeans

open Verif.HalfBlas (put forUp)

variable {K : Type} [Field K] [LinearOrder K] [IsStrictOrderedRing K]

/-! ### The kernels -/

section
variable {K : Type} [LinearOrder K]

/-- Infinity as the top element. -/
def top (x : Option K) : WithTop K := x

theorem ltInf_iff (x y : Option K) : ltInf x y = true ↔ top x < top y := by
  cases x with
  | none => simp only [ltInf, Bool.false_eq_true, false_iff]; exact not_top_lt
  | some a =>
    cases y with
    | none => simp only [ltInf, true_iff]; exact WithTop.coe_lt_top a
    | some b => simp only [ltInf, decide_eq_true_eq]; exact WithTop.coe_lt_coe.symm

/-- `l` has the smallest distance, and comes first in the order of the kernel: by lane, then by index. -/
structure Least (w k : Nat) (dist : Nat → Option K) (l : Nat) : Prop where
  lt : l < k
  least : ∀ j < k, top (dist l) ≤ top (dist j)
  first : ∀ j < k, top (dist j) = top (dist l) → l % w < j % w ∨ (l % w = j % w ∧ l ≤ j)

theorem least_unique {w k : Nat} {dist dist' : Nat → Option K} (h : ∀ j < k, dist j = dist' j) {l l' : Nat} (h1 : Least w k dist l) (h2 : Least w k dist' l') : l = l' := by
  have e : top (dist l') = top (dist l) := le_antisymm (by rw [h l' h2.lt, h l h1.lt]; exact h2.least l h1.lt) (h1.least l' h2.lt)
  have e' : top (dist' l) = top (dist' l') := by rw [← h l h1.lt, ← h l' h2.lt, e]
  have a := h1.first l' h2.lt e
  have b := h2.first l h1.lt e'
  omega

theorem scalar_least (k : Nat) (hk : 0 < k) (dist : Nat → Option K) : Least 1 k dist (scalarLabel k dist) := by
  unfold scalarLabel
  have := forUp_inv (body := fun j0 (r : Nat × Option K) => if ltInf (dist (j0 + 1)) r.2 then (j0 + 1, dist (j0 + 1)) else r) (s := (0, dist 0))
    (fun m r => r.2 = dist r.1 ∧ r.1 ≤ m ∧ (∀ j ≤ m, top (dist r.1) ≤ top (dist j)) ∧ ∀ j ≤ m, top (dist j) = top (dist r.1) → r.1 ≤ j) (k - 1)
    ⟨rfl, le_refl _, fun j hj => by rw [Nat.le_zero.mp hj], fun j _ _ => Nat.zero_le j⟩ ?_
  · obtain ⟨_, h2, h3, h4⟩ := this
    exact ⟨by omega, fun j hj => h3 j (by omega), fun j hj e => Or.inr ⟨by rw [Nat.mod_one, Nat.mod_one], h4 j (by omega) e⟩⟩
  · rintro m r _ ⟨h1, h2, h3, h4⟩
    rw [h1]
    by_cases hl : top (dist (m + 1)) < top (dist r.1)
    · rw [if_pos ((ltInf_iff _ _).mpr hl)]
      refine ⟨rfl, le_refl _, fun j hj => ?_, fun j hj e => ?_⟩
      · rcases Nat.lt_or_ge j (m + 1) with h | h
        · exact le_trans (le_of_lt hl) (h3 j (by omega))
        · rw [show j = m + 1 by omega]
      · rcases Nat.lt_or_ge j (m + 1) with h | h
        · exact absurd (h3 j (by omega)) (not_le.mpr (by rw [e]; exact hl))
        · exact h
    · rw [if_neg (fun h => hl ((ltInf_iff _ _).mp h))]
      refine ⟨h1, by omega, fun j hj => ?_, fun j hj e => ?_⟩
      · rcases Nat.lt_or_ge j (m + 1) with h | h
        · exact h3 j (by omega)
        · rw [show j = m + 1 by omega]; exact not_lt.mp hl
      · rcases Nat.lt_or_ge j (m + 1) with h | h
        · exact h4 j (by omega) e
        · omega

/-- What a lane holds after block `m`. -/
structure Lane (w m i : Nat) (dist : Nat → Option K) (lab : Nat) (v : Option K) : Prop where
  val : top v = top (dist lab)
  pos : ∃ q ≤ m, lab = q * w + i
  least : ∀ q ≤ m, top v ≤ top (dist (q * w + i))
  first : ∀ q ≤ m, top (dist (q * w + i)) = top v → lab ≤ q * w + i

theorem lanes_spec (w k : Nat) (dist : Nat → Option K) :
    ∀ i, Lane w ((k + w - 1) / w - 1) i dist ((lanesLoop w k dist).1 i) ((lanesLoop w k dist).2 i) := by
  unfold lanesLoop
  refine forUp_inv (fun m (r : (Nat → Nat) × (Nat → Option K)) => ∀ i, Lane w m i dist (r.1 i) (r.2 i)) _ ?_ ?_
  · intro i
    refine ⟨rfl, ⟨0, le_refl _, by simp⟩, fun q hq => ?_, fun q _ _ => by simp⟩
    rw [Nat.le_zero.mp hq]
    simp
  · intro m r _ h i
    obtain ⟨h1, ⟨q0, h2, h2'⟩, h3, h4⟩ := h i
    simp only
    generalize r.1 i = lab at h1 h2' h4 ⊢
    generalize r.2 i = v at h1 h3 h4 ⊢
    by_cases hl : top (dist ((m + 1) * w + i)) < top v
    · rw [if_pos ((ltInf_iff _ _).mpr hl), if_neg (fun h => absurd ((ltInf_iff _ _).mp h) (not_lt.mpr (le_of_lt hl)))]
      refine ⟨rfl, ⟨m + 1, le_refl _, rfl⟩, fun q hq => ?_, fun q hq e => ?_⟩
      · rcases Nat.lt_or_ge q (m + 1) with h | h
        · exact le_trans (le_of_lt hl) (h3 q (by omega))
        · rw [show q = m + 1 by omega]
      · rcases Nat.lt_or_ge q (m + 1) with h | h
        · exact absurd (h3 q (by omega)) (not_le.mpr (by rw [e]; exact hl))
        · rw [show q = m + 1 by omega]
    · rw [if_neg (fun h => hl ((ltInf_iff _ _).mp h))]
      have hle := not_lt.mp hl
      have hv : top (if ltInf v (dist ((m + 1) * w + i)) then v else dist ((m + 1) * w + i)) = top v := by
        by_cases hx : top v < top (dist ((m + 1) * w + i))
        · rw [if_pos ((ltInf_iff _ _).mpr hx)]
        · rw [if_neg (fun h => hx ((ltInf_iff _ _).mp h))]
          exact le_antisymm (not_lt.mp hx) hle
      refine ⟨hv.trans h1, ⟨q0, by omega, h2'⟩, fun q hq => ?_, fun q hq e => ?_⟩
      · rw [hv]
        rcases Nat.lt_or_ge q (m + 1) with h | h
        · exact h3 q (by omega)
        · rw [show q = m + 1 by omega]; exact hle
      · rw [hv] at e
        rcases Nat.lt_or_ge q (m + 1) with h | h
        · exact h4 q (by omega) e
        · rw [h2']
          have := Nat.mul_le_mul_right w (show q0 ≤ q by omega)
          omega

/-- The reduction over the lanes: the first lane with the smallest value. -/
theorem reduce_spec (w : Nat) (hw : 0 < w) (lab : Nat → Nat) (v : Nat → Option K) :
    ∃ i < w, (let r := forUp (w - 2) (fun j0 (r : Nat × Option K) => if ltInf (v (j0 + 1)) r.2 then (lab (j0 + 1), v (j0 + 1)) else r) (lab 0, v 0)
        if ltInf (v (w - 1)) r.2 then lab (w - 1) else r.1) = lab i ∧
      (∀ i' < w, top (v i) ≤ top (v i')) ∧ ∀ i' < w, top (v i') = top (v i) → i ≤ i' := by
  have h := forUp_inv (body := fun j0 (r : Nat × Option K) => if ltInf (v (j0 + 1)) r.2 then (lab (j0 + 1), v (j0 + 1)) else r) (s := (lab 0, v 0))
    (fun m r => ∃ i ≤ m, r = (lab i, v i) ∧ (∀ i' ≤ m, top (v i) ≤ top (v i')) ∧ ∀ i' ≤ m, top (v i') = top (v i) → i ≤ i') (w - 2)
    ⟨0, le_refl _, rfl, fun i' h => by rw [Nat.le_zero.mp h], fun i' _ _ => Nat.zero_le _⟩ ?_
  · obtain ⟨i, hi, hr, h3, h4⟩ := h
    generalize forUp (w - 2) _ _ = r at hr
    subst hr
    simp only
    by_cases hl : top (v (w - 1)) < top (v i)
    · rw [if_pos ((ltInf_iff _ _).mpr hl)]
      refine ⟨w - 1, by omega, rfl, fun i' hi' => ?_, fun i' hi' e => ?_⟩
      · rcases Nat.lt_or_ge i' (w - 1) with h | h
        · exact le_trans (le_of_lt hl) (h3 i' (by omega))
        · rw [show i' = w - 1 by omega]
      · rcases Nat.lt_or_ge i' (w - 1) with h | h
        · exact absurd (h3 i' (by omega)) (not_le.mpr (by rw [e]; exact hl))
        · exact h
    · rw [if_neg (fun h => hl ((ltInf_iff _ _).mp h))]
      refine ⟨i, by omega, rfl, fun i' hi' => ?_, fun i' hi' e => ?_⟩
      · rcases Nat.lt_or_ge i' (w - 1) with h | h
        · exact h3 i' (by omega)
        · rw [show i' = w - 1 by omega]; exact not_lt.mp hl
      · rcases Nat.lt_or_ge i' (w - 1) with h | h
        · exact h4 i' (by omega) e
        · omega
  · rintro m r hm ⟨i, hi, rfl, h3, h4⟩
    simp only
    by_cases hl : top (v (m + 1)) < top (v i)
    · rw [if_pos ((ltInf_iff _ _).mpr hl)]
      refine ⟨m + 1, le_refl _, rfl, fun i' hi' => ?_, fun i' hi' e => ?_⟩
      · rcases Nat.lt_or_ge i' (m + 1) with h | h
        · exact le_trans (le_of_lt hl) (h3 i' (by omega))
        · rw [show i' = m + 1 by omega]
      · rcases Nat.lt_or_ge i' (m + 1) with h | h
        · exact absurd (h3 i' (by omega)) (not_le.mpr (by rw [e]; exact hl))
        · exact h
    · rw [if_neg (fun h => hl ((ltInf_iff _ _).mp h))]
      refine ⟨i, by omega, rfl, fun i' hi' => ?_, fun i' hi' e => ?_⟩
      · rcases Nat.lt_or_ge i' (m + 1) with h | h
        · exact h3 i' (by omega)
        · rw [show i' = m + 1 by omega]; exact not_lt.mp hl
      · rcases Nat.lt_or_ge i' (m + 1) with h | h
        · exact h4 i' (by omega) e
        · omega

theorem ceil_le (w k : Nat) (hw : 0 < w) : k ≤ (k + w - 1) / w * w ∧ (k + w - 1) / w * w < k + w := by
  have h1 := Nat.div_add_mod (k + w - 1) w
  have h2 := Nat.mod_lt (k + w - 1) hw
  rw [Nat.mul_comm] at h1
  omega

theorem lanes_least (w k : Nat) (hw : 0 < w) (hk : 0 < k) (dist : Nat → Option K) (hf : ∀ j < k, (dist j).isSome)
    (hp : ∀ j, k ≤ j → j < k + w → dist j = none) : Least w k dist (lanesLabel w k dist) := by
  have hl := lanes_spec w k dist
  obtain ⟨i, hi, hr, h3, h4⟩ := reduce_spec w hw (lanesLoop w k dist).1 (lanesLoop w k dist).2
  have hlab : lanesLabel w k dist = (lanesLoop w k dist).1 i := hr
  rw [hlab]
  generalize (lanesLoop w k dist).1 = lab at hl hr ⊢
  generalize (lanesLoop w k dist).2 = v at hl hr h3 h4
  clear hlab hr
  obtain ⟨c1, c2⟩ := ceil_le w k hw
  have hq : ∀ j < k, j / w ≤ (k + w - 1) / w - 1 ∧ j / w * w + j % w = j ∧ j % w < w := by
    intro j hj
    have e := Nat.div_add_mod j w
    rw [Nat.mul_comm] at e
    have hd : j / w < (k + w - 1) / w := by
      rw [Nat.div_lt_iff_lt_mul hw]
      omega
    exact ⟨by omega, e, Nat.mod_lt j hw⟩
  have hall : ∀ j < k, top (dist (lab i)) ≤ top (dist j) := by
    intro j hj
    obtain ⟨q1, q2, q3⟩ := hq j hj
    rw [← (hl i).val]
    refine le_trans (h3 (j % w) q3) ?_
    have := (hl (j % w)).least (j / w) q1
    rwa [q2] at this
  obtain ⟨q0, p1, p2⟩ := (hl i).pos
  have hlt : lab i < k + w := by
    have : q0 < (k + w - 1) / w := by
      have : 0 < (k + w - 1) / w := Nat.div_pos (by omega) hw
      omega
    have := Nat.mul_le_mul_right w (show q0 + 1 ≤ (k + w - 1) / w from this)
    rw [Nat.add_mul] at this
    omega
  have hk' : lab i < k := by
    by_contra hge
    have h0 := hall 0 hk
    rw [hp (lab i) (by omega) hlt] at h0
    have h1 := hf 0 hk
    cases hd : dist 0 with
    | none => rw [hd] at h1; cases h1
    | some x => rw [hd] at h0; exact absurd h0 (not_le.mpr (WithTop.coe_lt_top x))
  refine ⟨hk', hall, fun j hj e => ?_⟩
  obtain ⟨q1, q2, q3⟩ := hq j hj
  have hm : lab i % w = i := by rw [p2, Nat.add_comm, Nat.add_mul_mod_self_right, Nat.mod_eq_of_lt hi]
  have hv : top (v (j % w)) = top (v i) := by
    refine le_antisymm ?_ (h3 _ q3)
    rw [(hl i).val, ← e]
    have := (hl (j % w)).least (j / w) q1
    rwa [q2] at this
  have h5 := h4 (j % w) q3 hv
  rw [hm]
  rcases Nat.lt_or_ge i (j % w) with h | h
  · exact Or.inl h
  · have hij : i = j % w := by omega
    refine Or.inr ⟨hij, ?_⟩
    have := (hl i).first (j / w) q1 (by rw [hij, q2, e, (hl i).val.symm, hij])
    rw [hij, q2] at this
    rw [hij]
    exact this
end

/-- What is asked of the configuration: `pad` covers the lanes. -/
structure LCfgOk (c : LCfg K) : Prop where
  bs : 0 < c.bs
  k : 0 < c.k
  lanes : ∀ w, c.lanes = some w → 0 < w ∧ w ≤ c.pad

/-- The number of lanes in the order of ties. -/
def width (c : LCfg K) : Nat := c.lanes.getD 1

omit [Field K] [IsStrictOrderedRing K] in
theorem kernel_least (c : LCfg K) (hc : LCfgOk c) (dist : Nat → Option K) (hf : ∀ j < c.k, (dist j).isSome)
    (hp : ∀ j, c.k ≤ j → j < c.k + c.pad → dist j = none) : Least (width c) c.k dist (kernelLabel c dist) := by
  unfold width kernelLabel
  cases h : c.lanes with
  | none => exact scalar_least c.k hc.k dist
  | some w =>
    obtain ⟨h1, h2⟩ := hc.lanes w h
    exact lanes_least w c.k h1 hc.k dist hf fun j a b => hp j a (by omega)

/-! ### One block -/

/-- Feature `f` of sample `i`. -/
def sample (c : LCfg K) (i f : Nat) : K := if c.colMajor then c.A (i + f * c.lda) else c.A (i * c.lda + f)

omit [Field K] [LinearOrder K] [IsStrictOrderedRing K] in
theorem elem_sample (c : LCfg K) (off i f : Nat) : elem c off i f = sample c (off + i) f := by
  unfold elem sample
  rw [Nat.add_mul]

/-- What the kernels compare: the squared distance to centre `j` without the norm of the sample, or minus the product. -/
def score (c : LCfg K) (C : Nat → K) (i j : Nat) : K :=
  (if c.spherical then -1 else -2) * (∑ f ∈ Finset.range c.nf, C (j + f * c.k) * sample c i f) +
    if c.spherical then 0 else ∑ f ∈ Finset.range c.nf, C (j + f * c.k) * C (j + f * c.k)

/-- The label of sample `i`. -/
def labOf (c : LCfg K) (C : Nat → K) (i : Nat) : Nat := kernelLabel c fun j => if j < c.k then some (score c C i j) else none

omit [IsStrictOrderedRing K] in
theorem labOf_least (c : LCfg K) (hc : LCfgOk c) (C : Nat → K) (i : Nat) :
    Least (width c) c.k (fun j => if j < c.k then some (score c C i j) else none) (labOf c C i) :=
  kernel_least c hc _ (fun j hj => by simp [hj]) fun j hj _ => by simp [show ¬ j < c.k by omega]

omit [IsStrictOrderedRing K] in
theorem labOf_lt (c : LCfg K) (hc : LCfgOk c) (C : Nat → K) (i : Nat) : labOf c C i < c.k := (labOf_least c hc C i).lt

omit [LinearOrder K] [IsStrictOrderedRing K] in
theorem sumRows_spec (nf k : Nat) (g : Nat → Nat → K) (w : Nat → Option K) :
    let r := forUp nf (fun f m => forUp k (fun i m => put m i ((m i).map fun v => v + g i f)) m) w
    (∀ i < k, r i = (w i).map fun v => v + ∑ f ∈ Finset.range nf, g i f) ∧ ∀ i, k ≤ i → r i = w i := by
  refine forUp_inv (fun m (r : Nat → Option K) => (∀ i < k, r i = (w i).map fun v => v + ∑ f ∈ Finset.range m, g i f) ∧ ∀ i, k ≤ i → r i = w i) nf
    ⟨fun i _ => by simp, fun _ _ => rfl⟩ ?_
  rintro m r _ ⟨h1, h2⟩
  have hp := forUp_put (fun i => i) (fun i (v : Option K) => v.map fun v => v + g i m) r k (fun _ _ _ _ h => h)
  refine ⟨fun i hi => ?_, fun i hi => ?_⟩
  · rw [hp.1 i hi, h1 i hi, Finset.sum_range_succ]
    cases w i with
    | none => rfl
    | some v => simp [add_assoc]
  · rw [hp.2 i fun j hj e => by omega]
    exact h2 i hi

omit [LinearOrder K] [IsStrictOrderedRing K] in
theorem lloydNorms_spec (c : LCfg K) (C : Nat → K) (w : Nat → Option K) :
    (∀ i < c.k, lloydNorms c C w i = some (if c.spherical then 0 else ∑ f ∈ Finset.range c.nf, C (i + f * c.k) * C (i + f * c.k))) ∧
    ∀ i, c.k ≤ i → lloydNorms c C w i = w i := by
  unfold lloydNorms
  have hz := forUp_put (fun i => i) (fun _ _ => some (0 : K)) w c.k (fun _ _ _ _ h => h)
  generalize forUp c.k (fun i m => put m i (some (0 : K))) w = z at hz ⊢
  have hz2 : ∀ i, c.k ≤ i → z i = w i := fun i hi => hz.2 i fun j hj e => by omega
  cases hs : c.spherical
  · simp only [Bool.false_eq_true, if_false]
    have := sumRows_spec c.nf c.k (fun i f => C (i + f * c.k) * C (i + f * c.k)) z
    refine ⟨fun i hi => ?_, fun i hi => (this.2 i hi).trans (hz2 i hi)⟩
    rw [this.1 i hi, hz.1 i hi]
    simp
  · simp only [if_true]
    exact ⟨fun i hi => hz.1 i hi, hz2⟩

omit [LinearOrder K] [IsStrictOrderedRing K] in
theorem gemm_spec (c : LCfg K) (C : Nat → K) (off size : Nat) (m : Nat → K) : ∀ i < size, ∀ j < c.k,
    gemmBlock c C off size m (i * (c.k + c.pad) + j) =
      (if c.spherical then -1 else -2) * ∑ f ∈ Finset.range c.nf, C (j + f * c.k) * sample c (off + i) f := by
  unfold gemmBlock
  refine forUp_inv (fun b (m : Nat → K) => ∀ i < b, ∀ j < c.k, m (i * (c.k + c.pad) + j) =
    (if c.spherical then -1 else -2) * ∑ f ∈ Finset.range c.nf, C (j + f * c.k) * sample c (off + i) f) size (fun i h => by omega) ?_
  intro b m' _ h i hi j hj
  have hp := forUp_put (fun j => b * (c.k + c.pad) + j)
    (fun j _ => (if c.spherical then -1 else -2) * sumTo c.nf fun f => C (j + f * c.k) * elem c off b f) m' c.k (fun _ _ _ _ h => by omega)
  by_cases he : i = b
  · subst he
    rw [hp.1 j hj, sumTo_eq]
    simp only [elem_sample]
  · rw [hp.2 _ fun j' hj' => row_ne (Nat.le_add_right _ _) hj hj' he]
    exact h i (by omega) j hj

/-- The norms as the kernels need them. -/
def NormsOk (c : LCfg K) (C : Nat → K) (norms : Nat → Option K) : Prop :=
  (∀ i < c.k, norms i = some (if c.spherical then 0 else ∑ f ∈ Finset.range c.nf, C (i + f * c.k) * C (i + f * c.k))) ∧
  ∀ i, c.k ≤ i → i < c.k + c.pad → norms i = none

omit [IsStrictOrderedRing K] in
theorem kernel_label (c : LCfg K) (hc : LCfgOk c) (C : Nat → K) (norms : Nat → Option K) (hn : NormsOk c C norms) (off size : Nat) (m : Nat → K) (i : Nat) (hi : i < size) :
    (kernelLabel c fun j => entry norms (gemmBlock c C off size m) (i * (c.k + c.pad)) j) = labOf c C (off + i) := by
  have hd : ∀ j < c.k, entry norms (gemmBlock c C off size m) (i * (c.k + c.pad)) j = some (score c C (off + i) j) := by
    intro j hj
    unfold entry score
    rw [hn.1 j hj, gemm_spec c C off size m i hi j hj]
    rfl
  refine least_unique (w := width c) (k := c.k) (fun j hj => ?_) (kernel_least c hc _ (fun j hj => by rw [hd j hj]; rfl) fun j h1 h2 => ?_) (labOf_least c hc C (off + i))
  · rw [hd j hj, if_pos hj]
  · unfold entry
    rw [hn.2 j h1 h2]
    rfl

omit [IsStrictOrderedRing K] in
theorem kernelBlock_spec (c : LCfg K) (hc : LCfgOk c) (C : Nat → K) (norms : Nat → Option K) (hn : NormsOk c C norms) (up : Bool) (off size : Nat) (m : Nat → K)
    (r : (Nat → Nat) × (Nat → Nat)) :
    let r' := kernelBlock c up off size norms (gemmBlock c C off size m) r
    (∀ i < size, r'.1 (off + i) = labOf c C (off + i)) ∧ (∀ p, p < off ∨ off + size ≤ p → r'.1 p = r.1 p) ∧
    ∀ a, r'.2 a = r.2 a + if up then ∑ i ∈ Finset.range size, if labOf c C (off + i) = a then 1 else 0 else 0 := by
  unfold kernelBlock
  refine forUp_inv (fun b (r' : (Nat → Nat) × (Nat → Nat)) => (∀ i < b, r'.1 (off + i) = labOf c C (off + i)) ∧ (∀ p, p < off ∨ off + b ≤ p → r'.1 p = r.1 p) ∧
    ∀ a, r'.2 a = r.2 a + if up then ∑ i ∈ Finset.range b, if labOf c C (off + i) = a then 1 else 0 else 0) size
    ⟨fun i h => by omega, fun _ _ => rfl, fun a => by simp⟩ ?_
  rintro b r' hb ⟨h1, h2, h3⟩
  simp only
  rw [kernel_label c hc C norms hn off size m b hb]
  refine ⟨fun i hi => ?_, fun p hp => ?_, fun a => ?_⟩
  · by_cases he : i = b
    · rw [he, put_same]
    · rw [put_ne _ _ (by omega)]
      exact h1 i (by omega)
  · rw [put_ne _ _ (by omega)]
    exact h2 p (by omega)
  · cases up
    · simpa using h3 a
    · simp only [if_true] at h3 ⊢
      rw [Finset.sum_range_succ]
      by_cases he : labOf c C (off + b) = a
      · subst he
        rw [put_same, h3, if_pos rfl, Nat.add_assoc]
      · rw [put_ne _ _ (Ne.symm he), h3, if_neg he, Nat.add_zero]

/-! ### The sums -/

/-- What sample `i` adds to feature `f` of its centre. -/
def term (c : LCfg K) (i f : Nat) : K := sample c i f * if c.spherical && c.normalize then c.inv i else 1

section
variable {M : Type} [AddCommMonoid M]

theorem add_loop (g : Nat → Nat) (h : Nat → M) (size : Nat) (m : Nat → M) (p : Nat) :
    forUp size (fun i m => put m (g i) (m (g i) + h i)) m p = m p + ∑ i ∈ Finset.range size, if p = g i then h i else 0 := by
  refine forUp_inv (fun b (m' : Nat → M) => ∀ p, m' p = m p + ∑ i ∈ Finset.range b, if p = g i then h i else 0) size (fun p => by simp) ?_ p
  intro b m' _ ih p
  rw [Finset.sum_range_succ, ← add_assoc, ← ih]
  by_cases he : p = g b
  · rw [he, put_same, if_pos rfl]
  · rw [put_ne _ _ he, if_neg he, add_zero]

theorem add_loop2 (g : Nat → Nat → Nat) (h : Nat → Nat → M) (X Y : Nat) (m : Nat → M) (p : Nat) :
    forUp X (fun x m => forUp Y (fun y m => put m (g x y) (m (g x y) + h x y)) m) m p =
      m p + ∑ x ∈ Finset.range X, ∑ y ∈ Finset.range Y, if p = g x y then h x y else 0 := by
  refine forUp_inv (fun b (m' : Nat → M) => ∀ p, m' p = m p + ∑ x ∈ Finset.range b, ∑ y ∈ Finset.range Y, if p = g x y then h x y else 0) X (fun p => by simp) ?_ p
  intro b m' _ ih p
  rw [add_loop, ih, Finset.sum_range_succ, add_assoc]

/-- Only the feature at hand counts. -/
theorem pick (k nf size : Nat) (lab : Nat → Nat) (hl : ∀ i < size, lab i < k) (h : Nat → Nat → M) (a f : Nat) (ha : a < k) (hf : f < nf) :
    (∑ g ∈ Finset.range nf, ∑ i ∈ Finset.range size, if a + f * k = lab i + g * k then h i g else 0) = ∑ i ∈ Finset.range size, if lab i = a then h i f else 0 := by
  rw [Finset.sum_eq_single f]
  · refine Finset.sum_congr rfl fun i _ => ?_
    by_cases he : lab i = a
    · rw [if_pos he, if_pos (by rw [he])]
    · rw [if_neg he, if_neg (by omega)]
  · intro g _ hg
    refine Finset.sum_eq_zero fun i hi => if_neg fun e => hg ?_
    exact (half_inj ha (hl i (Finset.mem_range.mp hi)) e).1.symm
  · intro h
    exact absurd (Finset.mem_range.mpr hf) h

theorem four (g : Nat → M) (q : Nat) :
    (∑ i ∈ Finset.range (4 * q), g i) = (∑ x ∈ Finset.range q, g (4 * x)) + (∑ x ∈ Finset.range q, g (4 * x + 1)) + (∑ x ∈ Finset.range q, g (4 * x + 2)) +
      ∑ x ∈ Finset.range q, g (4 * x + 3) := by
  induction q with
  | zero => simp
  | succ q ih =>
    rw [show 4 * (q + 1) = 4 * q + 1 + 1 + 1 + 1 by omega]
    simp only [Finset.sum_range_succ]
    rw [ih]
    abel
end

/-- Four independent loops at once. -/
theorem four_loops {S1 S2 S3 S4 : Type} (b1 : Nat → S1 → S1) (b2 : Nat → S2 → S2) (b3 : Nat → S3 → S3) (b4 : Nat → S4 → S4) (m : Nat) (s1 : S1) (s2 : S2) (s3 : S3) (s4 : S4) :
    forUp m (fun q (r : S1 × S2 × S3 × S4) => (b1 q r.1, b2 q r.2.1, b3 q r.2.2.1, b4 q r.2.2.2)) (s1, s2, s3, s4) =
      (forUp m b1 s1, forUp m b2 s2, forUp m b3 s3, forUp m b4 s4) := by
  simp only [forUp_foldl]
  generalize List.range m = L
  induction L generalizing s1 s2 s3 s4 with
  | nil => rfl
  | cons x L ih => exact ih _ _ _ _

omit [LinearOrder K] [IsStrictOrderedRing K] in
theorem fourSums_spec (c : LCfg K) (off size : Nat) (lab : Nat → Nat) (f : Nat) (m : Nat → K) :
    (∀ a < c.k, fourSums c off size lab f m (a + f * c.k) = m (a + f * c.k) + ∑ i ∈ Finset.range size, if lab (off + i) = a then sample c (off + i) f else 0) ∧
    ∀ p, (∀ a < c.k, p ≠ a + f * c.k) → fourSums c off size lab f m p = m p := by
  unfold fourSums
  simp only
  rw [four_loops (fun q r => put r (lab (off + 4 * q)) (r (lab (off + 4 * q)) + elem c off (4 * q) f))
    (fun q r => put r (lab (off + (4 * q + 1))) (r (lab (off + (4 * q + 1))) + elem c off (4 * q + 1) f))
    (fun q r => put r (lab (off + (4 * q + 2))) (r (lab (off + (4 * q + 2))) + elem c off (4 * q + 2) f))
    (fun q r => put r (lab (off + (4 * q + 3))) (r (lab (off + (4 * q + 3))) + elem c off (4 * q + 3) f))]
  simp only
  have hw1 := fun p => add_loop (fun i0 => lab (off + (4 * (size / 4) + i0))) (fun i0 => elem c off (4 * (size / 4) + i0) f) (size - 4 * (size / 4))
    (forUp (size / 4) (fun q r => put r (lab (off + 4 * q)) (r (lab (off + 4 * q)) + elem c off (4 * q) f)) fun _ => 0) p
  have h1 := fun p => add_loop (fun q => lab (off + 4 * q)) (fun q => elem c off (4 * q) f) (size / 4) (fun _ => 0) p
  have h2 := fun p => add_loop (fun q => lab (off + (4 * q + 1))) (fun q => elem c off (4 * q + 1) f) (size / 4) (fun _ => 0) p
  have h3 := fun p => add_loop (fun q => lab (off + (4 * q + 2))) (fun q => elem c off (4 * q + 2) f) (size / 4) (fun _ => 0) p
  have h4 := fun p => add_loop (fun q => lab (off + (4 * q + 3))) (fun q => elem c off (4 * q + 3) f) (size / 4) (fun _ => 0) p
  generalize forUp (size / 4) (fun q r => put r (lab (off + 4 * q)) (r (lab (off + 4 * q)) + elem c off (4 * q) f)) (fun _ => (0 : K)) = w0 at hw1 h1 ⊢
  generalize forUp (size / 4) (fun q r => put r (lab (off + (4 * q + 1))) (r (lab (off + (4 * q + 1))) + elem c off (4 * q + 1) f)) (fun _ => (0 : K)) = w2 at h2 ⊢
  generalize forUp (size / 4) (fun q r => put r (lab (off + (4 * q + 2))) (r (lab (off + (4 * q + 2))) + elem c off (4 * q + 2) f)) (fun _ => (0 : K)) = w3 at h3 ⊢
  generalize forUp (size / 4) (fun q r => put r (lab (off + (4 * q + 3))) (r (lab (off + (4 * q + 3))) + elem c off (4 * q + 3) f)) (fun _ => (0 : K)) = w4 at h4 ⊢
  generalize forUp (size - 4 * (size / 4)) _ w0 = w1 at hw1 ⊢
  have hp := forUp_put (fun a => a + f * c.k) (fun a v => v + (w1 a + w2 a + w3 a + w4 a)) m c.k (fun _ _ _ _ h => by omega)
  refine ⟨fun a ha => ?_, hp.2⟩
  rw [hp.1 a ha, hw1, h1, h2, h3, h4]
  have hsz : size = 4 * (size / 4) + (size - 4 * (size / 4)) := by omega
  have hsum : (∑ i ∈ Finset.range size, if lab (off + i) = a then sample c (off + i) f else 0) =
      (∑ i ∈ Finset.range (4 * (size / 4)), if lab (off + i) = a then sample c (off + i) f else 0) +
      ∑ i0 ∈ Finset.range (size - 4 * (size / 4)), if lab (off + (4 * (size / 4) + i0)) = a then sample c (off + (4 * (size / 4) + i0)) f else 0 := by
    conv_lhs => rw [hsz]
    rw [Finset.sum_range_add]
  rw [hsum, four]
  simp only [elem_sample, eq_comm (a := a), zero_add]
  ring

omit [LinearOrder K] [IsStrictOrderedRing K] in
theorem updateCentres_spec (c : LCfg K) (off size : Nat) (lab : Nat → Nat) (hl : ∀ i < size, lab (off + i) < c.k) (m : Nat → K) : ∀ a < c.k, ∀ f < c.nf,
    updateCentres c off size lab m (a + f * c.k) = m (a + f * c.k) + ∑ i ∈ Finset.range size, if lab (off + i) = a then term c (off + i) f else 0 := by
  intro a ha f hf
  have byF : ∀ scale : Nat → K, forUp c.nf (fun f m => forUp size (fun i m => put m (lab (off + i) + f * c.k) (m (lab (off + i) + f * c.k) + elem c off i f * scale i)) m) m (a + f * c.k) =
      m (a + f * c.k) + ∑ i ∈ Finset.range size, if lab (off + i) = a then elem c off i f * scale i else 0 := fun scale => by
    rw [add_loop2 (fun f i => lab (off + i) + f * c.k) fun f i => elem c off i f * scale i]
    rw [pick c.k c.nf size (fun i => lab (off + i)) hl (fun i f => elem c off i f * scale i) a f ha hf]
  have byI : ∀ scale : Nat → K, forUp size (fun i m => forUp c.nf (fun f m => put m (lab (off + i) + f * c.k) (m (lab (off + i) + f * c.k) + elem c off i f * scale i)) m) m (a + f * c.k) =
      m (a + f * c.k) + ∑ i ∈ Finset.range size, if lab (off + i) = a then elem c off i f * scale i else 0 := fun scale => by
    rw [add_loop2 (fun i f => lab (off + i) + f * c.k) fun i f => elem c off i f * scale i, Finset.sum_comm]
    rw [pick c.k c.nf size (fun i => lab (off + i)) hl (fun i f => elem c off i f * scale i) a f ha hf]
  unfold updateCentres
  simp only
  unfold term
  cases hsn : c.spherical && c.normalize
  · simp only [Bool.false_eq_true, if_false]
    cases hcm : c.colMajor
    · simp only [Bool.false_eq_true, if_false]
      rw [byI]
      simp only [elem_sample]
    · simp only [if_true]
      cases hmany : c.many
      · simp only [Bool.false_eq_true, if_false, mul_one]
        have := forUp_inv (body := fun f m => fourSums c off size lab f m) (s := m)
          (fun b (m' : Nat → K) => ∀ a < c.k, ∀ f < c.nf, m' (a + f * c.k) =
            if f < b then m (a + f * c.k) + ∑ i ∈ Finset.range size, (if lab (off + i) = a then sample c (off + i) f else 0) else m (a + f * c.k)) c.nf
          (fun a _ f _ => by simp) ?_
        · have h := this a ha f hf
          rwa [if_pos hf] at h
        · intro b m' hb h a ha f hf
          have hs := fourSums_spec c off size lab b m'
          by_cases he : f = b
          · subst he
            rw [hs.1 a ha, h a ha f hf, if_neg (by omega), if_pos (by omega)]
          · rw [hs.2 _ fun a' ha' e => he (half_inj ha ha' e).1, h a ha f hf]
            simp only [show (f < b + 1) = (f < b) from propext (by omega)]
      · simp only [if_true]
        rw [byF]
        simp only [elem_sample]
  · simp only [if_true]
    cases hcm : c.colMajor
    · simp only [Bool.false_eq_true, if_false]
      rw [byI]
      simp only [elem_sample]
    · simp only [if_true]
      rw [byF]
      simp only [elem_sample]

end Verif.Kmeans
