import Verif.Kmeans.ElkanProof
import Mathlib.Tactic.FieldSimp
import Mathlib.Tactic.Ring

/-
The steps of one iteration of Elkan's method.
-/
namespace Verif.Kmeans

open Verif.HalfBlas (put forUp)

variable {K : Type} [Field K] [LinearOrder K] [IsStrictOrderedRing K]

/-! ### Half distances -/

omit [Field K] [IsStrictOrderedRing K] in
theorem lowerTo_self (w : Nat → Option K) (i : Nat) (t : K) : ∃ h, lowerTo w i t i = some h ∧ h ≤ t := by
  unfold lowerTo
  cases hw : w i with
  | none => exact ⟨t, by simp [put_same], le_refl _⟩
  | some v =>
    by_cases h : t < v
    · exact ⟨t, by simp [h, put_same], le_refl _⟩
    · exact ⟨v, by simp [h, hw], not_lt.mp h⟩

omit [Field K] [IsStrictOrderedRing K] in
theorem lowerTo_le (w : Nat → Option K) (i : Nat) (t : K) (a : Nat) (b : K) (h : ∃ h, w a = some h ∧ h ≤ b) :
    ∃ h, lowerTo w i t a = some h ∧ h ≤ b := by
  obtain ⟨h, h1, h2⟩ := h
  by_cases ha : a = i
  · subst ha
    unfold lowerTo
    rw [h1]
    by_cases hlt : t < h
    · exact ⟨t, by simp [hlt, put_same], le_trans hlt.le h2⟩
    · exact ⟨h, by simp [hlt, h1], h2⟩
  · refine ⟨h, ?_, h2⟩
    unfold lowerTo
    cases hw : w i with
    | none => simp only [if_true]; rw [put_ne _ _ ha]; exact h1
    | some v =>
      by_cases hc : t < v
      · simp only [hc, decide_true, if_true]; rw [put_ne _ _ ha]; exact h1
      · simp only [hc, decide_false]; exact h1

/-- The pairs already halved when the loops are at `J` and `I`. -/
def Halved (J I i j : Nat) : Prop := j < J ∨ (j = J ∧ i < I)

structure HalfInv (k : Nat) (d : Nat → Nat → K) (J I : Nat) (r : (Nat → K) × (Nat → Option K)) : Prop where
  done : ∀ i j, i < j → j < k → Halved J I i j → r.1 (j + i * k) = d i j / 2 ∧ r.1 (i + j * k) = d i j / 2
  todo : ∀ i j, i < j → j < k → ¬ Halved J I i j → r.1 (j + i * k) = d i j
  next : ∀ i j, i < j → j < k → Halved J I i j → (∃ h, r.2 i = some h ∧ h ≤ d i j / 2) ∧ ∃ h, r.2 j = some h ∧ h ≤ d i j / 2

theorem half_inj {k i j i' j' : Nat} (hj : j < k) (hj' : j' < k) (h : j + i * k = j' + i' * k) : i = i' ∧ j = j' :=
  Interp.idx_inj (by rw [Nat.add_comm, h, Nat.add_comm]) hj hj'

omit [IsStrictOrderedRing K] in
theorem half_step (k : Nat) (d : Nat → Nat → K) (J I : Nat) (hI : I < J) (hJ : J < k) (r : (Nat → K) × (Nat → Option K))
    (h : HalfInv k d J I r) : HalfInv k d J (I + 1)
      (put (put r.1 (J + I * k) (r.1 (J + I * k) / 2)) (I + J * k) (r.1 (J + I * k) / 2), lowerTo (lowerTo r.2 I (r.1 (J + I * k) / 2)) J (r.1 (J + I * k) / 2)) := by
  have ht : r.1 (J + I * k) = d I J := h.todo I J hI hJ (by unfold Halved; omega)
  rw [ht]
  have hne : ∀ i j, i < j → j < k → (i ≠ I ∨ j ≠ J) → J + I * k ≠ j + i * k ∧ I + J * k ≠ j + i * k ∧ J + I * k ≠ i + j * k ∧ I + J * k ≠ i + j * k := by
    intro i j hij hj hn
    refine ⟨fun e => ?_, fun e => ?_, fun e => ?_, fun e => ?_⟩
    · have := half_inj hJ hj e; omega
    · have := half_inj (by omega) hj e; omega
    · have := half_inj hJ (by omega) e; omega
    · have := half_inj (by omega) (by omega) e; omega
  have hself : J + I * k ≠ I + J * k := fun e => by have := half_inj hJ (by omega) e; omega
  refine ⟨fun i j hij hj hd => ?_, fun i j hij hj hd => ?_, fun i j hij hj hd => ?_⟩
  · by_cases he : i = I ∧ j = J
    · obtain ⟨rfl, rfl⟩ := he
      exact ⟨by simp only; rw [put_ne _ _ hself, put_same], by simp only; rw [put_same]⟩
    · obtain ⟨n1, n2, n3, n4⟩ := hne i j hij hj (by omega)
      simp only
      rw [put_ne _ _ n2.symm, put_ne _ _ n1.symm, put_ne _ _ n4.symm, put_ne _ _ n3.symm]
      exact h.done i j hij hj (by unfold Halved at hd ⊢; omega)
  · obtain ⟨n1, n2, _, _⟩ := hne i j hij hj (by unfold Halved at hd; omega)
    simp only
    rw [put_ne _ _ n2.symm, put_ne _ _ n1.symm]
    exact h.todo i j hij hj (by unfold Halved at hd ⊢; omega)
  · by_cases he : i = I ∧ j = J
    · obtain ⟨rfl, rfl⟩ := he
      exact ⟨lowerTo_le _ _ _ _ _ (lowerTo_self _ _ _), lowerTo_self _ _ _⟩
    · obtain ⟨h1, h2⟩ := h.next i j hij hj (by unfold Halved at hd ⊢; omega)
      exact ⟨lowerTo_le _ _ _ _ _ (lowerTo_le _ _ _ _ _ h1), lowerTo_le _ _ _ _ _ (lowerTo_le _ _ _ _ _ h2)⟩

omit [IsStrictOrderedRing K] in
/-- The half distances of the current centres, in both triangles, and the smallest of each row. -/
theorem halfDistances_spec (c : Cfg K) (rest : Nat → K) (s : St K) :
    (∀ i j, i < j → j < c.k → (halfDistances c rest s).half (i * c.k + j) = centreDist c s.cur i j / 2 ∧
      (halfDistances c rest s).half (j * c.k + i) = centreDist c s.cur i j / 2) ∧
    (∀ i j, i < j → j < c.k → (∃ h, (halfDistances c rest s).workc1 i = some h ∧ h ≤ centreDist c s.cur i j / 2) ∧
      ∃ h, (halfDistances c rest s).workc1 j = some h ∧ h ≤ centreDist c s.cur i j / 2) := by
  let cc : Nat → K := forUp c.k (fun j m => forUp (j + 1) (fun i m => put m (i * c.k + j) (centreDist c s.cur i j)) m) rest
  have hcc : ∀ i j, i ≤ j → j < c.k → cc (i * c.k + j) = centreDist c s.cur i j := by
    have := forUp_inv (body := fun j m => forUp (j + 1) (fun i m => put m (i * c.k + j) (centreDist c s.cur i j)) m)
      (fun J (m : Nat → K) => ∀ i j, i ≤ j → j < J → j < c.k → m (i * c.k + j) = centreDist c s.cur i j) (s := rest) c.k (by omega) ?_
    · exact fun i j hij hj => this i j hij hj hj
    · intro J m hJ hm
      have h2 := forUp_inv (body := fun i m => put m (i * c.k + J) (centreDist c s.cur i J))
        (fun I (m : Nat → K) => ∀ i j, i ≤ j → j < c.k → (j < J ∨ (j = J ∧ i < I)) → m (i * c.k + j) = centreDist c s.cur i j) (s := m) (J + 1)
        (fun i j hij hj h => hm i j hij (by omega) hj) ?_
      · exact fun i j hij hj hjk => h2 i j hij hjk (by omega)
      · intro I m' _ hm' i j hij hj h
        by_cases he : i = I ∧ j = J
        · obtain ⟨rfl, rfl⟩ := he; exact put_same _ _ _
        · rw [put_ne _ _ fun e => he (Interp.idx_inj e hj hJ)]
          exact hm' i j hij hj (by omega)
  have hinv := forUp_inv (body := fun j r => forUp j (fun i (r : (Nat → K) × (Nat → Option K)) =>
      (put (put r.1 (j + i * c.k) (r.1 (j + i * c.k) / 2)) (i + j * c.k) (r.1 (j + i * c.k) / 2),
        lowerTo (lowerTo r.2 i (r.1 (j + i * c.k) / 2)) j (r.1 (j + i * c.k) / 2))) r)
    (fun J r => HalfInv c.k (centreDist c s.cur) J 0 r) (s := (cc, fun i => if i < c.k then none else s.workc1 i)) c.k
    ⟨fun i j _ _ h => by unfold Halved at h; omega, fun i j hij hj _ => by rw [Nat.add_comm]; exact hcc i j (by omega) hj,
      fun i j _ _ h => by unfold Halved at h; omega⟩ ?_
  · refine ⟨fun i j hij hj => ?_, fun i j hij hj => hinv.next i j hij hj (Or.inl hj)⟩
    have h := hinv.done i j hij hj (Or.inl hj)
    rw [Nat.add_comm j, Nat.add_comm i] at h
    exact h
  · intro J r hJ hr
    have h2 := forUp_inv (body := fun i (r : (Nat → K) × (Nat → Option K)) =>
      (put (put r.1 (J + i * c.k) (r.1 (J + i * c.k) / 2)) (i + J * c.k) (r.1 (J + i * c.k) / 2),
        lowerTo (lowerTo r.2 i (r.1 (J + i * c.k) / 2)) J (r.1 (J + i * c.k) / 2)))
      (fun I r => HalfInv c.k (centreDist c s.cur) J I r) (s := r) J hr
      (fun I r hI h => half_step c.k (centreDist c s.cur) J I hI hJ r h)
    have hiff : ∀ i j, i < j → (Halved (J + 1) 0 i j ↔ Halved J J i j) := fun i j h => by unfold Halved; omega
    exact ⟨fun i j hij hj h => h2.done i j hij hj ((hiff i j hij).mp h), fun i j hij hj h => h2.todo i j hij hj fun h' => h ((hiff i j hij).mpr h'),
      fun i j hij hj h => h2.next i j hij hj ((hiff i j hij).mp h)⟩

/-! ### The metric -/

/-- The shift of centre `j` from `C` to `C'`. -/
def shiftOf (c : Cfg K) (C C' : Nat → K) (j : Nat) : K :=
  if c.spherical then c.acos (clampCos (sumTo c.nf fun f => C (j * c.nf + f) * C' (j * c.nf + f)))
  else c.sqrt (sumTo c.nf fun f => (C (j * c.nf + f) - C' (j * c.nf + f)) * (C (j * c.nf + f) - C' (j * c.nf + f)))

/-- What Elkan's method needs of its distances, for centres satisfying `Ok`. -/
structure Metric (c : Cfg K) (Ok : (Nat → K) → Prop) : Prop where
  nonneg : ∀ C, Ok C → ∀ i < c.n, ∀ j < c.k, 0 ≤ dS c C i j
  tri : ∀ C, Ok C → ∀ i < c.n, ∀ a < c.k, ∀ b < c.k, a < b → centreDist c C a b ≤ dS c C i a + dS c C i b
  shift : ∀ C C', Ok C → Ok C' → ∀ i < c.n, ∀ j < c.k,
    dS c C' i j ≤ dS c C i j + shiftOf c C C' j ∧ dS c C i j ≤ dS c C' i j + shiftOf c C C' j
  scaled : ∀ count cur, Ok (scaleCentres c count cur).2

theorem half_ok (c : Cfg K) (Ok : (Nat → K) → Prop) (hm : Metric c Ok) (rest : Nat → K) (s : St K) (hok : Ok s.cur) (i : Nat) (hi : i < c.n) :
    HalfOk c.k (halfDistances c rest s).half (halfDistances c rest s).workc1 (dS c s.cur i) := by
  obtain ⟨h1, h2⟩ := halfDistances_spec c rest s
  have htri := hm.tri s.cur hok i hi
  have h2x : ∀ x : K, 2 * (x / 2) = x := fun x => by field_simp
  refine ⟨fun a ha b hb hab => ?_, fun a ha b hb hab => ?_⟩
  · rcases Nat.lt_or_ge a b with h | h
    · rw [(h1 a b h hb).1, h2x]; exact htri a ha b hb h
    · rw [(h1 b a (by omega) ha).2, h2x, add_comm]; exact htri b hb a ha (by omega)
  · rcases Nat.lt_or_ge a b with h | h
    · obtain ⟨v, e, hv⟩ := (h2 a b h hb).1
      have := htri a ha b hb h
      have := h2x (centreDist c s.cur a b)
      exact ⟨v, e, by linarith⟩
    · obtain ⟨v, e, hv⟩ := (h2 b a (by omega) ha).2
      have := htri b hb a ha (by omega)
      have := h2x (centreDist c s.cur b a)
      exact ⟨v, e, by linarith⟩

omit [IsStrictOrderedRing K] in
theorem shiftCentres_spec (c : Cfg K) (prev cur : Nat → K) (w : Nat → Option K) :
    (∀ j < c.k, (shiftCentres c prev cur w).2 j = some (shiftOf c prev cur j)) ∧
    (∀ j < c.k, ∀ f < c.nf, (shiftCentres c prev cur w).1 (j * c.nf + f) = prev (j * c.nf + f) - cur (j * c.nf + f)) := by
  have hd := forUp_put (fun i => i) (fun i v => v - cur i) prev (c.k * c.nf) (fun _ _ _ _ h => h)
  have hlt : ∀ j < c.k, ∀ f < c.nf, j * c.nf + f < c.k * c.nf := fun j hj f hf => by
    have := Nat.mul_le_mul_right c.nf (show j + 1 ≤ c.k by omega)
    rw [Nat.add_mul] at this
    omega
  refine ⟨fun j hj => ?_, fun j hj f hf => ?_⟩
  · unfold shiftCentres shiftOf
    split
    · exact (forUp_put (fun i => i) (fun i _ => some (c.acos (clampCos (sumTo c.nf fun f => prev (i * c.nf + f) * cur (i * c.nf + f))))) w c.k (fun _ _ _ _ h => h)).1 j hj
    · simp only
      refine ((forUp_put (fun i => i) (fun i _ => some (c.sqrt (sumTo c.nf fun f =>
        forUp (c.k * c.nf) (fun i m => put m i (m i - cur i)) prev (i * c.nf + f) *
          forUp (c.k * c.nf) (fun i m => put m i (m i - cur i)) prev (i * c.nf + f)))) w c.k (fun _ _ _ _ h => h)).1 j hj).trans ?_
      congr 2
      simp only [sumTo_eq]
      refine Finset.sum_congr rfl fun f hf => ?_
      rw [hd.1 _ (hlt j hj f (Finset.mem_range.mp hf))]
  · unfold shiftCentres
    split <;> exact hd.1 _ (hlt j hj f hf)

/-! ### The bounds after the centres have moved -/

/-- The samples of `S` have their bounds updated, the others have not. -/
structure Updated (c : Cfg K) (w : Nat → Option K) (lab : Nat → Nat) (S : List Nat) (b b' : (Nat → K) × (Nat → K)) : Prop where
  done : ∀ i ∈ S, b'.1 i = raised (b.1 i) (w (lab i)) ∧ ∀ j < c.k, b'.2 (i * c.ld + j) = lowered (b.2 (i * c.ld + j)) (w j)
  rest : ∀ i, i ∉ S → b'.1 i = b.1 i ∧ ∀ j < c.k, b'.2 (i * c.ld + j) = b.2 (i * c.ld + j)

omit [IsStrictOrderedRing K] in
theorem updated_append (c : Cfg K) (w : Nat → Option K) (lab : Nat → Nat) {S S' : List Nat} {b b' b'' : (Nat → K) × (Nat → K)}
    (hd : ∀ i ∈ S, i ∉ S') (h1 : Updated c w lab S b b') (h2 : Updated c w lab S' b' b'') : Updated c w lab (S ++ S') b b'' := by
  refine ⟨fun i hi => ?_, fun i hi => ?_⟩
  · rw [List.mem_append] at hi
    by_cases hs : i ∈ S'
    · have hn : i ∉ S := fun h => hd i h hs
      obtain ⟨e1, e2⟩ := h2.done i hs
      obtain ⟨f1, f2⟩ := h1.rest i hn
      exact ⟨by rw [e1, f1], fun j hj => by rw [e2 j hj, f2 j hj]⟩
    · obtain ⟨e1, e2⟩ := h2.rest i hs
      obtain ⟨f1, f2⟩ := h1.done i (hi.resolve_right hs)
      exact ⟨by rw [e1, f1], fun j hj => by rw [e2 j hj, f2 j hj]⟩
  · rw [List.mem_append, not_or] at hi
    obtain ⟨e1, e2⟩ := h2.rest i hi.2
    obtain ⟨f1, f2⟩ := h1.rest i hi.1
    exact ⟨by rw [e1, f1], fun j hj => by rw [e2 j hj, f2 j hj]⟩

/-- The samples of a block. -/
def blockList (ix size : Nat) : List Nat := (List.range size).map fun i => ix + i

theorem mem_blockList {ix size i : Nat} : i ∈ blockList ix size ↔ ix ≤ i ∧ i < ix + size := by
  unfold blockList
  simp only [List.mem_map, List.mem_range]
  exact ⟨fun ⟨a, h, e⟩ => by omega, fun h => ⟨i - ix, by omega, by omega⟩⟩

omit [IsStrictOrderedRing K] in
theorem updateScalar_spec (c : Cfg K) (hk : c.k ≤ c.ld) (w : Nat → Option K) (lab : Nat → Nat) (ix size : Nat) (b : (Nat → K) × (Nat → K)) :
    Updated c w lab (blockList ix size) b (updateScalar c w lab ix size b) := by
  unfold updateScalar
  refine forUp_inv (fun m b' => Updated c w lab (blockList ix m) b b') size ⟨by simp [blockList], fun _ _ => ⟨rfl, fun _ _ => rfl⟩⟩ ?_
  intro m b' _ hb'
  have hl : blockList ix (m + 1) = blockList ix m ++ [ix + m] := by unfold blockList; rw [List.range_succ, List.map_append]; rfl
  rw [hl]
  refine updated_append c w lab (fun i hi => ?_) hb' ⟨fun i hi => ?_, fun i hi => ?_⟩
  · rw [mem_blockList] at hi; simp; omega
  · rw [List.mem_singleton] at hi
    subst hi
    rw [← Nat.add_mul]
    refine ⟨put_same _ _ _, fun j hj => ?_⟩
    exact (forUp_put (fun j => (ix + m) * c.ld + j) (fun j v => lowered v (w j)) b'.2 c.k (fun _ _ _ _ h => by omega)).1 j hj
  · rw [List.mem_singleton] at hi
    rw [← Nat.add_mul]
    refine ⟨put_ne _ _ hi, fun j hj => ?_⟩
    exact (forUp_put (fun j => (ix + m) * c.ld + j) (fun j v => lowered v (w j)) b'.2 c.k (fun _ _ _ _ h => by omega)).2 _
      fun j' hj' => row_ne hk hj hj' hi

omit [IsStrictOrderedRing K] in
/-- One row of lower bounds, `v` at a time. -/
theorem lanes_row (w : Nat → Option K) (v base : Nat) (m0 : Nat → K) (S : Nat) :
    let m := forUp S (fun s m => lowerLanes w v (base + s * v) (s * v) m) m0
    (∀ j, j < S * v → m (base + j) = lowered (m0 (base + j)) (w j)) ∧ (∀ p, p < base ∨ base + S * v ≤ p → m p = m0 p) := by
  induction S with
  | zero => exact ⟨fun j hj => by omega, fun _ _ => rfl⟩
  | succ S ih =>
    simp only at ih ⊢
    obtain ⟨h1, h2⟩ := ih
    have hsv : (S + 1) * v = S * v + v := by rw [Nat.add_mul, Nat.one_mul]
    have hstep : forUp (S + 1) (fun s m => lowerLanes w v (base + s * v) (s * v) m) m0 =
        lowerLanes w v (base + S * v) (S * v) (forUp S (fun s m => lowerLanes w v (base + s * v) (s * v) m) m0) := rfl
    rw [hstep]
    generalize forUp S (fun s m => lowerLanes w v (base + s * v) (s * v) m) m0 = m1 at h1 h2
    refine ⟨fun j hj => ?_, fun p hp => ?_⟩
    · unfold lowerLanes
      by_cases hj' : j < S * v
      · rw [if_neg (by omega)]; exact h1 j hj'
      · rw [if_pos (by omega), h2 _ (by omega), show S * v + (base + j - (base + S * v)) = j by omega]
    · unfold lowerLanes
      rw [if_neg (by omega)]
      exact h2 p (by omega)

omit [IsStrictOrderedRing K] in
theorem updateKt_spec (c : Cfg K) (v : Nat) (hv : 0 < v) (hk : (c.k + v - 1) / v * v ≤ c.ld) (w : Nat → Option K) (lab : Nat → Nat)
    (ix size : Nat) (b : (Nat → K) × (Nat → K)) : Updated c w lab (blockList ix size) b (updateKt c v w lab ix size b) := by
  have hkv : c.k ≤ (c.k + v - 1) / v * v := by
    have := Nat.div_add_mod (c.k + v - 1) v
    have h2 := Nat.mod_lt (c.k + v - 1) hv
    rw [Nat.mul_comm] at this
    omega
  -- the lower bounds
  have hl : ∀ i, (i ∈ blockList ix size → ∀ j < c.k, (updateKt c v w lab ix size b).2 (i * c.ld + j) = lowered (b.2 (i * c.ld + j)) (w j)) ∧
      (i ∉ blockList ix size → ∀ j < c.k, (updateKt c v w lab ix size b).2 (i * c.ld + j) = b.2 (i * c.ld + j)) := by
    have := forUp_inv (body := fun i m => forUp ((c.k + v - 1) / v) (fun s m => lowerLanes w v (ix * c.ld + (i * c.ld + s * v)) (s * v) m) m)
      (fun m l => ∀ i, (i ∈ blockList ix m → ∀ j < c.k, l (i * c.ld + j) = lowered (b.2 (i * c.ld + j)) (w j)) ∧
        (i ∉ blockList ix m → ∀ j < c.k, l (i * c.ld + j) = b.2 (i * c.ld + j))) (s := b.2) size
      (fun i => ⟨fun h => by simp [blockList] at h, fun _ _ _ => rfl⟩) ?_
    · exact this
    · intro m l hm hli i
      have hrow := lanes_row w v ((ix + m) * c.ld) l ((c.k + v - 1) / v)
      have heq : (fun s m' => lowerLanes w v (ix * c.ld + (m * c.ld + s * v)) (s * v) m') = fun s m' => lowerLanes (K := K) w v ((ix + m) * c.ld + s * v) (s * v) m' := by
        funext s m'; rw [Nat.add_mul, Nat.add_assoc]
      rw [heq]
      simp only at hrow
      generalize forUp ((c.k + v - 1) / v) (fun s m' => lowerLanes w v ((ix + m) * c.ld + s * v) (s * v) m') l = l' at hrow
      obtain ⟨r1, r2⟩ := hrow
      have hout : ∀ i', i' ≠ ix + m → ∀ j < c.k, l' (i' * c.ld + j) = l (i' * c.ld + j) := by
        intro i' hi' j hj
        refine r2 _ ?_
        rcases Nat.lt_or_ge i' (ix + m) with h | h
        · have := Nat.mul_le_mul_right c.ld (show i' + 1 ≤ ix + m by omega)
          rw [Nat.add_mul i' 1] at this
          omega
        · have := Nat.mul_le_mul_right c.ld (show ix + m + 1 ≤ i' by omega)
          rw [Nat.add_mul (ix + m) 1] at this
          omega
      rw [mem_blockList]
      refine ⟨fun hi j hj => ?_, fun hi j hj => ?_⟩
      · by_cases he : i = ix + m
        · subst he
          rw [r1 j (by omega)]
          rw [(hli (ix + m)).2 (by rw [mem_blockList]; omega) j hj]
        · rw [hout i he j hj]
          exact (hli i).1 (by rw [mem_blockList]; omega) j hj
      · rw [hout i (by omega) j hj]
        exact (hli i).2 (by rw [mem_blockList]; omega) j hj
  -- the upper bounds
  have hu : ∀ i, (updateKt c v w lab ix size b).1 i = if ix ≤ i ∧ i < ix + size then raised (b.1 i) (w (lab i)) else b.1 i := by
    have hfull : size - size % v = (size - size % v) / v * v := by
      have := Nat.div_add_mod size v
      have h2 : size - size % v = v * (size / v) := by omega
      rw [h2, Nat.mul_div_cancel_left _ hv, Nat.mul_comm]
    have h1 := forUp_inv (body := fun s (m : Nat → K) => fun x => if ix + s * v ≤ x ∧ x < ix + s * v + v then raised (m x) (w (lab x)) else m x)
      (fun S m => ∀ i, m i = if ix ≤ i ∧ i < ix + S * v then raised (b.1 i) (w (lab i)) else b.1 i) (s := b.1) ((size - size % v) / v)
      (fun i => by rw [if_neg (by omega)]) (by
        intro S m _ hm i
        simp only
        have hsv : (S + 1) * v = S * v + v := by rw [Nat.add_mul, Nat.one_mul]
        rw [hm i]
        by_cases h1 : ix ≤ i ∧ i < ix + S * v
        · rw [if_neg (by omega), if_pos h1, if_pos (by omega)]
        · rw [if_neg h1]
          by_cases h2 : ix + S * v ≤ i ∧ i < ix + S * v + v
          · rw [if_pos h2, if_pos (by omega)]
          · rw [if_neg h2, if_neg (by omega)])
    have h2 := forUp_inv (body := fun r (m : Nat → K) => put m (ix + (size - size % v + r)) (raised (m (ix + (size - size % v + r))) (w (lab (ix + (size - size % v + r))))))
      (fun R m => ∀ i, m i = if ix ≤ i ∧ i < ix + (size - size % v + R) then raised (b.1 i) (w (lab i)) else b.1 i)
      (s := forUp ((size - size % v) / v) (fun s (m : Nat → K) => fun x => if ix + s * v ≤ x ∧ x < ix + s * v + v then raised (m x) (w (lab x)) else m x) b.1)
      (size - (size - size % v)) (by rw [Nat.add_zero, hfull, Nat.mul_div_cancel _ hv]; rw [hfull, Nat.mul_div_cancel _ hv] at h1; exact h1) (by
        intro R m _ hm i
        by_cases he : i = ix + (size - size % v + R)
        · subst he
          rw [put_same, hm, if_neg (by omega), if_pos (by omega)]
        · rw [put_ne _ _ he, hm i]
          by_cases h : ix ≤ i ∧ i < ix + (size - size % v + R)
          · rw [if_pos h, if_pos (by omega)]
          · rw [if_neg h, if_neg (by omega)])
    intro i
    have h3 := h2 i
    rw [show size - size % v + (size - (size - size % v)) = size by omega] at h3
    exact h3
  refine ⟨fun i hi => ⟨?_, (hl i).1 hi⟩, fun i hi => ⟨?_, (hl i).2 hi⟩⟩
  · rw [hu i, if_pos (mem_blockList.mp hi)]
  · rw [hu i, if_neg fun h => hi (mem_blockList.mpr h)]

/-- The sizes of a run are consistent: `ldworkcs1` leaves room for the lanes of the update kernel. -/
structure CfgOk (c : Cfg K) : Prop where
  bs : 0 < c.bs
  k : 0 < c.k
  ld : c.k ≤ c.ld
  lanes : ∀ v, c.lanes = some v → 0 < v ∧ (c.k + v - 1) / v * v ≤ c.ld

omit [IsStrictOrderedRing K] in
theorem updateKernel_spec (c : Cfg K) (hc : CfgOk c) (w : Nat → Option K) (lab : Nat → Nat) (ix size : Nat) (b : (Nat → K) × (Nat → K)) :
    Updated c w lab (blockList ix size) b (updateKernel c w lab ix size b) := by
  unfold updateKernel
  cases h : c.lanes with
  | none => exact updateScalar_spec c hc.ld w lab ix size b
  | some v => exact updateKt_spec c v (hc.lanes v h).1 (hc.lanes v h).2 w lab ix size b

omit [IsStrictOrderedRing K] in
theorem updateBlocks_spec (c : Cfg K) (hc : CfgOk c) (w : Nat → Option K) (lab : Nat → Nat) (nb rem : Nat) (sched : List (Nat × Nat))
    (sizes : Nat → Nat) (hnd : ((samplesOf c nb rem sched sizes).map Prod.snd).Nodup) (b : (Nat → K) × (Nat → K)) :
    Updated c w lab ((samplesOf c nb rem sched sizes).map Prod.snd) b
      (sched.foldl (fun (r : (Nat → Nat) × ((Nat → K) × (Nat → K))) e =>
        let x := blockOf c nb rem (r.1 e.1) e.2
        (put r.1 e.1 x.2, updateKernel c w lab x.1 x.2 r.2)) (sizes, b)).2 := by
  induction sched generalizing sizes b with
  | nil => exact ⟨by simp [samplesOf], fun _ _ => ⟨rfl, fun _ _ => rfl⟩⟩
  | cons e es ih =>
    have hs : (samplesOf c nb rem (e :: es) sizes).map Prod.snd = blockList (blockOf c nb rem (sizes e.1) e.2).1 (blockOf c nb rem (sizes e.1) e.2).2 ++
        (samplesOf c nb rem es (put sizes e.1 (blockOf c nb rem (sizes e.1) e.2).2)).map Prod.snd := by
      rw [samplesOf, List.map_append, List.map_map]; rfl
    rw [hs] at hnd ⊢
    rw [List.nodup_append] at hnd
    exact updated_append c w lab (fun i hi h => hnd.2.2 i hi i h rfl)
      (updateKernel_spec c hc w lab _ _ b) (ih _ hnd.2.1 _)

end Verif.Kmeans
