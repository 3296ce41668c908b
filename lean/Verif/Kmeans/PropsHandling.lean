import Verif.Kmeans.HandlingRun
import Verif.Kmeans.PropsElkan
import Mathlib.Tactic.NormNum
import Mathlib.Tactic.Positivity
import Mathlib.Tactic.FieldSimp

/-
C92: a run of k-means that splits empty clusters gives back nearest labels and no empty cluster.
C93: its inertia never grows, and it stops by itself.
C94: with `error`, a run either gives back clusters that all have samples or reports the empty one.
-/
namespace Verif.Kmeans

open Verif.HalfBlas (put forUp)

variable {K : Type} [Field K] [LinearOrder K] [IsStrictOrderedRing K]

/-! ### C92 -/

/-- There are as many pairwise different samples as clusters. -/
def Varied (c : LCfg K) : Prop := ∃ p : Nat → Nat, (∀ a < c.k, p a < c.n) ∧ ∀ a < c.k, ∀ b < c.k, a ≠ b → ∃ f < c.nf, sample c (p a) f ≠ sample c (p b) f

omit [Field K] [IsStrictOrderedRing K] in
theorem varied_kinds (c : LCfg K) (h : Varied c) : c.k ≤ kinds c := by
  obtain ⟨p, hp, hd⟩ := h
  have hinj : Set.InjOn (fun a => fun f : Fin c.nf => sample c (p a) f) (Finset.range c.k : Set Nat) := by
    intro a ha b hb e
    by_contra hne
    obtain ⟨f, hf, hne'⟩ := hd a (by simpa using ha) b (by simpa using hb) hne
    exact hne' (congrFun e ⟨f, hf⟩)
  calc c.k = ((Finset.range c.k).image fun a => fun f : Fin c.nf => sample c (p a) f).card := by rw [Finset.card_image_of_injOn hinj, Finset.card_range]
    _ ≤ kinds c := Finset.card_le_card fun x hx => by
        obtain ⟨a, ha, rfl⟩ := Finset.mem_image.mp hx
        exact Finset.mem_image.mpr ⟨p a, Finset.mem_range.mpr (hp a (Finset.mem_range.mp ha)), rfl⟩

/-- A square root accurate to a millionth. -/
def RootNear (c : LCfg K) : Prop := ∀ v : K, 0 ≤ v → 0 ≤ c.sqrt v ∧ c.sqrt v ^ 2 ≤ v ∧ v < (c.sqrt v + 1 / 10 ^ 6) ^ 2

/-- **C92**, Lloyd's method: the labels given back are nearest to the centres given back. -/
def C92_nearest_statement : Prop := ∀ (K : Type) [Field K] [LinearOrder K] [IsStrictOrderedRing K] (c : LCfg K), LCfgOk c → RootNear c → c.k ≤ c.n →
  ∀ (nThreads maxIter : Nat) (sched : Nat → Sched) (last : Sched) (bound : K) (s : LSt K), Padded c s.workc1 →
    (∀ t, nThreads > 1 → LSchedAny c nThreads (sched t)) → (nThreads > 1 → LSchedAny c nThreads last) →
      ∀ r, lloydPerformH c .split nThreads maxIter sched last bound s = some r → LNearest c r.1.cur r.1.curLab

/-- **C92**, no empty cluster: when there are enough different samples, every cluster given back has a sample. -/
def C92_full_statement : Prop := ∀ (K : Type) [Field K] [LinearOrder K] [IsStrictOrderedRing K] (c : LCfg K), LCfgOk c → c.spherical = false → Varied c →
  ∀ (nThreads maxIter : Nat) (sched : Nat → Sched) (last : Sched) (bound : K) (s : LSt K), Padded c s.workc1 →
    (∀ t, nThreads > 1 → LSchedAny c nThreads (sched t)) → (nThreads > 1 → LSchedAny c nThreads last) →
      ∀ r, lloydPerformH c .split nThreads maxIter sched last bound s = some r → ∀ a < c.k, ∃ i < c.n, r.1.curLab i = a

/-- **C92**, Elkan's method on one thread, with `big` above every distance of two samples. -/
def C92_elkan_statement : Prop := ∀ (K : Type) [Field K] [LinearOrder K] [IsStrictOrderedRing K] (c : Cfg K) (Ok : (Nat → K) → Prop), CfgOk c → c.spherical = false → Metric c Ok → c.k ≤ c.n →
  ∀ (big : K), (∀ i < c.n, ∀ j < c.n, c.sqrt (∑ f ∈ Finset.range c.nf, (c.A (i * c.lda + f) - c.A (j * c.lda + f)) ^ 2) < big) →
  ∀ (C rest : Nat → K) (maxIter : Nat) (order : List Nat) (s : St K) (sch : Sched) (bound : K), order.Perm (List.range c.n) →
    (∀ D : Nat → K, (∀ a < c.k, ∀ f < c.nf, D (a * c.nf + f) = C (a + f * c.k)) → Ok D) →
      ∀ r, elkanPerformH c big .split C 1 maxIter rest order (fun _ => sch) sch bound s = some r → Nearest c r.1.cur r.1.curLab

/-! #### What goes wrong -/

def hSched : Sched := ⟨[(0, 0)], [0], [0], [(0, 0)]⟩

def hSt (C : List ℚ) : LSt ℚ := ⟨fun _ => 7, fun a => C.getD a 0, fun _ => 9, fun _ => 9, fun _ => some 5, fun _ => 3, fun _ _ => 4, fun _ _ => 6, fun _ _ => 8⟩

/-- Four samples on a line in three clusters. -/
def fullCfg : LCfg ℚ := ⟨4, 3, 1, 4, 4, 0, false, false, true, false, none, Rat.sqrt, fun i => [-11, -10, 10, 11].getD i 0, fun _ => 1⟩

theorem fullCfg_ok : LCfgOk fullCfg := ⟨by decide, by decide, fun w h => by cases h⟩

theorem fullCfg_varied : Varied fullCfg := ⟨fun a => a, by decide, by decide +kernel⟩

/-- **C92 violated**, no empty cluster: the last labelling, done when the limit of iterations is reached or the centres
hardly moved, can leave a cluster without samples, and nothing is split after it. -/
theorem C92_full_violated : ¬ C92_full_statement := by
  intro h
  have h := h ℚ fullCfg fullCfg_ok rfl fullCfg_varied 1 1 (fun _ => hSched) hSched 0 (hSt [-43 / 2, 0, 43 / 2])
    (fun i h1 h2 => by simp only [fullCfg] at h1 h2; omega) (fun _ h => by omega) (fun h => by omega)
  revert h
  have hw : (lloydPerformH fullCfg .split 1 1 (fun _ => hSched) hSched 0 (hSt [-43 / 2, 0, 43 / 2])).map (fun r => (List.range 4).map r.1.curLab) = some [0, 0, 2, 2] := by decide +kernel
  cases hr : lloydPerformH fullCfg .split 1 1 (fun _ => hSched) hSched 0 (hSt [-43 / 2, 0, 43 / 2]) with
  | none => rw [hr] at hw; cases hw
  | some r =>
    rw [hr] at hw
    intro h
    obtain ⟨i, hi, he⟩ := h r rfl 1 (by decide)
    have hw : (List.range 4).map r.1.curLab = [0, 0, 2, 2] := Option.some.inj hw
    change i < 4 at hi
    have : ((List.range 4).map r.1.curLab)[i]? = some 1 := by
      rw [List.getElem?_map, List.getElem?_range hi, Option.map_some, he]
    rw [hw] at this
    interval_cases i <;> simp at this

/-- A square root rounded down to a multiple of a millionth. -/
def sphRoot (v : ℚ) : ℚ := (Nat.sqrt (v * 10 ^ 12).floor.toNat : ℚ) / 10 ^ 6

/-- Six unit vectors in the plane in three clusters. -/
def sphCfg : LCfg ℚ := ⟨6, 3, 2, 6, 6, 0, true, false, true, false, none, sphRoot,
  fun i => [-21 / 29, 15 / 17, 4 / 5, 3 / 5, 7 / 25, -15 / 17, -20 / 29, -8 / 17, 3 / 5, 4 / 5, -24 / 25, -8 / 17].getD i 0, fun _ => 1⟩

def sphSt : LSt ℚ := hSt [4 / 5, 21 / 29, 15 / 17, 3 / 5, 20 / 29, 8 / 17]

theorem sphRoot_near (v : ℚ) (hv : 0 ≤ v) : 0 ≤ sphRoot v ∧ sphRoot v ^ 2 ≤ v ∧ v < (sphRoot v + 1 / 10 ^ 6) ^ 2 := by
  have hx : 0 ≤ v * 10 ^ 12 := by positivity
  generalize hX : v * 10 ^ 12 = x at hx
  have hve : v = x / 10 ^ 12 := by rw [← hX]; field_simp
  have hf0 : 0 ≤ x.floor := Rat.le_floor_iff.mpr (by simpa using hx)
  have hf1 : ((x.floor.toNat : Nat) : ℚ) ≤ x := by
    have h := Rat.floor_le (a := x)
    have e : ((x.floor.toNat : Nat) : ℚ) = ((x.floor : Int) : ℚ) := by
      rw [show ((x.floor.toNat : Nat) : ℚ) = (((x.floor.toNat : Nat) : Int) : ℚ) by push_cast; rfl, Int.toNat_of_nonneg hf0]
    rw [e]; exact h
  have hf2 : x < ((x.floor.toNat : Nat) : ℚ) + 1 := by
    have h := Rat.lt_floor_add_one x
    have e : ((x.floor.toNat : Nat) : ℚ) = ((x.floor : Int) : ℚ) := by
      rw [show ((x.floor.toNat : Nat) : ℚ) = (((x.floor.toNat : Nat) : Int) : ℚ) by push_cast; rfl, Int.toNat_of_nonneg hf0]
    rw [e]; exact_mod_cast h
  have h1 : ((Nat.sqrt x.floor.toNat : Nat) : ℚ) ^ 2 ≤ x.floor.toNat := by exact_mod_cast Nat.sqrt_le' x.floor.toNat
  have h2 : ((x.floor.toNat : Nat) : ℚ) + 1 ≤ ((Nat.sqrt x.floor.toNat : Nat) + 1 : ℚ) ^ 2 := by exact_mod_cast Nat.succ_le_succ_sqrt' x.floor.toNat
  unfold sphRoot
  rw [hX]
  refine ⟨by positivity, ?_, ?_⟩
  · rw [div_pow, hve]
    have : ((10 : ℚ) ^ 6) ^ 2 = 10 ^ 12 := by norm_num
    rw [this]
    exact div_le_div_of_nonneg_right (le_trans h1 hf1) (by positivity)
  · rw [← add_div, div_pow, hve]
    have : ((10 : ℚ) ^ 6) ^ 2 = 10 ^ 12 := by norm_num
    rw [this]
    exact div_lt_div_of_pos_right (lt_of_lt_of_le hf2 h2) (by positivity)

/-- **C92 violated**, spherical clustering: a run that ends because the labels stay, although sample 4 is nearer to the
centre 1 than to the centre 2 of its label. -/
theorem C92_nearest_violated : ¬ C92_nearest_statement := by
  intro h
  have h := h ℚ sphCfg ⟨by decide, by decide, fun w h => by cases h⟩ sphRoot_near (by decide) 1 10 (fun _ => hSched) hSched 0 sphSt
    (fun i h1 h2 => by simp only [sphCfg] at h1 h2; omega) (fun _ h => by omega) (fun h => by omega)
  have hw : (lloydPerformH sphCfg .split 1 10 (fun _ => hSched) hSched 0 sphSt).map (fun r =>
    decide ((∑ f ∈ Finset.range 2, sample sphCfg 4 f * r.1.cur (1 + f * 3)) ≤ ∑ f ∈ Finset.range 2, sample sphCfg 4 f * r.1.cur (r.1.curLab 4 + f * 3))) = some false := by decide +kernel
  cases hr : lloydPerformH sphCfg .split 1 10 (fun _ => hSched) hSched 0 sphSt with
  | none => rw [hr] at hw; cases hw
  | some r =>
    rw [hr] at hw
    exact of_decide_eq_false (Option.some.inj hw) ((h r hr 4 (by decide)).2 1 (by decide))

/-- Seven samples on a line in three clusters. -/
def elkCfg : Cfg ℚ := ⟨7, 3, 1, 1, 3, 7, false, false, none, Rat.sqrt, id, fun i => [90, 93, 100, 100, 100, 100, 50].getD i 0, fun _ => 1⟩

/-- One feature: the distance is the absolute difference. -/
theorem line_metric (c : Cfg ℚ) (h1 : c.nf = 1) (h2 : c.lda = 1) (h3 : c.spherical = false) (h4 : c.sqrt = Rat.sqrt) : Metric c fun _ => True := by
  have h1 : ∀ C i j, dS c C i j = |c.A i - C j| := fun C i j => by
    rw [dS_distTo, ← Rat.sqrt_eq]
    simp [distTo, h1, h2, h3, h4]
  have h2 : ∀ C a b, centreDist c C a b = |C a - C b| := fun C a b => by
    rw [← Rat.sqrt_eq]
    simp_all [centreDist, reduceScalar, sumTo_eq]
  have h3 : ∀ C C' j, shiftOf c C C' j = |C j - C' j| := fun C C' j => by
    rw [← Rat.sqrt_eq]
    simp_all [shiftOf, sumTo_eq]
  refine ⟨fun C _ i _ j _ => ?_, fun C _ i _ a _ b _ _ => ?_, fun C C' _ _ i _ j _ => ?_, fun _ _ => trivial⟩
  · rw [h1]; exact abs_nonneg _
  · rw [h1, h1, h2]
    have := abs_sub_le (C a) (c.A i) (C b)
    rw [abs_sub_comm (C a) (c.A i)] at this
    exact this
  · rw [h1, h1, h3]
    refine ⟨abs_sub_le _ _ _, ?_⟩
    have := abs_sub_le (c.A i) (C' j) (C j)
    rw [abs_sub_comm (C' j) (C j)] at this
    exact this

/-- **C92 violated**, Elkan's method: after a split the half distances of the centres before are used to skip
comparisons.  Sample 1 (93) gets the centre at 98.6 although there is a centre at 90. -/
theorem C92_elkan_violated : ¬ C92_elkan_statement := by
  intro h
  have h := h ℚ elkCfg (fun _ => True) ⟨by decide, by decide, by decide, by decide⟩ rfl (line_metric elkCfg rfl rfl rfl rfl) (by decide) 1000000 (by decide +kernel)
    (fun a => [97, 50, 1000].getD a 0) (fun _ => 0) 1 (List.range 7) badSt hSched 0 (List.Perm.refl _) (fun _ _ => trivial)
  have hw : (elkanPerformH elkCfg 1000000 .split (fun a => [97, 50, 1000].getD a 0) 1 1 (fun _ => 0) (List.range 7) (fun _ => hSched) hSched 0 badSt).map (fun r =>
    decide (distTo elkCfg r.1.cur 1 (r.1.curLab 1) ≤ distTo elkCfg r.1.cur 1 2)) = some false := by decide +kernel
  cases hr : elkanPerformH elkCfg 1000000 .split (fun a => [97, 50, 1000].getD a 0) 1 1 (fun _ => 0) (List.range 7) (fun _ => hSched) hSched 0 badSt with
  | none => rw [hr] at hw; cases hw
  | some r =>
    rw [hr] at hw
    exact of_decide_eq_false (Option.some.inj hw) ((h r hr 1 (by decide)).2 2 (by decide))

/-! #### What holds -/

/-- How a run ends. -/
theorem performH_end {S : Type} (iter : Nat → S → S) (step : S → S × Bool) (conv : Nat → S → Nat) (final : S → S) (s : S) (handle : S → Option (S × Bool)) (hh : ∀ s, handle s = some (step s))
    (maxIter : Nat) : ∃ r, performH iter handle conv final maxIter s = some r ∧
    ((r = (final (hStates iter step s maxIter), 0, maxIter) ∧ ∀ t < maxIter, hFlag iter step s t = true ∨ conv t (hStates iter step s (t + 1)) = 0) ∨
    ∃ t < maxIter, hFlag iter step s t = false ∧ r.2 = (conv t (hStates iter step s (t + 1)), t) ∧ 0 < conv t (hStates iter step s (t + 1)) ∧
      r.1 = (if conv t (hStates iter step s (t + 1)) = 1 then final (hStates iter step s (t + 1)) else hStates iter step s (t + 1)) ∧
      ∀ u < t, hFlag iter step s u = true ∨ conv u (hStates iter step s (u + 1)) = 0) := by
  obtain ⟨r, hr, h⟩ := loopH_end iter step conv s handle hh maxIter 0
  rw [show hStates iter step s 0 = s from rfl] at hr
  unfold performH
  rw [hr]
  refine ⟨_, rfl, ?_⟩
  rcases h with ⟨h1, h2⟩ | ⟨t, _, h2, h3, h4, h5, h6⟩
  · left
    rw [Nat.zero_add] at h1 h2
    subst h1
    exact ⟨if_pos (Or.inr rfl), fun t ht => h2 t (Nat.zero_le _) ht⟩
  · right
    rw [Nat.zero_add] at h2
    subst h4
    refine ⟨t, h2, h3, ?_, h5, ?_, fun u hu => h6 u (Nat.zero_le _) hu⟩
    · simp only
      split <;> rfl
    · simp only
      by_cases h1 : conv t (hStates iter step s (t + 1)) = 1
      · rw [if_pos (Or.inl h1), if_pos h1]
      · rw [if_neg (by omega), if_neg h1]

omit [IsStrictOrderedRing K] in
theorem conv_two_of (c : LCfg K) (bound : K) (t : Nat) (s : LSt K) (h1 : 1 < t) (h2 : ∀ i < c.n, s.curLab i = s.prevLab i) : convergenceTest c bound t s = 2 := by
  unfold convergenceTest
  rw [if_pos ⟨h1, List.all_eq_true.mpr fun i hi => beq_iff_eq.mpr (h2 i (List.mem_range.mp hi))⟩]

/-- **C92**, Lloyd's method with Euclidean distances and no more clusters than samples: the run does not fail, the labels
are nearest, and the centres are means of clusters that all have samples, namely of the labels given back if the run ends
because the labels stay.  Every number of threads, schedule, kernel, storage order and limit of iterations.  Missing from
`C92_nearest_statement`: spherical clustering, for which it is false (`C92_nearest_violated`); from `C92_full_statement`:
runs that end with the last labelling, for which it is false (`C92_full_violated`). -/
theorem C92_nearest_partial (c : LCfg K) (hc : LCfgOk c) (hsp : c.spherical = false) (hk : c.k ≤ c.n) (nThreads maxIter : Nat) (hm : 0 < maxIter) (sched : Nat → Sched) (last : Sched) (bound : K)
    (s : LSt K) (hp : Padded c s.workc1) (hs : ∀ t, nThreads > 1 → LSchedAny c nThreads (sched t)) (hl : nThreads > 1 → LSchedAny c nThreads last) :
    ∃ r, lloydPerformH c .split nThreads maxIter sched last bound s = some r ∧ LNearest c r.1.cur r.1.curLab ∧
      ∃ lab, (∀ i < c.n, lab i < c.k) ∧ (∀ a < c.k, ∃ i < c.n, lab i = a) ∧
        (∀ a < c.k, ∀ f < c.nf, r.1.cur (a + f * c.k) * ((lmembers c lab a).card : K) = ∑ i ∈ lmembers c lab a, sample c i f) ∧
        (r.2.1 = 2 → ∀ i < c.n, lab i = r.1.curLab i) := by
  have htr := hTrace c hc hsp hk nThreads sched hs s hp
  have hfin : ∀ t, LNearest c (lloydFinal c nThreads last (lStates c nThreads sched s t)).cur (lloydFinal c nThreads last (lStates c nThreads sched s t)).curLab ∧
      (lloydFinal c nThreads last (lStates c nThreads sched s t)).cur = (lStates c nThreads sched s t).cur := fun t => by
    have h := iteration_lloyd c hc nThreads last hl false (swapL (lStates c nThreads sched s t)) (htr.padded t)
    refine ⟨nearest_of c hc _ (lStates c nThreads sched s t).cur (fun a _ f _ => ?_) _ h.lab, h.kept rfl⟩
    exact congrFun (h.kept rfl) _
  have hmean : ∀ t, (∀ i < c.n, (lStates c nThreads sched s (t + 1)).curLab i < c.k) ∧ (∀ a < c.k, ∃ i < c.n, (lStates c nThreads sched s (t + 1)).curLab i = a) ∧
      ∀ a < c.k, ∀ f < c.nf, (lStates c nThreads sched s (t + 1)).cur (a + f * c.k) * ((lmembers c (lStates c nThreads sched s (t + 1)).curLab a).card : K) =
        ∑ i ∈ lmembers c (lStates c nThreads sched s (t + 1)).curLab a, sample c i f := fun t => by
    refine ⟨htr.lt t, fun a ha => ?_, fun a ha f hf => ?_⟩
    · obtain ⟨i, hi⟩ := htr.full t a ha
      obtain ⟨hi, hia⟩ := Finset.mem_filter.mp hi
      exact ⟨i, Finset.mem_range.mp hi, hia⟩
    · rw [htr.cur t a ha f hf]
      have hne := Finset.card_pos.mpr (htr.full t a ha)
      have hcard : (∑ i ∈ Finset.range c.n, if (lStates c nThreads sched s (t + 1)).curLab i = a then 1 else 0) = (lmembers c (lStates c nThreads sched s (t + 1)).curLab a).card := by
        rw [lmembers, Finset.card_filter]
      unfold centreOf
      simp only [centreOf_members, hcard]
      simp only [hsp, Bool.false_and, Bool.false_eq_true, if_false, mul_one]
      rw [show max 1 (lmembers c (lStates c nThreads sched s (t + 1)).curLab a).card = (lmembers c (lStates c nThreads sched s (t + 1)).curLab a).card by omega,
        mul_assoc, one_div_mul_cancel, mul_one]
      exact_mod_cast (by omega : (lmembers c (lStates c nThreads sched s (t + 1)).curLab a).card ≠ 0)
  obtain ⟨r, hr, h⟩ := performH_end (lIter c nThreads sched) (lSplit c) (convergenceTest c bound) (lloydFinal c nThreads last) s (lloydHandle c .split) (lHandle c) maxIter
  refine ⟨r, hr, ?_⟩
  rcases h with ⟨h1, _⟩ | ⟨t, ht, hf, h2, h3, h4, _⟩
  · rw [h1]
    obtain ⟨m, rfl⟩ : ∃ m, maxIter = m + 1 := ⟨maxIter - 1, by omega⟩
    refine ⟨(hfin _).1, _, (hmean m).1, (hmean m).2.1, ?_, (fun h => by cases h)⟩
    rw [show (lloydFinal c nThreads last (hStates (lIter c nThreads sched) (lSplit c) s (m + 1)), 0, m + 1).1.cur = _ from (hfin (m + 1)).2]
    exact (hmean m).2.2
  · change r.2 = (convergenceTest c bound t (lStates c nThreads sched s (t + 1)), t) at h2
    change 0 < convergenceTest c bound t (lStates c nThreads sched s (t + 1)) at h3
    change r.1 = if convergenceTest c bound t (lStates c nThreads sched s (t + 1)) = 1 then lloydFinal c nThreads last (lStates c nThreads sched s (t + 1)) else lStates c nThreads sched s (t + 1) at h4
    by_cases hone : convergenceTest c bound t (lStates c nThreads sched s (t + 1)) = 1
    · rw [if_pos hone] at h4
      rw [h4, h2, hone]
      refine ⟨(hfin _).1, _, (hmean t).1, (hmean t).2.1, ?_, (fun h => by cases h)⟩
      rw [(hfin (t + 1)).2]
      exact (hmean t).2.2
    · rw [if_neg hone] at h4
      have htwo : convergenceTest c bound t (lStates c nThreads sched s (t + 1)) = 2 := by
        rcases conv_cases c bound t (lStates c nThreads sched s (t + 1)) with h | h | h <;> omega
      rw [h4]
      refine ⟨?_, _, (hmean t).1, (hmean t).2.1, (hmean t).2.2, fun _ _ _ => rfl⟩
      obtain ⟨hgt, hsame⟩ := conv_two c bound t _ htwo
      obtain ⟨t', rfl⟩ : ∃ t', t = t' + 1 := ⟨t - 1, by omega⟩
      rw [htr.keep (t' + 1) hf]
      refine nearest_of c hc _ (lStates c nThreads sched s (t' + 1)).cur (fun a ha f hf => ?_) _ (htr.lab (t' + 1))
      rw [htr.cur (t' + 1) a ha f hf, htr.cur t' a ha f hf]
      exact centreOf_congr c (fun i hi => by rw [hsame i hi, htr.prevLab (t' + 1)]) a f

/-- From centres of which two get no sample: the run splits and ends by itself. -/
example : (lloydPerformH fullCfg .split 1 10 (fun _ => hSched) hSched 0 (hSt [0, 100, 200])).map (fun r => (List.range 4).map r.1.curLab ++ [r.2.1, r.2.2]) = some [1, 2, 0, 0, 2, 2] := by
  decide +kernel

example : ∃ r, lloydPerformH fullCfg .split 1 10 (fun _ => hSched) hSched 0 (hSt [0, 100, 200]) = some r ∧ LNearest fullCfg r.1.cur r.1.curLab := by
  obtain ⟨r, h1, h2, _⟩ := C92_nearest_partial fullCfg fullCfg_ok rfl (by decide) 1 10 (by decide) (fun _ => hSched) hSched 0 (hSt [0, 100, 200])
    (fun i h1 h2 => by simp only [fullCfg] at h1 h2; omega) (fun _ h => by omega) (fun h => by omega)
  exact ⟨r, h1, h2⟩

/-- **C92**, MacQueen's method, for right stored norms (see C90): the run does not fail, the labels are nearest, and if it
ends because the labels stay no cluster is empty.  Missing: other stored norms, for which it is false as in C90. -/
theorem C92_macqueen_partial (c : LCfg K) (hc : MCfgOk c) (hsp : c.spherical = false) (hk : c.k ≤ c.n) (maxIter : Nat) (bound : K) (s : MSt K) (hf : FirstNorms c s) :
    ∃ r, mqPerformH c .split maxIter bound s = some r ∧ LNearest c r.1.cur r.1.curLab ∧ (r.2.1 = 2 → ∀ a < c.k, ∃ i < c.n, r.1.curLab i = a) := by
  have htr := mTrace c hc hsp hk s hf
  have hnear : ∀ r : MSt K, MNorms c r → Settled c r → LNearest c r.cur r.curLab := fun r hn h i hi => by
    obtain ⟨h1, h2, _⟩ := closest_far c hc.1 hc.2.2.2 r (fun _ => hn) i hi
    rw [← h i hi] at h1 h2
    refine ⟨h1, fun b hb => ?_⟩
    have h3 := h2 b hb
    unfold far at h3
    rw [hsp] at h3 ⊢
    simpa using h3
  have hfin : ∀ t, LNearest c (mqFinal c (mStates c s t)).cur (mqFinal c (mStates c s t)).curLab := fun t => by
    obtain ⟨h1, h2, _, h3⟩ := final_spec c hc.1 (mStates c s t)
    refine hnear _ (fun a ha => by rw [h1, h2]; exact htr.norms t a ha) fun i hi => ?_
    rw [h1, h2]
    exact h3 i hi
  obtain ⟨r, hr, h⟩ := performH_end (mIter c) (mSplit c) (mqConv c bound) (mqFinal c) (mqInit c s) (mqHandle c .split) (mHandle c) maxIter
  refine ⟨r, hr, ?_⟩
  rcases h with ⟨h1, _⟩ | ⟨t, ht, hfl, h2, h3, h4, _⟩
  · rw [h1]
    exact ⟨hfin _, (fun h => by cases h)⟩
  · change r.2 = (mqConv c bound t (mStates c s (t + 1)), t) at h2
    change 0 < mqConv c bound t (mStates c s (t + 1)) at h3
    change r.1 = if mqConv c bound t (mStates c s (t + 1)) = 1 then mqFinal c (mStates c s (t + 1)) else mStates c s (t + 1) at h4
    by_cases hone : mqConv c bound t (mStates c s (t + 1)) = 1
    · rw [if_pos hone] at h4
      rw [h4, h2, hone]
      exact ⟨hfin _, (fun h => by cases h)⟩
    · rw [if_neg hone] at h4
      have htwo : mqConv c bound t (mStates c s (t + 1)) = 2 := by
        rcases mqConv_cases c bound t (mStates c s (t + 1)) with h | h | h <;> omega
      have hsame := ((mqConv_two c bound t _).mp htwo).2
      rw [h4]
      refine ⟨hnear _ (htr.norms (t + 1)) ?_, fun _ a ha => ?_⟩
      · rw [htr.keep t hfl]
        refine (unchanged_settled c hc.1 hc.2.2.1 _ (htr.inv t) fun i hi => ?_).2
        have := hsame i hi
        rw [htr.prevLab t, htr.keep t hfl] at this
        exact this
      · obtain ⟨i, hi⟩ := htr.full t a ha
        obtain ⟨hi, hia⟩ := Finset.mem_filter.mp hi
        exact ⟨i, Finset.mem_range.mp hi, hia⟩

/-- Initial centres that are means: the run ends by itself. -/
example : FirstNorms { mqCfg with bs := 1 } (mqSt [21 / 2, 3 / 2]) ∧
    (mqPerformH { mqCfg with bs := 1 } .split 10 0 (mqSt [21 / 2, 3 / 2])).map (fun r => (List.range 4).map r.1.curLab ++ [r.2.1, r.2.2]) = some [1, 1, 0, 0, 2, 2] :=
  ⟨fun _ => by decide +kernel, by decide +kernel⟩

/-! ### C93 -/

/-- **C93**, the inertia: in a run with splitting, the sum of squared distances of the samples to the centres of their
labels does not grow from one iteration to the next, and goes down in an iteration that splits if there are enough
different samples. -/
theorem C93_inertia (c : LCfg K) (hc : LCfgOk c) (hsp : c.spherical = false) (hk : c.k ≤ c.n) (nThreads : Nat) (sched : Nat → Sched) (s s' : LSt K) (hp : Padded c s.workc1)
    (hs : ∀ t, nThreads > 1 → LSchedAny c nThreads (sched t)) (lab : Nat → Nat) (hl : ∀ i < c.n, lab i < c.k) (t : Nat) (split : Bool)
    (h : lloydHandle c .split (lloydIteration c nThreads (sched t) true (swapL s)) = some (s', split)) :
    (∑ i ∈ Finset.range c.n, ∑ f ∈ Finset.range c.nf, (sample c i f - s'.cur (s'.curLab i + f * c.k)) ^ 2) ≤
      (∑ i ∈ Finset.range c.n, ∑ f ∈ Finset.range c.nf, (sample c i f - s.cur (lab i + f * c.k)) ^ 2) ∧
    (Varied c → split = true → (∑ i ∈ Finset.range c.n, ∑ f ∈ Finset.range c.nf, (sample c i f - s'.cur (s'.curLab i + f * c.k)) ^ 2) <
      ∑ i ∈ Finset.range c.n, ∑ f ∈ Finset.range c.nf, (sample c i f - s.cur (lab i + f * c.k)) ^ 2) := by
  have htr := hTrace c hc hsp hk nThreads (fun _ => sched t) (fun _ => hs t) s hp
  rw [lHandle] at h
  have h1 : lStates c nThreads (fun _ => sched t) s 1 = s' := congrArg Prod.fst (Option.some.inj h)
  have h2 : lFlag c nThreads (fun _ => sched t) s 0 = split := congrArg Prod.snd (Option.some.inj h)
  have e1 := h_within htr 0
  have e2 := htr.less 0
  have e3 := h_step hc hsp htr 0 lab hl
  rw [Nat.zero_add, h1] at e1
  rw [Nat.zero_add, h1] at e2
  change inertia c s'.cur s'.curLab ≤ inertia c s.cur lab ∧ (_ → _ → inertia c s'.cur s'.curLab < inertia c s.cur lab)
  rw [show lStates c nThreads (fun _ => sched t) s 0 = s from rfl] at e3
  refine ⟨by rw [e1]; exact le_trans e2 e3, fun hv hsplit => ?_⟩
  have e4 := htr.strict (varied_kinds c hv) 0 (by rw [h2, hsplit])
  rw [Nat.zero_add, h1] at e4
  rw [e1]
  exact lt_of_lt_of_le e4 e3

/-- From 442 with every sample in the first cluster to 1/2. -/
example : (lloydHandle fullCfg .split (lloydIteration fullCfg 1 hSched true (swapL (hSt [0, 100, 200])))).map (fun r => (r.2,
    (∑ i ∈ Finset.range 4, ∑ f ∈ Finset.range 1, (sample fullCfg i f - r.1.cur (r.1.curLab i + f * 3)) ^ 2))) = some (true, 1 / 2) ∧ Varied fullCfg := ⟨by decide +kernel, fullCfg_varied⟩

/-- **C93**: with Euclidean distances and no more clusters than samples, a run with splitting and a high limit of
iterations ends before the limit. -/
def C93_statement : Prop := ∀ (K : Type) [Field K] [LinearOrder K] [IsStrictOrderedRing K] (c : LCfg K), LCfgOk c → c.spherical = false → c.k ≤ c.n →
  ∀ (nThreads maxIter : Nat) (sched : Nat → Sched) (last : Sched) (bound : K) (s : LSt K), Padded c s.workc1 →
    (∀ t, nThreads > 1 → LSchedAny c nThreads (sched t)) → (nThreads > 1 → LSchedAny c nThreads last) → 2 < maxIter → c.k ^ c.n < maxIter →
      ∀ r, lloydPerformH c .split nThreads maxIter sched last bound s = some r → r.2.1 ≠ 0

/-- Two equal samples and two clusters. -/
def twinCfg : LCfg ℚ := ⟨2, 2, 1, 2, 2, 0, false, false, true, false, none, Rat.sqrt, fun _ => 3, fun _ => 1⟩

/-- **C93 violated**: with equal samples every iteration splits again, and an iteration that splits is never tested for
convergence, so the run always takes all iterations; it ends with an empty cluster. -/
theorem C93_violated : ¬ C93_statement := by
  intro h
  have h := h ℚ twinCfg ⟨by decide, by decide, fun w h => by cases h⟩ rfl (by decide) 1 5 (fun _ => hSched) hSched 1 (hSt [3, 3])
    (fun i h1 h2 => by simp only [twinCfg] at h1 h2; omega) (fun _ h => by omega) (fun h => by omega) (by decide) (by decide)
  have hw : (lloydPerformH twinCfg .split 1 5 (fun _ => hSched) hSched 1 (hSt [3, 3])).map (fun r => r.2) = some (0, 5) := by decide +kernel
  cases hr : lloydPerformH twinCfg .split 1 5 (fun _ => hSched) hSched 1 (hSt [3, 3]) with
  | none => rw [hr] at hw; cases hw
  | some r =>
    rw [hr] at hw
    have hw : r.2 = (0, 5) := Option.some.inj hw
    exact h r hr (by rw [hw])

/-- **C93**, with at least as many different samples as clusters: the run ends after at most `k ^ n` iterations (or two),
and because the labels stay if the tolerance is not positive.  Missing from `C93_statement`: fewer different samples than
clusters, for which it is false. -/
theorem C93_stops_partial (c : LCfg K) (hc : LCfgOk c) (hsp : c.spherical = false) (hv : Varied c) (nThreads maxIter : Nat) (sched : Nat → Sched) (last : Sched) (bound : K)
    (s : LSt K) (hp : Padded c s.workc1) (hs : ∀ t, nThreads > 1 → LSchedAny c nThreads (sched t)) (hm : 2 < maxIter ∧ c.k ^ c.n < maxIter) :
    ∃ r, lloydPerformH c .split nThreads maxIter sched last bound s = some r ∧
      r.2.2 ≤ max 2 (c.k ^ c.n) ∧ (r.2.1 = 1 ∨ r.2.1 = 2) ∧ ((∀ v, 0 ≤ c.sqrt v) → bound ≤ 0 → r.2.1 = 2) := by
  have hkk := varied_kinds c hv
  have hk : c.k ≤ c.n := le_trans hkk (kinds_le c)
  have htr := hTrace c hc hsp hk nThreads sched hs s hp
  obtain ⟨t0, ht0, hrep⟩ := h_repeat hc hsp hkk htr
  have htest : ∀ u, 1 ≤ u → t0 ≤ u → lFlag c nThreads sched s (u + 1) = false ∧ convergenceTest c bound (u + 1) (lStates c nThreads sched s (u + 2)) = 2 := fun u h1 h2 =>
    ⟨(hrep u h2).1, conv_two_of c bound (u + 1) _ (by omega) fun i hi => by rw [htr.prevLab (u + 1)]; exact (hrep u h2).2 i hi⟩
  obtain ⟨r, hr, h⟩ := performH_end (lIter c nThreads sched) (lSplit c) (convergenceTest c bound) (lloydFinal c nThreads last) s (lloydHandle c .split) (lHandle c) maxIter
  refine ⟨r, hr, ?_⟩
  have hT := htest (max 1 t0) (by omega) (by omega)
  rcases h with ⟨_, h1⟩ | ⟨t, ht, hf, h2, h3, h4, h5⟩
  · rcases h1 (max 1 t0 + 1) (by omega) with h | h
    · rw [show hFlag _ _ _ _ = lFlag c nThreads sched s (max 1 t0 + 1) from rfl, hT.1] at h
      cases h
    · rw [show convergenceTest c bound (max 1 t0 + 1) (hStates (lIter c nThreads sched) (lSplit c) s (max 1 t0 + 1 + 1)) = _ from hT.2] at h
      cases h
  · have hle : t ≤ max 1 t0 + 1 := by
      by_contra hgt
      rcases h5 (max 1 t0 + 1) (by omega) with h | h
      · rw [show hFlag _ _ _ _ = lFlag c nThreads sched s (max 1 t0 + 1) from rfl, hT.1] at h
        cases h
      · rw [show convergenceTest c bound (max 1 t0 + 1) (hStates (lIter c nThreads sched) (lSplit c) s (max 1 t0 + 1 + 1)) = _ from hT.2] at h
        cases h
    have hcases := conv_cases c bound t (hStates (lIter c nThreads sched) (lSplit c) s (t + 1))
    rw [h2]
    refine ⟨by simp only; omega, by simp only; omega, fun hsq hb => ?_⟩
    simp only
    rcases hcases with h | h | h
    · omega
    · exfalso
      unfold convergenceTest at h
      split at h
      · omega
      · split at h
        · rename_i hlt
          exact absurd (lt_of_lt_of_le hlt hb) (not_lt.mpr (hsq _))
        · omega
    · exact h

example : (lloydPerformH { fullCfg with n := 3 } .split 1 28 (fun _ => hSched) hSched 0 (hSt [0, 100, 200])).map (fun r => r.2) = some (2, 2) := by decide +kernel

/-! ### C94 -/

/-- **C94**: with `error`, every cluster given back has a sample. -/
def C94_statement : Prop := ∀ (K : Type) [Field K] [LinearOrder K] [IsStrictOrderedRing K] (c : LCfg K), LCfgOk c → c.spherical = false →
  ∀ (nThreads maxIter : Nat) (sched : Nat → Sched) (last : Sched) (bound : K) (s : LSt K), Padded c s.workc1 →
    (∀ t, nThreads > 1 → LSchedAny c nThreads (sched t)) → (nThreads > 1 → LSchedAny c nThreads last) →
      ∀ r, lloydPerformH c .error nThreads maxIter sched last bound s = some r → ∀ a < c.k, ∃ i < c.n, r.1.curLab i = a

/-- **C94 violated**: the last labelling is not looked at. -/
theorem C94_violated : ¬ C94_statement := by
  intro h
  have h := h ℚ fullCfg fullCfg_ok rfl 1 1 (fun _ => hSched) hSched 0 (hSt [-43 / 2, 0, 43 / 2])
    (fun i h1 h2 => by simp only [fullCfg] at h1 h2; omega) (fun _ h => by omega) (fun h => by omega)
  have hw : (lloydPerformH fullCfg .error 1 1 (fun _ => hSched) hSched 0 (hSt [-43 / 2, 0, 43 / 2])).map (fun r => (List.range 4).map r.1.curLab) = some [0, 0, 2, 2] := by decide +kernel
  cases hr : lloydPerformH fullCfg .error 1 1 (fun _ => hSched) hSched 0 (hSt [-43 / 2, 0, 43 / 2]) with
  | none => rw [hr] at hw; cases hw
  | some r =>
    rw [hr] at hw
    obtain ⟨i, hi, he⟩ := h r hr 1 (by decide)
    have hw : (List.range 4).map r.1.curLab = [0, 0, 2, 2] := Option.some.inj hw
    change i < 4 at hi
    have : ((List.range 4).map r.1.curLab)[i]? = some 1 := by
      rw [List.getElem?_map, List.getElem?_range hi, Option.map_some, he]
    rw [hw] at this
    interval_cases i <;> simp at this

omit [IsStrictOrderedRing K] in
theorem lloyd_bad (c : LCfg K) (s : LSt K) (h : HasEmpty c s.curLab) : lloydHandle c .error s = none := handle_bad c false _ _ _ s _ h

omit [IsStrictOrderedRing K] in
theorem lloyd_good (c : LCfg K) (hd : Handling) (s : LSt K) (h : ¬ HasEmpty c s.curLab) : lloydHandle c hd s = some (s, false) :=
  handle_good c false hd _ _ _ s _ (fun _ => by simp) h

omit [IsStrictOrderedRing K] in
/-- **C94**, exactly, for every distance: the run fails if some iteration before the end leaves a cluster without a
sample, and otherwise it is the run without handling; no iteration up to the end left an empty cluster then.  Missing from
`C94_statement`: the last labelling. -/
theorem C94_error_partial (c : LCfg K) (nThreads maxIter : Nat) (sched : Nat → Sched) (last : Sched) (bound : K) (s : LSt K) :
    (lloydPerformH c .error nThreads maxIter sched last bound s = none ∧
      ∃ t < maxIter, (∃ a < c.k, ∀ i < c.n, (states c nThreads sched s (t + 1)).curLab i ≠ a) ∧ ∀ u < t, convergenceTest c bound u (states c nThreads sched s (u + 1)) = 0) ∨
    (lloydPerformH c .error nThreads maxIter sched last bound s = some (lloydPerform c nThreads maxIter sched last bound s) ∧
      ∀ t < maxIter, (∀ u < t, convergenceTest c bound u (states c nThreads sched s (u + 1)) = 0) → ∀ a < c.k, ∃ i < c.n, (states c nThreads sched s (t + 1)).curLab i = a) := by
  have h := loopH_error (lIter c nThreads sched) (convergenceTest c bound) (lloydHandle c .error) (fun s => HasEmpty c s.curLab) (lloyd_bad c) (lloyd_good c .error)
    (lloydLoop c nThreads sched bound) (fun _ _ => rfl) (fun _ _ _ => rfl) (states c nThreads sched s) (fun _ => rfl) maxIter 0
  rw [show states c nThreads sched s 0 = s from rfl] at h
  have hex : ∀ lab : Nat → Nat, HasEmpty c lab ↔ ∃ a < c.k, ∀ i < c.n, lab i ≠ a := fun lab =>
    exists_congr fun a => and_congr_right fun _ => by
      rw [lmembers, Finset.filter_eq_empty_iff]
      exact forall_congr' fun i => by rw [Finset.mem_range]
  rcases h with ⟨h1, t, _, h2, h3, h4⟩ | ⟨h1, h2⟩
  · refine Or.inl ⟨?_, t, by omega, (hex _).mp h3, fun u hu => (h4 u (Nat.zero_le _) hu).2⟩
    change performH (lIter c nThreads sched) (lloydHandle c .error) (convergenceTest c bound) (lloydFinal c nThreads last) maxIter s = _
    unfold performH
    rw [h1]
  · refine Or.inr ⟨?_, fun t ht h3 a ha => ?_⟩
    · change performH (lIter c nThreads sched) (lloydHandle c .error) (convergenceTest c bound) (lloydFinal c nThreads last) maxIter s = _
      unfold performH
      rw [h1]
      rfl
    · have := h2 t (Nat.zero_le _) (by omega) fun u _ hu => h3 u hu
      rw [hex] at this
      push Not at this
      exact this a ha

example : (lloydPerformH fullCfg .error 1 10 (fun _ => hSched) hSched 0 (hSt [0, 100, 200])).isNone = true ∧
    (lloydPerformH fullCfg .error 1 10 (fun _ => hSched) hSched 0 (hSt [-11, -10, 10])).map (fun r => (List.range 4).map r.1.curLab ++ [r.2.1, r.2.2]) = some [0, 1, 2, 2, 2, 2] := by decide +kernel

omit [IsStrictOrderedRing K] in
/-- With `ignore` nothing is done. -/
theorem loopH_ignore {S : Type} (iter : Nat → S → S) (conv : Nat → S → Nat) (handle : S → Option (S × Bool)) (hh : ∀ s, handle s = some (s, false))
    (plain : Nat → Nat → S → S × Nat × Nat) (hp0 : ∀ it s, plain 0 it s = (s, 0, it))
    (hp1 : ∀ fuel it s, plain (fuel + 1) it s = if conv it (iter it s) > 0 then (iter it s, conv it (iter it s), it) else plain fuel (it + 1) (iter it s)) :
    ∀ fuel it s, loopH iter handle conv fuel it s = some (plain fuel it s) := by
  intro fuel
  induction fuel with
  | zero => intro it s; rw [hp0]; rfl
  | succ fuel ih =>
    intro it s
    unfold loopH
    rw [hp1, hh]
    simp only
    split
    · rfl
    · exact ih _ _

omit [IsStrictOrderedRing K] in
/-- **C94**, `ignore`: Lloyd's and MacQueen's runs are those without handling, for which C87, C88 and C90 are stated. -/
theorem C94_ignore (c : LCfg K) (nThreads maxIter : Nat) (sched : Nat → Sched) (last : Sched) (bound : K) (s : LSt K) (m : MSt K) :
    lloydPerformH c .ignore nThreads maxIter sched last bound s = some (lloydPerform c nThreads maxIter sched last bound s) ∧
    mqPerformH c .ignore maxIter bound m = some (mqPerform c maxIter bound m) := by
  constructor
  · unfold lloydPerformH performH
    rw [loopH_ignore _ _ (lloydHandle c .ignore) (fun _ => rfl) (lloydLoop c nThreads sched bound) (fun _ _ => rfl) (fun _ _ _ => rfl)]
    rfl
  · unfold mqPerformH performH
    rw [loopH_ignore _ _ (mqHandle c .ignore) (fun _ => rfl) (mqLoop c bound) (fun _ _ => rfl) (fun _ _ _ => rfl)]
    rfl

example : (mqPerformH mqCfg .ignore 10 0 (mqSt [10, 1])).map (fun r => (List.range 4).map r.1.curLab) = some [1, 1, 1, 1] ∧
    (lloydPerformH fullCfg .ignore 1 10 (fun _ => hSched) hSched 0 (hSt [0, 100, 200])).map (fun r => (List.range 4).map r.1.curLab) = some [0, 0, 0, 0] := by decide +kernel

omit [IsStrictOrderedRing K] in
/-- **C94**, the same for MacQueen's method. -/
theorem C94_macqueen_partial (c : LCfg K) (maxIter : Nat) (bound : K) (s : MSt K) :
    (mqPerformH c .error maxIter bound s = none ∧
      ∃ t < maxIter, (∃ a < c.k, ∀ i < c.n, (mqStates c s (t + 1)).curLab i ≠ a) ∧ ∀ u < t, mqConv c bound u (mqStates c s (u + 1)) = 0) ∨
    (mqPerformH c .error maxIter bound s = some (mqPerform c maxIter bound s) ∧
      ∀ t < maxIter, (∀ u < t, mqConv c bound u (mqStates c s (u + 1)) = 0) → ∀ a < c.k, ∃ i < c.n, (mqStates c s (t + 1)).curLab i = a) := by
  have h := loopH_error (mIter c) (mqConv c bound) (mqHandle c .error) (fun s => HasEmpty c s.curLab) (fun s h => handle_bad c false _ _ _ s _ h)
    (fun s h => handle_good c false .error _ _ _ s _ (fun _ => by simp) h)
    (mqLoop c bound) (fun _ _ => rfl) (fun _ _ _ => rfl) (mqStates c s) (fun _ => rfl) maxIter 0
  rw [show mqStates c s 0 = mqInit c s from rfl] at h
  have hex : ∀ lab : Nat → Nat, HasEmpty c lab ↔ ∃ a < c.k, ∀ i < c.n, lab i ≠ a := fun lab =>
    exists_congr fun a => and_congr_right fun _ => by
      rw [lmembers, Finset.filter_eq_empty_iff]
      exact forall_congr' fun i => by rw [Finset.mem_range]
  rcases h with ⟨h1, t, _, h2, h3, h4⟩ | ⟨h1, h2⟩
  · refine Or.inl ⟨?_, t, by omega, (hex _).mp h3, fun u hu => (h4 u (Nat.zero_le _) hu).2⟩
    change performH (mIter c) (mqHandle c .error) (mqConv c bound) (mqFinal c) maxIter (mqInit c s) = _
    unfold performH
    rw [h1]
  · refine Or.inr ⟨?_, fun t ht h3 a ha => ?_⟩
    · change performH (mIter c) (mqHandle c .error) (mqConv c bound) (mqFinal c) maxIter (mqInit c s) = _
      unfold performH
      rw [h1]
      rfl
    · have := h2 t (Nat.zero_le _) (by omega) fun u _ hu => h3 u hu
      rw [hex] at this
      push Not at this
      exact this a ha

example : (mqPerformH mqCfg .error 10 0 (mqSt [10, 1])).isNone = true ∧
    (mqPerformH { mqCfg with bs := 1 } .error 10 0 (mqSt [21 / 2, 3 / 2])).map (fun r => (List.range 4).map r.1.curLab) = some [1, 1, 0, 0] := by decide +kernel

end Verif.Kmeans
