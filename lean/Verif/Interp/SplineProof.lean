import Verif.Interp.Spline
import Mathlib.Algebra.Order.Field.Basic
import Mathlib.Algebra.Field.Basic
import Mathlib.Tactic.FieldSimp
import Mathlib.Tactic.Ring
import Mathlib.Tactic.LinearCombination
import Mathlib.Tactic.NormNum
import Mathlib.Data.List.Induction

/-
Lemmas on the arrays of the cubic splines.
-/
namespace Verif.Interp

/-! ### Arrays -/

theorem store_get {α : Type} (a : Nat → α) (l : List (Nat × α)) (k : Nat) (v : α) (hm : (k, v) ∈ l)
    (hu : ∀ v', (k, v') ∈ l → v' = v) : store a l k = v := by
  induction l using List.reverseRecOn with
  | nil => cases hm
  | append_singleton l q ih =>
    unfold store at ih ⊢
    rw [List.foldl_append]
    simp only [List.foldl_cons, List.foldl_nil]
    split
    · rename_i h
      exact hu q.2 (by rw [h]; simp)
    · rename_i h
      rw [List.mem_append, List.mem_singleton] at hm
      rcases hm with hm | hm
      · exact ih hm fun v' hv => hu v' (List.mem_append_left _ hv)
      · exact absurd (by rw [← hm]) h

theorem store_other {α : Type} (a : Nat → α) (l : List (Nat × α)) (k : Nat) (hu : ∀ v', (k, v') ∉ l) :
    store a l k = a k := by
  induction l using List.reverseRecOn with
  | nil => rfl
  | append_singleton l q ih =>
    unfold store at ih ⊢
    rw [List.foldl_append]
    simp only [List.foldl_cons, List.foldl_nil]
    split
    · rename_i h
      exact absurd (by rw [h]; simp) (hu q.2)
    · exact ih fun v' hv => hu v' (List.mem_append_left _ hv)

theorem mem_loop2 {α : Type} {n m : Nat} {f : Nat → Nat → α} {q : α} :
    q ∈ loop2 n m f ↔ ∃ i, i < n ∧ ∃ j, j < m ∧ f i j = q := by
  simp [loop2]

theorem idx_inj {m d i d' i' : Nat} (h : d * m + i = d' * m + i') (hi : i < m) (hi' : i' < m) :
    d = d' ∧ i = i' := by
  have h1 : (d * m + i) / m = d := by
    rw [Nat.add_comm, Nat.add_mul_div_right _ _ (by omega), Nat.div_eq_of_lt hi]; omega
  have h2 : (d' * m + i') / m = d' := by
    rw [Nat.add_comm, Nat.add_mul_div_right _ _ (by omega), Nat.div_eq_of_lt hi']; omega
  have h3 : d = d' := by rw [← h1, ← h2, h]
  subst h3
  exact ⟨rfl, by omega⟩

variable {F : Type} [Field F]

/-- The value for dimension `d` and site `i`. -/
def yAt (rowMajor : Bool) (n dim : Nat) (y : Nat → F) (d i : Nat) : F :=
  y (if rowMajor then i * dim + d else d * n + i)

theorem setDy_get (rowMajor : Bool) (n dim : Nat) (y : Nat → F) (d i : Nat) (hd : d < dim) (hi : i + 1 < n) :
    setDy rowMajor n dim y (d * (n - 1) + i) =
      yAt rowMajor n dim y d (i + 1) - yAt rowMajor n dim y d i := by
  unfold setDy yAt
  cases rowMajor
  · simp only [Bool.false_eq_true, if_false]
    refine store_get _ _ _ _ (mem_loop2.2 ⟨d, hd, i, by omega, ?_⟩) ?_
    · rw [Nat.add_assoc]
    · intro v' hv
      obtain ⟨d', _, i', h2, e⟩ := mem_loop2.1 hv
      simp only [Prod.mk.injEq] at e
      obtain ⟨rfl, rfl⟩ := idx_inj e.1 (by omega) (by omega)
      rw [← e.2, Nat.add_assoc]
  · simp only [if_true]
    refine store_get _ _ _ _ (mem_loop2.2 ⟨i, by omega, d, hd, rfl⟩) ?_
    intro v' hv
    obtain ⟨i', h2, d', _, e⟩ := mem_loop2.1 hv
    simp only [Prod.mk.injEq] at e
    obtain ⟨rfl, rfl⟩ := idx_inj e.1 (by omega) (by omega)
    exact e.2.symm

omit [Field F] in
/-- Four entries for every dimension and cell. -/
theorem store4 (a : Nat → F) (dim m : Nat) (L : List (Nat × F)) (g : Nat → Nat → Nat → F)
    (hL : ∀ q, q ∈ L ↔ ∃ d, d < dim ∧ ∃ i, i < m ∧ ∃ k, k < 4 ∧ q = (4 * (d * m + i) + k, g d i k))
    {d i k : Nat} (hd : d < dim) (hi : i < m) (hk : k < 4) : store a L (4 * (d * m + i) + k) = g d i k := by
  refine store_get _ _ _ _ ((hL _).2 ⟨d, hd, i, hi, k, hk, rfl⟩) ?_
  intro v' hv
  obtain ⟨d', _, i', hi', k', hk', e⟩ := (hL _).1 hv
  simp only [Prod.mk.injEq] at e
  obtain ⟨e1, e2⟩ := e
  have h1 : k = k' := by omega
  have h2 : d * m + i = d' * m + i' := by omega
  obtain ⟨rfl, rfl⟩ := idx_inj h2 hi hi'
  rw [e2, h1]

omit [Field F] in
theorem mem_four (f : Nat → Nat × F) (q : Nat × F) (l : List (Nat × F))
    (hl : q ∈ l ↔ q = f 0 ∨ q = f 1 ∨ q = f 2 ∨ q = f 3) : q ∈ l ↔ ∃ k, k < 4 ∧ q = f k := by
  rw [hl]
  constructor
  · rintro (h | h | h | h)
    · exact ⟨0, by omega, h⟩
    · exact ⟨1, by omega, h⟩
    · exact ⟨2, by omega, h⟩
    · exact ⟨3, by omega, h⟩
  · rintro ⟨k, hk, h⟩
    match k, hk with
    | 0, _ => exact Or.inl h
    | 1, _ => exact Or.inr (Or.inl h)
    | 2, _ => exact Or.inr (Or.inr (Or.inl h))
    | 3, _ => exact Or.inr (Or.inr (Or.inr h))

/-- Entry `k` of the coefficients of a cell from the second derivatives. -/
def zCoef (rowMajor : Bool) (n dim : Nat) (dx y dy z : Nat → F) (d i k : Nat) : F :=
  match k with
  | 0 => yAt rowMajor n dim y d i
  | 1 => dy (d * (n - 1) + i) / dx i - dx i * z (d * n + i + 1) / 6 - dx i * z (d * n + i) / 3
  | 2 => z (d * n + i) / 2
  | _ => (z (d * n + i + 1) - z (d * n + i)) / (6 * dx i)

theorem idx4 (d m i : Nat) : d * 4 * m + 4 * i = 4 * (d * m + i) := by
  rw [Nat.mul_add, show d * 4 = 4 * d by omega, Nat.mul_assoc]

theorem coeffsFromZ_get (rowMajor : Bool) (n dim : Nat) (dx y dy z : Nat → F) {d i k : Nat} (hd : d < dim)
    (hi : i + 1 < n) (hk : k < 4) : coeffsFromZ rowMajor n dim dx y dy z (4 * (d * (n - 1) + i) + k) =
      zCoef rowMajor n dim dx y dy z d i k := by
  unfold coeffsFromZ
  refine store4 _ dim (n - 1) _ (zCoef rowMajor n dim dx y dy z) ?_ hd (by omega) hk
  intro q
  rw [List.mem_flatten]
  constructor
  · rintro ⟨l, hl, hq⟩
    obtain ⟨d, hd, i, hi, rfl⟩ := mem_loop2.1 hl
    refine ⟨d, hd, i, hi, (mem_four _ q _ ?_).1 hq⟩
    simp only [List.mem_cons, List.not_mem_nil, or_false, idx4, zCoef, yAt]
    tauto
  · rintro ⟨d, hd, i, hi, hq⟩
    refine ⟨_, mem_loop2.2 ⟨d, hd, i, hi, rfl⟩, (mem_four _ q _ ?_).2 hq⟩
    simp only [List.mem_cons, List.not_mem_nil, or_false, idx4, zCoef, yAt]
    tauto

/-- Entry `k` of the Hermite coefficients of a cell. -/
def hCoef (rowMajor : Bool) (n dim : Nat) (dx y yd dy : Nat → F) (d i k : Nat) : F :=
  match k with
  | 0 => yAt rowMajor n dim y d i
  | 1 => yAt rowMajor n dim yd d i
  | 2 => 3 * dy (d * (n - 1) + i) / (dx i * dx i) - (2 * yAt rowMajor n dim yd d i + yAt rowMajor n dim yd d (i + 1)) / dx i
  | _ => -2 * dy (d * (n - 1) + i) / (dx i * dx i * dx i) +
      (yAt rowMajor n dim yd d i + yAt rowMajor n dim yd d (i + 1)) / (dx i * dx i)

theorem hermite_get (rowMajor : Bool) (n dim : Nat) (dx y yd dy : Nat → F) {d i k : Nat} (hd : d < dim)
    (hi : i + 1 < n) (hk : k < 4) : hermite rowMajor n dim dx y yd dy (4 * (d * (n - 1) + i) + k) =
      hCoef rowMajor n dim dx y yd dy d i k := by
  unfold hermite
  have e3 : ∀ d i, i * 4 + 4 * d * (n - 1) = 4 * (d * (n - 1) + i) := by
    intro d i
    rw [Nat.mul_add, Nat.mul_assoc]; omega
  split
  · rename_i h
    refine store4 _ dim (n - 1) _ (hCoef rowMajor n dim dx y yd dy) ?_ hd (by omega) hk
    have hy : ∀ (y : Nat → F) d i, d < dim → yAt rowMajor n dim y d i = y (d * n + i) := by
      intro y d i hd
      unfold yAt
      cases rowMajor
      · rfl
      · simp only [Bool.not_true, Bool.false_or, decide_eq_true_eq] at h
        have h1 : dim = 1 := by omega
        have h0 : d = 0 := by omega
        rw [h1, h0]
        simp
    intro q
    rw [List.mem_flatten]
    constructor
    · rintro ⟨l, hl, hq⟩
      obtain ⟨d, hd, i, hi, rfl⟩ := mem_loop2.1 hl
      refine ⟨d, hd, i, hi, (mem_four _ q _ ?_).1 hq⟩
      simp only [List.mem_cons, List.not_mem_nil, or_false, idx4, hCoef, hy _ d _ hd, Nat.add_assoc]
    · rintro ⟨d, hd, i, hi, hq⟩
      refine ⟨_, mem_loop2.2 ⟨d, hd, i, hi, rfl⟩, (mem_four _ q _ ?_).2 hq⟩
      simp only [List.mem_cons, List.not_mem_nil, or_false, idx4, hCoef, hy _ d _ hd, Nat.add_assoc]
  · rename_i h
    have hr : rowMajor = true := by cases rowMajor <;> simp_all
    subst hr
    refine store4 _ dim (n - 1) _ (hCoef true n dim dx y yd dy) ?_ hd (by omega) hk
    have hy : ∀ (y : Nat → F) d i, yAt true n dim y d i = y (i * dim + d) := fun y d i => rfl
    have e4 : ∀ i d, (i + 1) * dim + d = i * dim + dim + d := fun i d => by rw [Nat.succ_mul]
    intro q
    rw [List.mem_flatten]
    constructor
    · rintro ⟨l, hl, hq⟩
      obtain ⟨i, hi, d, hd, rfl⟩ := mem_loop2.1 hl
      refine ⟨d, hd, i, hi, (mem_four _ q _ ?_).1 hq⟩
      simp only [List.mem_cons, List.not_mem_nil, or_false, e3, hCoef, hy, e4]
    · rintro ⟨d, hd, i, hi, hq⟩
      refine ⟨_, mem_loop2.2 ⟨i, hi, d, hd, rfl⟩, (mem_four _ q _ ?_).2 hq⟩
      simp only [List.mem_cons, List.not_mem_nil, or_false, e3, hCoef, hy, e4]

/-! ### The systems -/

/-- The contract of `gtsv`: a result solves every system and leaves the other entries. -/
def Gtsv (gtsv : Solver F) : Prop :=
  ∀ neq nrhs dl d du b ldb z, gtsv neq nrhs dl d du b ldb = some z →
    (∀ c, c < nrhs → ∀ i, i < neq →
      (if 0 < i then dl (i - 1) * z (c * ldb + i - 1) else 0) + d i * z (c * ldb + i) +
        (if i + 1 < neq then du i * z (c * ldb + i + 1) else 0) = b (c * ldb + i)) ∧
    ∀ k, (∀ c, c < nrhs → ∀ i, i < neq → k ≠ c * ldb + i) → z k = b k

theorem initSystem_diag (uniform : Bool) (n dim : Nat) (dx dy : Nat → F) (s : Sys F)
    (hu : uniform = true → ∀ i, i + 1 < n → dx i = dx 0) (i : Nat) (h0 : 0 < i) (hi : i + 1 < n) :
    (initSystem uniform n dim dx dy s).diag i = 2 * (dx (i - 1) + dx i) := by
  unfold initSystem
  have hv : (if uniform then 4 * dx 0 else 2 * (dx (i - 1) + dx i)) = 2 * (dx (i - 1) + dx i) := by
    cases uniform
    · rfl
    · simp only [if_true]
      rw [hu rfl i hi, hu rfl (i - 1) (by omega)]
      ring
  rw [← hv]
  refine store_get _ _ _ _ (List.mem_map.2 ⟨i, List.mem_range'_1.2 (by omega), rfl⟩) ?_
  intro v' hv
  obtain ⟨j, _, e⟩ := List.mem_map.1 hv
  simp only [Prod.mk.injEq] at e
  obtain ⟨rfl, e2⟩ := e
  exact e2.symm

theorem initSystem_up (uniform : Bool) (n dim : Nat) (dx dy : Nat → F) (s : Sys F)
    (hu : uniform = true → ∀ i, i + 1 < n → dx i = dx 0) (i : Nat) (hi : i + 1 < n) :
    (initSystem uniform n dim dx dy s).up i = dx i ∧ (initSystem uniform n dim dx dy s).lo i = dx i := by
  unfold initSystem
  have hv : (if uniform then dx 0 else dx i) = dx i := by
    cases uniform
    · rfl
    · simp only [if_true]; exact (hu rfl i hi).symm
  constructor
  all_goals
    rw [← hv]
    refine store_get _ _ _ _ (List.mem_map.2 ⟨i, List.mem_range.2 (by omega), rfl⟩) ?_
    intro v' hv
    obtain ⟨j, _, e⟩ := List.mem_map.1 hv
    simp only [Prod.mk.injEq] at e
    obtain ⟨rfl, e2⟩ := e
    exact e2.symm

theorem initSystem_z (uniform : Bool) (n dim : Nat) (dx dy : Nat → F) (s : Sys F) (d i : Nat) (hd : d < dim)
    (hi : i + 2 < n) : (initSystem uniform n dim dx dy s).z (d * n + (i + 1)) =
      6 * dy (d * (n - 1) + (i + 1)) / dx (i + 1) - 6 * dy (d * (n - 1) + i) / dx i := by
  unfold initSystem
  refine store_get _ _ _ _ (mem_loop2.2 ⟨d, hd, i, by omega, ?_⟩) ?_
  · rfl
  · intro v' hv
    obtain ⟨d', _, i', h2, e⟩ := mem_loop2.1 hv
    simp only [Prod.mk.injEq] at e
    obtain ⟨rfl, h3⟩ := idx_inj e.1 (by omega) (by omega)
    have : i' = i := by omega
    subst this
    exact e.2.symm

/-- The right-hand sides after the two boundary values of every dimension. -/
def ends (n dim : Nat) (l r : Nat → F) : List (Nat × F) :=
  ((List.range dim).map fun d => [(d * n, l d), (d * n + n - 1, r d)]).flatten

omit [Field F] in
theorem mem_ends {n dim : Nat} {l r : Nat → F} {q : Nat × F} :
    q ∈ ends n dim l r ↔ ∃ d, d < dim ∧ (q = (d * n, l d) ∨ q = (d * n + n - 1, r d)) := by
  simp [ends]

omit [Field F] in
theorem ends_get (a : Nat → F) (n dim : Nat) (hn : 2 ≤ n) (l r : Nat → F) (d : Nat) (hd : d < dim) :
    store a (ends n dim l r) (d * n) = l d ∧ store a (ends n dim l r) (d * n + (n - 1)) = r d ∧
    ∀ i, 0 < i → i + 1 < n → store a (ends n dim l r) (d * n + i) = a (d * n + i) := by
  refine ⟨store_get _ _ _ _ (mem_ends.2 ⟨d, hd, Or.inl rfl⟩) ?_,
    store_get _ _ _ _ (mem_ends.2 ⟨d, hd, Or.inr (by rw [Nat.add_sub_assoc (by omega)])⟩) ?_, fun i h1 h2 => store_other _ _ _ ?_⟩
  · intro v' hv
    obtain ⟨d', _, e | e⟩ := mem_ends.1 hv <;> simp only [Prod.mk.injEq] at e
    · have := (idx_inj (i := 0) (i' := 0) (show d * n + 0 = d' * n + 0 by omega) (by omega) (by omega)).1
      rw [e.2, this]
    · rw [Nat.add_sub_assoc (by omega)] at e
      have := (idx_inj (i := 0) (i' := n - 1) (show d * n + 0 = d' * n + (n - 1) by omega) (by omega) (by omega)).2
      omega
  · intro v' hv
    obtain ⟨d', _, e | e⟩ := mem_ends.1 hv <;> simp only [Prod.mk.injEq] at e
    · have := (idx_inj (i := n - 1) (i' := 0) (show d * n + (n - 1) = d' * n + 0 by omega) (by omega) (by omega)).2
      omega
    · rw [Nat.add_sub_assoc (by omega)] at e
      have := (idx_inj e.1 (by omega) (by omega)).1
      rw [e.2, this]
  · intro v' hv
    obtain ⟨d', _, e | e⟩ := mem_ends.1 hv <;> simp only [Prod.mk.injEq] at e
    · have := (idx_inj (i := i) (i' := 0) (show d * n + i = d' * n + 0 by omega) (by omega) (by omega)).2
      omega
    · rw [Nat.add_sub_assoc (by omega)] at e
      have := (idx_inj e.1 (by omega) (by omega)).2
      omega

/-- The interior equations of the second derivatives `z`, for dimension `d`. -/
def Interior (n : Nat) (dx dy z : Nat → F) (d : Nat) : Prop :=
  ∀ i, i + 2 < n → dx i * z (d * n + i) + 2 * (dx i + dx (i + 1)) * z (d * n + i + 1) + dx (i + 1) * z (d * n + i + 2) =
    6 * dy (d * (n - 1) + (i + 1)) / dx (i + 1) - 6 * dy (d * (n - 1) + i) / dx i

theorem natural_spec (gtsv : Solver F) (hg : Gtsv gtsv) (uniform : Bool) (n dim : Nat) (hn : 2 ≤ n) (dx dy : Nat → F)
    (s : Sys F) (hu : uniform = true → ∀ i, i + 1 < n → dx i = dx 0) (z : Nat → F)
    (h : natural gtsv n dim (initSystem uniform n dim dx dy s) = some z) (d : Nat) (hd : d < dim) :
    Interior n dx dy z d ∧ z (d * n) = 0 ∧ z (d * n + (n - 1)) = 0 := by
  unfold natural at h
  simp only at h
  change (if n ≤ 2 then some (store (initSystem uniform n dim dx dy s).z (ends n dim (fun _ => 0) fun _ => 0))
    else _) = some z at h
  obtain ⟨e1, e2, e3⟩ := ends_get (initSystem uniform n dim dx dy s).z n dim hn (fun _ => 0) (fun _ => 0) d hd
  split at h
  · simp only [Option.some.injEq] at h
    subst h
    exact ⟨fun i hi => by omega, e1, e2⟩
  · rename_i hn2
    split at h
    · cases h
    · rename_i z' hz
      simp only [Option.some.injEq] at h
      change gtsv (n - 2) dim _ _ _ (fun k => store (initSystem uniform n dim dx dy s).z
        (ends n dim (fun _ => 0) fun _ => 0) (k + 1)) n = some z' at hz
      obtain ⟨g1, g2⟩ := hg _ _ _ _ _ _ _ _ hz
      have hz0 : ∀ k, (∀ c, c < dim → ∀ i, i < n - 2 → k ≠ c * n + (i + 1)) →
          z k = store (initSystem uniform n dim dx dy s).z (ends n dim (fun _ => 0) fun _ => 0) k := by
        intro k hk
        subst h
        simp only
        split
        · rename_i h0; rw [h0]; rfl
        · rename_i h0
          rw [g2 (k - 1)]
          · rw [show k - 1 + 1 = k by omega]
          · intro c hc i hi
            have := hk c hc i hi
            omega
      have hzk : ∀ k, 0 < k → z k = z' (k - 1) := by
        intro k hk
        subst h
        simp only
        rw [if_neg (by omega)]
      have b1 : z (d * n) = 0 := by
        rw [hz0, e1]
        intro c hc i hi e
        have := (idx_inj (i := 0) (i' := i + 1) (show d * n + 0 = c * n + (i + 1) by omega) (by omega) (by omega)).2
        omega
      have b2 : z (d * n + (n - 1)) = 0 := by
        rw [hz0, e2]
        intro c hc i hi e
        have := (idx_inj e (by omega) (by omega)).2
        omega
      refine ⟨fun i hi => ?_, b1, b2⟩
      have := g1 d hd i (by omega)
      simp only at this
      rw [show d * n + i + 1 = d * n + (i + 1) by omega] at this
      rw [e3 (i + 1) (by omega) (by omega), initSystem_z uniform n dim dx dy s d i hd hi,
        initSystem_diag uniform n dim dx dy s hu (i + 1) (by omega) (by omega),
        (initSystem_up uniform n dim dx dy s hu (i + 1) (by omega)).1, Nat.add_sub_cancel] at this
      rw [← this]
      have k1 : z (d * n + i + 1) = z' (d * n + i) := by rw [hzk _ (by omega), Nat.add_sub_cancel]
      have k2 : z (d * n + i + 2) = z' (d * n + (i + 1)) := by
        rw [hzk _ (by omega)]; congr 1
      have t1 : (if 0 < i then (initSystem uniform n dim dx dy s).lo (i - 1 + 1) * z' (d * n + i - 1) else 0) =
          dx i * z (d * n + i) := by
        split
        · rename_i h0
          rw [show i - 1 + 1 = i by omega, (initSystem_up uniform n dim dx dy s hu i (by omega)).2, hzk _ (by omega)]
        · rename_i h0
          have : i = 0 := by omega
          subst this
          rw [Nat.add_zero, b1, mul_zero]
      have t2 : (if i + 1 < n - 2 then dx (i + 1) * z' (d * n + (i + 1)) else 0) = dx (i + 1) * z (d * n + i + 2) := by
        split
        · rw [k2]
        · rename_i h0
          rw [show d * n + i + 2 = d * n + (n - 1) by omega, b2, mul_zero]
      rw [t1, t2, k1]

/-- The systems with an equation for each site. -/
theorem full_spec (gtsv : Solver F) (hg : Gtsv gtsv) (uniform : Bool) (n dim : Nat) (hn : 2 ≤ n) (dx dy : Nat → F)
    (s : Sys F) (hu : uniform = true → ∀ i, i + 1 < n → dx i = dx 0) (lo diag up l r z : Nat → F)
    (hlo : ∀ i, i + 2 < n → lo i = dx i) (hup : ∀ i, 0 < i → i + 1 < n → up i = dx i)
    (hdiag : ∀ i, 0 < i → i + 1 < n → diag i = (initSystem uniform n dim dx dy s).diag i)
    (h : gtsv n dim lo diag up (store (initSystem uniform n dim dx dy s).z (ends n dim l r)) n = some z)
    (d : Nat) (hd : d < dim) :
    Interior n dx dy z d ∧ diag 0 * z (d * n) + up 0 * z (d * n + 1) = l d ∧
      lo (n - 2) * z (d * n + (n - 2)) + diag (n - 1) * z (d * n + (n - 1)) = r d := by
  obtain ⟨g1, -⟩ := hg _ _ _ _ _ _ _ _ h
  obtain ⟨e1, e2, e3⟩ := ends_get (initSystem uniform n dim dx dy s).z n dim hn l r d hd
  refine ⟨fun i hi => ?_, ?_, ?_⟩
  · have := g1 d hd (i + 1) (by omega)
    rw [e3 (i + 1) (by omega) (by omega), initSystem_z uniform n dim dx dy s d i hd hi, if_pos (by omega),
      if_pos (by omega), hdiag (i + 1) (by omega) (by omega),
      initSystem_diag uniform n dim dx dy s hu (i + 1) (by omega) (by omega), Nat.add_sub_cancel,
      hlo i hi, hup (i + 1) (by omega) (by omega), show d * n + (i + 1) - 1 = d * n + i by omega] at this
    rw [← this]
    rw [show d * n + (i + 1) = d * n + i + 1 by omega]
  · have := g1 d hd 0 (by omega)
    rw [if_neg (by omega), if_pos (by omega), Nat.add_zero, e1] at this
    rw [← this]; ring
  · have := g1 d hd (n - 1) (by omega)
    rw [if_pos (by omega), if_neg (by omega), e2, show n - 1 - 1 = n - 2 by omega,
      show d * n + (n - 1) - 1 = d * n + (n - 2) by omega] at this
    rw [← this]; ring

end Verif.Interp
