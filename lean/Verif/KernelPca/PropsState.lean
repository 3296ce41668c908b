import Verif.KernelPca.Props

set_option linter.unusedSectionVars false

/-
C163-C165: what a handle holds after compute has been called again.
-/
namespace Verif.KernelPca

open Finset

variable {K : Type*} [Field K] [LinearOrder K] [IsStrictOrderedRing K]

/-- The solver of a call does what it promises: syevd gives the eigenvalues in ascending order and the eigenvectors, da_random_syevd writes
n_components values in descending order. -/
def Right (e : Env K) (o : Opts) (h : Handle K) : Prop :=
  if o.random = true then 0 < o.nOpt ∧ o.nOpt ≤ h.n ∧ (e.random (centreTraining h.row h.n e.kernel)).1.length = o.nOpt ∧
    (e.random (centreTraining h.row h.n e.kernel)).1.Pairwise (· ≥ ·)
  else 0 < h.n ∧ o.nOpt ≤ h.n ∧ Eigen h.n (upper h.n (centreTraining h.row h.n e.kernel))
    (e.syevd (centreTraining h.row h.n e.kernel)).1 (e.syevd (centreTraining h.row h.n e.kernel)).2

/-- The states of a handle. -/
inductive Reached (b : Bounds K) : Handle K → Prop
  | start : Reached b fresh
  | data {h : Handle K} (row : Bool) (n : Nat) : Reached b h → Reached b (setData row n h)
  | run {h : Handle K} (e : Env K) (o : Opts) : Reached b h → Right e o h → Reached b (compute b e o h).1

/-! ### C163: the inverse transformation -/

/-- **C163, the full statement.** After a successful compute the inverse transformation is available exactly when that compute has fitted it. -/
def C163_statement (K : Type*) [Field K] [LinearOrder K] : Prop :=
  ∀ (b : Bounds K) (h h' : Handle K) (e : Env K) (o : Opts), Reached b h → Right e o h → compute b e o h = (h', .success) →
    (inverseAvailable h' = true ↔ o.fitInverse = true)

theorem compute_success {b : Bounds K} {e : Env K} {o : Opts} {h h' : Handle K} (hs : compute b e o h = (h', .success)) :
    h'.trained = true ∧ h'.inverseFitted = (o.fitInverse || h.inverseFitted) ∧
      (o.fitInverse = true → e.ridge = some h'.dual) ∧ (o.fitInverse = false → h'.dual = h.dual) ∧
      h'.eigenvalues.length = h'.nc := by
  unfold compute at hs
  split at hs
  · simp at hs
  · simp only at hs
    split at hs
    · obtain ⟨-, nc, -, h1, -, h3, h4, -, -, -, -, h5, h6, h7⟩ := finish_cases _ _ _ _ _ _ hs
      exact ⟨h4, h5, h6, h7, by rw [h3, resize_length, h1]⟩
    · obtain ⟨-, nc, -, h1, -, h3, h4, -, -, -, -, h5, h6, h7⟩ := finish_cases _ _ _ _ _ _ hs
      exact ⟨h4, h5, h6, h7, by rw [h3, resize_length, h1]⟩

/-- **C163.** Exactly when it is available: also when an earlier compute has fitted it, and then with the dual coefficients of that one. -/
theorem C163_extent {b : Bounds K} {h h' : Handle K} {e : Env K} {o : Opts} (hs : compute b e o h = (h', .success)) :
    (inverseAvailable h' = true ↔ o.fitInverse = true ∨ h.inverseFitted = true) ∧
    (o.fitInverse = false → h'.dual = h.dual) := by
  obtain ⟨h1, h2, -, h4, -⟩ := compute_success hs
  refine ⟨?_, h4⟩
  unfold inverseAvailable
  rw [h1, h2]
  simp

def stateOnce : Handle ℚ := (compute exBounds exEnv ⟨true, 1, false, true, false⟩ (setData false 2 fresh)).1

theorem exRight (o : Opts) (ho : o.random = false) (hn : o.nOpt ≤ 2) (h : Handle ℚ) (hr : h.row = false) (h2 : h.n = 2) :
    Right exEnv o h := by
  unfold Right
  rw [ho, if_neg (by simp), hr, h2]
  exact ⟨by omega, hn, rfl, by decide +kernel, fun i j hi hj => by
    interval_cases i <;> interval_cases j <;> decide +kernel⟩

theorem stateOnce_reached : Reached exBounds stateOnce :=
  .run _ _ (.data _ _ .start) (exRight _ rfl (by decide) _ rfl rfl)

/-- **C163.** Violated: fitted with one component, then computed again without the inverse transformation and with two. -/
theorem C163_violated : ¬ C163_statement ℚ := by
  intro h
  have := h exBounds stateOnce (compute exBounds exEnv ⟨true, 2, false, false, false⟩ stateOnce).1 exEnv
    ⟨true, 2, false, false, false⟩ stateOnce_reached (exRight _ rfl (by decide) _ rfl rfl)
    (Prod.ext rfl (by decide +kernel))
  exact absurd (this.1 (by decide +kernel)) (by decide)

/-- compute without the inverse transformation leaves the flag. -/
theorem compute_flag {b : Bounds K} {e : Env K} {o : Opts} {h : Handle K} (ho : o.fitInverse = false) :
    (compute b e o h).1.inverseFitted = h.inverseFitted := by
  have key : ∀ (h : Handle K) ev V, (finish b e o h ev V).1.inverseFitted = h.inverseFitted := by
    intro h ev V
    unfold finish
    simp only [ho]
    split
    · rfl
    · split <;> simp
  unfold compute
  split
  · rfl
  · simp only
    split <;> exact key _ _ _

/-- **C163, proved part.** As long as the option has been the same in every compute since the data were set, the inverse transformation is
available exactly when asked for, with the dual coefficients of this compute.  Missing: a change of the option from 1 to 0, for which the code is
wrong (C163_extent). -/
theorem C163_same_option_partial {b : Bounds K} {h0 h' : Handle K} {row : Bool} {n : Nat} {L : List (Env K × Opts)} {e : Env K}
    {o : Opts} (hL : ∀ x ∈ L, x.2.fitInverse = o.fitInverse)
    (hs : compute b e o (L.foldl (fun h x => (compute b x.1 x.2 h).1) (setData row n h0)) = (h', .success)) :
    (inverseAvailable h' = true ↔ o.fitInverse = true) ∧ (o.fitInverse = true → e.ridge = some h'.dual) := by
  refine ⟨?_, (compute_success hs).2.2.1⟩
  rw [(C163_extent hs).1]
  refine ⟨fun g => ?_, Or.inl⟩
  by_contra ho
  rw [Bool.not_eq_true] at ho
  have : ∀ (M : List (Env K × Opts)) (h : Handle K), (∀ x ∈ M, x.2.fitInverse = false) →
      (M.foldl (fun h x => (compute b x.1 x.2 h).1) h).inverseFitted = h.inverseFitted := by
    intro M
    induction M with
    | nil => intro h _; rfl
    | cons x M ih =>
      intro h hM
      rw [List.foldl_cons, ih _ fun y hy => hM y (List.mem_cons_of_mem _ hy)]
      exact compute_flag (hM x List.mem_cons_self)
  rw [this L _ fun x hx => (hL x hx).trans ho] at g
  rcases g with g | g
  · rw [ho] at g; exact absurd g (by simp)
  · exact absurd g (by simp [setData])

example : compute exBounds exEnv ⟨true, 1, false, true, false⟩ (setData false 2 fresh) = (stateOnce, .success) ∧
    stateOnce.dual 0 = 7 := ⟨Prod.ext rfl (by decide +kernel), by decide +kernel⟩

/-! ### C164: the array for the eigenvalues -/

/-- **C164, the full statement.** The query for the eigenvalues writes no more entries than the array of the user has. -/
def C164_statement (K : Type*) [Field K] [LinearOrder K] : Prop :=
  ∀ (b : Bounds K) (h : Handle K) (dim : Nat) (l : List K), Reached b h → getEigenvalues h dim = some l → l.length ≤ dim

/-- The samples -1, 1 with the polynomial kernel of degree 2, gamma = 1 and coef0 = -1. -/
def polyEnv : Env ℚ where
  kernel := fun c => if c = 0 ∨ c = 3 then 0 else 4
  syevd := fun _ => ([-4, 0], fun c => if c = 1 then -1 else 1)
  random := fun _ => ([], fun _ => 0)
  ridge := none

def stateFailed : Handle ℚ := (compute exBounds polyEnv ⟨true, 0, false, false, false⟩ stateOnce).1

theorem polyRight (o : Opts) (ho : o.random = false) (hn : o.nOpt ≤ 2) (h : Handle ℚ) (hr : h.row = false) (h2 : h.n = 2) :
    Right polyEnv o h := by
  unfold Right
  rw [ho, if_neg (by simp), hr, h2]
  exact ⟨by omega, hn, rfl, by decide +kernel, fun i j hi hj => by
    interval_cases i <;> interval_cases j <;> decide +kernel⟩

/-- **C164.** Violated: after a compute that has failed the number of components is that of the model before, but the eigenvalues are those of all
samples; an array of the documented length is overrun. -/
theorem C164_violated : ¬ C164_statement ℚ := by
  intro h
  have := h exBounds stateFailed 1 [0, -4]
    (.run _ _ stateOnce_reached (polyRight _ rfl (by decide) _ rfl rfl)) (by decide +kernel)
  exact absurd this (by decide)

theorem clampFrom_length (pb nb : K) (nCheck : Nat) (l : List K) : ∀ idx, (clampFrom pb nb nCheck idx l).1.length = l.length := by
  induction l with
  | nil => intro idx; rfl
  | cons e es ih =>
    intro idx
    unfold clampFrom
    split
    · split
      · rfl
      · simp [ih]
    · simp [ih]

/-- **C164.** So it is whenever compute fails because of a negative eigenvalue on a handle that has a model with fewer components than samples. -/
theorem C164_extent {b : Bounds K} {e : Env K} {o : Opts} {h : Handle K} {k : Nat → Nat → K} (d : Dense e o h k)
    (hf : o.fitInverse = false) (ht : h.trained = true) (hs : (compute b e o h).2 = .failed) {dim : Nat} (h1 : h.nc ≤ dim) :
    ∃ l, getEigenvalues (compute b e o h).1 dim = some l ∧ l.length = h.n := by
  have hl : (clamp b (e.syevd (centreTraining h.row h.n e.kernel)).1.reverse o.nOpt).1.length = h.n := by
    unfold clamp
    rw [clampFrom_length, List.length_reverse, d.eigen.len]
  have hc : (clamp b (e.syevd (centreTraining h.row h.n e.kernel)).1.reverse o.nOpt).2 = false := by
    by_contra hc
    rw [Bool.not_eq_false] at hc
    rw [compute_dense d] at hs
    unfold finish at hs
    simp only at hs
    rw [d.clamped hc, d.components, hc] at hs
    simp [hf] at hs
  refine ⟨_, ?_, hl⟩
  rw [compute_dense d]
  unfold finish getEigenvalues
  simp only [hc, if_true, ht, Bool.true_eq_false, if_false]
  rw [if_neg (by omega)]

/-- **C164, proved part.** After a successful compute the query writes exactly n_components entries.  Missing: the states after a compute that
has failed, for which the code is wrong (C164_extent). -/
theorem C164_success_partial {b : Bounds K} {e : Env K} {o : Opts} {h h' : Handle K} (hs : compute b e o h = (h', .success))
    {dim : Nat} {l : List K} (hg : getEigenvalues h' dim = some l) : l.length = h'.nc ∧ l.length ≤ dim := by
  obtain ⟨h1, -, -, -, h5⟩ := compute_success hs
  unfold getEigenvalues at hg
  rw [h1, if_neg (by simp)] at hg
  split at hg
  · simp at hg
  · rw [Option.some.injEq] at hg
    subst hg
    omega

example : getEigenvalues stateOnce 1 = some [2] ∧ getEigenvalues stateFailed 1 = some [0, -4] := by decide +kernel

/-! ### C165: the search for the first zero -/

/-- **C165, the full statement.** The search for the first zero among the eigenvalues is made in a descending vector. -/
def C165_statement (K : Type*) [Field K] [LinearOrder K] : Prop :=
  ∀ (b : Bounds K) (h : Handle K) (e : Env K) (o : Opts), Reached b h → Right e o h → (compute b e o h).2 ≠ .unspecified

/-- The samples (1, 0), (0, 1), (-1, -1) with the linear kernel; with gamma = 0 the RBF kernel is constant. -/
def threeEnv (constant : Bool) : Env ℚ where
  kernel := fun c => if constant then 1 else [1, 0, -1, 0, 1, -1, -1, -1, 2].getD c 0
  syevd := fun _ => ([0, 1, 3], fun c => [1, 1, 1, 1, -1, 0, 1, 1, -2].getD c 0)
  random := fun _ => ([0], fun _ => 1)
  ridge := none

def stateThree : Handle ℚ := (compute exBounds (threeEnv false) ⟨true, 2, false, false, false⟩ (setData false 3 fresh)).1

theorem stateThree_reached : Reached exBounds stateThree := by
  refine .run _ _ (.data _ _ .start) ?_
  unfold Right
  rw [if_neg (by simp)]
  exact ⟨by decide, by decide, rfl, by decide +kernel, fun i j (hi : i < 3) (hj : j < 3) => by
    interval_cases i <;> interval_cases j <;> decide +kernel⟩

/-- **C165.** Violated: with the randomized solver the eigenvalues of the model before stay behind the new ones. -/
theorem C165_violated : ¬ C165_statement ℚ := by
  intro h
  refine h exBounds stateThree (threeEnv true) ⟨true, 1, true, false, true⟩ stateThree_reached ?_ (by decide +kernel)
  unfold Right
  rw [if_pos rfl]
  exact ⟨by decide, by decide, rfl, by decide +kernel⟩

theorem finish_specified {b : Bounds K} {e : Env K} {o : Opts} {h : Handle K} {ev : List K} {V : Nat → K}
    (hp : (clamp b ev o.nOpt).2 = true → lowerBound (clamp b ev o.nOpt).1 ≠ none) :
    (finish b e o h ev V).2 ≠ .unspecified := by
  unfold finish
  simp only
  split
  · simp
  · next hc =>
    have hn : components o.nOpt o.removeZero (clamp b ev o.nOpt).1 ≠ none := by
      unfold components
      split
      · simpa using hp (by simpa using hc)
      · simp
    split
    · next g => exact absurd g hn
    · split
      · split <;> simp
      · simp

theorem lowerBound_zeros {l : List K} (hl : l.Pairwise (· ≥ ·)) (hn : ∀ x ∈ l, 0 ≤ x) (n : Nat) :
    lowerBound (l ++ List.replicate n 0) ≠ none := by
  rw [lowerBound_sorted]
  · simp
  · rw [List.pairwise_append]
    refine ⟨hl, ?_, fun a ha c hc => ?_⟩
    · rw [List.pairwise_replicate]; exact Or.inr (le_refl _)
    · rw [List.eq_of_mem_replicate hc]; exact hn a ha

/-- **C165, proved part.** With the dense solver, or when the model before has no more components than are asked for now (as on the first compute
after the data are set), the search is well defined.  Missing: the randomized solver after a model with more components, for which the code is wrong. -/
theorem C165_search_partial {b : Bounds K} {e : Env K} {o : Opts} {h : Handle K} (hr : Right e o h)
    (hc : o.random = false ∨ h.eigenvalues.length ≤ o.nOpt) : (compute b e o h).2 ≠ .unspecified := by
  unfold compute
  split
  · simp
  · simp only
    unfold Right at hr
    by_cases hd : o.random = true
    · rw [if_pos hd] at hr ⊢
      obtain ⟨-, hn, hw, hs⟩ := hr
      have he : h.eigenvalues.length ≤ o.nOpt := by
        rcases hc with g | g
        · rw [hd] at g; exact absurd g (by simp)
        · exact g
      refine finish_specified fun g => ?_
      have e0 : (e.random (centreTraining h.row h.n e.kernel)).1 ++
          (resize h.n h.eigenvalues).drop (e.random (centreTraining h.row h.n e.kernel)).1.length =
          (e.random (centreTraining h.row h.n e.kernel)).1 ++ List.replicate (h.n - o.nOpt) 0 := by
        congr 1
        rw [hw]
        unfold resize
        rw [List.take_of_length_le (by omega), List.drop_append, List.drop_of_length_le he, List.nil_append,
          List.drop_replicate]
        congr 1
        omega
      rw [e0] at g ⊢
      have := clampFrom_ok _ _ _ _ _ g
      unfold clamp
      rw [this, List.map_append, List.map_replicate]
      have hz : ∀ pb : K, kept pb 0 = 0 := fun pb => if_neg fun g => lt_irrefl _ g.1
      rw [hz]
      refine lowerBound_zeros (map_sorted hs) (fun x hx => ?_) _
      obtain ⟨y, -, rfl⟩ := List.mem_map.1 hx
      exact kept_nonneg _ _
    · rw [if_neg hd] at hr ⊢
      refine finish_specified fun g => ?_
      have := clampFrom_ok _ _ _ _ _ g
      unfold clamp
      rw [this, lowerBound_sorted (map_sorted (reverse_sorted hr.2.2.sorted))]
      simp

example : (compute exBounds (threeEnv true) ⟨true, 1, true, false, true⟩ (setData false 3 fresh)).2 = .success ∧
    (compute exBounds (threeEnv true) ⟨true, 1, true, false, true⟩ (setData false 3 fresh)).1.nc = 0 := by decide +kernel

end Verif.KernelPca
