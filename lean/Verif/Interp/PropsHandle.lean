import Verif.Interp.Handle
import Verif.Interp.PropsSpline

/-
C85: sequences of calls with one interpolation handle.
-/
namespace Verif.Interp

variable {F : Type} [Field F] [LinearOrder F]

/-! ### Specification -/

/-- What the caller has set successfully: sites, values and derivatives (by dimension and
site), boundary conditions and type of spline. -/
structure Data (F : Type) where
  sites : Option (Nat × (Nat → F)) := none
  values : Option (Nat × Nat × (Nat → Nat → F)) := none
  deriv : Option (Nat × Nat × (Nat → Nat → F)) := none
  bc : Option (Nat × Nat × (Nat → F) × Nat × (Nat → F)) := none
  typ : Typ := .natural

omit [LinearOrder F] in
/-- The effect of a successful call. -/
def Data.after (g : Data F) : Call F → Data F
  | .selectModel _ => g
  | .setOption t => { g with typ := t.getD g.typ }
  | .setSites n x => { g with sites := some (n, x) }
  | .setSitesUniform n a b => { g with sites := some (n, fun i => a + (i : F) * ((b - a) / ((n - 1 : Nat) : F))) }
  | .setValues r _ n dim y ld order =>
    let Y := fun d i => y (if r then i * ld + d else d * ld + i)
    if order = 1 then { g with deriv := some (n, dim, Y) } else { g with values := some (n, dim, Y) }
  | .setBc dim lord l rord r => { g with bc := some (dim, lord, l, rord, r), typ := .custom }
  | .interpolate _ => g
  | .evaluate _ _ => g

omit [LinearOrder F] in
/-- The coefficients are those of the spline through the data. -/
def Correct (g : Data F) (c : Nat → F) : Prop :=
  ∃ n x dim Y, g.sites = some (n, x) ∧ g.values = some (n, dim, Y) ∧
    Interpolates n dim (fun i => x (i + 1) - x i) Y c ∧
    match g.typ with
    | .natural => Smooth n dim (fun i => x (i + 1) - x i) c ∧ Boundary n dim (fun i => x (i + 1) - x i) c .natural
    | .clamped => Smooth n dim (fun i => x (i + 1) - x i) c ∧ Boundary n dim (fun i => x (i + 1) - x i) c .clamped
    | .custom => ∃ lord l rord r, g.bc = some (dim, lord, l, rord, r) ∧
        Smooth n dim (fun i => x (i + 1) - x i) c ∧ Boundary n dim (fun i => x (i + 1) - x i) c (.custom lord rord l r)
    | .hermite => ∃ Yd, g.deriv = some (n, dim, Yd) ∧ ∀ d i, d < dim → i + 1 < n →
        S' c n d i 0 = Yd d i ∧ S' c n d i (x (i + 1) - x i) = Yd d (i + 1)

/-- The state after a call that returned. -/
def Out.state : Out F → Option (St F)
  | .ok s => some s
  | .error s => some s
  | _ => none

/-- The call succeeded. -/
def Out.good : Out F → Bool
  | .ok _ => true
  | _ => false

/-- The data set by a sequence of calls from state `s`. -/
def dataAfter (gtsv : Solver F) (s : St F) (g : Data F) : List (Call F) → Data F
  | [] => g
  | c :: l =>
    let o := step gtsv s c
    match o.state with
    | none => g
    | some s' => dataAfter gtsv s' (if o.good then g.after c else g) l

omit [LinearOrder F] in
theorem run_nil [LinearOrder F] (gtsv : Solver F) (o : Out F) : run gtsv o [] = o := rfl

theorem run_cons (gtsv : Solver F) (s : St F) (o : Out F) (ho : o.state = some s) (c : Call F) (l : List (Call F)) :
    run gtsv o (c :: l) = run gtsv (step gtsv s c) l := by
  cases o <;> simp only [Out.state, Option.some.injEq, reduceCtorEq] at ho
  all_goals subst ho; rfl

theorem run_stop (gtsv : Solver F) (o : Out F) (ho : o.state = none) (l : List (Call F)) :
    run gtsv o l = o := by
  induction l with
  | nil => rfl
  | cons c l ih => cases o <;> simp_all [Out.state, run]

/-- Full property, safety: no sequence of calls dereferences the null pointer or reads
outside an array. -/
def C85_safe_statement (F : Type) [Field F] [LinearOrder F] : Prop :=
  ∀ (gtsv : Solver F), Gtsv gtsv → ∀ l : List (Call F), run gtsv (.ok .init) l ≠ .null ∧ run gtsv (.ok .init) l ≠ .outOfBounds

/-- Full property, results: whenever the handle holds a spline, it is the spline through
the data set successfully by the caller. -/
def C85_correct_statement (F : Type) [Field F] [LinearOrder F] : Prop :=
  ∀ (gtsv : Solver F), Gtsv gtsv → ∀ (l : List (Call F)) (s : St F), (run gtsv (.ok .init) l).state = some s →
    s.trained = true → Correct (dataAfter gtsv .init {} l) s.coeffs.val

/-- Full property, failures: a call that fails leaves the handle as it was. -/
def C85_failed_statement (F : Type) [Field F] [LinearOrder F] : Prop :=
  ∀ (gtsv : Solver F), Gtsv gtsv → ∀ (l : List (Call F)) (s s' : St F) (c : Call F),
    (run gtsv (.ok .init) l).state = some s → step gtsv s c = .error s' → s' = s

/-! ### Violations -/

def noSolver : Solver ℚ := fun _ _ _ _ _ _ _ => none
theorem noSolver_ok : Gtsv noSolver := by intro _ _ _ _ _ _ _ _ h; cases h

def tag : Out F → Nat
  | .ok _ => 0
  | .error _ => 1
  | .null => 2
  | .outOfBounds => 3

def w0 : Sys ℚ := ⟨fun _ => 0, fun _ => 0, fun _ => 0, fun _ => 0⟩

/-- An unknown model is refused but remembered: the next call dereferences null. -/
theorem C85_null_violated : ¬ C85_safe_statement ℚ := by
  intro h
  refine (h noSolver noSolver_ok [.selectModel 2, .setSites 2 fun i => i]).1 ?_
  rfl

/-- Values of one dimension, derivatives of three. -/
theorem C85_dim_violated : ¬ C85_safe_statement ℚ := by
  intro h
  have := (h noSolver noSolver_ok [.selectModel 1, .setSites 2 (fun i => i), .setValues false true 2 1 (fun i => i) 2 0,
    .setValues false true 2 3 (fun i => i) 2 1, .interpolate w0]).2
  refine this ?_
  have ht : tag (run noSolver (.ok .init) [.selectModel 1, .setSites 2 (fun i => i), .setValues false true 2 1 (fun i => i) 2 0,
    .setValues false true 2 3 (fun i => i) 2 1, .interpolate w0]) = 3 := by decide +kernel
  revert ht
  generalize run noSolver _ _ = o
  cases o <;> simp [tag]

/-- Boundary conditions of one dimension, then values of two. -/
theorem C85_bc_violated : ¬ C85_safe_statement ℚ := by
  intro h
  have := (h noSolver noSolver_ok [.selectModel 1, .setSites 2 (fun i => i), .setBc 1 1 (fun _ => 0) 1 (fun _ => 0),
    .setValues false true 2 2 (fun i => i) 2 0, .interpolate w0]).2
  refine this ?_
  have ht : tag (run noSolver (.ok .init) [.selectModel 1, .setSites 2 (fun i => i), .setBc 1 1 (fun _ => 0) 1 (fun _ => 0),
    .setValues false true 2 2 (fun i => i) 2 0, .interpolate w0]) = 3 := by decide +kernel
  revert ht
  generalize run noSolver _ _ = o
  cases o <;> simp [tag]

/-- Sites refused for their order leave their differences behind, and uniform sites do not
replace them. -/
def staleCalls : List (Call ℚ) :=
  [.selectModel 1, .setSites 2 (fun i => 5 - 5 * i), .setSitesUniform 2 0 1,
    .setValues false true 2 1 (fun i => i) 2 0, .interpolate w0]

/-- Values refused for a NaN change the storage order of the values set before. -/
def orderCalls : List (Call ℚ) :=
  [.selectModel 1, .setSites 2 (fun i => i), .setValues false true 2 2 (fun i => i) 2 0,
    .setValues true false 2 2 (fun i => i) 2 0, .interpolate w0]

/-- Derivatives in another storage order than the values. -/
def derivCalls : List (Call ℚ) :=
  [.selectModel 1, .setOption (some .hermite), .setSites 2 (fun i => i), .setValues false true 2 2 (fun i => i) 2 0,
    .setValues true true 2 2 (fun i => i) 2 1, .interpolate w0]

/-- Trained, and the first coefficients. -/
def result (l : List (Call ℚ)) : Option (Bool × List ℚ) :=
  (run noSolver (.ok .init) l).state.map fun s => (s.trained, (List.range 8).map s.coeffs.val)

/-- The data on two sites: sites, values of dimension 0, values of dimension 1. -/
def dataOn (l : List (Call ℚ)) : Option (List ℚ) × Option (List ℚ) :=
  let g := dataAfter noSolver .init {} l
  (g.sites.map fun p => [(p.1 : ℚ), p.2 0, p.2 1],
   g.values.map fun p => [(p.1 : ℚ), (p.2.1 : ℚ), p.2.2 0 0, p.2.2 0 1, p.2.2 1 0, p.2.2 1 1])

/-- A sequence with wrong coefficients. -/
theorem wrong (l : List (Call ℚ)) (c0 c1 c2 c3 c4 c5 c6 c7 x0 x1 a0 a1 b0 b1 : ℚ) (dim : Nat)
    (hr : result l = some (true, [c0, c1, c2, c3, c4, c5, c6, c7]))
    (hd : dataOn l = (some [2, x0, x1], some [2, (dim : ℚ), a0, a1, b0, b1]))
    (hw : ¬ (0 < dim → c0 = a0 ∧ c0 + c1 * (x1 - x0) + c2 * (x1 - x0) ^ 2 + c3 * (x1 - x0) ^ 3 = a1) ∨
      ¬ (1 < dim → c4 = b0 ∧ c4 + c5 * (x1 - x0) + c6 * (x1 - x0) ^ 2 + c7 * (x1 - x0) ^ 3 = b1)) :
    ¬ C85_correct_statement ℚ := by
  intro h
  unfold result at hr
  cases hs : (run noSolver (.ok .init) l).state with
  | none => rw [hs] at hr; cases hr
  | some s =>
    rw [hs] at hr
    simp only [Option.map_some, Option.some.injEq, Prod.mk.injEq] at hr
    obtain ⟨ht, hc⟩ := hr
    obtain ⟨n, x, dim', Y, h1, h2, h3, -⟩ := h noSolver noSolver_ok _ s hs ht
    unfold dataOn at hd
    simp only [h1, h2, Option.map_some, Prod.mk.injEq, Option.some.injEq, List.cons.injEq] at hd
    obtain ⟨⟨e1, e2, e3, -⟩, -, e4, e5, e6, e7, e8, -⟩ := hd
    have e1 : n = 2 := by exact_mod_cast e1
    have e4 : dim' = dim := by exact_mod_cast e4
    subst e1 e4
    change [s.coeffs.val 0, s.coeffs.val 1, s.coeffs.val 2, s.coeffs.val 3, s.coeffs.val 4, s.coeffs.val 5,
      s.coeffs.val 6, s.coeffs.val 7] = _ at hc
    simp only [List.cons.injEq] at hc
    obtain ⟨k0, k1, k2, k3, k4, k5, k6, k7, -⟩ := hc
    rcases hw with hw | hw
    · refine hw fun hd => ?_
      obtain ⟨a, b⟩ := h3 0 hd 0 (by omega)
      simp only [S, Nat.zero_mul, Nat.zero_add, Nat.mul_zero, k0, k1, k2, k3, e2, e3, e5, e6] at a b
      refine ⟨?_, b⟩
      rw [← a]; ring
    · refine hw fun hd => ?_
      obtain ⟨a, b⟩ := h3 1 hd 0 (by omega)
      simp only [S, Nat.reduceSub, Nat.reduceAdd, Nat.reduceMul, k4, k5, k6, k7, Nat.zero_add, e2, e3, e7, e8] at a b
      refine ⟨?_, b⟩
      rw [← a]; ring

theorem C85_stale_violated : ¬ C85_correct_statement ℚ :=
  wrong staleCalls 0 (-1 / 5) 0 0 0 0 0 0 0 1 0 1 2 3 1 (by decide +kernel) (by decide +kernel) (Or.inl (by norm_num))

theorem C85_order_violated : ¬ C85_correct_statement ℚ :=
  wrong orderCalls 0 1 0 0 1 1 0 0 0 1 0 1 2 3 2 (by decide +kernel) (by decide +kernel) (Or.inr (by norm_num))

theorem C85_deriv_violated : ¬ C85_correct_statement ℚ :=
  wrong derivCalls 0 0 1 0 1 1 (-2) 2 0 1 0 1 2 3 2 (by decide +kernel) (by decide +kernel) (Or.inr (by norm_num))

/-- Sites refused for their order fix the number of sites. -/
theorem C85_failed_violated : ¬ C85_failed_statement ℚ := by
  intro h
  have ht : tag (run noSolver (.ok .init) [.selectModel 1, .setSites 2 fun i => 5 - 5 * i]) = 1 := by decide +kernel
  have hn : (run noSolver (.ok .init) [.selectModel 1, .setSites 2 fun i => 5 - 5 * i]).state.map (·.n) = some 2 := by
    decide +kernel
  cases ho : step noSolver { (.init : St ℚ) with model := 1, interp := true } (.setSites 2 fun i => 5 - 5 * i) with
  | error s' =>
    change tag (step noSolver { (.init : St ℚ) with model := 1, interp := true } (.setSites 2 fun i => 5 - 5 * i)) = 1 at ht
    change (step noSolver { (.init : St ℚ) with model := 1, interp := true } (.setSites 2 fun i => 5 - 5 * i)).state.map
      (·.n) = some 2 at hn
    rw [ho] at hn
    have := h noSolver noSolver_ok [.selectModel 1] _ s' (.setSites 2 fun i => 5 - 5 * i) rfl ho
    rw [this] at hn
    cases hn
  | ok s' =>
    change tag (step noSolver { (.init : St ℚ) with model := 1, interp := true } (.setSites 2 fun i => 5 - 5 * i)) = 1 at ht
    rw [ho] at ht; cases ht
  | null =>
    change tag (step noSolver { (.init : St ℚ) with model := 1, interp := true } (.setSites 2 fun i => 5 - 5 * i)) = 1 at ht
    rw [ho] at ht; cases ht
  | outOfBounds =>
    change tag (step noSolver { (.init : St ℚ) with model := 1, interp := true } (.setSites 2 fun i => 5 - 5 * i)) = 1 at ht
    rw [ho] at ht; cases ht

/-! ### What holds for all sequences -/

/-- Invariant of every sequence. -/
structure Basic (s : St F) : Prop where
  n : s.n = 0 ∨ 2 ≤ s.n
  sites : s.sitesSet = true → 2 ≤ s.n ∧ s.dx.len = s.n - 1
  trained : s.trained = true → s.sitesSet = true ∧ s.coeffs.len = 4 * (s.n - 1) * s.dim

omit [Field F] [LinearOrder F] in
theorem viaInterp_state {s s' : St F} {o : Out F} (h : (viaInterp s o).state = some s') :
    s' = s ∨ (s.model ≠ 0 ∧ s.interp = true ∧ o.state = some s' ∧ viaInterp s o = o) := by
  unfold viaInterp at h ⊢
  split at h
  · left; simp [Out.state] at h; exact h.symm
  · rename_i hm
    split at h
    · rename_i hi
      right; refine ⟨hm, hi, h, ?_⟩
      rw [if_neg hm, if_pos hi]
    · simp [Out.state] at h

theorem Basic.step {gtsv : Solver F} {s s' : St F} {c : Call F} (hb : Basic s) (h : (step gtsv s c).state = some s') :
    Basic s' := by
  cases c with
  | selectModel m =>
    simp only [Interp.step, selectModel] at h
    split at h
    · simp [Out.state] at h; exact h ▸ hb
    · split at h <;> simp [Out.state] at h <;> subst h <;> exact ⟨hb.n, hb.sites, hb.trained⟩
  | setOption t =>
    simp only [Interp.step] at h
    split at h
    · simp [Out.state] at h; subst h; exact ⟨hb.n, hb.sites, hb.trained⟩
    · split at h
      · simp [Out.state] at h; subst h; exact ⟨hb.n, hb.sites, by intro h; cases h⟩
      · simp [Out.state] at h
  | setSites n x =>
    simp only [Interp.step] at h
    rcases viaInterp_state h with rfl | ⟨-, -, h, -⟩
    · exact hb
    · unfold setSites1d at h
      split at h
      · simp [Out.state] at h; exact h ▸ hb
      rename_i hs
      split at h
      · simp [Out.state] at h; exact h ▸ hb
      split at h
      · simp [Out.state] at h; exact h ▸ hb
      simp only at h
      split at h
      · simp only [Out.state, Option.some.injEq] at h; subst h
        refine ⟨Or.inr (by simp only; omega), fun h => absurd h hs, fun h => absurd (hb.trained h).1 hs⟩
      · simp only [Out.state, Option.some.injEq] at h; subst h
        exact ⟨Or.inr (by simp only; omega), fun _ => ⟨by simp only; omega, rfl⟩, by intro h; cases h⟩
  | setSitesUniform n a b =>
    simp only [Interp.step] at h
    rcases viaInterp_state h with rfl | ⟨-, -, h, -⟩
    · exact hb
    · unfold setSitesUniform1d at h
      split at h
      · simp [Out.state] at h; exact h ▸ hb
      split at h
      · simp [Out.state] at h; exact h ▸ hb
      split at h
      · simp [Out.state] at h; exact h ▸ hb
      split at h
      · simp [Out.state] at h; exact h ▸ hb
      simp only [Out.state, Option.some.injEq] at h; subst h
      exact ⟨Or.inr (by simp only; omega), fun _ => ⟨by simp only; omega, rfl⟩, by intro h; cases h⟩
  | setValues r ok n dim y ld order =>
    simp only [Interp.step] at h
    rcases viaInterp_state h with rfl | ⟨-, -, h, -⟩
    · exact hb
    · unfold setValues1d at h
      split at h
      · simp [Out.state] at h; exact h ▸ hb
      split at h
      · simp [Out.state] at h; exact h ▸ hb
      rename_i h2
      simp only at h
      split at h
      · simp [Out.state] at h; subst h; exact ⟨hb.n, hb.sites, hb.trained⟩
      · have hk : s.sitesSet = true → 2 ≤ n ∧ s.dx.len = n - 1 := by
          intro hs
          obtain ⟨a, b⟩ := hb.sites hs
          have : n = s.n := by omega
          rw [this]; exact ⟨a, b⟩
        split at h <;> simp only [Out.state, Option.some.injEq] at h <;> subst h <;>
          exact ⟨Or.inr (by simp only; omega), hk, by intro h; cases h⟩
  | setBc dim lord l rord r =>
    simp only [Interp.step] at h
    rcases viaInterp_state h with rfl | ⟨-, -, h, -⟩
    · exact hb
    · unfold setBc at h
      split at h
      · simp [Out.state] at h; exact h ▸ hb
      split at h
      · simp [Out.state] at h; exact h ▸ hb
      split at h
      · simp [Out.state] at h; exact h ▸ hb
      simp only [Out.state, Option.some.injEq] at h; subst h
      exact ⟨hb.n, hb.sites, by intro h; cases h⟩
  | interpolate w =>
    simp only [Interp.step] at h
    rcases viaInterp_state h with rfl | ⟨-, -, h, -⟩
    · exact hb
    · unfold interpolateH at h
      split at h
      · simp [Out.state] at h; exact h ▸ hb
      rename_i ht
      split at h
      · simp [Out.state] at h; exact h ▸ hb
      rename_i hs
      simp only at h
      split at h
      · simp [Out.state] at h; exact h ▸ hb
      split at h
      · split at h
        · simp [Out.state] at h; subst h; exact ⟨hb.n, hb.sites, fun h => absurd h ht⟩
        · simp [Out.state] at h
      split at h
      · split at h
        · simp [Out.state] at h; subst h; exact ⟨hb.n, hb.sites, fun h => absurd h ht⟩
        · simp [Out.state] at h; subst h
          refine ⟨hb.n, hb.sites, fun _ => ⟨?_, rfl⟩⟩
          simp only
          cases hss : s.sitesSet with
          | true => rfl
          | false => exact absurd (Or.inl hss) hs
      · simp [Out.state] at h
  | evaluate cells orders =>
    simp only [Interp.step] at h
    rcases viaInterp_state h with rfl | ⟨-, -, h, -⟩
    · exact hb
    · unfold evaluateH at h
      split at h
      · simp [Out.state] at h; exact h ▸ hb
      split at h
      · simp [Out.state] at h; exact h ▸ hb
      split at h
      · split at h <;> simp [Out.state] at h
        exact h ▸ hb
      · simp [Out.state] at h; exact h ▸ hb

omit [LinearOrder F] in
theorem Basic.init : Basic (.init : St F) :=
  ⟨Or.inl rfl, (by intro h; cases h), (by intro h; cases h)⟩

/-- Induction over a sequence of calls. -/
theorem run_induction (gtsv : Solver F) (P : St F → Data F → Prop)
    (hP : ∀ s s' g c, P s g → (step gtsv s c).state = some s' → P s' (if (step gtsv s c).good then g.after c else g)) :
    ∀ (l : List (Call F)) (o : Out F) (s s' : St F) (g : Data F), o.state = some s → P s g →
      (run gtsv o l).state = some s' → P s' (dataAfter gtsv s g l) := by
  intro l
  induction l with
  | nil =>
    intro o s s' g ho hp h
    rw [run_nil, ho, Option.some.injEq] at h
    subst h; exact hp
  | cons c l ih =>
    intro o s s' g ho hp h
    rw [run_cons gtsv s o ho] at h
    rw [dataAfter]
    cases hc : (Interp.step gtsv s c).state with
    | none => rw [run_stop gtsv _ hc, hc] at h; cases h
    | some s1 => exact ih _ s1 s' _ hc (hP s s1 g c hp hc) h

theorem basic_run (gtsv : Solver F) (l : List (Call F)) (s : St F) (h : (run gtsv (.ok .init) l).state = some s) :
    Basic s :=
  run_induction gtsv (fun s _ => Basic s) (fun _ _ _ _ hp h => hp.step h) l _ _ s {} rfl Basic.init h

/-- After any sequence of calls `evaluate` reads no coefficients outside their array. -/
theorem C85_evaluate (gtsv : Solver F) (l : List (Call F)) (s : St F) (h : (run gtsv (.ok .init) l).state = some s)
    (cells orders : List Nat) : step gtsv s (.evaluate cells orders) ≠ .outOfBounds := by
  have hb := basic_run gtsv l s h
  intro he
  simp only [Interp.step, viaInterp] at he
  split at he
  · cases he
  split at he
  · unfold evaluateH at he
    split at he
    · cases he
    rename_i ht
    have ht : s.trained = true := by simpa using ht
    split at he
    · cases he
    split at he
    · split at he
      · cases he
      · rename_i hr
        refine hr ?_
        rw [List.all_eq_true]
        intro d hd
        rw [List.all_eq_true]
        intro c _
        have hd := List.mem_range.1 hd
        obtain ⟨h1, h2⟩ := hb.trained ht
        obtain ⟨h3, -⟩ := hb.sites h1
        rw [h2, decide_eq_true_iff]
        have h5 : (d + 1) * (4 * (s.n - 1)) ≤ s.dim * (4 * (s.n - 1)) := Nat.mul_le_mul_right _ hd
        rw [Nat.succ_mul] at h5
        rw [Nat.mul_assoc, Nat.mul_comm (4 * (s.n - 1)) s.dim]
        have h6 : min c (s.n - 2) ≤ s.n - 2 := Nat.min_le_right _ _
        omega
    · cases he
  · cases he

/-- Everything a failing call changes. -/
theorem C85_failed_partial (gtsv : Solver F) (s s' : St F) (c : Call F) (h : step gtsv s c = .error s') :
    s' = s ∨
    (∃ m, c = .selectModel m ∧ m ≠ 1 ∧ s.model = 0 ∧ s' = { s with model := m }) ∨
    (∃ n x i, c = .setSites n x ∧ i + 1 < n ∧ x (i + 1) - x i ≤ 0 ∧ s.sitesSet = false ∧ (s.n = 0 ∨ s.n = n) ∧
      s' = { s with n := n, x := x, uniform := false, dx := s'.dx } ∧ s'.dx.len = n - 1) ∨
    (∃ r ok n dim y ld order, c = .setValues r ok n dim y ld order ∧
      (n < 2 ∨ dim < 1 ∨ ok = false ∨ ld < ldMin r n dim) ∧ s' = { s with rowMajor := r }) ∨
    (∃ w, c = .interpolate w ∧ s.trained = false ∧ s' = { s with coeffs := s'.coeffs }) := by
  have via : ∀ o, viaInterp s o = .error s' → s' = s ∨ o = .error s' := by
    intro o ho
    unfold viaInterp at ho
    split at ho
    · left; cases ho; rfl
    split at ho
    · exact Or.inr ho
    · cases ho
  cases c with
  | selectModel m =>
    simp only [Interp.step, selectModel] at h
    split at h
    · left; cases h; rfl
    · rename_i hm
      split at h
      · cases h
      · rename_i h1
        right; left
        cases h
        exact ⟨m, rfl, h1, by omega, rfl⟩
  | setOption t =>
    simp only [Interp.step] at h
    split at h
    · cases h
    · split at h <;> cases h
  | setSites n x =>
    rcases via _ h with h | h
    · exact Or.inl h
    unfold setSites1d at h
    split at h
    · left; cases h; rfl
    rename_i h1
    split at h
    · left; cases h; rfl
    split at h
    · left; cases h; rfl
    simp only at h
    split at h
    · rename_i b hb
      right; right; left
      cases h
      have hb2 := List.mem_range.1 (List.mem_of_find?_eq_some hb)
      exact ⟨n, x, b, rfl, by omega, by simpa using List.find?_some hb, by simpa using h1, by omega, rfl, rfl⟩
    · cases h
  | setSitesUniform n a b =>
    rcases via _ h with h | h
    · exact Or.inl h
    unfold setSitesUniform1d at h
    split at h
    · left; cases h; rfl
    split at h
    · left; cases h; rfl
    split at h
    · left; cases h; rfl
    split at h
    · left; cases h; rfl
    · cases h
  | setValues r ok n dim y ld order =>
    rcases via _ h with h | h
    · exact Or.inl h
    unfold setValues1d at h
    split at h
    · left; cases h; rfl
    split at h
    · left; cases h; rfl
    simp only at h
    split at h
    · rename_i hc
      right; right; right; left
      cases h
      exact ⟨r, ok, n, dim, y, ld, order, rfl, hc, rfl⟩
    · split at h <;> cases h
  | setBc dim lord l rord r =>
    rcases via _ h with h | h
    · exact Or.inl h
    unfold setBc at h
    split at h
    · left; cases h; rfl
    split at h
    · left; cases h; rfl
    split at h
    · left; cases h; rfl
    · cases h
  | interpolate w =>
    rcases via _ h with h | h
    · exact Or.inl h
    unfold interpolateH at h
    split at h
    · cases h
    rename_i ht
    have ht : s.trained = false := by simpa using ht
    split at h
    · left; cases h; rfl
    simp only at h
    split at h
    · left; cases h; rfl
    split at h
    · split at h
      · right; right; right; right; cases h; exact ⟨w, rfl, ht, rfl⟩
      · cases h
    split at h
    · split at h
      · right; right; right; right; cases h; exact ⟨w, rfl, ht, rfl⟩
      · cases h
    · cases h
  | evaluate cells orders =>
    rcases via _ h with h | h
    · exact Or.inl h
    unfold evaluateH at h
    split at h
    · left; cases h; rfl
    split at h
    · left; cases h; rfl
    split at h
    · split at h <;> cases h
    · left; cases h; rfl

/-- Exactly which calls are accepted by a handle with a model. -/
theorem C85_accepted (gtsv : Solver F) (s : St F) (hm : s.model ≠ 0) (hi : s.interp = true) :
    (∀ n x, (step gtsv s (.setSites n x)).good = true ↔
      s.sitesSet = false ∧ 2 ≤ n ∧ (s.n = 0 ∨ n = s.n) ∧ ∀ i, i + 1 < n → 0 < x (i + 1) - x i) ∧
    (∀ n a b, (step gtsv s (.setSitesUniform n a b)).good = true ↔
      s.sitesSet = false ∧ 2 ≤ n ∧ (s.n = 0 ∨ n = s.n) ∧ a < b) ∧
    (∀ r ok n dim y ld order, (step gtsv s (.setValues r ok n dim y ld order)).good = true ↔
      order ≤ 1 ∧ 2 ≤ n ∧ (s.n = 0 ∨ n = s.n) ∧ 1 ≤ dim ∧ ok = true ∧ (if r then dim else n) ≤ ld) ∧
    (∀ dim lord l rord r, (step gtsv s (.setBc dim lord l rord r)).good = true ↔
      (lord = 1 ∨ lord = 2) ∧ (rord = 1 ∨ rord = 2) ∧ 1 ≤ dim ∧ (s.valuesSet = true → dim = s.dim)) := by
  have hvia : ∀ o, viaInterp s o = o := by
    intro o; unfold viaInterp; rw [if_neg hm, if_pos hi]
  refine ⟨?_, ?_, ?_, ?_⟩
  · intro n x
    simp only [Interp.step, hvia, setSites1d]
    by_cases h1 : s.sitesSet = true
    · simp [h1, Out.good]
    by_cases h2 : n < 2
    · rw [if_neg h1, if_pos h2]; simp only [Out.good, Bool.false_eq_true, false_iff]; omega
    by_cases h3 : 0 < s.n ∧ n ≠ s.n
    · rw [if_neg h1, if_neg h2, if_pos h3]; simp only [Out.good, Bool.false_eq_true, false_iff]; omega
    rw [if_neg h1, if_neg h2, if_neg h3]
    split
    · rename_i b hb
      simp only [Out.good, Bool.false_eq_true, false_iff]
      rintro ⟨-, -, -, h⟩
      have hb2 := List.mem_range.1 (List.mem_of_find?_eq_some hb)
      have hle : x (b + 1) - x b ≤ 0 := by simpa using List.find?_some hb
      exact absurd (h b (by omega)) (not_lt.2 hle)
    · rename_i hb
      simp only [Out.good, true_iff]
      refine ⟨by simpa using h1, by omega, by omega, fun i hi => ?_⟩
      have := List.find?_eq_none.1 hb i (List.mem_range.2 (by omega))
      rw [decide_eq_true_iff] at this
      exact not_le.1 this
  · intro n a b
    simp only [Interp.step, hvia, setSitesUniform1d]
    by_cases h1 : s.sitesSet = true
    · simp [h1, Out.good]
    by_cases h2 : n < 2
    · rw [if_neg h1, if_pos h2]; simp only [Out.good, Bool.false_eq_true, false_iff]; omega
    by_cases h4 : b ≤ a
    · rw [if_neg h1, if_neg h2, if_pos h4]; simp only [Out.good, Bool.false_eq_true, false_iff]
      rintro ⟨-, -, -, h⟩
      exact absurd h (not_lt.2 h4)
    by_cases h3 : 0 < s.n ∧ n ≠ s.n
    · rw [if_neg h1, if_neg h2, if_neg h4, if_pos h3]; simp only [Out.good, Bool.false_eq_true, false_iff]; omega
    rw [if_neg h1, if_neg h2, if_neg h4, if_neg h3]
    simp only [Out.good, true_iff]
    exact ⟨by simpa using h1, by omega, by omega, not_le.1 h4⟩
  · intro r ok n dim y ld order
    simp only [Interp.step, hvia, setValues1d]
    change _ ↔ order ≤ 1 ∧ 2 ≤ n ∧ (s.n = 0 ∨ n = s.n) ∧ 1 ≤ dim ∧ ok = true ∧ ldMin r n dim ≤ ld
    by_cases h1 : order ≠ 0 ∧ order ≠ 1
    · rw [if_pos h1]; simp only [Out.good, Bool.false_eq_true, false_iff]; omega
    by_cases h2 : s.n ≠ 0 ∧ n ≠ s.n
    · rw [if_neg h1, if_pos h2]; simp only [Out.good, Bool.false_eq_true, false_iff]; omega
    rw [if_neg h1, if_neg h2]
    split
    · rename_i h3
      simp only [Out.good, Bool.false_eq_true, false_iff]
      rcases h3 with h3 | h3 | h3 | h3
      · omega
      · omega
      · subst h3; simp
      · omega
    · rename_i h3
      push Not at h3
      have hok : ok = true := by simpa using h3.2.2.1
      split <;> simp only [Out.good, true_iff] <;> exact ⟨by omega, by omega, by omega, by omega, hok, h3.2.2.2⟩
  · intro dim lord l rord r
    simp only [Interp.step, hvia, setBc]
    by_cases h1 : lord ≠ 1 ∧ lord ≠ 2
    · rw [if_pos h1]; simp only [Out.good, Bool.false_eq_true, false_iff]; omega
    by_cases h2 : rord ≠ 1 ∧ rord ≠ 2
    · rw [if_neg h1, if_pos h2]; simp only [Out.good, Bool.false_eq_true, false_iff]; omega
    rw [if_neg h1, if_neg h2]
    split
    · rename_i h3
      simp only [Out.good, Bool.false_eq_true, false_iff]
      rintro ⟨-, -, a, b⟩
      rcases h3 with h3 | h3
      · exact h3.2 (b h3.1)
      · omega
    · rename_i h3
      push Not at h3
      simp only [Out.good, true_iff]
      exact ⟨by omega, by omega, by omega, h3.1⟩

/-! ### Disciplined sequences -/

/-- Calls that keep the storage order and the dimension, with tight arrays, known models
and, if uniform sites are used at all (`u`), sites in increasing order. -/
def Disciplined (u row : Bool) (dim : Nat) : Call F → Prop
  | .selectModel m => m ≤ 1
  | .setOption _ => True
  | .setSites n x => u = true → ∀ i, i + 1 < n → x i < x (i + 1)
  | .setSitesUniform _ _ _ => u = true
  | .setValues r _ n d _ ld _ => r = row ∧ d = dim ∧ ld = ldMin row n dim
  | .setBc d _ _ _ _ => d = dim
  | .interpolate _ => True
  | .evaluate _ _ => True

/-- Invariant of disciplined sequences. -/
structure Inv (u row : Bool) (dim : Nat) (s : St F) (g : Data F) : Prop where
  model : (s.model = 0 ∧ s.trained = false) ∨ (s.model = 1 ∧ s.interp = true)
  typ : g.typ = s.typ
  sites : s.sitesSet = true → ∃ x, g.sites = some (s.n, x) ∧ s.dx.len = s.n - 1 ∧
    (∀ i, i + 1 < s.n → s.dx.val i = x (i + 1) - x i ∧ 0 < s.dx.val i) ∧
    (s.uniform = true → ∀ i, i + 1 < s.n → s.dx.val i = s.dx.val 0)
  nosites : u = true → s.sitesSet = false → s.dx.len = 0
  values : s.valuesSet = true → 2 ≤ s.n ∧ s.dim = dim ∧ s.rowMajor = row ∧ s.n * dim ≤ s.y.len ∧
    s.dy.len = (s.n - 1) * dim ∧ s.dy.val = setDy row s.n dim s.y.val ∧
    g.values = some (s.n, dim, fun d i => s.y.val (if row then i * dim + d else d * s.n + i))
  deriv : s.derivSet = true → 2 ≤ s.n ∧ s.n * dim ≤ s.yd.len ∧
    g.deriv = some (s.n, dim, fun d i => s.yd.val (if row then i * dim + d else d * s.n + i))
  bc : s.bcSet = true → s.lbc.len = dim ∧ s.rbc.len = dim ∧
    g.bc = some (dim, s.lord, s.lbc.val, s.rord, s.rbc.val)
  trained : s.trained = true → Correct g s.coeffs.val

/-- The conclusion for one call. -/
def Keeps (u row : Bool) (dim : Nat) (g : Data F) (c : Call F) (o : Out F) : Prop :=
  ∃ s', o.state = some s' ∧ Inv u row dim s' (if o.good then g.after c else g)

omit [LinearOrder F] in
theorem Keeps.err [LinearOrder F] {u row : Bool} {dim : Nat} {g : Data F} {c : Call F} {s : St F} (h : Inv u row dim s g) :
    Keeps u row dim g c (.error s) := ⟨s, rfl, h⟩

omit [LinearOrder F] in
theorem arrayLen_tight (row : Bool) (n dim : Nat) (hn : 0 < n) (hd : 0 < dim) :
    n * dim ≤ arrayLen row n dim (ldMin row n dim) := by
  unfold arrayLen ldMin
  cases row
  · simp only [Bool.false_eq_true, if_false]
    obtain ⟨k, rfl⟩ : ∃ k, dim = k + 1 := ⟨dim - 1, by omega⟩
    rw [Nat.add_sub_cancel, Nat.mul_succ, Nat.mul_comm]
  · simp only [if_true]
    obtain ⟨k, rfl⟩ : ∃ k, n = k + 1 := ⟨n - 1, by omega⟩
    rw [Nat.add_sub_cancel, Nat.succ_mul]

theorem at_lt (row : Bool) {n dim d i : Nat} (hd : d < dim) (hi : i < n) :
    (if row then i * dim + d else d * n + i) < n * dim := by
  cases row
  · simp only [Bool.false_eq_true, if_false]
    have : (d + 1) * n ≤ dim * n := Nat.mul_le_mul_right _ hd
    rw [Nat.succ_mul] at this
    rw [Nat.mul_comm n dim]; omega
  · simp only [if_true]
    have : (i + 1) * dim ≤ n * dim := Nat.mul_le_mul_right _ hi
    rw [Nat.succ_mul] at this
    omega

variable [IsStrictOrderedRing F]

theorem interpolate_keeps (gtsv : Solver F) (hg : Gtsv gtsv) {u row : Bool} {dim : Nat} {s : St F} {g : Data F} (h : Inv u row dim s g)
    (hm : s.model = 1 ∧ s.interp = true) (w : Sys F) : Keeps u row dim g (.interpolate w) (interpolateH gtsv s w) := by
  unfold interpolateH
  split
  · exact ⟨s, rfl, h⟩
  rename_i ht
  split
  · exact Keeps.err h
  rename_i hs
  push Not at hs
  have hs1 : s.sitesSet = true := by simpa using hs.1
  have hv1 : s.valuesSet = true := by simpa using hs.2
  obtain ⟨x, x1, x2, x3, x4⟩ := h.sites hs1
  obtain ⟨v1, v2, v3, v4, v5, v6, v7⟩ := h.values hv1
  have hsz : ∀ c, Inv u row dim { s with coeffs := c } g := fun c =>
    ⟨h.model, h.typ, h.sites, h.nosites, h.values, h.deriv, h.bc, fun h => absurd h ht⟩
  have hread : readsValues s = true := by
    unfold readsValues
    rw [Bool.and_eq_true, Bool.and_eq_true]
    refine ⟨⟨?_, ?_⟩, ?_⟩
    · rw [List.all_eq_true]
      intro i hi
      rw [decide_eq_true_iff, x2]
      exact List.mem_range.1 hi
    · rw [List.all_eq_true]
      intro b hb
      obtain ⟨d, hd, i, hi, rfl⟩ := mem_loop2.1 hb
      rw [id, decide_eq_true_iff, v5]
      rw [v2] at hd
      have := at_lt false hd hi
      simp only [Bool.false_eq_true, if_false] at this
      exact this
    · rw [List.all_eq_true]
      intro b hb
      obtain ⟨d, hd, i, hi, rfl⟩ := mem_loop2.1 hb
      rw [id, decide_eq_true_iff, v2]
      rw [v2] at hd
      exact lt_of_lt_of_le (at_lt _ hd (by omega)) v4
  simp only
  split
  · exact Keeps.err h
  rename_i hh
  split
  · exact Keeps.err (hsz _)
  rename_i hc
  have hder : s.typ = .hermite → s.derivSet = true := by
    intro ht
    by_contra hn
    exact hh ⟨ht, by simpa using hn⟩
  have hbc : s.typ = .custom → s.bcSet = true := by
    intro ht
    by_contra hn
    exact hc ⟨ht, by simpa using hn⟩
  have hall : (readsValues s && (decide (s.typ ≠ .hermite) || readsDeriv s) && (decide (s.typ ≠ .custom) || readsBc s)) = true := by
    rw [hread, Bool.true_and, Bool.and_eq_true]
    refine ⟨?_, ?_⟩
    · by_cases ht : s.typ = .hermite
      · obtain ⟨-, d2, -⟩ := h.deriv (hder ht)
        have : readsDeriv s = true := by
          unfold readsDeriv
          rw [List.all_eq_true]
          intro b hb
          obtain ⟨d, hd, i, hi, rfl⟩ := mem_loop2.1 hb
          rw [id, decide_eq_true_iff, v2]
          rw [v2] at hd
          exact lt_of_lt_of_le (at_lt _ hd hi) d2
        rw [this, Bool.or_true]
      · simp [ht]
    · by_cases ht : s.typ = .custom
      · obtain ⟨d1, d2, -⟩ := h.bc (hbc ht)
        have : readsBc s = true := by
          unfold readsBc
          rw [List.all_eq_true]
          intro d hd
          have hd := List.mem_range.1 hd
          rw [d1, d2, Bool.and_eq_true, decide_eq_true_iff]
          rw [v2] at hd
          exact ⟨hd, hd⟩
        rw [this, Bool.or_true]
      · simp [ht]
  rw [if_pos hall]
  split
  · exact Keeps.err (hsz _)
  · rename_i c hi
    refine ⟨_, rfl, Or.inr hm, h.typ, h.sites, h.nosites, h.values, h.deriv, h.bc, fun _ => ?_⟩
    change Correct g c
    rw [v6, v2, v3] at hi
    have hx : ∀ i, i + 1 < s.n → s.dx.val i ≠ 0 := fun i hi => ne_of_gt (x3 i hi).2
    obtain ⟨c1, c2, c3⟩ := C84_spline gtsv hg s.uniform row s.n dim v1 s.dx.val s.y.val hx x4 (kindOf s) w c hi
    have hxe : ∀ i, i + 1 < s.n → s.dx.val i = x (i + 1) - x i := fun i hi => (x3 i hi).1
    have k1 : Interpolates s.n dim (fun i => x (i + 1) - x i)
        (fun d i => s.y.val (if row then i * dim + d else d * s.n + i)) c := by
      intro d hd i hi
      obtain ⟨a, b⟩ := c1 d hd i hi
      rw [hxe i hi] at b
      exact ⟨a, b⟩
    have k2 : Smooth s.n dim s.dx.val c → Smooth s.n dim (fun i => x (i + 1) - x i) c := by
      intro hs d hd i hi
      obtain ⟨a, b⟩ := hs d hd i hi
      rw [hxe i (by omega)] at a b
      exact ⟨a, b⟩
    have e2 : s.dx.val (s.n - 2) = x (s.n - 2 + 1) - x (s.n - 2) := hxe _ (by omega)
    refine ⟨s.n, x, dim, _, x1, v7, k1, ?_⟩
    rw [h.typ]
    cases ht : s.typ with
    | natural =>
      simp only [kindOf, ht] at c2 c3
      refine ⟨k2 (c2 (by intro _ h; cases h)), ?_⟩
      intro d hd
      have := c3 d hd
      rw [e2] at this
      exact this
    | clamped =>
      simp only [kindOf, ht] at c2 c3
      refine ⟨k2 (c2 (by intro _ h; cases h)), ?_⟩
      intro d hd
      have := c3 d hd
      rw [e2] at this
      exact this
    | custom =>
      simp only [kindOf, ht] at c2 c3
      obtain ⟨-, -, b3⟩ := h.bc (hbc ht)
      refine ⟨_, _, _, _, b3, k2 (c2 (by intro _ h; cases h)), ?_⟩
      intro d hd
      have := c3 d hd
      rw [e2] at this
      exact this
    | hermite =>
      obtain ⟨-, -, d3⟩ := h.deriv (hder ht)
      refine ⟨_, d3, fun d i hd hi' => ?_⟩
      simp only [kindOf, ht] at hi
      have := C84_hermite gtsv s.uniform row s.n dim s.dx.val s.y.val s.yd.val hx w c hi d i hd hi'
      rw [hxe i hi'] at this
      exact this

theorem Inv.step (gtsv : Solver F) (hg : Gtsv gtsv) {u row : Bool} {dim : Nat} {s : St F} {g : Data F} {c : Call F}
    (hb : Basic s) (h : Inv u row dim s g) (hc : Disciplined u row dim c) :
    Keeps u row dim g c (Interp.step gtsv s c) := by
  have via : ∀ o, (s.model = 1 ∧ s.interp = true → Keeps u row dim g c o) → Keeps u row dim g c (viaInterp s o) := by
    intro o ho
    unfold viaInterp
    split
    · exact Keeps.err h
    · rename_i hm
      rcases h.model with hm' | hm'
      · exact absurd hm'.1 hm
      · rw [if_pos hm'.2]; exact ho hm'
  cases c with
  | selectModel m =>
    simp only [Interp.step, selectModel]
    split
    · exact Keeps.err h
    · rename_i hm
      have hm : s.model = 0 := by simpa using hm
      split
      · rename_i h1
        exact ⟨_, rfl, Or.inr ⟨h1, rfl⟩, h.typ, h.sites, h.nosites, h.values, h.deriv, h.bc, h.trained⟩
      · rename_i h1
        have hc : m ≤ 1 := hc
        have ht : s.trained = false := by
          rcases h.model with ⟨-, a⟩ | ⟨a, -⟩
          · exact a
          · omega
        exact ⟨_, rfl, Or.inl ⟨by simp only; omega, ht⟩, h.typ, h.sites, h.nosites, h.values, h.deriv, h.bc, h.trained⟩
  | setOption t =>
    simp only [Interp.step]
    have htyp : (g.after (.setOption t)).typ = t.getD s.typ := by
      simp only [Data.after]; rw [h.typ]
    split
    · rename_i hm
      rcases h.model with ⟨-, a⟩ | ⟨a, -⟩
      · exact ⟨_, rfl, Or.inl ⟨hm, a⟩, htyp, h.sites, h.nosites, h.values, h.deriv, h.bc,
          fun h => by rw [a] at h; cases h⟩
      · rw [hm] at a; cases a
    · rename_i hm
      rcases h.model with ⟨a, -⟩ | ⟨a, b⟩
      · exact absurd a hm
      · rw [if_pos b]
        exact ⟨_, rfl, Or.inr ⟨a, b⟩, htyp, h.sites, h.nosites, h.values, h.deriv, h.bc, by intro h; cases h⟩
  | setSites n x =>
    refine via _ fun hm => ?_
    unfold setSites1d
    split
    · exact Keeps.err h
    rename_i h1
    split
    · exact Keeps.err h
    rename_i h2
    split
    · exact Keeps.err h
    rename_i h3
    have hn : s.n = 0 ∨ s.n = n := by omega
    have hval : s.valuesSet = true → s.n = n := fun hv => by have := (h.values hv).1; omega
    have hdv : s.derivSet = true → s.n = n := fun hv => by have := (h.deriv hv).1; omega
    have ht : ¬ s.trained = true := fun ht => h1 (hb.trained ht).1
    simp only
    split
    · rename_i b hbb
      refine ⟨_, rfl, Or.inr hm, h.typ, fun h => absurd h h1, ?_, ?_, ?_, h.bc, fun h => absurd h ht⟩
      · intro hu
        have := List.mem_range.1 (List.mem_of_find?_eq_some hbb)
        have hle : x (b + 1) - x b ≤ 0 := by simpa using List.find?_some hbb
        have := hc hu b (by omega)
        linarith
      · intro hv
        have hv' := h.values hv
        rw [hval hv] at hv'
        exact hv'
      · intro hv
        have hv' := h.deriv hv
        rw [hdv hv] at hv'
        exact hv'
    · rename_i hbb
      refine ⟨_, rfl, Or.inr hm, h.typ, fun _ => ⟨x, rfl, rfl, ?_, ?_⟩, ?_, ?_, ?_, h.bc, ?_⟩
      · intro i hi
        refine ⟨rfl, ?_⟩
        have := List.find?_eq_none.1 hbb i (List.mem_range.2 (by simp only at hi; omega))
        simpa using this
      · intro hu; cases hu
      · intro _ hh; cases hh
      · intro hv
        have hv' := h.values hv
        rw [hval hv] at hv'
        exact hv'
      · intro hv
        have hv' := h.deriv hv
        rw [hdv hv] at hv'
        exact hv'
      · intro h; cases h
  | setSitesUniform n a b =>
    refine via _ fun hm => ?_
    unfold setSitesUniform1d
    split
    · exact Keeps.err h
    rename_i h1
    split
    · exact Keeps.err h
    rename_i h2
    split
    · exact Keeps.err h
    rename_i hab
    split
    · exact Keeps.err h
    rename_i h3
    have hn : s.n = 0 ∨ s.n = n := by omega
    have hval : s.valuesSet = true → s.n = n := fun hv => by have := (h.values hv).1; omega
    have hdv : s.derivSet = true → s.n = n := fun hv => by have := (h.deriv hv).1; omega
    have hl : s.dx.len = 0 := h.nosites hc (by simpa using h1)
    have hpos : 0 < (b - a) / ((n - 1 : Nat) : F) := by
      have : (0 : F) < ((n - 1 : Nat) : F) := Nat.cast_pos.2 (by omega)
      have h2 : 0 < b - a := by linarith [not_le.1 hab]
      positivity
    have hdx : ∀ i, (s.dx.resize (n - 1) ((b - a) / ((n - 1 : Nat) : F))).val i = (b - a) / ((n - 1 : Nat) : F) := by
      intro i
      simp only [Arr.resize, hl, Nat.not_lt_zero, if_false]
    refine ⟨_, rfl, Or.inr hm, h.typ, fun _ => ⟨_, rfl, rfl, ?_, ?_⟩, ?_, ?_, ?_, h.bc, ?_⟩
    · intro i hi
      simp only [hdx]
      refine ⟨?_, hpos⟩
      push_cast
      ring
    · intro _ i _
      simp only [hdx]
    · intro _ hh; cases hh
    · intro hv
      have hv' := h.values hv
      rw [hval hv] at hv'
      exact hv'
    · intro hv
      have hv' := h.deriv hv
      rw [hdv hv] at hv'
      exact hv'
    · intro h; cases h
  | setValues r ok n d y ld order =>
    obtain ⟨rfl, rfl, rfl⟩ := hc
    refine via _ fun hm => ?_
    unfold setValues1d
    split
    · exact Keeps.err h
    rename_i ho
    split
    · exact Keeps.err h
    rename_i h2
    have hn : s.n = 0 ∨ s.n = n := by omega
    have hval : s.valuesSet = true → s.n = n := fun hv => by have := (h.values hv).1; omega
    have hdv : s.derivSet = true → s.n = n := fun hv => by have := (h.deriv hv).1; omega
    simp only
    split
    · refine ⟨_, rfl, Or.inr hm, h.typ, h.sites, h.nosites, ?_, h.deriv, h.bc, h.trained⟩
      intro hv
      obtain ⟨a, b, c, d⟩ := h.values hv
      exact ⟨a, b, rfl, d⟩
    rename_i h3
    push Not at h3
    have hsite : s.sitesSet = true → s.n = n := fun hv => by have := (hb.sites hv).1; omega
    have hYeq : (fun d' i => y (if r then i * ldMin r n d + d' else d' * ldMin r n d + i)) =
        fun d' i => y (if r then i * d + d' else d' * n + i) := by
      funext d' i
      cases r <;> simp [ldMin]
    have hlen := arrayLen_tight r n d (by omega) (by omega)
    split
    · rename_i h1
      refine ⟨_, rfl, ?_, ?_, ?_, h.nosites, ?_, ?_, ?_, ?_⟩
      · exact Or.inr hm
      · simp only [Out.good, if_true, Data.after, if_pos h1]; exact h.typ
      · intro hv
        simp only [Out.good, if_true, Data.after, if_pos h1]
        have hv' := h.sites hv
        rw [hsite hv] at hv'
        exact hv'
      · intro hv
        simp only [Out.good, if_true, Data.after, if_pos h1]
        have hv' := h.values hv
        rw [hval hv] at hv'
        obtain ⟨a, b, c, d⟩ := hv'
        exact ⟨a, trivial, trivial, d⟩
      · intro _
        simp only [Out.good, if_true, Data.after, if_pos h1]
        refine ⟨by omega, hlen, ?_⟩
        rw [hYeq]
      · simp only [Out.good, if_true, Data.after, if_pos h1]; exact h.bc
      · intro h; cases h
    · rename_i h1
      refine ⟨_, rfl, ?_, ?_, ?_, h.nosites, ?_, ?_, ?_, ?_⟩
      · exact Or.inr hm
      · simp only [Out.good, if_true, Data.after, if_neg h1]; exact h.typ
      · intro hv
        simp only [Out.good, if_true, Data.after, if_neg h1]
        have hv' := h.sites hv
        rw [hsite hv] at hv'
        exact hv'
      · intro _
        simp only [Out.good, if_true, Data.after, if_neg h1]
        refine ⟨by omega, trivial, trivial, hlen, trivial, trivial, ?_⟩
        rw [hYeq]
      · intro hv
        simp only [Out.good, if_true, Data.after, if_neg h1]
        have hv' := h.deriv hv
        rw [hdv hv] at hv'
        exact hv'
      · simp only [Out.good, if_true, Data.after, if_neg h1]; exact h.bc
      · intro h; cases h
  | setBc d lord l rord r =>
    have hc : d = dim := hc
    subst hc
    refine via _ fun hm => ?_
    unfold setBc
    split
    · exact Keeps.err h
    split
    · exact Keeps.err h
    split
    · exact Keeps.err h
    exact ⟨_, rfl, Or.inr hm, rfl, h.sites, h.nosites, h.values, h.deriv, fun _ => ⟨rfl, rfl, rfl⟩, by intro h; cases h⟩
  | interpolate w => exact via _ fun hm => interpolate_keeps gtsv hg h hm w
  | evaluate cells orders =>
    refine via _ fun hm => ?_
    unfold evaluateH
    split
    · exact Keeps.err h
    rename_i ht
    have ht : s.trained = true := by simpa using ht
    split
    · exact Keeps.err h
    split
    · rw [if_pos]
      · exact ⟨_, rfl, h⟩
      · rw [List.all_eq_true]
        intro d hd
        rw [List.all_eq_true]
        intro c _
        have hd := List.mem_range.1 hd
        obtain ⟨h1, h2⟩ := hb.trained ht
        obtain ⟨h3, -⟩ := hb.sites h1
        rw [h2, decide_eq_true_iff]
        have h5 : (d + 1) * (4 * (s.n - 1)) ≤ s.dim * (4 * (s.n - 1)) := Nat.mul_le_mul_right _ hd
        rw [Nat.succ_mul] at h5
        rw [Nat.mul_assoc, Nat.mul_comm (4 * (s.n - 1)) s.dim]
        have h6 : min c (s.n - 2) ≤ s.n - 2 := Nat.min_le_right _ _
        omega
    · exact Keeps.err h

omit [IsStrictOrderedRing F] in
theorem Inv.init (u row : Bool) (dim : Nat) : Inv u row dim (.init : St F) {} :=
  ⟨Or.inl ⟨rfl, rfl⟩, rfl, (by intro h; cases h), (fun _ _ => rfl), (by intro h; cases h), (by intro h; cases h),
    (by intro h; cases h), (by intro h; cases h)⟩

/-- Sequences that keep the dimension and the storage order, with tight arrays and known
models, and without unsorted sites if uniform sites are used, are safe, and the handle
holds the spline of the data. -/
theorem C85_partial (gtsv : Solver F) (hg : Gtsv gtsv) (u row : Bool) (dim : Nat) (l : List (Call F))
    (hl : ∀ c ∈ l, Disciplined u row dim c) :
    ∃ s, (run gtsv (.ok .init) l).state = some s ∧ (s.trained = true → Correct (dataAfter gtsv .init {} l) s.coeffs.val) := by
  have key : ∀ (l : List (Call F)) (o : Out F) (s : St F) (g : Data F), o.state = some s → Basic s → Inv u row dim s g →
      (∀ c ∈ l, Disciplined u row dim c) →
      ∃ s', (run gtsv o l).state = some s' ∧ Inv u row dim s' (dataAfter gtsv s g l) := by
    intro l
    induction l with
    | nil => intro o s g ho _ hi _; exact ⟨s, ho, hi⟩
    | cons c l ih =>
      intro o s g ho hb hi hl
      rw [run_cons gtsv s o ho, dataAfter]
      obtain ⟨s1, h1, h2⟩ := Inv.step gtsv hg hb hi (hl c List.mem_cons_self)
      simp only [h1]
      exact ih _ s1 _ h1 (hb.step h1) h2 fun c hc => hl c (List.mem_cons_of_mem _ hc)
  obtain ⟨s, h1, h2⟩ := key l (.ok .init) .init {} rfl Basic.init (Inv.init u row dim) hl
  exact ⟨s, h1, h2.trained⟩

/-- A sequence with two fits on the same sites, and its data. -/
def goodCalls : List (Call ℚ) :=
  [.selectModel 1, .setSitesUniform 2 1 3, .setValues false true 2 2 (fun i => i) 2 0, .interpolate w0,
    .setValues false true 2 2 (fun i => 2 * i) 2 0, .evaluate [0] [0], .interpolate w0, .evaluate [0] [1]]

example : (∀ c ∈ goodCalls, Disciplined true false 2 c) ∧
    result goodCalls = some (true, [0, 1, 0, 0, 4, 1, 0, 0]) ∧ tag (run noSolver (.ok .init) goodCalls) = 0 ∧
    dataOn goodCalls = (some [2, 1, 3], some [2, 2, 0, 2, 4, 6]) := by
  refine ⟨?_, by decide +kernel, by decide +kernel, by decide +kernel⟩
  intro c hc
  simp only [goodCalls, List.mem_cons, List.not_mem_nil, or_false] at hc
  rcases hc with rfl | rfl | rfl | rfl | rfl | rfl | rfl | rfl <;> simp [Disciplined, ldMin]

end Verif.Interp
