import Mathlib.Analysis.SpecialFunctions.Sqrt
import Mathlib.Data.Rat.Defs
import Verif.Moments.MathProof

/-
C105, C106, C107, C108: the sums and the moments.
-/
namespace Verif.Moments

set_option linter.unusedSectionVars false

open Finset

section Sums

variable {A W : Type} [AddCommMonoid W]

/-- C105.  For every matrix, storage order, axis, leading dimension, number of threads and
order of the parallel iterations, `da_sum` ends without touching memory outside its
arrays, and cell `k` of the result is the sum of the summands of the entries of line `k`,
every entry once; the other cells of the caller's array keep their values. -/
theorem C105_every_entry_is_added_once (thr : Nat) (e : Env) (order : Order) (axis : Axis)
    {m n ldx : Nat} (S : Kern A W) (x : List A) (X : Nat → Nat → A) (out : List W)
    (p : Option (List A)) (g : Nat → A → W) (hm : 0 < m) (hn : 0 < n) (ht : 0 < thr)
    (hld : LdOk order m n ldx) (hx : Holds order m n ldx x X) (he : e.OkFor thr order m n)
    (hout : outLen axis m n ≤ out.length) (hS : Serves S p (outLen axis m n) g) :
    ∃ out', daSum thr e order axis m n S x ldx out p = .ok out' ∧
      out'.length = out.length ∧
      (∀ k < outLen axis m n, out'[k]? = some
        (∑ i ∈ range m, ∑ j ∈ range n, if line axis i j = k then g k (X i j) else 0)) ∧
      ∀ k, outLen axis m n ≤ k → out'[k]? = out[k]? := by
  obtain ⟨out', h1, h2⟩ := daSum_ok thr e order axis S x X out p g hm hn ht hld hx he hout hS
  refine ⟨out', h1, same_length hout h2, ?_, ?_⟩
  · intro k hk
    rw [h2 k, if_pos hk]
    congr 1
    cases axis with
    | all =>
      simp only [outLen] at hk
      have : k = 0 := by omega
      subst this
      simp [total, line]
    | col =>
      simp only [outLen] at hk
      simp only [total, line]
      apply sum_congr rfl
      intro i _
      symm
      apply (sum_eq_single k _ _).trans
      · exact if_pos rfl
      · intro j _ hne; exact if_neg hne
      · intro h; exact absurd (mem_range.2 hk) h
    | row =>
      simp only [outLen] at hk
      simp only [total, line]
      symm
      apply (sum_eq_single k _ _).trans
      · apply sum_congr rfl
        intro j _
        exact if_pos rfl
      · intro i _ hne
        apply sum_eq_zero
        intro j _
        exact if_neg hne
      · intro h; exact absurd (mem_range.2 hk) h
  · intro k hk
    rw [h2 k, if_neg (by omega)]

/-- C105: the result depends on the matrix alone; not on the storage order, the leading
dimension, the padding, the threshold of the recursion, the number of threads or the order
of the iterations. -/
theorem C105_only_the_matrix_matters (thr thr' : Nat) (e e' : Env) (order order' : Order)
    (axis : Axis) {m n ldx ldx' : Nat} (S : Kern A W) (x x' : List A) (X : Nat → Nat → A)
    (out : List W) (p : Option (List A)) (g : Nat → A → W) (hm : 0 < m) (hn : 0 < n)
    (ht : 0 < thr) (ht' : 0 < thr') (hld : LdOk order m n ldx) (hld' : LdOk order' m n ldx')
    (hx : Holds order m n ldx x X) (hx' : Holds order' m n ldx' x' X)
    (he : e.OkFor thr order m n) (he' : e'.OkFor thr' order' m n)
    (hout : outLen axis m n ≤ out.length) (hS : Serves S p (outLen axis m n) g) :
    daSum thr e order axis m n S x ldx out p = daSum thr' e' order' axis m n S x' ldx' out p := by
  obtain ⟨o1, h1, h2⟩ := daSum_ok thr e order axis S x X out p g hm hn ht hld hx he hout hS
  obtain ⟨o2, h3, h4⟩ := daSum_ok thr' e' order' axis S x' X out p g hm hn ht' hld' hx' he'
    hout hS
  rw [h1, h3]
  congr 1
  apply List.ext_getElem?
  intro k
  rw [h2 k, h4 k]

/-- A 3 × 5 matrix stored by rows with one cell of padding, summed by columns with a
threshold of 2, so that the recursion splits, and the loops run backwards. -/
example : daSum 2 (Env.back 2 1 3 5) .row .col 3 5 (.one fun a : Int => a)
    [1, 2, 3, 4, 5, 100, 6, 7, 8, 9, 10, 100, 11, 12, 13, 14, 15] 6 [0, 0, 0, 0, 0, 77] none =
    .ok [18, 21, 24, 27, 30, 77] := by decide +kernel

/-- The same matrix by rows and as a whole. -/
example : daSum 2 (Env.back 2 1 3 5) .row .row 3 5 (.one fun a : Int => a)
    [1, 2, 3, 4, 5, 100, 6, 7, 8, 9, 10, 100, 11, 12, 13, 14, 15] 6 [0, 0, 0] none =
    .ok [15, 40, 65] ∧
  daSum 2 (Env.plain 2 1 3 5) .row .all 3 5 (.one fun a : Int => a)
    [1, 2, 3, 4, 5, 100, 6, 7, 8, 9, 10, 100, 11, 12, 13, 14, 15] 6 [0] none =
    .ok [120] := by decide +kernel

/-- With one thread more than one block may be used when a dimension is large: here three
blocks of rows and, because there are seven threads, three blocks of columns. -/
example : plan 2048 7 5000 70 = .ok ⟨3, 1666, 3, 23⟩ := by decide +kernel

/-- C106.  Where the sums run across the storage order, every array that the function
allocates for partial sums is used only while it is live and has been freed at the end,
none twice; the caller's array is the only one left.  (A use of a freed array, and a
second `delete`, would be the fault `freed`.) -/
theorem C106_partial_sums_are_freed (thr : Nat) (e : Env) (S : Kern A W)
    {outer inner ldx : Nat} (x : List A) (X : Nat → Nat → A) (p : Option (List A))
    (out : List W) (g : Nat → A → W) (hi0 : 0 < inner) (ho0 : 0 < outer) (ht : 0 < thr)
    (he : e.Ok thr outer inner) (hout : inner ≤ out.length)
    (hx : Holds .row outer inner ldx x X) (hS : Serves S p inner g) :
    ∃ out' freed, misalignedArrays thr e S outer inner x ldx p out = .ok (some out' :: freed) ∧
      (∀ a ∈ freed, a = none) ∧
      ∃ pl, plan thr e.maxThreads outer inner = .ok pl ∧ freed.length + 1 = pl.nOuter ∧
        pl.nOuter ≤ e.maxThreads ∧ 1 ≤ pl.outerSize := by
  have hvalAt : ∀ k < inner, ∀ (pos : Nat) (a : A), x[pos]? = some a →
      valAt S x p pos k = .ok (g k a) := by
    intro k hk pos a ha
    unfold valAt
    rw [rd_ok ha, ok_bind]
    cases S with
    | one f =>
      cases p with
      | some l => exact absurd hS (by simp [Serves])
      | none => simp only; rw [hS k hk]; rfl
    | two f =>
      cases p with
      | none => exact absurd hS (by simp [Serves])
      | some l =>
        obtain ⟨b, h1, h2⟩ := hS k hk
        simp only [paramAt]
        rw [rd_ok h1]
        simp only [ok_bind, Kern.app]
        rw [← h2]
  obtain ⟨ls, out', h1, h2, _⟩ := misaligned_ok thr e S (ldx := ldx) x p out
    (fun o c => g c (X o c)) hi0 ho0 ht he hout
    (fun o ho c hc => hvalAt c hc _ _ (hx o ho c hc))
  obtain ⟨pl, hpl, hnO, _, hos, _⟩ := plan_ok ht he.threads ho0 hi0
  refine ⟨out', ls, h1, h2, pl, hpl, ?_, ?_⟩
  · -- the number of arrays never changes
    have hlen : ∀ (ls ls' : List (Option (List W))) ij,
        block thr S pl outer inner x ldx p ij ls = .ok ls' → ls'.length = ls.length := by
      intro ls ls' ij hb
      unfold block at hb
      simp only at hb
      cases hr : rd ls ij.1 with
      | error e => rw [hr] at hb; exact absurd hb (by simp [bind, Except.bind])
      | ok o =>
        rw [hr, ok_bind] at hb
        cases o with
        | none => exact absurd hb (by simp)
        | some arr =>
          simp only at hb
          revert hb
          generalize recVec thr S x p _ _ _ _ _ _ _ = r
          intro hb
          cases r with
          | error e => exact absurd hb (by simp [bind, Except.bind])
          | ok d =>
            rw [ok_bind] at hb
            unfold wr at hb
            split at hb
            · cases hb; simp
            · exact absurd hb (by simp)
    have hmlen : ∀ (s d : Nat) (ls ls' : List (Option (List W))),
        merge pl.nOuter inner s d ls = .ok ls' → ls'.length = ls.length := by
      intro s d ls ls' hb
      unfold merge at hb
      simp only at hb
      split at hb
      · cases hr : rd ls d with
        | error e => rw [hr] at hb; exact absurd hb (by simp [bind, Except.bind])
        | ok a =>
          rw [hr, ok_bind] at hb
          cases hr2 : rd ls (d + s) with
          | error e => rw [hr2] at hb; exact absurd hb (by simp [bind, Except.bind])
          | ok b =>
            rw [hr2, ok_bind] at hb
            cases a with
            | none => exact absurd hb (by simp)
            | some a =>
              cases b with
              | none => exact absurd hb (by simp)
              | some b =>
                simp only at hb
                revert hb
                generalize forUp inner _ a = r
                intro hb
                cases r with
                | error e => exact absurd hb (by simp [bind, Except.bind])
                | ok sm =>
                  rw [ok_bind] at hb
                  unfold wr at hb
                  split at hb
                  · rw [ok_bind] at hb
                    split at hb
                    · cases hb; simp
                    · exact absurd hb (by simp)
                  · exact absurd hb (by simp [bind, Except.bind])
      · cases hb; rfl
    have hfold : ∀ (f : List (Option (List W)) → Nat × Nat → M (List (Option (List W))))
        (bs : List (Nat × Nat)) (ls ls' : List (Option (List W))),
        (∀ ls ls' b, f ls b = .ok ls' → ls'.length = ls.length) →
        bs.foldlM f ls = .ok ls' → ls'.length = ls.length := by
      intro f bs
      induction bs with
      | nil => intro ls ls' _ h; cases h; rfl
      | cons b bs ih =>
        intro ls ls' hf h
        rw [List.foldlM_cons] at h
        cases hb : f ls b with
        | error e => rw [hb] at h; exact absurd h (by simp [bind, Except.bind])
        | ok l1 =>
          rw [hb, ok_bind] at h
          rw [ih l1 ls' hf h, hf ls l1 b hb]
    have hfold' : ∀ (f : List (Option (List W)) → Nat → M (List (Option (List W))))
        (bs : List Nat) (ls ls' : List (Option (List W))),
        (∀ ls ls' b, f ls b = .ok ls' → ls'.length = ls.length) →
        bs.foldlM f ls = .ok ls' → ls'.length = ls.length := by
      intro f bs
      induction bs with
      | nil => intro ls ls' _ h; cases h; rfl
      | cons b bs ih =>
        intro ls ls' hf h
        rw [List.foldlM_cons] at h
        cases hb : f ls b with
        | error e => rw [hb] at h; exact absurd h (by simp [bind, Except.bind])
        | ok l1 =>
          rw [hb, ok_bind] at h
          rw [ih l1 ls' hf h, hf ls l1 b hb]
    have hall : ∀ (fuel s : Nat) (ls ls' : List (Option (List W))),
        mergeAll e pl.nOuter inner fuel s ls = .ok ls' → ls'.length = ls.length := by
      intro fuel
      induction fuel with
      | zero => intro s ls ls' h; exact absurd h (by simp [mergeAll])
      | succ fuel ih =>
        intro s ls ls' h
        unfold mergeAll at h
        split at h
        · cases hb : (e.level s).foldlM (fun ls dst => merge pl.nOuter inner s dst ls) ls with
          | error e => rw [hb] at h; exact absurd h (by simp [bind, Except.bind])
          | ok l1 =>
            rw [hb, ok_bind] at h
            rw [ih _ l1 ls' h]
            exact hfold' _ _ ls l1 (fun a b d => hmlen s d a b) hb
        · cases h; rfl
    unfold misalignedArrays at h1
    cases hf : forUp inner (fun i s => wr s i 0) out with
    | error e => rw [hf] at h1; exact absurd h1 (by simp [bind, Except.bind])
    | ok o1 =>
      rw [hf, ok_bind, hpl, ok_bind] at h1
      cases hb : e.blocks.foldlM (fun ls ij => block thr S pl outer inner x ldx p ij ls)
          (locals pl.nOuter inner o1) with
      | error e => rw [hb] at h1; exact absurd h1 (by simp [bind, Except.bind])
      | ok l1 =>
        rw [hb, ok_bind] at h1
        have e1 := hall _ _ _ _ h1
        have e2 := hfold _ _ _ _ (fun a b d => hlen a b d) hb
        rw [List.length_cons] at e1
        rw [e1, e2]
        simp only [locals, List.length_cons, List.length_replicate]
        omega
  · -- bounds on the number of blocks
    unfold plan at hpl
    simp only at hpl
    obtain ⟨mt', hmt'⟩ : ∃ mt', mt' = if inner ≥ 1024 ∨ outer ≥ 1024 then e.maxThreads else 1 :=
      ⟨_, rfl⟩
    rw [← hmt'] at hpl
    have hmt : mt' ≤ e.maxThreads := by
      have := he.threads
      rw [hmt']; split <;> omega
    have hno : pl.nOuter = min mt' ((outer + thr - 1) / thr) := by
      rw [if_neg (by omega)] at hpl
      split at hpl
      · cases hpl
      · split at hpl
        · split at hpl
          · cases hpl
          · cases hpl; rfl
        · cases hpl; rfl
    refine ⟨by omega, ?_⟩
    rw [hos]
    apply Nat.div_pos _ hnO
    have : (outer + thr - 1) / thr ≤ outer := by
      rw [Nat.div_le_iff_le_mul_add_pred ht]
      have : outer ≤ thr * outer := Nat.le_mul_of_pos_left _ ht
      omega
    omega

/-- Two arrays merged into one: after the reduction the second is freed. -/
example : mergeAll (Env.plain 1 1024 3 2) 3 2 4 1
    [some [1, 2], some [10, 20], some [100, 200]] = .ok [some [(111 : Int), 222], none, none] := by
  decide +kernel

end Sums

section Moments

variable {K : Type} [Field K] [LinearOrder K] [IsStrictOrderedRing K]

/-- The documented number of degrees of freedom (aoclda_basic_statistics.h:176-179). -/
def docDof (dof : Int) (count : Nat) : Int :=
  if dof < 0 then count else if dof = 0 then (count : Int) - 1 else dof

/-- C107: `da_mean`. -/
theorem C107_mean (thr : Nat) (e : Env) (order : Order) (axis : Axis) {m n ldx : Nat}
    (x : List K) (X : Nat → Nat → K) (out : List K) (hm : 0 < m) (hn : 0 < n) (ht : 0 < thr)
    (hld : LdOk order m n ldx) (hx : Holds order m n ldx x X) (he : e.OkFor thr order m n)
    (hout : outLen axis m n ≤ out.length) :
    ∃ out', mean thr e order axis m n (some x) ldx (some out) = .ok (.success, some out') ∧
      out'.length = out.length ∧
      ∀ k < outLen axis m n, ∃ v, out'[k]? = some v ∧
        (obs axis m n : K) * v = ∑ c ∈ cells axis m n k, X c.1 c.2 := by
  obtain ⟨out', h1, h2⟩ := mean_ok thr order axis x X hm hn ht hld hx e he out hout
  refine ⟨out', h1, h2.length hout, ?_⟩
  intro k hk
  refine ⟨_, by rw [h2 k, if_pos hk], ?_⟩
  have : (obs axis m n : K) ≠ 0 := by exact_mod_cast (obs_pos axis hm hn).ne'
  rw [avg, total_cells]
  field_simp

/-- C107: `da_variance`.  With `d` the documented degrees of freedom: `d` times the
variance of a line is the sum of the squared deviations from its mean; for the one case
in which `d` is 0 (one observation, `dof = 0`) the result is 0.  Variances are never
negative and vanish exactly on constant lines. -/
theorem C107_variance (thr : Nat) (env : Nat → Env) (order : Order) (axis : Axis)
    {m n ldx : Nat} (x : List K) (X : Nat → Nat → K) (dof : Int) (am var : List K)
    (hm : 0 < m) (hn : 0 < n) (ht : 0 < thr)
    (hld : LdOk order m n ldx) (hx : Holds order m n ldx x X)
    (he : ∀ k, (env k).OkFor thr order m n)
    (ham : outLen axis m n ≤ am.length) (hvar : outLen axis m n ≤ var.length) :
    ∃ am' var', variance thr env order axis m n (some x) ldx dof (some am) (some var) =
        .ok (.success, some am', some var') ∧
      ∀ k < outLen axis m n, ∃ mu v, am'[k]? = some mu ∧ var'[k]? = some v ∧
        (obs axis m n : K) * mu = ∑ c ∈ cells axis m n k, X c.1 c.2 ∧
        (docDof dof (obs axis m n) ≠ 0 →
          ((docDof dof (obs axis m n) : Int) : K) * v =
            ∑ c ∈ cells axis m n k, (X c.1 c.2 - mu) ^ 2) ∧
        (docDof dof (obs axis m n) = 0 → v = 0) ∧ 0 ≤ v ∧
        (v = 0 ↔ ∀ c ∈ cells axis m n k, X c.1 c.2 = mu) := by
  obtain ⟨am', var', h1, h2, h3⟩ := variance_ok thr order axis x X hm hn ht hld hx env he dof am
    var ham hvar
  refine ⟨am', var', h1, ?_⟩
  intro k hk
  have hoK : (obs axis m n : K) ≠ 0 := by exact_mod_cast (obs_pos axis hm hn).ne'
  have hmean : (obs axis m n : K) * avg axis m n X k = ∑ c ∈ cells axis m n k, X c.1 c.2 := by
    rw [avg, total_cells]
    field_simp
  have hsf : scaleFactor dof (obs axis m n) = docDof dof (obs axis m n) := rfl
  have hge : 0 ≤ docDof dof (obs axis m n) := by
    have := obs_pos axis hm hn
    unfold docDof; split
    · omega
    · split <;> omega
  obtain ⟨S2, hS2⟩ : ∃ v, v = ∑ c ∈ cells axis m n k,
    (X c.1 c.2 - avg axis m n X k) * (X c.1 c.2 - avg axis m n X k) := ⟨_, rfl⟩
  have hS2' : ∑ c ∈ cells axis m n k, (X c.1 c.2 - avg axis m n X k) ^ 2 = S2 := by
    rw [hS2]; simp only [pow_two]
  have hS2n : 0 ≤ S2 := by rw [hS2]; exact sq_sum_nonneg _ _
  have hS2z : S2 = 0 ↔ ∀ c ∈ cells axis m n k, X c.1 c.2 = avg axis m n X k := by
    rw [hS2, sq_sum_zero_iff]
    simp only [sub_eq_zero]
  have hv := h3 k
  rw [if_pos hk] at hv
  simp only [total_cells] at hv
  rw [← hS2, hsf] at hv
  refine ⟨_, _, by rw [h2 k, if_pos hk], hv, hmean, ?_, ?_, ?_, ?_⟩
  · intro hd
    rw [hS2']
    by_cases h1d : 1 < docDof dof (obs axis m n)
    · rw [if_pos h1d]
      have : ((docDof dof (obs axis m n) : Int) : K) ≠ 0 := by exact_mod_cast hd
      field_simp
    · have : docDof dof (obs axis m n) = 1 := by omega
      rw [if_neg h1d, this]
      simp
  · intro hd
    rw [hd, if_neg (by omega), div_one, hS2z]
    -- one observation is its own mean
    have hone : obs axis m n = 1 := by
      unfold docDof at hd
      have := obs_pos axis hm hn
      split at hd
      · omega
      · split at hd <;> omega
    intro c hc
    have hcard := card_cells axis m n k
    rw [hone, card_eq_one] at hcard
    obtain ⟨a, ha⟩ := hcard
    rw [ha] at hc hmean
    rw [sum_singleton, hone, Nat.cast_one, one_mul] at hmean
    rw [mem_singleton] at hc
    rw [hc, hmean]
  · split
    · apply div_nonneg hS2n
      exact_mod_cast hge
    · simpa using hS2n
  · rw [← hS2z]
    split
    · have : ((docDof dof (obs axis m n) : Int) : K) ≠ 0 := by
        have : docDof dof (obs axis m n) ≠ 0 := by omega
        exact_mod_cast this
      rw [div_eq_zero_iff]
      constructor
      · rintro (h | h)
        · exact h
        · exact absurd h this
      · exact Or.inl
    · rw [div_one]

/-- C107: `da_moment`: the mean of the `k`-th powers of the deviations, from the mean of the
line or from the centres the caller gives. -/
theorem C107_moment (thr : Nat) (env : Nat → Env) (order : Order) (axis : Axis)
    {m n ldx : Nat} (x : List K) (X : Nat → Nat → K) (pw : Nat) (pre : Bool) (am mom : List K)
    (c : Nat → K) (hm : 0 < m) (hn : 0 < n) (ht : 0 < thr)
    (hld : LdOk order m n ldx) (hx : Holds order m n ldx x X)
    (he : ∀ k, (env k).OkFor thr order m n)
    (hc : pre = true → ∀ k < outLen axis m n, am[k]? = some (c k))
    (hc' : pre = false → ∀ k < outLen axis m n,
      (obs axis m n : K) * c k = ∑ c ∈ cells axis m n k, X c.1 c.2)
    (ham : outLen axis m n ≤ am.length) (hmom : outLen axis m n ≤ mom.length) :
    ∃ am' mom', moment thr env order axis m n (some x) ldx pw pre (some am) (some mom) =
        .ok (.success, some am', some mom') ∧
      ∀ k < outLen axis m n, am'[k]? = some (c k) ∧ ∃ v, mom'[k]? = some v ∧
        (obs axis m n : K) * v = ∑ d ∈ cells axis m n k, (X d.1 d.2 - c k) ^ pw := by
  have hoK : (obs axis m n : K) ≠ 0 := by exact_mod_cast (obs_pos axis hm hn).ne'
  have havg : pre = false → ∀ k < outLen axis m n, c k = avg axis m n X k := by
    intro hp k hk
    have := hc' hp k hk
    rw [avg, total_cells, ← this]
    field_simp
  obtain ⟨am', mom', h1, h2, h3⟩ := moment_ok thr order axis x X hm hn ht hld hx env he pw pre am
    mom (if pre then c else avg axis m n X) (by intro hp; simpa [hp] using hc hp)
    (by intro hp; simp [hp]) ham hmom
  refine ⟨am', mom', h1, ?_⟩
  intro k hk
  have hck : (if pre then c else avg axis m n X) k = c k := by
    cases pre
    · simp only [Bool.false_eq_true, if_false]; exact (havg rfl k hk).symm
    · simp
  have hv := h3 k
  rw [if_pos hk] at hv
  simp only [hck, total_cells] at hv
  refine ⟨?_, _, hv, by field_simp⟩
  cases pre
  · simp only [Bool.false_eq_true, if_false] at h2
    rw [h2 k, if_pos hk, havg rfl k hk]
  · simp only [if_true] at h2
    rw [h2, hc rfl k hk]

/-- C107: bad arguments are reported, before any array is written. -/
theorem C107_bad_arguments (thr : Nat) (env : Nat → Env) (order : Order) (axis : Axis)
    (m n ldx dof : Int) (x am var : Option (List K))
    (h : m < 1 ∨ n < 1 ∨ x = none ∨ am = none ∨ (order = .col ∧ ldx < m) ∨
      (order = .row ∧ ldx < n)) :
    ∃ s, s ≠ Status.success ∧
      mean thr (env 0) order axis m n x ldx am = .ok (s, am) ∧
      variance thr env order axis m n x ldx dof am var = .ok (s, am, var) ∧
      (s = .invalidDim ↔ m < 1 ∨ n < 1) := by
  have hs : checkData order m n x ldx am ≠ .success ∧
      (checkData order m n x ldx am = .invalidDim ↔ m < 1 ∨ n < 1) := by
    unfold checkData
    by_cases h1 : m < 1 ∨ n < 1
    · simp [h1]
    · by_cases h2 : x = none ∨ am = none
      · simp [h1, h2]
      · cases order
        · have : ldx < m := by
            rcases h with h | h | h | h | h | h
            · exact absurd (Or.inl h) h1
            · exact absurd (Or.inr h) h1
            · exact absurd (Or.inl h) h2
            · exact absurd (Or.inr h) h2
            · exact h.2
            · exact absurd h.1 (by simp)
          simp [h1, h2, this]
        · have : ldx < n := by
            rcases h with h | h | h | h | h | h
            · exact absurd (Or.inl h) h1
            · exact absurd (Or.inr h) h1
            · exact absurd (Or.inl h) h2
            · exact absurd (Or.inr h) h2
            · exact absurd h.1 (by simp)
            · exact h.2
          simp [h1, h2, this]
  refine ⟨_, hs.1, ?_, ?_, hs.2⟩
  · unfold mean
    split
    · rename_i hc; exact absurd hc hs.1
    · rfl
  · unfold variance
    split
    · rename_i hc; exact absurd hc hs.1
    · rfl

/-- Column means and variances of a 3 × 2 matrix stored by columns. -/
example : variance 2 (fun _ => Env.plain 2 1 2 3) .col .col 3 2
    (some [1, 2, 6, 5, 5, (5 : Rat)]) 3 0 (some [0, 0]) (some [9, 9]) =
    .ok (.success, some [3, 5], some [7, 0]) := by decide +kernel

/-- The third moment of the whole matrix about 5. -/
example : moment 2 (fun _ => Env.plain 2 1 2 3) .col .all 3 2
    (some [1, 2, 6, 5, 5, (5 : Rat)]) 3 3 true (some [5]) (some [0]) =
    .ok (.success, some [5], some [-15]) := by decide +kernel

/-- C108: `da_skewness` and `da_kurtosis` give the documented ratios of central moments
wherever the variance is not zero; there the kurtosis `g₂` is at least `g₁² - 2`, hence at
least -2.  `S2`, `S3`, `S4` are the sums of the powers of the deviations. -/
theorem C108_kurtosis (thr : Nat) (env : Nat → Env) (order : Order) (axis : Axis)
    {m n ldx : Nat} (x : List K) (X : Nat → Nat → K) (am var kurt : List K)
    (hm : 0 < m) (hn : 0 < n) (ht : 0 < thr)
    (hld : LdOk order m n ldx) (hx : Holds order m n ldx x X)
    (he : ∀ k, (env k).OkFor thr order m n)
    (ham : outLen axis m n ≤ am.length) (hvar : outLen axis m n ≤ var.length)
    (hk4 : outLen axis m n ≤ kurt.length) :
    ∃ am' var' kurt', kurtosis thr env order axis m n (some x) ldx (some am) (some var)
        (some kurt) = .ok (.success, some am', some var', some kurt') ∧
      ∀ k < outLen axis m n, ∃ mu v g, am'[k]? = some mu ∧ var'[k]? = some v ∧
        kurt'[k]? = some g ∧
        (obs axis m n : K) * mu = ∑ c ∈ cells axis m n k, X c.1 c.2 ∧
        (obs axis m n : K) * v = ∑ c ∈ cells axis m n k, (X c.1 c.2 - mu) ^ 2 ∧
        (v ≠ 0 → g = (∑ c ∈ cells axis m n k, (X c.1 c.2 - mu) ^ 4) / (obs axis m n : K) / v ^ 2
            - 3 ∧
          ((∑ c ∈ cells axis m n k, (X c.1 c.2 - mu) ^ 3) / (obs axis m n : K)) ^ 2 / v ^ 3 ≤
            g + 2 ∧ -2 ≤ g) ∧
        (v = 0 → g = -3) := by
  have hoK : (obs axis m n : K) ≠ 0 := by exact_mod_cast (obs_pos axis hm hn).ne'
  have hoP : (0 : K) < obs axis m n := by exact_mod_cast obs_pos axis hm hn
  obtain ⟨am', var', kurt', h1, h2, h3, h4⟩ := shape_ok thr order axis x X hm hn ht hld hx env he
    4 kurtPost (fun s a => if s = 0 then -3 else a * (obs axis m n : K) / (s * s) - 3) am var kurt
    (by
      intro k _
      unfold kurtPost
      split
      · rfl
      · rename_i h
        unfold divM
        rw [if_neg (mul_ne_zero h h), ok_bind]) ham hvar hk4
  refine ⟨am', var', kurt', h1, ?_⟩
  intro k hk
  have hmean : (obs axis m n : K) * avg axis m n X k = ∑ c ∈ cells axis m n k, X c.1 c.2 := by
    rw [avg, total_cells]
    field_simp
  have hv := h3 k
  have hg := h4 k
  rw [if_pos hk] at hv hg
  simp only [total_cells] at hv hg
  obtain ⟨d, hd⟩ : ∃ d : Nat × Nat → K, d = fun c => X c.1 c.2 - avg axis m n X k := ⟨_, rfl⟩
  have hd' : ∀ c, X c.1 c.2 - avg axis m n X k = d c := fun c => by rw [hd]
  simp only [hd'] at hv hg
  have hd0 : ∑ c ∈ cells axis m n k, d c = 0 := by
    rw [hd]
    simp only
    rw [sum_sub_distrib, ← hmean, sum_const, card_cells, nsmul_eq_mul, sub_self]
  obtain ⟨S2, hS2⟩ : ∃ v, v = ∑ c ∈ cells axis m n k, d c * d c := ⟨_, rfl⟩
  have hp := pearson (cells axis m n k) d hd0
  rw [card_cells] at hp
  rw [← hS2] at hv hg hp
  have hS2' : ∑ c ∈ cells axis m n k, (X c.1 c.2 - avg axis m n X k) ^ 2 = S2 := by
    rw [hS2]; simp only [hd', pow_two]
  refine ⟨_, _, _, by rw [h2 k, if_pos hk], hv, hg, hmean, ?_, ?_, ?_⟩
  · rw [hS2']; field_simp
  · intro hne
    have hS : S2 ≠ 0 := fun h => hne (by rw [h, zero_div])
    have hSp : 0 < S2 := lt_of_le_of_ne (by rw [hS2]; exact sq_sum_nonneg _ _) (Ne.symm hS)
    simp only [hd']
    obtain ⟨S3, hS3⟩ : ∃ v, v = ∑ c ∈ cells axis m n k, d c ^ 3 := ⟨_, rfl⟩
    obtain ⟨S4, hS4⟩ : ∃ v, v = ∑ c ∈ cells axis m n k, d c ^ 4 := ⟨_, rfl⟩
    have hp := hp hS
    rw [← hS3, ← hS4] at hp
    rw [if_neg hS, ← hS3, ← hS4]
    have hq : (S3 / (obs axis m n : K)) ^ 2 / (S2 / (obs axis m n : K)) ^ 3 ≤
        S4 * (obs axis m n : K) / (S2 * S2) - 3 + 2 := by
      have e1 : (S3 / (obs axis m n : K)) ^ 2 / (S2 / (obs axis m n : K)) ^ 3 =
          (obs axis m n : K) * S3 ^ 2 / S2 ^ 3 := by field_simp
      have e2 : S4 * (obs axis m n : K) / (S2 * S2) - 3 + 2 =
          ((obs axis m n : K) * S4 * S2 - S2 ^ 3) / S2 ^ 3 := by field_simp; ring
      rw [e1, e2]
      apply div_le_div_of_nonneg_right _ (by positivity)
      linarith
    refine ⟨by field_simp, hq, ?_⟩
    have h0 : 0 ≤ (S3 / (obs axis m n : K)) ^ 2 / (S2 / (obs axis m n : K)) ^ 3 := by positivity
    linarith
  · intro hz
    have : S2 = 0 := by
      rcases div_eq_zero_iff.1 hz with h | h
      · exact h
      · exact absurd h hoK
    rw [if_pos this]

/-- C108: the skewness; `pow(v, 1.5)` is `v` times the square root of `v`. -/
theorem C108_skewness (sqrt : K → K) (thr : Nat) (env : Nat → Env) (order : Order)
    (axis : Axis) {m n ldx : Nat} (x : List K) (X : Nat → Nat → K) (am var skew : List K)
    (hsq : ∀ a, 0 ≤ a → 0 ≤ sqrt a ∧ sqrt a * sqrt a = a)
    (hm : 0 < m) (hn : 0 < n) (ht : 0 < thr)
    (hld : LdOk order m n ldx) (hx : Holds order m n ldx x X)
    (he : ∀ k, (env k).OkFor thr order m n)
    (ham : outLen axis m n ≤ am.length) (hvar : outLen axis m n ≤ var.length)
    (hk4 : outLen axis m n ≤ skew.length) :
    ∃ am' var' skew', skewness sqrt thr env order axis m n (some x) ldx (some am) (some var)
        (some skew) = .ok (.success, some am', some var', some skew') ∧
      ∀ k < outLen axis m n, ∃ mu v g, am'[k]? = some mu ∧ var'[k]? = some v ∧
        skew'[k]? = some g ∧
        (obs axis m n : K) * mu = ∑ c ∈ cells axis m n k, X c.1 c.2 ∧
        (obs axis m n : K) * v = ∑ c ∈ cells axis m n k, (X c.1 c.2 - mu) ^ 2 ∧
        (v ≠ 0 → g * (v * sqrt v) =
          (∑ c ∈ cells axis m n k, (X c.1 c.2 - mu) ^ 3) / (obs axis m n : K)) ∧
        (v = 0 → g = 0) := by
  have hoK : (obs axis m n : K) ≠ 0 := by exact_mod_cast (obs_pos axis hm hn).ne'
  have hoP : (0 : K) < obs axis m n := by exact_mod_cast obs_pos axis hm hn
  have hsq0 : ∀ a, 0 < a → 0 < sqrt a := by
    intro a ha
    obtain ⟨h1, h2⟩ := hsq a ha.le
    rcases lt_or_eq_of_le h1 with h | h
    · exact h
    · rw [← h, mul_zero] at h2; exact absurd h2 ha.ne
  have hsnn : ∀ k, 0 ≤ total axis m n X
      (fun a => (a - avg axis m n X k) * (a - avg axis m n X k)) k := by
    intro k; rw [total_cells]; exact sq_sum_nonneg _ _
  obtain ⟨am', var', skew', h1, h2, h3, h4⟩ := shape_ok thr order axis x X hm hn ht hld hx env he
    3 (skewPost sqrt)
    (fun s a => if s = 0 then 0 else a * sqrt (obs axis m n : K) / (s * sqrt s)) am var skew
    (by
      intro k _
      have hs := hsnn k
      unfold skewPost
      split
      · rfl
      · rename_i h
        have hpos := lt_of_le_of_ne hs (Ne.symm h)
        unfold sqrtM divM
        rw [if_neg (not_lt.2 hoP.le), ok_bind, if_neg (not_lt.2 hs), ok_bind,
          if_neg (mul_ne_zero h (hsq0 _ hpos).ne')]) ham hvar hk4
  refine ⟨am', var', skew', h1, ?_⟩
  intro k hk
  have hmean : (obs axis m n : K) * avg axis m n X k = ∑ c ∈ cells axis m n k, X c.1 c.2 := by
    rw [avg, total_cells]
    field_simp
  have hv := h3 k
  have hg := h4 k
  rw [if_pos hk] at hv hg
  have hs := hsnn k
  simp only [total_cells] at hv hg hs
  obtain ⟨S2, hS2⟩ : ∃ v, v = ∑ c ∈ cells axis m n k,
    (X c.1 c.2 - avg axis m n X k) * (X c.1 c.2 - avg axis m n X k) := ⟨_, rfl⟩
  have hS2' : ∑ c ∈ cells axis m n k, (X c.1 c.2 - avg axis m n X k) ^ 2 = S2 := by
    rw [hS2]; simp only [pow_two]
  rw [← hS2] at hv hg hs
  refine ⟨_, _, _, by rw [h2 k, if_pos hk], hv, hg, hmean, ?_, ?_, ?_⟩
  · rw [hS2']; field_simp
  · intro hne
    have hS : S2 ≠ 0 := fun h => hne (by rw [h, zero_div])
    have hSp : 0 < S2 := lt_of_le_of_ne hs (Ne.symm hS)
    rw [if_neg hS]
    have hroot : sqrt (S2 / (obs axis m n : K)) * sqrt (obs axis m n : K) = sqrt S2 := by
      have a1 := hsq (S2 / (obs axis m n : K)) (by positivity)
      have a2 := hsq (obs axis m n : K) hoP.le
      have a3 := hsq S2 hs
      have hsqr : (sqrt (S2 / (obs axis m n : K)) * sqrt (obs axis m n : K)) ^ 2 =
          (sqrt S2) ^ 2 := by
        have e1 : (sqrt (S2 / (obs axis m n : K)) * sqrt (obs axis m n : K)) ^ 2 =
            (sqrt (S2 / (obs axis m n : K)) * sqrt (S2 / (obs axis m n : K))) *
              (sqrt (obs axis m n : K) * sqrt (obs axis m n : K)) := by ring
        rw [e1, a1.2, a2.2, pow_two, a3.2]
        field_simp
      rcases sq_eq_sq_iff_eq_or_eq_neg.1 hsqr with h | h
      · exact h
      · have h5 : 0 ≤ sqrt (S2 / (obs axis m n : K)) * sqrt (obs axis m n : K) :=
          mul_nonneg a1.1 a2.1
        have h6 := (hsq0 _ hSp)
        rw [h] at h5
        linarith
    have h7 : sqrt S2 ≠ 0 := (hsq0 _ hSp).ne'
    rw [← hroot] at h7 ⊢
    have h8 : sqrt (S2 / (obs axis m n : K)) ≠ 0 := left_ne_zero_of_mul h7
    have h9 : sqrt (obs axis m n : K) ≠ 0 := right_ne_zero_of_mul h7
    field_simp
  · intro hz
    have : S2 = 0 := by
      rcases div_eq_zero_iff.1 hz with h | h
      · exact h
      · exact absurd h hoK
    rw [if_pos this]

/-- Skewness of 5, -1, -1, -3, whose sum of squares is 36: 24 / 27. -/
example : skewness (fun q : Rat => if q = 4 then 2 else if q = 36 then 6 else 0) 2
    (fun _ => Env.plain 2 1 1 4) .row .row 1 4
    (some [5, -1, -1, -3]) 4 (some [0]) (some [0]) (some [0]) =
    .ok (.success, some [0], some [9], some [8 / 9]) := by decide +kernel

/-- There are square roots as the theorem wants them. -/
example : ∀ a : ℝ, 0 ≤ a → 0 ≤ Real.sqrt a ∧ Real.sqrt a * Real.sqrt a = a :=
  fun a h => ⟨Real.sqrt_nonneg a, Real.mul_self_sqrt h⟩

/-- Kurtosis of 0, 0, 0, 4 and of a constant line. -/
example : kurtosis 2 (fun _ => Env.plain 2 1 2 4) .row .row 2 4
    (some [0, 0, 0, (4 : Rat), 7, 7, 7, 7]) 4 (some [0, 0]) (some [0, 0]) (some [0, 0]) =
    .ok (.success, some [1, 7], some [3, 0], some [-2 / 3, -3]) := by decide +kernel

end Moments

end Verif.Moments
