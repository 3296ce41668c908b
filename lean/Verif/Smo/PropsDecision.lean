import Verif.Smo.DecisionProof
import Verif.Smo.PropsInit
import Mathlib.Tactic.NormNum

/-
C76: the decision function.  C77: the bias.
-/
namespace Verif.Smo
open Verif.Blocking

variable {F : Type} [Field F] [LinearOrder F]

/-! ### C76 -/

omit [LinearOrder F] in
/-- For every number of threads and every order of the atomic additions the decision
function is the bias plus the sum over all support vectors. -/
theorem C76_decision_function (nsamples nsup threads : Nat) (ht : 0 < threads) (bias : F)
    (K : Nat → Nat → F) (coef : Nat → F) (events : List (Nat × Nat))
    (hperm : ∀ p, blocks nsamples nsup threads = some p → events.Perm (allEvents p)) :
    ∃ d, decisionFunction nsamples nsup threads bias K coef events = some d ∧
      ∀ x, x < nsamples → d x = bias + ∑ s ∈ Finset.range nsup, coef s * K s x := by
  unfold decisionFunction
  by_cases h : nsup = 0 ∨ nsamples = 0
  · rw [if_pos h]
    refine ⟨_, rfl, fun x hx => ?_⟩
    have : nsup = 0 := by omega
    subst this
    simp
  · rw [if_neg h]
    have h1 : 0 < outerBs nsamples threads := by
      unfold outerBs
      have : 0 < (nsamples + threads - 1) / threads := Nat.div_pos (by omega) ht
      omega
    have h2 : 0 < innerBs nsup := by unfold innerBs; omega
    have hle : innerBs nsup ≤ nsup := by unfold innerBs; omega
    obtain ⟨oc, orm, ho⟩ : ∃ a b, blockingScheme nsamples (outerBs nsamples threads) = some (a, b) := by
      unfold blockingScheme
      rw [if_neg (by omega)]
      exact ⟨_, _, rfl⟩
    obtain ⟨ic, irm, hi⟩ : ∃ a b, blockingScheme nsup (innerBs nsup) = some (a, b) := by
      unfold blockingScheme
      rw [if_neg (by omega)]
      exact ⟨_, _, rfl⟩
    have hic : 0 < ic := by
      unfold blockingScheme at hi
      rw [if_neg (by omega)] at hi
      simp only [Option.some.injEq, Prod.mk.injEq] at hi
      have := Nat.div_pos hle h2
      obtain ⟨hi, _⟩ := hi
      split at hi <;> omega
    have hb : blocks nsamples nsup threads = some
        { obs := outerBs nsamples threads, ocount := oc, orem := orm
          ibs := innerBs nsup, icount := ic, irem := irm } := by
      simp [blocks, ho, hi]
    rw [hb]
    exact ⟨_, rfl, fun x hx => decision_sum nsamples nsup _ ho hi hic K coef events (hperm _ hb) _ x hx⟩

/-- 400 test samples, 300 support vectors, four threads: blocks of 100 samples and 256
support vectors. -/
example : (blocks 400 300 4).map (fun p => [p.obs, p.ocount, p.orem, p.ibs, p.icount, p.irem]) =
    some [100, 4, 0, 256, 2, 44] ∧
  (blocks 1000 300 4).map (fun p => [p.obs, p.ocount, p.orem, p.ibs, p.icount, p.irem]) =
    some [192, 6, 40, 256, 2, 44] := by decide +kernel

example :
    let d := (decisionFunction 3 2 2 (10 : ℚ) (fun s x => s + x) (fun s => s + 1)
      [(1, 0), (0, 1), (0, 0)]).getD fun _ => 0
    (List.range 3).map d = [12, 15, 18] := by decide +kernel

/-- Every block reads and writes inside the arrays, and its kernel matrix fits into the
buffer of a thread. -/
theorem C76_bounds (nsamples nsup threads : Nat) (p : Blocks) (h : blocks nsamples nsup threads = some p)
    (b : Nat) (hb : b < p.ocount * p.icount) :
    b / p.icount * p.obs + p.curOuter b ≤ nsamples ∧ b % p.icount * p.ibs + p.curInner b ≤ nsup ∧
    p.curInner b * p.curOuter b ≤ p.ibs * p.obs := by
  unfold blocks at h
  rcases ho : blockingScheme nsamples (outerBs nsamples threads) with _ | ⟨oc, orm⟩
  · simp [ho] at h
  rcases hi : blockingScheme nsup (innerBs nsup) with _ | ⟨ic, irm⟩
  · simp [ho, hi] at h
  simp only [ho, hi, Option.bind_eq_bind, Option.bind_some, Option.some.injEq] at h
  subst h
  have hic : 0 < ic := by
    rcases Nat.eq_zero_or_pos ic with h | h
    · subst h; simp at hb
    · exact h
  have h1 : b / ic < oc := by
    rw [Nat.div_lt_iff_lt_mul hic]
    exact hb
  have h2 : b % ic < ic := Nat.mod_lt _ hic
  obtain ⟨a1, a2⟩ := block_bounds nsamples _ oc orm ho (b / ic) h1
  obtain ⟨b1, b2⟩ := block_bounds nsup _ ic irm hi (b % ic) h2
  exact ⟨a1, b1, Nat.mul_le_mul b2 a2⟩

/-- Dropping the multipliers up to the threshold changes the decision value by at most
the threshold times the kernel values. -/
theorem C76_dropped [IsStrictOrderedRing F] (m : Kind) (n : Nat) (epsilon : F) (he : 0 ≤ epsilon)
    (resp alpha : Nat → F) (hy : m.regression = false → Signs resp) (k : Nat → F) :
    |∑ i ∈ Finset.range n, svCoeff m n resp alpha i * k i -
      ((svIndexes m n epsilon alpha).map fun i => svCoeff m n resp alpha i * k i).sum| ≤
    epsilon * ∑ i ∈ Finset.range n, |k i| := by
  have key : ∀ l : List Nat, |(l.map fun i => svCoeff m n resp alpha i * k i).sum -
      ((l.filter fun i => if m.regression then decide (epsilon < |alpha i - alpha (i + n)|)
        else decide (epsilon < |alpha i|)).map fun i => svCoeff m n resp alpha i * k i).sum| ≤
      epsilon * (l.map fun i => |k i|).sum := by
    intro l
    induction l with
    | nil => simp
    | cons x xs ih =>
      rw [List.filter_cons]
      by_cases h : (if m.regression then decide (epsilon < |alpha x - alpha (x + n)|)
          else decide (epsilon < |alpha x|)) = true
      · rw [if_pos h]
        simp only [List.map_cons, List.sum_cons]
        rw [add_sub_add_left_eq_sub, mul_add]
        have := mul_nonneg he (abs_nonneg (k x))
        linarith
      · rw [if_neg h]
        simp only [List.map_cons, List.sum_cons]
        have hs : |svCoeff m n resp alpha x| ≤ epsilon := by
          unfold svCoeff
          by_cases hm : m.regression = true
          · rw [if_pos hm] at h ⊢
            simpa using h
          · rw [if_neg hm] at h ⊢
            have h' : |alpha x| ≤ epsilon := by simpa using h
            rcases hy (by simpa using hm) x with e | e <;> rw [e] <;> simpa using h'
        have h1 : |svCoeff m n resp alpha x * k x| ≤ epsilon * |k x| := by
          rw [abs_mul]
          exact mul_le_mul_of_nonneg_right hs (abs_nonneg _)
        rw [mul_add, add_sub_assoc]
        exact (abs_add_le _ _).trans (add_le_add h1 ih)
  have := key (List.range n)
  rw [list_sum_range, list_sum_range] at this
  exact this

example : svIndexes .svc 4 (1 / 100 : ℚ) (fun i => [0, 1, 1 / 1000, 1 / 2].getD i 0) = [1, 3] ∧
  svIndexes .svr 2 (1 / 100 : ℚ) (fun i => [1, 1, 1, 1 / 2].getD i 0) = [1] := by decide +kernel

/-! ### C77 -/

/-- No pair of entries violates the optimality condition by the tolerance (`cls`: only
pairs of the same class count, as in the nu models). -/
def Optimal (cls : Bool) (C tol : F) (size : Nat) (y alpha grad : Nat → F) : Prop :=
  ∀ x z, x < size → z < size → CanGrow C y alpha x → CanShrink C y alpha z →
    (cls = true → y x = y z) → grad z - grad x < tol

variable [IsStrictOrderedRing F]

omit [IsStrictOrderedRing F] in
theorem upper_iff [IsStrictOrderedRing F] {C : F} {y alpha : Nat → F} (hy : Signs y) (x : Nat) :
    (isUpper C (alpha x) (y x) = true ↔ CanGrow C y alpha x) ∧
    (isLower C (alpha x) (y x) = true ↔ CanShrink C y alpha x) := by
  have h1 : (0 : F) < 1 := zero_lt_one
  have hne : (1 : F) ≠ -1 := by linarith
  unfold isUpper isLower CanGrow CanShrink
  rcases hy x with h | h <;> rw [h] <;> simp [hne, hne.symm]

/-- Bias of C-SVC and epsilon-SVR: gradient plus bias is at least minus the tolerance
for the entries that can grow, and at most the tolerance for those that can shrink. -/
theorem C77_bias_c (C big tol : F) (size : Nat) (y alpha grad : Nat → F) (htol : 0 < tol)
    (hy : Signs y) (hbig : ∀ x, x < size → -big ≤ grad x ∧ grad x ≤ big)
    (hopt : Optimal false C tol size y alpha grad) (x : Nat) (hx : x < size) :
    (CanGrow C y alpha x → -tol < grad x + cBias C big size y alpha grad) ∧
    (CanShrink C y alpha x → grad x + cBias C big size y alpha grad < tol) := by
  obtain ⟨h1, h2⟩ := center_tol (fun i => isFree C (alpha i)) (fun i => isUpper C (alpha i) (y i))
    (fun i => isLower C (alpha i) (y i)) big tol grad size htol hbig
    (by
      intro i hi
      have hi' : 0 < alpha i ∧ alpha i < C := by simpa [isFree] using hi
      constructor
      · rw [(upper_iff hy i).1]
        rcases hy i with h | h
        · exact Or.inl ⟨h, hi'.2⟩
        · exact Or.inr ⟨h, hi'.1⟩
      · rw [(upper_iff hy i).2]
        rcases hy i with h | h
        · exact Or.inl ⟨h, hi'.1⟩
        · exact Or.inr ⟨h, hi'.2⟩)
    (by
      intro a b ha hb hu hl
      exact hopt a b ha hb ((upper_iff hy a).1.1 hu) ((upper_iff hy b).2.1 hl) (fun h => by cases h))
  unfold cBias
  constructor
  · intro h
    have := h1 x hx ((upper_iff hy x).1.2 h)
    linarith
  · intro h
    have := h2 x hx ((upper_iff hy x).2.2 h)
    linarith

/-- C-SVC: a converged model classifies the training samples with margin 1 up to the
tolerance: samples below the bound have a margin of at least 1, support vectors at
most 1. -/
theorem C77_margin_svc (C big tol : F) (n : Nat) (K : Nat → Nat → F) (y alpha grad : Nat → F)
    (htol : 0 < tol) (hy : Signs y) (hbig : ∀ x, x < n → -big ≤ grad x ∧ grad x ≤ big)
    (hg : ∀ x, x < n → grad x = exactGrad n n K y (fun x => -y x) alpha x)
    (hopt : Optimal false C tol n y alpha grad) (x : Nat) (hx : x < n) :
    let f := cBias C big n y alpha grad + ∑ z ∈ Finset.range n, alpha z * y z * K z x
    (alpha x < C → 1 - tol < y x * f) ∧ (0 < alpha x → y x * f < 1 + tol) := by
  intro f
  obtain ⟨h1, h2⟩ := C77_bias_c C big tol n y alpha grad htol hy hbig hopt x hx
  have e : grad x = -y x + ∑ z ∈ Finset.range n, alpha z * y z * K z x := by
    rw [hg x hx, exactGrad]
    congr 1
    refine Finset.sum_congr rfl fun z hz => ?_
    rw [entryKernel, Nat.mod_eq_of_lt (Finset.mem_range.1 hz), Nat.mod_eq_of_lt hx]
  have ef : grad x + cBias C big n y alpha grad = f - y x := by
    rw [e]
    show _ = cBias C big n y alpha grad + ∑ z ∈ Finset.range n, alpha z * y z * K z x - y x
    ring
  rw [ef] at h1 h2
  clear_value f
  rcases hy x with h | h
  · rw [h] at h1 h2 ⊢
    refine ⟨fun ha => ?_, fun ha => ?_⟩
    · have := h1 (Or.inl ⟨h, ha⟩); linarith
    · have := h2 (Or.inl ⟨h, ha⟩); linarith
  · rw [h] at h1 h2 ⊢
    refine ⟨fun ha => ?_, fun ha => ?_⟩
    · have := h2 (Or.inr ⟨h, ha⟩); linarith
    · have := h1 (Or.inr ⟨h, ha⟩); linarith

omit [IsStrictOrderedRing F] in
/-- The decision values of a regression model from its gradient. -/
theorem reg_value (m : Kind) (hm : m.regression = true) (n : Nat) (K : Nat → Nat → F)
    (c y alpha : Nat → F) (x i : Nat) (hxi : x % n = i) :
    exactGrad n (m.size n) K (response m n y) c alpha x =
      c x + ∑ z ∈ Finset.range n, svCoeff m n (response m n y) alpha z * K z i := by
  rw [exact_reg m hm, hxi]
  congr 1
  refine Finset.sum_congr rfl fun z hz => ?_
  rw [svCoeff, if_pos hm, Nat.mod_eq_of_lt (Finset.mem_range.1 hz)]

/-- epsilon-SVR: residuals of a converged model.  `alpha` is the multiplier of the upper
side, `alpha (i + n)` that of the lower side. -/
theorem C77_residual_svr (C big tol eps : F) (n : Nat) (K : Nat → Nat → F) (y alpha grad : Nat → F)
    (htol : 0 < tol) (hbig : ∀ x, x < 2 * n → -big ≤ grad x ∧ grad x ≤ big)
    (hg : ∀ x, x < 2 * n → grad x = exactGrad n (2 * n) K (response .svr n y)
      (linearTerm true false n eps y (response .svr n y)) alpha x)
    (hopt : Optimal false C tol (2 * n) (response .svr n y) alpha grad) (i : Nat) (hi : i < n) :
    let f := cBias C big (2 * n) (response .svr n y) alpha grad +
      ∑ z ∈ Finset.range n, svCoeff .svr n (response .svr n y) alpha z * K z i
    (alpha i < C → y i - f < eps + tol) ∧ (0 < alpha i → eps - tol < y i - f) ∧
    (alpha (i + n) < C → f - y i < eps + tol) ∧ (0 < alpha (i + n) → eps - tol < f - y i) := by
  intro f
  have hy : Signs (response .svr n y) := by
    intro k
    by_cases h : k < n
    · left; simp [response, Kind.regression, h]
    · right; simp [response, Kind.regression, h]
  have r1 : response .svr n y i = 1 := by simp [response, Kind.regression, hi]
  have r2 : response .svr n y (i + n) = -1 := by simp [response, Kind.regression]
  obtain ⟨h1, h2⟩ := C77_bias_c C big tol (2 * n) _ alpha grad htol hy hbig hopt i (by omega)
  obtain ⟨h3, h4⟩ := C77_bias_c C big tol (2 * n) _ alpha grad htol hy hbig hopt (i + n) (by omega)
  have e1 := (hg i (by omega)).trans (reg_value .svr rfl n K _ y alpha i i (Nat.mod_eq_of_lt hi))
  have e2 := (hg (i + n) (by omega)).trans (reg_value .svr rfl n K _ y alpha (i + n) i
    (by rw [Nat.add_mod_right, Nat.mod_eq_of_lt hi]))
  simp only [linearTerm, if_pos hi, Nat.mod_eq_of_lt hi] at e1
  simp only [linearTerm, if_neg (show ¬ i + n < n by omega), Nat.add_mod_right,
    Nat.mod_eq_of_lt hi] at e2
  have f1 : grad i + cBias C big (2 * n) (response .svr n y) alpha grad = f + eps - y i := by
    rw [e1]
    show _ = cBias C big (2 * n) (response .svr n y) alpha grad +
      ∑ z ∈ Finset.range n, svCoeff .svr n (response .svr n y) alpha z * K z i + eps - y i
    ring
  have f2 : grad (i + n) + cBias C big (2 * n) (response .svr n y) alpha grad = f - eps - y i := by
    rw [e2]
    show _ = cBias C big (2 * n) (response .svr n y) alpha grad +
      ∑ z ∈ Finset.range n, svCoeff .svr n (response .svr n y) alpha z * K z i - eps - y i
    ring
  rw [f1] at h1 h2
  rw [f2] at h3 h4
  refine ⟨fun h => ?_, fun h => ?_, fun h => ?_, fun h => ?_⟩
  · have := h1 (Or.inl ⟨r1, h⟩); linarith
  · have := h2 (Or.inl ⟨r1, h⟩); linarith
  · have := h4 (Or.inr ⟨r2, h⟩); linarith
  · have := h3 (Or.inr ⟨r2, h⟩); linarith

/-- Per-class centers of the nu models. -/
theorem nu_centers (C big tol : F) (size : Nat) (y alpha grad : Nat → F) (htol : 0 < tol)
    (hy : Signs y) (hbig : ∀ x, x < size → -big ≤ grad x ∧ grad x ≤ big)
    (hopt : Optimal true C tol size y alpha grad) (x : Nat) (hx : x < size) :
    (y x = 1 → alpha x < C → biasP C big size y alpha grad - grad x < tol) ∧
    (y x = 1 → 0 < alpha x → grad x - biasP C big size y alpha grad < tol) ∧
    (y x = -1 → 0 < alpha x → -biasN C big size y alpha grad - grad x < tol) ∧
    (y x = -1 → alpha x < C → grad x + biasN C big size y alpha grad < tol) := by
  have h0 : (0 : F) < 1 := zero_lt_one
  have hneg : ∀ i, y i < 0 ↔ y i = -1 := by
    intro i
    constructor
    · intro h
      rcases hy i with e | e
      · linarith
      · exact e
    · intro h; linarith
  have hpos : ∀ i, 0 < y i ↔ y i = 1 := by
    intro i
    constructor
    · intro h
      rcases hy i with e | e
      · exact e
      · linarith
    · intro h; linarith
  obtain ⟨p1, p2⟩ := center_tol (fun i => isFree C (alpha i) && decide (0 < y i))
    (fun i => isUpperPos C (alpha i) (y i)) (fun i => isLowerPos (alpha i) (y i)) big tol grad size
    htol hbig
    (by intro i; simp only [isFree, isUpperPos, isLowerPos, Bool.and_eq_true, decide_eq_true_eq]; tauto)
    (by
      intro a b ha hb hu hl
      simp only [isUpperPos, isLowerPos, Bool.and_eq_true, decide_eq_true_eq, hpos] at hu hl
      exact hopt a b ha hb (Or.inl ⟨hu.2, hu.1⟩) (Or.inl ⟨hl.2, hl.1⟩) (fun _ => by rw [hu.2, hl.2]))
  obtain ⟨n1, n2⟩ := center_tol (fun i => isFree C (alpha i) && decide (y i < 0))
    (fun i => isUpperNeg (alpha i) (y i)) (fun i => isLowerNeg C (alpha i) (y i)) big tol grad size
    htol hbig
    (by intro i; simp only [isFree, isUpperNeg, isLowerNeg, Bool.and_eq_true, decide_eq_true_eq]; tauto)
    (by
      intro a b ha hb hu hl
      simp only [isUpperNeg, isLowerNeg, Bool.and_eq_true, decide_eq_true_eq, hneg] at hu hl
      exact hopt a b ha hb (Or.inr ⟨hu.2, hu.1⟩) (Or.inr ⟨hl.2, hl.1⟩) (fun _ => by rw [hu.2, hl.2]))
  refine ⟨fun hc h => ?_, fun hc h => ?_, fun hc h => ?_, fun hc h => ?_⟩
  · exact p1 x hx (by simp [isUpperPos, h, (hpos x).2 hc])
  · exact p2 x hx (by simp [isLowerPos, h, (hpos x).2 hc])
  · have := n1 x hx (by simp [isUpperNeg, h, (hneg x).2 hc])
    unfold biasN; linarith
  · have := n2 x hx (by simp [isLowerNeg, h, (hneg x).2 hc])
    unfold biasN; linarith

/-- nu-SVC with a positive scale: margins of a converged model, the tolerance divided by
the scale. -/
theorem C77_margin_nusvc (big tol : F) (n : Nat) (K : Nat → Nat → F) (y alpha grad : Nat → F)
    (htol : 0 < tol) (hy : Signs y) (hbig : ∀ x, x < n → -big ≤ grad x ∧ grad x ≤ big)
    (hg : ∀ x, x < n → grad x = exactGrad n n K y (fun _ => 0) alpha x)
    (hopt : Optimal true 1 tol n y alpha grad)
    (hscale : 0 < (biasP 1 big n y alpha grad + biasN 1 big n y alpha grad) / 2)
    (x : Nat) (hx : x < n) :
    ∃ b a, nuBias true 1 big n y alpha grad = some (b, a) ∧
    let f := b + ∑ z ∈ Finset.range n, a z * y z * K z x
    let t := tol / ((biasP 1 big n y alpha grad + biasN 1 big n y alpha grad) / 2)
    (alpha x < 1 → 1 - t < y x * f) ∧ (0 < alpha x → y x * f < 1 + t) := by
  obtain ⟨h1, h2, h3, h4⟩ := nu_centers 1 big tol n y alpha grad htol hy hbig hopt x hx
  have e : grad x = ∑ z ∈ Finset.range n, alpha z * y z * K z x := by
    rw [hg x hx, exactGrad, zero_add]
    refine Finset.sum_congr rfl fun z hz => ?_
    rw [entryKernel, Nat.mod_eq_of_lt (Finset.mem_range.1 hz), Nat.mod_eq_of_lt hx]
  unfold nuBias
  generalize hP : biasP 1 big n y alpha grad = P at *
  generalize hN : biasN 1 big n y alpha grad = N at *
  generalize hS : (P + N) / 2 = S at *
  simp only [if_true, hS, if_neg hscale.ne']
  refine ⟨_, _, rfl, ?_⟩
  have ef : (N - P) / 2 / S + ∑ z ∈ Finset.range n, alpha z / S * y z * K z x =
      ((N - P) / 2 + grad x) / S := by
    rw [e, add_div]
    congr 1
    rw [div_eq_mul_inv, Finset.sum_mul]
    exact Finset.sum_congr rfl fun z _ => by ring
  rw [ef]
  have hne := hscale.ne'
  rcases hy x with h | h
  · rw [h, one_mul]
    refine ⟨fun ha => ?_, fun ha => ?_⟩
    · have := h1 h ha
      rw [show (1 : F) - tol / S = (S - tol) / S by field_simp]
      exact div_lt_div_of_pos_right (by linarith) hscale
    · have := h2 h ha
      rw [show (1 : F) + tol / S = (S + tol) / S by field_simp]
      exact div_lt_div_of_pos_right (by linarith) hscale
  · rw [h]
    refine ⟨fun ha => ?_, fun ha => ?_⟩
    · have := h4 h ha
      rw [show (1 : F) - tol / S = (S - tol) / S by field_simp,
        show -1 * (((N - P) / 2 + grad x) / S) = (-((N - P) / 2 + grad x)) / S by ring]
      exact div_lt_div_of_pos_right (by linarith) hscale
    · have := h3 h ha
      rw [show (1 : F) + tol / S = (S + tol) / S by field_simp,
        show -1 * (((N - P) / 2 + grad x) / S) = (-((N - P) / 2 + grad x)) / S by ring]
      exact div_lt_div_of_pos_right (by linarith) hscale

/-- nu-SVR: residuals of a converged model; the width of the tube is
`-(bias_p + bias_n) / 2`. -/
theorem C77_residual_nusvr (C big tol : F) (n : Nat) (K : Nat → Nat → F) (y alpha grad : Nat → F)
    (htol : 0 < tol) (hbig : ∀ x, x < 2 * n → -big ≤ grad x ∧ grad x ≤ big)
    (hg : ∀ x, x < 2 * n → grad x = exactGrad n (2 * n) K (response .nusvr n y)
      (fun x => -y (x % n)) alpha x)
    (hopt : Optimal true C tol (2 * n) (response .nusvr n y) alpha grad) (i : Nat) (hi : i < n) :
    ∃ b, nuBias false C big (2 * n) (response .nusvr n y) alpha grad = some (b, alpha) ∧
    let f := b + ∑ z ∈ Finset.range n, svCoeff .nusvr n (response .nusvr n y) alpha z * K z i
    let eps := -((biasP C big (2 * n) (response .nusvr n y) alpha grad +
      biasN C big (2 * n) (response .nusvr n y) alpha grad) / 2)
    (alpha i < C → y i - f < eps + tol) ∧ (0 < alpha i → eps - tol < y i - f) ∧
    (alpha (i + n) < C → f - y i < eps + tol) ∧ (0 < alpha (i + n) → eps - tol < f - y i) := by
  have hy : Signs (response .nusvr n y) := by
    intro k
    by_cases h : k < n
    · left; simp [response, Kind.regression, h]
    · right; simp [response, Kind.regression, h]
  have r1 : response .nusvr n y i = 1 := by simp [response, Kind.regression, hi]
  have r2 : response .nusvr n y (i + n) = -1 := by simp [response, Kind.regression]
  obtain ⟨h1, h2, _, _⟩ := nu_centers C big tol (2 * n) _ alpha grad htol hy hbig hopt i (by omega)
  obtain ⟨_, _, h3, h4⟩ := nu_centers C big tol (2 * n) _ alpha grad htol hy hbig hopt (i + n) (by omega)
  have e1 := (hg i (by omega)).trans (reg_value .nusvr rfl n K _ y alpha i i (Nat.mod_eq_of_lt hi))
  have e2 := (hg (i + n) (by omega)).trans (reg_value .nusvr rfl n K _ y alpha (i + n) i
    (by rw [Nat.add_mod_right, Nat.mod_eq_of_lt hi]))
  simp only [Nat.mod_eq_of_lt hi] at e1
  simp only [Nat.add_mod_right, Nat.mod_eq_of_lt hi] at e2
  refine ⟨(biasN C big (2 * n) (response .nusvr n y) alpha grad -
    biasP C big (2 * n) (response .nusvr n y) alpha grad) / 2, rfl, ?_⟩
  generalize biasP C big (2 * n) (response .nusvr n y) alpha grad = P at *
  generalize biasN C big (2 * n) (response .nusvr n y) alpha grad = N at *
  generalize ∑ z ∈ Finset.range n, svCoeff .nusvr n (response .nusvr n y) alpha z * K z i = S at *
  simp only
  refine ⟨fun h => ?_, fun h => ?_, fun h => ?_, fun h => ?_⟩
  · have := h1 r1 h; linarith
  · have := h2 r1 h; linarith
  · have := h4 r2 h; linarith
  · have := h3 r2 h; linarith

/-! The bias lies between two gradients.  If the set of entries that can grow, or that of
entries that can shrink, is empty, the code averages with the sentinel (the largest
finite number `big`). -/

/-- Full property: a state that satisfies the constraints of the dual problem has its bias
between two gradient entries. -/
def C77_between_statement (F : Type) [Field F] [LinearOrder F] [IsStrictOrderedRing F] : Prop :=
  ∀ (C big : F) (size : Nat) (y alpha grad : Nat → F), 0 < C → 0 < size → Signs y →
    InBox C size alpha → ∑ x ∈ Finset.range size, y x * alpha x = 0 →
    (∀ x, x < size → -big ≤ grad x ∧ grad x ≤ big) →
    ∃ x z, x < size ∧ z < size ∧ grad x ≤ -cBias C big size y alpha grad ∧
      -cBias C big size y alpha grad ≤ grad z

/-- Violated by training data with a single class, which `set_data` accepts: all
multipliers stay 0 and the bias is half the largest finite number (here 1000). -/
theorem C77_between_violated : ¬ C77_between_statement ℚ := by
  intro h
  obtain ⟨x, z, hx, hz, h1, h2⟩ := h 1 1000 2 (fun _ => 1) (fun _ => 0) (fun _ => -1)
    (by decide +kernel) (by decide) (fun _ => Or.inl rfl) (fun _ _ => by norm_num) (by simp)
    (fun _ _ => by norm_num)
  exact absurd h1 (by decide +kernel)

/-- With both classes present it holds. -/
theorem C77_between_partial (C big : F) (size : Nat) (y alpha grad : Nat → F) (hC : 0 < C)
    (hy : Signs y) (hbox : InBox C size alpha) (hsum : ∑ x ∈ Finset.range size, y x * alpha x = 0)
    (hbig : ∀ x, x < size → -big ≤ grad x ∧ grad x ≤ big)
    (hp : ∃ x, x < size ∧ y x = 1) (hn : ∃ x, x < size ∧ y x = -1) :
    ∃ x z, x < size ∧ z < size ∧ grad x ≤ -cBias C big size y alpha grad ∧
      -cBias C big size y alpha grad ≤ grad z := by
  obtain ⟨p, hp, yp⟩ := hp
  obtain ⟨q, hq, yq⟩ := hn
  have hup : ∃ x, x < size ∧ isUpper C (alpha x) (y x) = true := by
    by_contra hno
    have hle : ∀ x, x < size → ¬ CanGrow C y alpha x := fun x hx h =>
      hno ⟨x, hx, (upper_iff hy x).1.2 h⟩
    have hterm : ∀ x ∈ Finset.range size, 0 ≤ y x * alpha x := by
      intro x hx
      rcases hy x with h | h
      · rw [h, one_mul]; exact (hbox x (Finset.mem_range.1 hx)).1
      · have : ¬ 0 < alpha x := fun ha => hle x (Finset.mem_range.1 hx) (Or.inr ⟨h, ha⟩)
        rw [h]; linarith
    have h0 := (Finset.sum_eq_zero_iff_of_nonneg hterm).1 hsum p (Finset.mem_range.2 hp)
    rw [yp, one_mul] at h0
    exact hle p hp (Or.inl ⟨yp, by rw [h0]; exact hC⟩)
  have hlow : ∃ x, x < size ∧ isLower C (alpha x) (y x) = true := by
    by_contra hno
    have hle : ∀ x, x < size → ¬ CanShrink C y alpha x := fun x hx h =>
      hno ⟨x, hx, (upper_iff hy x).2.2 h⟩
    have hterm : ∀ x ∈ Finset.range size, y x * alpha x ≤ 0 := by
      intro x hx
      rcases hy x with h | h
      · have : ¬ 0 < alpha x := fun ha => hle x (Finset.mem_range.1 hx) (Or.inl ⟨h, ha⟩)
        rw [h, one_mul]; linarith
      · rw [h]; have := (hbox x (Finset.mem_range.1 hx)).1; linarith
    have h0 := (Finset.sum_eq_zero_iff_of_nonpos hterm).1 hsum q (Finset.mem_range.2 hq)
    rw [yq] at h0
    have h0' : alpha q = 0 := by linarith
    exact hle q hq (Or.inr ⟨yq, by rw [h0']; exact hC⟩)
  unfold cBias
  rw [neg_neg]
  exact center_between _ _ _ big grad size hbig hup hlow

/-- Full property for nu-SVC: the centers of both classes lie between two gradients of
the class, whatever `nu` is allowed to be (at most the fraction that the smaller class
permits). -/
def C77_nu_between_statement (F : Type) [Field F] [LinearOrder F] [IsStrictOrderedRing F] : Prop :=
  ∀ (big s : F) (n : Nat) (y alpha grad : Nat → F), Signs y → InBox 1 n alpha → 0 < s →
    (∑ x ∈ Finset.range n with y x = 1, alpha x) = s →
    (∑ x ∈ Finset.range n with y x = -1, alpha x) = s →
    (∀ x, x < n → -big ≤ grad x ∧ grad x ≤ big) →
    (∃ x z, x < n ∧ z < n ∧ grad x ≤ biasP 1 big n y alpha grad ∧
      biasP 1 big n y alpha grad ≤ grad z) ∧
    ∃ x z, x < n ∧ z < n ∧ grad x ≤ -biasN 1 big n y alpha grad ∧
      -biasN 1 big n y alpha grad ≤ grad z

/-- Violated by `nu = 1` on balanced classes: all multipliers are at the bound, no entry
can grow, and the sentinel enters both biases. -/
theorem C77_nu_between_violated : ¬ C77_nu_between_statement ℚ := by
  intro h
  obtain ⟨⟨x, z, hx, hz, h1, h2⟩, _⟩ := h 1000 1 2 (fun i => if i = 0 then 1 else -1) (fun _ => 1)
    (fun _ => 2) (fun i => by by_cases h : i = 0 <;> simp [h]) (fun _ _ => by norm_num)
    (by decide +kernel) (by decide +kernel) (by decide +kernel) (fun _ _ => by norm_num)
  exact absurd h2 (by decide +kernel)

/-- What the model then stores: the multipliers are divided by half the sum of the
sentinels, so that none of them is above the threshold any more. -/
example :
    (nuBias true 1 (1000000 : ℚ) 2 (fun i => if i = 0 then 1 else -1) (fun _ => 1)
      (fun i => if i = 0 then 2 else -2)).map (fun p => svIndexes .nusvc 2 (1 / 100000) p.2) =
    some [] := by decide +kernel

theorem class_sets (n : Nat) (y alpha : Nat → F) (s c : F) (h0 : 0 < s)
    (hs : (∑ x ∈ Finset.range n with y x = c, alpha x) = s)
    (hlt : s < (Finset.card {x ∈ Finset.range n | y x = c} : F)) :
    (∃ x, x < n ∧ y x = c ∧ alpha x < 1) ∧ ∃ x, x < n ∧ y x = c ∧ 0 < alpha x := by
  constructor
  · by_contra hno
    push Not at hno
    have : (Finset.card {x ∈ Finset.range n | y x = c} : F) ≤
        ∑ x ∈ Finset.range n with y x = c, alpha x := by
      rw [← nsmul_one]
      refine Finset.card_nsmul_le_sum _ _ _ fun x hx => ?_
      rw [Finset.mem_filter, Finset.mem_range] at hx
      exact hno x hx.1 hx.2
    linarith
  · by_contra hno
    push Not at hno
    have : ∑ x ∈ Finset.range n with y x = c, alpha x ≤ 0 := by
      refine Finset.sum_nonpos fun x hx => ?_
      rw [Finset.mem_filter, Finset.mem_range] at hx
      exact hno x hx.1 hx.2
    linarith

/-- It holds when both classes have more samples than the sum of their multipliers. -/
theorem C77_nu_between_partial (big s : F) (n : Nat) (y alpha grad : Nat → F) (h0 : 0 < s)
    (hp : (∑ x ∈ Finset.range n with y x = 1, alpha x) = s)
    (hn : (∑ x ∈ Finset.range n with y x = -1, alpha x) = s)
    (hpc : s < (Finset.card {x ∈ Finset.range n | y x = 1} : F))
    (hnc : s < (Finset.card {x ∈ Finset.range n | y x = -1} : F))
    (hbig : ∀ x, x < n → -big ≤ grad x ∧ grad x ≤ big) :
    (∃ x z, x < n ∧ z < n ∧ grad x ≤ biasP 1 big n y alpha grad ∧
      biasP 1 big n y alpha grad ≤ grad z) ∧
    ∃ x z, x < n ∧ z < n ∧ grad x ≤ -biasN 1 big n y alpha grad ∧
      -biasN 1 big n y alpha grad ≤ grad z := by
  have h1 : (0 : F) < 1 := zero_lt_one
  obtain ⟨⟨a, ha, ya, aa⟩, b, hb, yb, ab⟩ := class_sets n y alpha s 1 h0 hp hpc
  obtain ⟨⟨c, hc, yc, ac⟩, d, hd, yd, ad⟩ := class_sets n y alpha s (-1) h0 hn hnc
  constructor
  · exact center_between _ _ _ big grad n hbig ⟨a, ha, by simp [isUpperPos, ya, aa]⟩
      ⟨b, hb, by simp [isLowerPos, yb, ab]⟩
  · unfold biasN
    rw [neg_neg]
    exact center_between _ _ _ big grad n hbig ⟨d, hd, by simp [isUpperNeg, yd, ad]⟩
      ⟨c, hc, by simp [isLowerNeg, yc, ac]⟩

/-! Two samples with labels 1 and -1, the multipliers at the optimum: the bias of the
linear kernel on the points 0 and 2 puts the boundary at 1. -/
example :
    let y : Nat → ℚ := fun i => if i = 0 then 1 else -1
    let K : Nat → Nat → ℚ := fun i j => 4 * ((i * j : Nat) : ℚ)
    let alpha : Nat → ℚ := fun _ => 1 / 2
    let g := exactGrad 2 2 K y (fun x => -y x) alpha
    cBias 1 1000 2 y alpha g = 1 ∧ g 0 = -1 ∧ g 1 = -1 := by decide +kernel

/-- C-SVC from the labels to the decision values: when the training from the cold start
ends by its tolerance, every training sample below the bound is classified with margin
at least 1 and every support vector has a margin of at most 1, up to the tolerance. -/
theorem C77_trained_svc (p : Par F) (n ws : Nat) (kcol : Nat → Nat → F)
    (y : Nat → F) (sort : (Nat → F) → Nat → Nat) (w0 : Nat → Nat) (fd : F) (htau : 0 < p.tau)
    (htol : 0 < p.tol) (hC : 0 < p.C) (hin : 0 < p.inner) (hy : ∀ i, y i = 0 ∨ y i = 1)
    (hsort : ∀ g, IsPerm (sort g) n ∧ Sorted g (sort g) n) (hws : 3 ≤ ws) (hsz : ws ≤ n)
    (hw : ∀ i, i < ws → w0 i < n) (k : Nat) :
    let resp := response .svc n y
    let s0 : State F := { alpha := fun _ => 0, grad := fun x => -resp x, ws := w0, firstDiff := fd }
    let t := train .c p n n ws kcol resp sort (k + 2) s0
    (∀ j x, x < n → |(train .c p n n ws kcol resp sort j s0).grad x| < p.big) → t.firstDiff < p.tol →
    ∀ x, x < n →
      let f := cBias p.C p.big n resp t.alpha t.grad +
        ∑ z ∈ Finset.range n, t.alpha z * resp z * kcol z x
      (t.alpha x < p.C → 1 - p.tol < resp x * f) ∧ (0 < t.alpha x → resp x * f < 1 + p.tol) := by
  intro resp s0 t hbig hstop x hx
  have hsigns : Signs resp := by
    intro x
    rcases hy x with h | h <;> simp [resp, response, Kind.regression, h]
  have hbox : InBox p.C n s0.alpha := fun _ _ => ⟨le_refl _, hC.le⟩
  have hex : ∀ x, x < n → s0.grad x = exactGrad n n kcol resp (fun x => -resp x) s0.alpha x := by
    intro x hx
    show -resp x = _
    simp [exactGrad, s0]
  obtain ⟨_, hopt⟩ := C72_optimal_c_partial p n n ws kcol resp sort s0 htau hC hin hsigns hsort hws hsz
    hbox k (fun x hx => (abs_lt.1 (hbig (k + 1) x hx)).2) hstop
  exact C77_margin_svc p.C p.big p.tol n kcol resp t.alpha t.grad htol hsigns
    (fun x hx => ⟨(abs_lt.1 (hbig (k + 2) x hx)).1.le, (abs_lt.1 (hbig (k + 2) x hx)).2.le⟩)
    (C70_box_and_gradient .c p n n ws kcol resp sort s0 (fun x => -resp x) htau hsigns
      (fun g => (hsort g).1) hw hbox hex (k + 2)).2
    (fun a b ha hb h1 h2 _ => hopt a b ha hb h1 h2) x hx

/-- SVC on the eight samples of `exXs`, which stops in its third iteration: bias and the
margins of the training samples. -/
example :
    let t := train .c exPar 8 8 4 (linK exXs) exY (isort 8) 3 exStartC
    let b := cBias exPar.C exPar.big 8 exY t.alpha t.grad
    (List.range 8).map (fun x => exY x * (b + ∑ z ∈ Finset.range 8, t.alpha z * exY z * linK exXs z x)) =
      [1, -1, 1, 1, 1, 1, -1, 1] := by decide +kernel

end Verif.Smo
