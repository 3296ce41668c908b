import Verif.Logistic.Rsc

/-
The call-backs with a set of coefficients for every class.
-/
namespace Verif.Logistic

set_option linter.unusedSectionVars false

open Finset (range)

section
variable {K : Type*}

/-- A loop nest that writes a cell of its own in every iteration. -/
theorem loop2_write (N M : Nat) (v : Nat → K) (idx : Nat → Nat → Nat) (F : Nat → Nat → K)
    (inj : ∀ a b a' b', a < N → b < M → a' < N → b' < M → idx a b = idx a' b' → a = a' ∧ b = b')
    {a b : Nat} (ha : a < N) (hb : b < M) :
    loop N v (fun a v => loop M v fun b v => upd v (idx a b) (F a b)) (idx a b) = F a b := by
  have key := loop_inv (fun k (v : Nat → K) => k ≤ N → ∀ a b, a < k → b < M → v (idx a b) = F a b)
    N v (fun a v => loop M v fun b v => upd v (idx a b) (F a b)) (fun _ a b h => by omega) ?_
  · exact key (le_refl _) a b ha hb
  · intro k v hk ih hk'
    have := loop_inv (fun l (v : Nat → K) => l ≤ M → (∀ a b, a < k → b < M → v (idx a b) = F a b) ∧
      ∀ b, b < l → v (idx k b) = F k b) M v (fun b v => upd v (idx k b) (F k b))
      (fun _ => ⟨ih (by omega), fun b h => by omega⟩) (by
        intro l v hl ih2 hl'
        obtain ⟨i1, i2⟩ := ih2 (by omega)
        refine ⟨fun a b ha hb => ?_, fun b hb => ?_⟩
        · rw [upd_ne _ _ (fun e => ?_)]
          · exact i1 a b ha hb
          · have := inj a b k l (by omega) hb hk hl e; omega
        · by_cases e : b = l
          · rw [e, upd_same]
          · rw [upd_ne _ _ (fun e' => e (inj k b k l hk (by omega) hk hl e').2)]
            exact i2 b (by omega))
    obtain ⟨i1, i2⟩ := this (le_refl _)
    intro a b ha hb
    by_cases e : a = k
    · subst e; exact i2 b hb
    · exact i1 a b (by omega) hb

/-- A loop nest leaves the other cells alone. -/
theorem loop2_keep (N M : Nat) (v : Nat → K) (idx : Nat → Nat → Nat) (F : Nat → Nat → K) {c : Nat}
    (h : ∀ a b, a < N → b < M → c ≠ idx a b) :
    loop N v (fun a v => loop M v fun b v => upd v (idx a b) (F a b)) c = v c := by
  refine loop_keep N v _ c fun a v ha => ?_
  exact loop_keep M v _ c fun b v hb => upd_ne _ _ (h a b ha hb)

end

section
variable {round : ℝ → ℝ} {row : Bool} {X : Nat → ℝ} {ld : Nat} {y : Nat → ℝ}
  {ns nf : Nat} {ic : Bool} {lambda alpha : ℝ} {nclass : Nat} {A : Nat → Nat → ℝ} {lab : Nat → Nat}

/-- The index of the intercept of class `k`. -/
theorem icpt_index {k : Nat} (hk : k < nclass) :
    nclass * width true nf - (nclass - k) = nf * nclass + k := by
  simp only [width, if_true, Nat.mul_add, Nat.mul_one, Nat.mul_comm nclass nf]
  omega

/-- Scores from intercepts filled in and products added on top. -/
theorem gemm_add (ns nclass : Nat) (v : Nat → ℝ) (d : Nat → Nat → ℝ) {k i : Nat} (hk : k < nclass)
    (hi : i < ns) :
    loop nclass v (fun k lc => loop ns lc fun i lc =>
      upd lc (k * ns + i) (lc (k * ns + i) + d k i)) (k * ns + i) = v (k * ns + i) + d k i := by
  have e : ∀ k v c, loop ns v (fun i lc => upd lc (k * ns + i) (lc (k * ns + i) + d k i)) c =
      if k * ns ≤ c ∧ c < k * ns + ns then v c + d k (c - k * ns) else v c := fun k v c =>
    loop_upd ns v (k * ns) (fun i t => t + d k i) c
  have key := loop_inv (fun m (w : Nat → ℝ) => ∀ k' i', k' < nclass → i' < ns → w (k' * ns + i') =
    v (k' * ns + i') + if k' < m then d k' i' else 0) nclass v (fun k lc => loop ns lc fun i lc =>
      upd lc (k * ns + i) (lc (k * ns + i) + d k i)) (fun k' i' _ _ => by simp) ?_
  · rw [key k i hk hi, if_pos hk]
  · intro m w hm ih k' i' hk' hi'
    rw [e]
    by_cases h : k' = m
    · subst h
      rw [if_pos (by omega), ih k' i' hk' hi', if_neg (by omega), if_pos (by omega), add_zero,
        show k' * ns + i' - k' * ns = i' by omega]
    · rw [if_neg ?_, ih k' i' hk' hi']
      · by_cases h2 : k' < m
        · rw [if_pos h2, if_pos (by omega)]
        · rw [if_neg h2, if_neg (by omega)]
      · rcases Nat.lt_or_gt_of_ne h with h2 | h2
        · have := cell_block h2 hi'; omega
        · have : (m + 1) * ns ≤ k' * ns := Nat.mul_le_mul_right ns h2
          rw [Nat.add_mul, Nat.one_mul] at this
          omega

/-- Filling the intercepts. -/
theorem fill_classes (ns nclass : Nat) (v : Nat → ℝ) (b : Nat → ℝ) {k i : Nat} (hk : k < nclass)
    (hi : i < ns) :
    loop nclass v (fun k lc => fill lc (k * ns) ((k + 1) * ns) (b k)) (k * ns + i) = b k := by
  have key := loop_inv (fun m (w : Nat → ℝ) => ∀ k' i', k' < m → i' < ns → w (k' * ns + i') = b k')
    nclass v (fun k lc => fill lc (k * ns) ((k + 1) * ns) (b k)) (fun k' i' h => by omega) ?_
  · exact key k i hk hi
  · intro m w hm ih k' i' hk' hi'
    by_cases h : k' = m
    · subst h
      exact fill_in _ _ (by omega) (by rw [Nat.add_mul, Nat.one_mul]; omega)
    · have := cell_block (k := m) (k' := k') (by omega) hi'
      unfold fill
      rw [if_neg (by omega)]
      exact ih k' i' (by omega) hi'

theorem dot_lin (hA : Stored row X ld ns nf A) (x : Nat → ℝ) {k i : Nat} (hi : i < ns) :
    (loop nf 0 fun j t => t + entry row X ld i j * x (j * nclass + k)) =
      ∑ j ∈ range nf, A i j * x (j * nclass + k) := by
  rw [loop_sum, zero_add]
  exact Finset.sum_congr rfl fun j hj => by rw [entry_stored hA hi (Finset.mem_range.mp hj)]

theorem sscScores_ok (hA : Stored false X ld ns nf A) (v x : Nat → ℝ) {k i : Nat}
    (hk : k < nclass) (hi : i < ns) :
    sscScores (mkData row X ld y ns nf ic lambda alpha nclass) (nclass * width ic nf) v x
      (k * ns + i) = linSoft A nf nclass ic x k i := by
  unfold sscScores
  show loop nclass _ (fun k lc => loop ns lc fun i lc => upd lc (k * ns + i) (lc (k * ns + i) +
    loop nf 0 fun j t => t + entry false X ld i j * x (j * nclass + k))) (k * ns + i) = _
  rw [gemm_add ns nclass _ (fun k i => loop nf 0 fun j t =>
    t + entry false X ld i j * x (j * nclass + k)) hk hi, dot_lin hA x hi]
  unfold linSoft lin
  rw [add_comm]
  congr 1
  cases ic with
  | false =>
    show fill v 0 (ns * nclass) 0 (k * ns + i) = 0
    exact fill_in _ _ (Nat.zero_le _) (by rw [Nat.mul_comm ns]; exact cell_block hk hi)
  | true =>
    show loop nclass v (fun k lc => fill lc (k * ns) ((k + 1) * ns)
      (x (nclass * width true nf - (nclass - k)))) (k * ns + i) = _
    rw [fill_classes ns nclass v (fun k => x (nclass * width true nf - (nclass - k))) hk hi,
      icpt_index hk]
    rfl

theorem sum_exp_pos (h : 0 < nclass) (η : Nat → ℝ) : 0 < ∑ l ∈ range nclass, Real.exp (η l) :=
  Finset.sum_pos (fun l _ => Real.exp_pos _) ⟨0, Finset.mem_range.mpr h⟩

theorem sum_exp_shift (M : ℝ) (m : Nat) (η : Nat → ℝ) :
    ∑ k ∈ range m, Real.exp (η k - M) = Real.exp (-M) * ∑ k ∈ range m, Real.exp (η k) := by
  rw [Finset.mul_sum]
  refine Finset.sum_congr rfl fun k _ => ?_
  rw [← Real.exp_add]; congr 1; ring

theorem lse_soft (h : 0 < nclass) (M : ℝ) (η : Nat → ℝ) :
    M + Real.log (∑ k ∈ range nclass, Real.exp (η k - M)) =
      Real.log (∑ k ∈ range nclass, Real.exp (η k)) := by
  rw [sum_exp_shift, Real.log_mul (Real.exp_pos _).ne' (sum_exp_pos h η).ne', Real.log_exp]
  ring

theorem loss_soft (η : Nat → ℝ) {k : Nat} (hk : k < nclass) :
    -Real.log (probSoft nclass η k) =
      Real.log (∑ l ∈ range nclass, Real.exp (η l)) -
        ∑ l ∈ range nclass, if k = l then η l else 0 := by
  have h := (sum_exp_pos (by omega : 0 < nclass) η).ne'
  rw [Finset.sum_ite_eq (range nclass) k, if_pos (Finset.mem_range.mpr hk)]
  unfold probSoft
  rw [Real.log_div (Real.exp_pos _).ne' h, Real.log_exp]
  ring

/-- The penalties of the classes are the penalty of the matrix. -/
theorem sum_cells (f : Nat → ℝ) (nf nclass : Nat) :
    ∑ k ∈ range nclass, ∑ j ∈ range nf, f (j * nclass + k) = ∑ c ∈ range (nf * nclass), f c := by
  induction nf with
  | zero => simp
  | succ n ih =>
    rw [Nat.add_mul, Nat.one_mul, Finset.sum_range_add, ← ih, ← Finset.sum_add_distrib]
    exact Finset.sum_congr rfl fun k _ => Finset.sum_range_succ _ _

theorem penalty_classes (lambda alpha : ℝ) (x : Nat → ℝ) (nf nclass : Nat) :
    (∑ k ∈ range nclass, penalty lambda alpha nf fun j => x (j * nclass + k)) =
      penalty lambda alpha (nf * nclass) x := by
  unfold penalty
  rw [← Finset.mul_sum, Finset.sum_add_distrib, ← Finset.mul_sum, ← Finset.mul_sum,
    sum_cells (fun c => |x c|), sum_cells (fun c => x c ^ 2)]

/-- The objective and the work arrays it leaves. -/
theorem objfunSsc_ok (hA : Stored false X ld ns nf A) (hc : 0 < nclass)
    (hy : Labelled round y ns nclass lab) (h1 : 0 ≤ lambda) (h2 : 0 ≤ alpha)
    (h3 : alpha ≤ 1) (W : Work ℝ) (x : Nat → ℝ) :
    let r := objfunSsc (realOps round) (mkData row X ld y ns nf ic lambda alpha nclass) W
      (nclass * width ic nf) x
    r.1 = costSoft A lab ns nf nclass ic lambda alpha x ∧
      (∀ k i, k < nclass → i < ns → r.2.lincomb (k * ns + i) = linSoft A nf nclass ic x k i) ∧
      ∀ i, i < ns → Top (r.2.maxexp i) nclass (fun k => linSoft A nf nclass ic x k i) ∧
        r.2.sumexp i = ∑ k ∈ range nclass, Real.exp (linSoft A nf nclass ic x k i - r.2.maxexp i) := by
  obtain ⟨η, hη⟩ : ∃ η : Nat → Nat → ℝ, η = linSoft A nf nclass ic x := ⟨_, rfl⟩
  obtain ⟨lc, hlc⟩ : ∃ lc, lc = sscScores (mkData row X ld y ns nf ic lambda alpha nclass)
    (nclass * width ic nf) W.lincomb x := ⟨_, rfl⟩
  have el : ∀ k i, k < nclass → i < ns → lc (k * ns + i) = η k i := fun k i hk hi => by
    rw [hlc, hη]; exact sscScores_ok hA _ x hk hi
  unfold objfunSsc
  rw [← hlc]
  have key := loop_inv (fun i (s : ℝ × (Nat → ℝ) × (Nat → ℝ)) =>
    s.1 = ∑ i' ∈ range i, -Real.log (probSoft nclass (fun k => η k i') (lab i')) ∧
      (∀ i', i' < i → Top (s.2.1 i') nclass (fun k => η k i') ∧
        s.2.2 i' = ∑ k ∈ range nclass, Real.exp (η k i' - s.2.1 i')) ∧
      ∀ i', i ≤ i' → i' < ns → s.2.1 i' = 0) ns
    ((0 : ℝ), fill W.maxexp 0 ns 0, fill W.sumexp 0 ns 0) (fun i s =>
      let fm := loop nclass (s.1, s.2.1) fun k q =>
        let m := if q.2 i < lc (k * ns + i) then upd q.2 i (lc (k * ns + i)) else q.2
        let f := if round (y i) = (k : ℝ) then q.1 - lc (k * ns + i) else q.1
        (f, m)
      let se := upd s.2.2 i (loop nclass 0 fun k t => t + Real.exp (lc (k * ns + i) - fm.2 i))
      (fm.1 + (fm.2 i + Real.log (se i)), fm.2, se))
    ⟨by simp, fun i' h => by omega, fun i' _ h => fill_in _ _ (Nat.zero_le _) h⟩ ?_
  · obtain ⟨s, hs⟩ : ∃ s : ℝ × (Nat → ℝ) × (Nat → ℝ), s = loop ns
      ((0 : ℝ), fill W.maxexp 0 ns 0, fill W.sumexp 0 ns 0) (fun i s =>
        let fm := loop nclass (s.1, s.2.1) fun k q =>
          let m := if q.2 i < lc (k * ns + i) then upd q.2 i (lc (k * ns + i)) else q.2
          let f := if round (y i) = (k : ℝ) then q.1 - lc (k * ns + i) else q.1
          (f, m)
        let se := upd s.2.2 i (loop nclass 0 fun k t => t + Real.exp (lc (k * ns + i) - fm.2 i))
        (fm.1 + (fm.2 i + Real.log (se i)), fm.2, se)) := ⟨_, rfl⟩
    rw [← hs] at key
    obtain ⟨k1, k2, k3⟩ := key
    have goal : s.1 + regfun (nf * nclass) x (lambda * alpha) (lambda * (1 - alpha) / 2) =
          costSoft A lab ns nf nclass ic lambda alpha x ∧
        (∀ k i, k < nclass → i < ns → lc (k * ns + i) = linSoft A nf nclass ic x k i) ∧
        ∀ i, i < ns → Top (s.2.1 i) nclass (fun k => linSoft A nf nclass ic x k i) ∧
          s.2.2 i = ∑ k ∈ range nclass, Real.exp (linSoft A nf nclass ic x k i - s.2.1 i) := by
      refine ⟨?_, by rw [← hη]; exact el, by rw [← hη]; exact k2⟩
      rw [pen_eq _ _ _ _ h1 h2 h3, k1]
      unfold costSoft
      rw [penalty_classes, hη]
    rw [hs] at goal
    exact goal
  · intro i s hi ⟨i1, i2, i3⟩
    have inner := loop_inv (fun k (q : ℝ × (Nat → ℝ)) => k ≤ nclass →
      q.1 = s.1 - ∑ k' ∈ range k, (if lab i = k' then η k' i else 0) ∧
        Top (q.2 i) k (fun k => η k i) ∧ ∀ c, c ≠ i → q.2 c = s.2.1 c) nclass (s.1, s.2.1)
      (fun k q =>
        let m := if q.2 i < lc (k * ns + i) then upd q.2 i (lc (k * ns + i)) else q.2
        let f := if round (y i) = (k : ℝ) then q.1 - lc (k * ns + i) else q.1
        (f, m)) (fun _ => ⟨by simp, by
          show Top (s.2.1 i) 0 _
          rw [i3 i (le_refl _) hi]
          exact ⟨le_refl _, fun l hl => by omega, Or.inl rfl⟩, fun c _ => rfl⟩) (by
        intro k q hk ih hk'
        obtain ⟨j1, j2, j3⟩ := ih (by omega)
        simp only [el k i hk hi, (hy i hi).1]
        refine ⟨?_, ?_, fun c hc => ?_⟩
        · rw [Finset.sum_range_succ, j1]
          by_cases h : lab i = k
          · rw [if_pos (by rw [h]), if_pos h]; ring
          · rw [if_neg (by simpa using h), if_neg h]; ring
        · have := j2.step
          by_cases h : q.2 i < η k i
          · rw [if_pos h] at this ⊢
            rw [upd_same]; exact this
          · rw [if_neg h] at this ⊢
            exact this
        · by_cases h : q.2 i < η k i
          · rw [if_pos h, upd_ne _ _ hc]; exact j3 c hc
          · rw [if_neg h]; exact j3 c hc)
    obtain ⟨fm, hfm⟩ : ∃ fm : ℝ × (Nat → ℝ), fm = loop nclass (s.1, s.2.1) fun k q =>
        let m := if q.2 i < lc (k * ns + i) then upd q.2 i (lc (k * ns + i)) else q.2
        let f := if round (y i) = (k : ℝ) then q.1 - lc (k * ns + i) else q.1
        (f, m) := ⟨_, rfl⟩
    rw [← hfm] at inner
    obtain ⟨j1, j2, j3⟩ := inner (le_refl _)
    have ese : (loop nclass 0 fun k t => t + Real.exp (lc (k * ns + i) - fm.2 i)) =
        ∑ k ∈ range nclass, Real.exp (η k i - fm.2 i) := by
      rw [loop_sum, zero_add]
      exact Finset.sum_congr rfl fun k hk => by rw [el k i (Finset.mem_range.mp hk) hi]
    simp only [← hfm, ese, upd_same]
    refine ⟨?_, fun i' hi' => ?_, fun i' h h' => ?_⟩
    · rw [Finset.sum_range_succ, ← i1, j1, loss_soft _ (hy i hi).2,
        lse_soft hc (fm.2 i) (fun k => η k i)]
      ring
    · by_cases e : i' = i
      · subst e; rw [upd_same]; exact ⟨j2, rfl⟩
      · rw [upd_ne _ _ e, j3 i' e]; exact i2 i' (by omega)
    · rw [j3 i' (by omega)]; exact i3 i' (by omega) h'

/-- The derivative of `β_k X_i`. -/
noncomputable def dSoft (A : Nat → Nat → ℝ) (nf nclass : Nat) (ic : Bool) (p k i : Nat) : ℝ :=
  dlin A nf (fun j => j * nclass + k) ic (nf * nclass + k) p i

theorem dSoft_cell {j k k' i : Nat} (hj : j < nf) (hk : k < nclass) (hk' : k' < nclass) :
    dSoft A nf nclass ic (j * nclass + k) k' i = if k' = k then A i j else 0 := by
  unfold dSoft dlin one_
  have hz : ¬ nf * nclass + k' = j * nclass + k := fun e => by
    have := (cell_inj hk' hk e).1; omega
  rw [if_neg hz]
  have : ∀ j' ∈ range nf, A i j' * (if j' * nclass + k' = j * nclass + k then (1 : ℝ) else 0) =
      if j' = j then (if k' = k then A i j else 0) else 0 := by
    intro j' _
    by_cases e : j' = j
    · subst e
      rw [if_pos rfl]
      by_cases e2 : k' = k
      · rw [if_pos (by rw [e2]), if_pos e2, mul_one]
      · rw [if_neg (by omega), if_neg e2, mul_zero]
    · rw [if_neg e, if_neg (fun h => e (cell_inj hk' hk h).1), mul_zero]
  rw [Finset.sum_congr rfl this, Finset.sum_ite_eq' (range nf) j, if_pos (Finset.mem_range.mpr hj)]
  cases ic <;> simp

theorem dSoft_icpt {k k' i : Nat} (hk : k < nclass) (hk' : k' < nclass) :
    dSoft A nf nclass true (nf * nclass + k) k' i = if k' = k then 1 else 0 := by
  unfold dSoft dlin one_
  rw [Finset.sum_eq_zero, zero_add]
  · by_cases e : k' = k
    · simp [e]
    · rw [if_neg e]; simp [e]
  · intro j hj
    rw [if_neg (fun h => ?_), mul_zero]
    have := (cell_inj hk' hk h).1
    have := Finset.mem_range.mp hj
    omega

/-- The gradient without new linear combinations, from the probabilities `P k i` that the work
arrays stand for. -/
theorem objgrdSsc_eq (hA : Stored false X ld ns nf A) (hy : Labelled round y ns nclass lab)
    (h1 : 0 ≤ lambda) (h2 : 0 ≤ alpha) (h3 : alpha ≤ 1) (W : Work ℝ) (x g : Nat → ℝ)
    (P : Nat → Nat → ℝ)
    (hW : ∀ k i, k < nclass → i < ns →
      Real.exp (W.lincomb (k * ns + i) - W.maxexp i) / W.sumexp i = P k i)
    {p : Nat} (hp : p < nclass * width ic nf) :
    objgrdSsc (realOps round) (mkData row X ld y ns nf ic lambda alpha nclass) W
        (nclass * width ic nf) x g false p =
      ∑ i ∈ range ns, ∑ k ∈ range nclass,
          (P k i - if lab i = k then 1 else 0) * dSoft A nf nclass ic p k i +
        if p < nf * nclass then lambda * alpha * sgn (x p) + lambda * (1 - alpha) * x p else 0 := by
  have hc : 0 < nclass := by
    rcases Nat.eq_zero_or_pos nclass with h | h
    · rw [h, Nat.zero_mul] at hp; omega
    · exact h
  obtain ⟨G, hG⟩ : ∃ G : Nat → Nat → ℝ, G = fun k i => P k i - if lab i = k then 1 else 0 := ⟨_, rfl⟩
  obtain ⟨gp, hgp⟩ : ∃ gp : Nat → ℝ, gp = loop ns W.gradp (fun i gp => loop nclass gp fun k gp =>
      let c := k * ns + i
      let gp := upd gp c (Real.exp (W.lincomb c - W.maxexp i) / W.sumexp i)
      if round (y i) = (k : ℝ) then upd gp c (gp c - 1) else gp) := ⟨_, rfl⟩
  have eg : ∀ k i, k < nclass → i < ns → gp (k * ns + i) = G k i := by
    intro k i hk hi
    have e : gp = loop ns W.gradp (fun i gp => loop nclass gp fun k gp =>
        upd gp (k * ns + i) (G k i)) := by
      rw [hgp]
      refine loop_congr ns _ _ _ fun i v hi => ?_
      refine loop_congr nclass _ _ _ fun k v hk => ?_
      simp only [hW k i hk hi, (hy i hi).1, hG]
      by_cases h : lab i = k
      · rw [if_pos (by rw [h]), if_pos h, upd_same]
        funext c
        unfold upd
        by_cases hcc : c = k * ns + i
        · rw [if_pos hcc, if_pos hcc]
        · rw [if_neg hcc, if_neg hcc, if_neg hcc]
      · rw [if_neg (by simpa using h), if_neg h, sub_zero]
    rw [e]
    exact loop2_write ns nclass W.gradp (fun i k => k * ns + i) (fun i k => G k i)
      (fun a b a' b' ha hb ha' hb' h => by
        have := cell_inj ha ha' h; omega) hi hk
  obtain ⟨v, hv⟩ : ∃ v : Nat → ℝ, v = loop nf (fill g 0 (nclass * width ic nf) 0) (fun j g =>
      loop nclass g fun k g => upd g (j * nclass + k)
        (loop ns 0 fun i t => t + gp (k * ns + i) * entry false X ld i j)) := ⟨_, rfl⟩
  have ev1 : ∀ j k, j < nf → k < nclass → v (j * nclass + k) = ∑ i ∈ range ns, G k i * A i j := by
    intro j k hj hk
    rw [hv, loop2_write nf nclass _ (fun j k => j * nclass + k) (fun j k =>
      loop ns 0 fun i t => t + gp (k * ns + i) * entry false X ld i j)
      (fun a b a' b' _ hb _ hb' h => cell_inj hb hb' h) hj hk, loop_sum, zero_add]
    exact Finset.sum_congr rfl fun i hi => by
      rw [eg k i hk (Finset.mem_range.mp hi), entry_stored hA (Finset.mem_range.mp hi) hj]
  unfold objgrdSsc
  show reggrd (nf * nclass) x (lambda * alpha) (lambda * (1 - alpha) / 2)
    (if ic then loop nclass (loop nf (fill g 0 (nclass * width ic nf) 0) (fun j g =>
        loop nclass g fun k g => upd g (j * nclass + k)
          (loop ns 0 fun i t => t + (loop ns W.gradp (fun i gp => loop nclass gp fun k gp =>
            let c := k * ns + i
            let gp := upd gp c (Real.exp (W.lincomb c - W.maxexp i) / W.sumexp i)
            if round (y i) = (k : ℝ) then upd gp c (gp c - 1) else gp)) (k * ns + i) *
              entry false X ld i j))) (fun k g =>
        upd g (nclass * width ic nf - (nclass - k)) (loop ns 0 fun i t => t +
          (loop ns W.gradp (fun i gp => loop nclass gp fun k gp =>
            let c := k * ns + i
            let gp := upd gp c (Real.exp (W.lincomb c - W.maxexp i) / W.sumexp i)
            if round (y i) = (k : ℝ) then upd gp c (gp c - 1) else gp)) (k * ns + i)))
      else (loop nf (fill g 0 (nclass * width ic nf) 0) (fun j g =>
        loop nclass g fun k g => upd g (j * nclass + k)
          (loop ns 0 fun i t => t + (loop ns W.gradp (fun i gp => loop nclass gp fun k gp =>
            let c := k * ns + i
            let gp := upd gp c (Real.exp (W.lincomb c - W.maxexp i) / W.sumexp i)
            if round (y i) = (k : ℝ) then upd gp c (gp c - 1) else gp)) (k * ns + i) *
              entry false X ld i j)))) p = _
  rw [pengrd_eq _ _ _ _ _ _ h1 h2 h3, ← hgp, ← hv]
  congr 1
  have hGi : ∀ k i, (P k i - if lab i = k then 1 else 0) = G k i := fun k i => by rw [hG]
  simp only [hGi]
  by_cases hpf : p < nf * nclass
  · obtain ⟨j, k, hj, hk, e⟩ : ∃ j k, j < nf ∧ k < nclass ∧ p = j * nclass + k :=
      ⟨p / nclass, p % nclass, Nat.div_lt_of_lt_mul (by rw [Nat.mul_comm]; exact hpf),
        Nat.mod_lt _ hc, by rw [Nat.mul_comm]; exact (Nat.div_add_mod p nclass).symm⟩
    have es : ∀ i, ∑ k' ∈ range nclass, G k' i * dSoft A nf nclass ic p k' i = G k i * A i j := by
      intro i
      have : ∀ k' ∈ range nclass, G k' i * dSoft A nf nclass ic p k' i =
          if k' = k then G k i * A i j else 0 := by
        intro k' hk'
        rw [e, dSoft_cell hj hk (Finset.mem_range.mp hk')]
        by_cases h : k' = k
        · rw [if_pos h, if_pos h, h]
        · rw [if_neg h, if_neg h, mul_zero]
      rw [Finset.sum_congr rfl this, Finset.sum_ite_eq' (range nclass) k,
        if_pos (Finset.mem_range.mpr hk)]
    simp only [es]
    cases ic with
    | false =>
      show v p = _
      rw [e, ev1 j k hj hk]
    | true =>
      show loop nclass v (fun k g => upd g (nclass * width true nf - (nclass - k))
        (loop ns 0 fun i t => t + gp (k * ns + i))) p = _
      rw [loop_keep nclass v _ p fun k' w hk' => upd_ne _ _ (by rw [icpt_index hk']; omega),
        e, ev1 j k hj hk]
  · cases ic with
    | false =>
      simp only [width, Bool.false_eq_true, if_false] at hp
      rw [Nat.mul_comm] at hp
      omega
    | true =>
      obtain ⟨k, hk, e⟩ : ∃ k, k < nclass ∧ p = nf * nclass + k := by
        refine ⟨p - nf * nclass, ?_, by omega⟩
        simp only [width, if_true, Nat.mul_add, Nat.mul_one, Nat.mul_comm nclass nf] at hp
        omega
      have es : ∀ i, ∑ k' ∈ range nclass, G k' i * dSoft A nf nclass true p k' i = G k i := by
        intro i
        have : ∀ k' ∈ range nclass, G k' i * dSoft A nf nclass true p k' i =
            if k' = k then G k i else 0 := by
          intro k' hk'
          rw [e, dSoft_icpt hk (Finset.mem_range.mp hk')]
          by_cases h : k' = k
          · rw [if_pos h, if_pos h, h, mul_one]
          · rw [if_neg h, if_neg h, mul_zero]
        rw [Finset.sum_congr rfl this, Finset.sum_ite_eq' (range nclass) k,
          if_pos (Finset.mem_range.mpr hk)]
      simp only [es]
      show loop nclass v (fun k g => upd g (nclass * width true nf - (nclass - k))
        (loop ns 0 fun i t => t + gp (k * ns + i))) p = _
      rw [loop_congr nclass v _ (fun k g => upd g (nf * nclass + k)
          (loop ns 0 fun i t => t + gp (k * ns + i))) (fun k' w hk' => by rw [icpt_index hk']),
        loop_upd nclass v (nf * nclass) (fun k _ => loop ns 0 fun i t => t + gp (k * ns + i)) p,
        if_pos (by omega), e, show nf * nclass + k - nf * nclass = k by omega, loop_sum, zero_add]
      exact Finset.sum_congr rfl fun i hi => eg k i hk (Finset.mem_range.mp hi)

/-- The work arrays that a gradient with new linear combinations computes. -/
theorem objgrdSsc_new (hA : Stored false X ld ns nf A) (W : Work ℝ) (x g : Nat → ℝ) :
    ∃ W' : Work ℝ, objgrdSsc (realOps round) (mkData row X ld y ns nf ic lambda alpha nclass) W
        (nclass * width ic nf) x g true =
      objgrdSsc (realOps round) (mkData row X ld y ns nf ic lambda alpha nclass) W'
        (nclass * width ic nf) x g false ∧
      (∀ k i, k < nclass → i < ns → W'.lincomb (k * ns + i) = linSoft A nf nclass ic x k i) ∧
      ∀ i, i < ns → W'.sumexp i = Real.exp (-W'.maxexp i) +
        ∑ k ∈ range nclass, Real.exp (linSoft A nf nclass ic x k i - W'.maxexp i) := by
  obtain ⟨lc, hlc⟩ : ∃ lc, lc = sscScores (mkData row X ld y ns nf ic lambda alpha nclass)
    (nclass * width ic nf) W.lincomb x := ⟨_, rfl⟩
  have el : ∀ k i, k < nclass → i < ns → lc (k * ns + i) = linSoft A nf nclass ic x k i :=
    fun k i hk hi => by rw [hlc]; exact sscScores_ok hA _ x hk hi
  have key := loop_inv (fun i (s : (Nat → ℝ) × (Nat → ℝ)) => ∀ i', i' < i → i' < ns →
    s.2 i' = Real.exp (-(s.1 i')) +
      ∑ k ∈ range nclass, Real.exp (linSoft A nf nclass ic x k i' - s.1 i')) ns
    (fill W.maxexp 0 ns 0, W.sumexp) (fun i s =>
      let m := loop nclass s.1 fun k m =>
        if m i < lc (k * ns + i) then upd m i (lc (k * ns + i)) else m
      let se := upd s.2 i (loop nclass (Real.exp (-(m i))) fun k t =>
        t + Real.exp (lc (k * ns + i) - m i))
      (m, se)) (fun i' h => by omega) ?_
  · refine ⟨{ W with
      maxexp := (loop ns (fill W.maxexp 0 ns 0, W.sumexp) (fun i s =>
        let m := loop nclass s.1 fun k m =>
          if m i < lc (k * ns + i) then upd m i (lc (k * ns + i)) else m
        let se := upd s.2 i (loop nclass (Real.exp (-(m i))) fun k t =>
          t + Real.exp (lc (k * ns + i) - m i))
        (m, se))).1
      sumexp := (loop ns (fill W.maxexp 0 ns 0, W.sumexp) (fun i s =>
        let m := loop nclass s.1 fun k m =>
          if m i < lc (k * ns + i) then upd m i (lc (k * ns + i)) else m
        let se := upd s.2 i (loop nclass (Real.exp (-(m i))) fun k t =>
          t + Real.exp (lc (k * ns + i) - m i))
        (m, se))).2
      lincomb := lc }, by rw [hlc]; rfl, el, fun i hi => key i hi hi⟩
  · intro i s hi ih i' hi' hn
    have keep : ∀ c, c ≠ i → (loop nclass s.1 fun k m =>
        if m i < lc (k * ns + i) then upd m i (lc (k * ns + i)) else m) c = s.1 c := by
      intro c hc
      refine loop_keep nclass s.1 _ c fun k m _ => ?_
      by_cases h : m i < lc (k * ns + i)
      · rw [if_pos h, upd_ne _ _ hc]
      · rw [if_neg h]
    by_cases e : i' = i
    · subst e
      simp only [upd_same]
      rw [loop_sum]
      congr 1
      exact Finset.sum_congr rfl fun k hk => by rw [el k i' (Finset.mem_range.mp hk) hi]
    · simp only [upd_ne _ _ e, keep i' e]
      exact ih i' (by omega) hn

theorem costSoft_deriv (hy : ∀ i, i < ns → lab i < nclass) (x : Nat → ℝ) (p : Nat)
    (h : lambda * alpha = 0 ∨ x p ≠ 0 ∨ nf * nclass ≤ p) :
    HasDerivAt (fun t => costSoft A lab ns nf nclass ic lambda alpha (moved x p t))
      (∑ i ∈ range ns, ∑ k ∈ range nclass,
          (probSoft nclass (fun k => linSoft A nf nclass ic x k i) k - if lab i = k then 1 else 0) *
            dSoft A nf nclass ic p k i +
        if p < nf * nclass then lambda * alpha * sgn (x p) + lambda * (1 - alpha) * x p else 0)
      (x p) := by
  unfold costSoft
  simp only [penalty_classes]
  apply HasDerivAt.add
  · have e : ∀ t, ∑ i ∈ range ns, -Real.log (probSoft nclass
        (fun k => linSoft A nf nclass ic (moved x p t) k i) (lab i)) =
        ∑ i ∈ range ns, (Real.log (∑ l ∈ range nclass,
          Real.exp (linSoft A nf nclass ic (moved x p t) l i)) -
          ∑ l ∈ range nclass, if lab i = l then linSoft A nf nclass ic (moved x p t) l i else 0) :=
      fun t => Finset.sum_congr rfl fun i hi => loss_soft _ (hy i (Finset.mem_range.mp hi))
    simp only [e]
    refine HasDerivAt.fun_sum fun i hi => ?_
    have hc : 0 < nclass := by have := hy i (Finset.mem_range.mp hi); omega
    have hl : ∀ k, HasDerivAt (fun t => linSoft A nf nclass ic (moved x p t) k i)
        (dSoft A nf nclass ic p k i) (x p) :=
      fun k => lin_deriv A nf (fun j => j * nclass + k) ic (nf * nclass + k) p i x
    have hs := HasDerivAt.fun_sum (u := range nclass) fun k _ => (hl k).exp
    have hd := hs.log (sum_exp_pos hc fun l =>
      linSoft A nf nclass ic (moved x p (x p)) l i).ne'
    have hi := HasDerivAt.fun_sum (u := range nclass) (fun k _ =>
      (show HasDerivAt (fun t => if lab i = k then linSoft A nf nclass ic (moved x p t) k i else 0)
        (if lab i = k then dSoft A nf nclass ic p k i else 0) (x p) from by
          by_cases h : lab i = k
          · simp only [if_pos h]; exact hl k
          · simp only [if_neg h]; exact hasDerivAt_const _ _))
    refine HasDerivAt.congr_deriv (hd.sub hi) ?_
    simp only [moved_self]
    rw [Finset.sum_div, ← Finset.sum_sub_distrib]
    refine Finset.sum_congr rfl fun k _ => ?_
    unfold probSoft
    by_cases h : lab i = k
    · rw [if_pos h, if_pos h]; ring
    · rw [if_neg h, if_neg h]; ring
  · exact pen_first_deriv lambda alpha (nf * nclass) p x h

end

end Verif.Logistic
