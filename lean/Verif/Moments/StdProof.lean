import Verif.Moments.MathProof

/-
What `standardize` computes.
-/
namespace Verif.Moments

set_option linter.unusedSectionVars false

open Finset

variable {K : Type} [Field K] [LinearOrder K] [IsStrictOrderedRing K]

/-- The first `L` cells are zero. -/
def ZeroOn (L : Nat) (l : List K) : Prop := ∀ k < L, l.getD k 0 = 0

/-- The standard deviations about the means that the code uses. -/
def sdMean (sqrt : K → K) (axis : Axis) (m n : Nat) (X : Nat → Nat → K) (dof : Int) (k : Nat) : K :=
  sqrt (total axis m n X (fun a => (a - avg axis m n X k) * (a - avg axis m n X k)) k /
    (if 1 < scaleFactor dof (obs axis m n) then ((scaleFactor dof (obs axis m n) : Int) : K)
      else 1))

/-- The standard deviations about given centres that the code uses. -/
def sdAbout (sqrt : K → K) (axis : Axis) (m n : Nat) (X : Nat → Nat → K) (dof : Int)
    (c : Nat → K) (k : Nat) : K :=
  sqrt ((outLen axis m n : K) *
    (total axis m n X (fun a => (a - c k) ^ 2) k / (obs axis m n : K)) /
      ((scaleFactor dof (outLen axis m n) : Int) : K))

open Classical in
/-- Which shifts are used, given the caller's arrays and the means. -/
noncomputable def pickShift (L : Nat) (means : Nat → K) (shift scale : Option (List K))
    (k : Nat) : K :=
  match shift, scale with
  | none, none => means k
  | none, some _ => 0
  | some sh, _ => if ZeroOn L sh then means k else sh.getD k 0

open Classical in
/-- Which scales are used, given the caller's arrays, the deviations about the means and
those about the caller's shifts. -/
noncomputable def pickScale (L : Nat) (sd : Nat → K) (about : (Nat → K) → Nat → K)
    (shift scale : Option (List K)) (k : Nat) : K :=
  match shift, scale with
  | none, none => sd k
  | some _, none => 1
  | none, some sc => if ZeroOn L sc then sd k else sc.getD k 0
  | some sh, some sc =>
    if ZeroOn L sc then
      if ZeroOn L sh then sd k else about (fun k => sh.getD k 0) k
    else sc.getD k 0

/-- The branch of the code that computes deviations about the caller's shifts. -/
def Given (L : Nat) (shift scale : Option (List K)) : Prop :=
  ∃ sh sc, shift = some sh ∧ scale = some sc ∧ ¬ ZeroOn L sh ∧ ZeroOn L sc

/-- What becomes of an entry. -/
def change (mode : Int) (a h s : K) : K :=
  if mode = 0 then (a - h) / (if s ≠ 0 then s else 1) else a * (if s ≠ 0 then s else 1) + h

theorem isZero_ok (arr : List K) (L : Nat) (h : L ≤ arr.length) :
    ∃ b, isZero arr L = .ok b ∧ (b = true ↔ ZeroOn L arr) := by
  induction L with
  | zero => exact ⟨true, rfl, by simp [ZeroOn]⟩
  | succ L ih =>
    obtain ⟨b, h1, h2⟩ := ih (by omega)
    have hL : L < arr.length := by omega
    have hget : arr.getD L 0 = arr[L] := by simp [List.getD, List.getElem?_eq_getElem hL]
    unfold isZero at h1 ⊢
    rw [forUp_succ, h1, ok_bind]
    cases b with
    | false =>
      refine ⟨false, rfl, ?_⟩
      constructor
      · intro h; cases h
      · intro hz
        exact h2.2 (fun k hk => hz k (by omega))
    | true =>
      have hz := h2.1 rfl
      refine ⟨decide (arr[L] = 0), ?_, ?_⟩
      · simp only [if_true]
        rw [rd_ok (List.getElem?_eq_getElem hL), ok_bind]
      · rw [decide_eq_true_iff]
        constructor
        · intro h3 k hk
          by_cases hkL : k = L
          · subst hkL; rw [hget, h3]
          · exact hz k (by omega)
        · intro h3
          have := h3 L (by omega)
          rwa [hget] at this

theorem get_of {l : List K} {L k : Nat} (h : L ≤ l.length) (hk : k < L) :
    l[k]? = some (l.getD k 0) := by
  have : k < l.length := by omega
  simp [List.getD, List.getElem?_eq_getElem this]

theorem gives_self {l : List K} {L : Nat} (h : L ≤ l.length) :
    Gives l l L (fun k => l.getD k 0) := by
  intro k
  by_cases hk : k < L
  · rw [if_pos hk]; exact get_of h hk
  · rw [if_neg hk]

theorem sqrtAll_ok (sqrt : K → K) {s s' : List K} {L : Nat} {g : Nat → K}
    (h : Gives s s' L g) (hL : L ≤ s.length) (hg : ∀ k < L, 0 ≤ g k) :
    ∃ s'', sqrtAll sqrt L s' = .ok s'' ∧ Gives s s'' L (fun k => sqrt (g k)) := by
  obtain ⟨s'', h1, h2⟩ := mapN_ok L (fun _ a => sqrtM sqrt a) (fun k => sqrt (g k)) s'
    (by rw [h.length hL]; exact hL) (by
      intro i hi a ha
      have h3 := h i
      rw [if_pos hi, ha, Option.some.injEq] at h3
      rw [h3]
      exact if_neg (not_lt.2 (hg i hi)))
  exact ⟨s'', h1, h.trans h2⟩

theorem total_sq_nonneg (axis : Axis) (m n : Nat) (X : Nat → Nat → K) (c : K) (k : Nat) :
    0 ≤ total axis m n X (fun a => (a - c) * (a - c)) k := by
  rw [total_cells]; exact sq_sum_nonneg _ _

theorem scaleFactor_nonneg (dof : Int) {c : Nat} (h : 0 < c) : 0 ≤ scaleFactor dof c := by
  unfold scaleFactor; split
  · omega
  · split <;> omega

theorem var_nonneg (axis : Axis) {m n : Nat} (X : Nat → Nat → K) (dof : Int) (c : K) (k : Nat)
    (hm : 0 < m) (hn : 0 < n) :
    0 ≤ total axis m n X (fun a => (a - c) * (a - c)) k /
      (if 1 < scaleFactor dof (obs axis m n) then ((scaleFactor dof (obs axis m n) : Int) : K)
        else 1) := by
  apply div_nonneg (total_sq_nonneg _ _ _ _ _ _)
  split
  · exact_mod_cast scaleFactor_nonneg dof (obs_pos axis hm hn)
  · exact zero_le_one

/-- An array the caller may have given: it stays null, or it holds `g`. -/
def Leaves (L : Nat) (before after : Option (List K)) (g : Nat → K) : Prop :=
  (before = none → after = none) ∧
    ∀ l, before = some l → ∃ l', after = some l' ∧ Gives l l' L g

theorem prepare_ok (sqrt : K → K) (thr : Nat) (env : Nat → Env) (axis : Axis) {n p ldx : Nat}
    (x : List K) (X : Nat → Nat → K) (dof : Int) (junk : List K) (shift scale : Option (List K))
    (hn : 0 < n) (hp : 0 < p) (ht : 0 < thr) (hld : n ≤ ldx)
    (hx : Holds .col n p ldx x X) (he : ∀ k, (env k).OkFor thr .col n p)
    (hj : junk.length = outLen axis n p)
    (hsh : ∀ l, shift = some l → outLen axis n p ≤ l.length)
    (hsc : ∀ l, scale = some l → outLen axis n p ≤ l.length) :
    (¬ (Given (outLen axis n p) shift scale ∧ scaleFactor dof (outLen axis n p) = 0) →
      ∃ q, prepare sqrt thr env axis (n : Int) (p : Int) x (ldx : Int) dof (outLen axis n p) junk
          shift scale = .ok q ∧
        Leaves (outLen axis n p) shift q.shift
          (pickShift (outLen axis n p) (avg axis n p X) shift scale) ∧
        Leaves (outLen axis n p) scale q.scale
          (pickScale (outLen axis n p) (sdMean sqrt axis n p X dof)
            (sdAbout sqrt axis n p X dof) shift scale) ∧
        (∀ k < outLen axis n p, q.useShift[k]? = some
          (pickShift (outLen axis n p) (avg axis n p X) shift scale k)) ∧
        (∀ k < outLen axis n p, q.useScale[k]? = some
          (pickScale (outLen axis n p) (sdMean sqrt axis n p X dof)
            (sdAbout sqrt axis n p X dof) shift scale k))) ∧
    (Given (outLen axis n p) shift scale → scaleFactor dof (outLen axis n p) = 0 →
      prepare sqrt thr env axis (n : Int) (p : Int) x (ldx : Int) dof (outLen axis n p) junk
        shift scale = .error .divZero) := by
  classical
  obtain ⟨L, hL⟩ : ∃ L, L = outLen axis n p := ⟨_, rfl⟩
  have hLp : 0 < L := by rw [hL]; exact outLen_pos axis hn hp
  have hvar := fun am var ham hvr => variance_ok thr .col axis x X hn hp ht hld hx env he dof am var
    ham hvr
  have hmean := fun out hout => mean_ok thr .col axis x X hn hp ht hld hx (env 0) (he 0) out hout
  have hnn := fun k => var_nonneg axis X dof (avg axis n p X k) k hn hp
  rw [← hL] at hj hsh hsc hvar hmean ⊢
  have hfill : ∀ v : K, ∀ k < L, (filled L v)[k]? = some v := by
    intro v k hk; simp [filled, hk]
  unfold prepare
  cases shift with
  | none =>
    refine ⟨fun _ => ?_, fun h => ?_⟩
    swap
    · obtain ⟨_, _, h1, _⟩ := h; cases h1
    cases scale with
    | none =>
      obtain ⟨am, v, h1, h2, h3⟩ := hvar junk junk hj.ge hj.ge
      obtain ⟨v', h4, h5⟩ := sqrtAll_ok sqrt h3 hj.ge (fun k _ => hnn k)
      simp only
      rw [h1, ok_bind]
      simp only
      rw [h4, ok_bind]
      refine ⟨_, rfl, ⟨fun _ => rfl, fun l h => by cases h⟩, ⟨fun _ => rfl, fun l h => by cases h⟩,
        ?_, ?_⟩
      · intro k hk; show am[k]? = _; rw [h2 k, if_pos hk]; rfl
      · intro k hk; show v'[k]? = _; rw [h5 k, if_pos hk]; rfl
    | some sc =>
      have hscL := hsc sc rfl
      obtain ⟨z, hz1, hz2⟩ := isZero_ok sc L hscL
      simp only
      rw [hz1, ok_bind]
      by_cases hz : z = true
      · have hZ := hz2.1 hz
        rw [if_pos hz]
        obtain ⟨am, v, h1, h2, h3⟩ := hvar junk sc hj.ge hscL
        obtain ⟨v', h4, h5⟩ := sqrtAll_ok sqrt h3 hscL (fun k _ => hnn k)
        rw [h1, ok_bind]
        simp only
        rw [h4, ok_bind]
        have hpick : ∀ k, pickScale L (sdMean sqrt axis n p X dof) (sdAbout sqrt axis n p X dof)
            none (some sc) k = sdMean sqrt axis n p X dof k := by
          intro k; simp only [pickScale]; rw [if_pos hZ]
        refine ⟨_, rfl, ⟨fun _ => rfl, fun l h => by cases h⟩, ⟨fun h => (by cases h), fun l h => ?_⟩,
          ?_, ?_⟩
        · cases h
          refine ⟨v', rfl, ?_⟩
          intro k
          rw [h5 k]
          by_cases hk : k < L
          · rw [if_pos hk, if_pos hk, hpick]; rfl
          · rw [if_neg hk, if_neg hk]
        · intro k hk; exact hfill 0 k hk
        · intro k hk; show v'[k]? = _; rw [h5 k, if_pos hk, hpick]; rfl
      · have hZ : ¬ ZeroOn L sc := fun h => hz (hz2.2 h)
        rw [if_neg hz]
        have hpick : ∀ k, pickScale L (sdMean sqrt axis n p X dof) (sdAbout sqrt axis n p X dof)
            none (some sc) k = sc.getD k 0 := by
          intro k; simp only [pickScale]; rw [if_neg hZ]
        refine ⟨_, rfl, ⟨fun _ => rfl, fun l h => by cases h⟩, ⟨fun h => (by cases h), fun l h => ?_⟩,
          ?_, ?_⟩
        · cases h
          refine ⟨sc, rfl, ?_⟩
          rw [show pickScale L (sdMean sqrt axis n p X dof) (sdAbout sqrt axis n p X dof)
            none (some sc) = fun k => sc.getD k 0 from funext hpick]
          exact gives_self hscL
        · intro k hk; exact hfill 0 k hk
        · intro k hk; rw [hpick]; exact get_of hscL hk
  | some sh =>
    have hshL := hsh sh rfl
    obtain ⟨z1, hz1, hz1'⟩ := isZero_ok sh L hshL
    cases scale with
    | none =>
      refine ⟨fun _ => ?_, fun h => ?_⟩
      swap
      · obtain ⟨_, _, _, h1, _⟩ := h; cases h1
      simp only
      rw [hz1, ok_bind]
      by_cases hz : z1 = true
      · have hZ := hz1'.1 hz
        rw [if_pos hz]
        obtain ⟨am, h1, h2⟩ := hmean sh hshL
        rw [h1, ok_bind]
        simp only
        have hpick : ∀ k, pickShift L (avg axis n p X) (some sh) none k = avg axis n p X k := by
          intro k; simp only [pickShift]; rw [if_pos hZ]
        refine ⟨_, rfl, ⟨fun h => (by cases h), fun l h => ?_⟩, ⟨fun _ => rfl, fun l h => by cases h⟩,
          ?_, ?_⟩
        · cases h
          refine ⟨am, rfl, ?_⟩
          rw [show pickShift L (avg axis n p X) (some sh) none = avg axis n p X from funext hpick]
          exact h2
        · intro k hk; show am[k]? = _; rw [h2 k, if_pos hk, hpick]
        · intro k hk; exact hfill 1 k hk
      · have hZ : ¬ ZeroOn L sh := fun h => hz (hz1'.2 h)
        rw [if_neg hz]
        have hpick : ∀ k, pickShift L (avg axis n p X) (some sh) none k = sh.getD k 0 := by
          intro k; simp only [pickShift]; rw [if_neg hZ]
        refine ⟨_, rfl, ⟨fun h => (by cases h), fun l h => ?_⟩, ⟨fun _ => rfl, fun l h => by cases h⟩,
          ?_, ?_⟩
        · cases h
          refine ⟨sh, rfl, ?_⟩
          rw [show pickShift L (avg axis n p X) (some sh) none = fun k => sh.getD k 0 from
            funext hpick]
          exact gives_self hshL
        · intro k hk; rw [hpick]; exact get_of hshL hk
        · intro k hk; exact hfill 1 k hk
    | some sc =>
      have hscL := hsc sc rfl
      obtain ⟨z2, hz2, hz2'⟩ := isZero_ok sc L hscL
      simp only
      rw [hz1, ok_bind, hz2, ok_bind]
      by_cases hA : ZeroOn L sh
      · have e1 : z1 = true := hz1'.2 hA
        have hpick1 : pickShift L (avg axis n p X) (some sh) (some sc) = avg axis n p X := by
          funext k; simp only [pickShift]; rw [if_pos hA]
        refine ⟨fun _ => ?_, fun h => ?_⟩
        swap
        · obtain ⟨_, _, h1, _, h2, _⟩ := h; cases h1; exact absurd hA h2
        by_cases hB : ZeroOn L sc
        · have e2 : z2 = true := hz2'.2 hB
          have hpick2 : pickScale L (sdMean sqrt axis n p X dof) (sdAbout sqrt axis n p X dof)
              (some sh) (some sc) = sdMean sqrt axis n p X dof := by
            funext k; simp only [pickScale]; rw [if_pos hB, if_pos hA]
          rw [hpick1, hpick2, if_pos (by rw [e1, e2]; rfl)]
          obtain ⟨am, v, h1, h2, h3⟩ := hvar sh sc hshL hscL
          obtain ⟨v', h4, h5⟩ := sqrtAll_ok sqrt h3 hscL (fun k _ => hnn k)
          rw [h1, ok_bind]
          simp only
          rw [h4, ok_bind]
          refine ⟨_, rfl, ⟨fun h => (by cases h), fun l h => ?_⟩, ⟨fun h => (by cases h), fun l h => ?_⟩,
            ?_, ?_⟩
          · cases h; exact ⟨am, rfl, h2⟩
          · cases h; exact ⟨v', rfl, h5⟩
          · intro k hk; show am[k]? = _; rw [h2 k, if_pos hk]
          · intro k hk; show v'[k]? = _; rw [h5 k, if_pos hk]; rfl
        · have e2 : ¬ z2 = true := fun h => hB (hz2'.1 h)
          have e2' : z2 = false := by simpa using e2
          have hpick2 : pickScale L (sdMean sqrt axis n p X dof) (sdAbout sqrt axis n p X dof)
              (some sh) (some sc) = fun k => sc.getD k 0 := by
            funext k; simp only [pickScale]; rw [if_neg hB]
          rw [hpick1, hpick2, if_neg (by rw [e1, e2']; decide), if_pos e1]
          obtain ⟨am, h1, h2⟩ := hmean sh hshL
          rw [h1, ok_bind]
          simp only
          refine ⟨_, rfl, ⟨fun h => (by cases h), fun l h => ?_⟩, ⟨fun h => (by cases h), fun l h => ?_⟩,
            ?_, ?_⟩
          · cases h; exact ⟨am, rfl, h2⟩
          · cases h; exact ⟨sc, rfl, gives_self hscL⟩
          · intro k hk; show am[k]? = _; rw [h2 k, if_pos hk]
          · intro k hk; exact get_of hscL hk
      · have e1 : ¬ z1 = true := fun h => hA (hz1'.1 h)
        have e1' : z1 = false := by simpa using e1
        have hpick1 : pickShift L (avg axis n p X) (some sh) (some sc) = fun k => sh.getD k 0 := by
          funext k; simp only [pickShift]; rw [if_neg hA]
        by_cases hB : ZeroOn L sc
        · have e2 : z2 = true := hz2'.2 hB
          have hGiven : Given L (some sh) (some sc) := ⟨sh, sc, rfl, rfl, hA, hB⟩
          have hpick2 : pickScale L (sdMean sqrt axis n p X dof) (sdAbout sqrt axis n p X dof)
              (some sh) (some sc) = sdAbout sqrt axis n p X dof (fun k => sh.getD k 0) := by
            funext k; simp only [pickScale]; rw [if_pos hB, if_neg hA]
          rw [hpick1, hpick2, if_neg (by rw [e1', e2]; decide), if_neg e1, if_pos e2]
          obtain ⟨am, v, h1, h2, h3⟩ := moment_ok thr .col axis x X hn hp ht hld hx env he 2 true sh
            sc (fun k => sh.getD k 0) (fun _ k hk => get_of (hL ▸ hshL) hk) (by simp)
            (hL ▸ hshL) (hL ▸ hscL)
          rw [← hL] at h3
          have h1' : moment thr env .col axis (n : Int) (p : Int) (some x) (ldx : Int) 2 true
              (some sh) (some sc) = .ok (.success, some am, some v) := h1
          rw [h1', ok_bind]
          simp only
          constructor
          · intro hg
            have hsf0 : scaleFactor dof L ≠ 0 := fun h => hg ⟨hGiven, h⟩
            have hsfK : ((scaleFactor dof L : Int) : K) ≠ 0 := by exact_mod_cast hsf0
            obtain ⟨v', h4, h5⟩ := mapN_ok L (fun _ a => do
                let q ← divM ((L : K) * a) ((scaleFactor dof L : Int) : K)
                sqrtM sqrt q) (sdAbout sqrt axis n p X dof (fun k => sh.getD k 0)) v
              (by rw [Gives.length h3 hscL]; exact hscL) (by
                intro i hi a ha
                have h6 := h3 i
                rw [if_pos hi, ha, Option.some.injEq] at h6
                unfold divM
                rw [if_neg hsfK, ok_bind, h6]
                unfold sqrtM sdAbout
                rw [← hL, if_neg]
                rw [not_lt]
                apply div_nonneg
                · apply mul_nonneg (Nat.cast_nonneg _)
                  apply div_nonneg _ (Nat.cast_nonneg _)
                  rw [total_cells]
                  exact sum_nonneg fun c _ => sq_nonneg _
                · exact_mod_cast scaleFactor_nonneg dof hLp)
            rw [h4, ok_bind]
            refine ⟨_, rfl, ⟨fun h => (by cases h), fun l h => ?_⟩,
              ⟨fun h => (by cases h), fun l h => ?_⟩, ?_, ?_⟩
            · cases h; exact ⟨sh, rfl, gives_self hshL⟩
            · cases h; exact ⟨v', rfl, Gives.trans h3 h5⟩
            · intro k hk; exact get_of hshL hk
            · intro k hk; show v'[k]? = _; rw [h5 k, if_pos hk]
          · intro _ hsf0
            have h7 : mapN L (fun _ a => do
                let q ← divM ((L : K) * a) ((scaleFactor dof L : Int) : K)
                sqrtM sqrt q) v = .error .divZero := by
              unfold mapN forUp
              obtain ⟨L', rfl⟩ : ∃ L', L = L' + 1 := ⟨L - 1, by omega⟩
              have hv0 : v[0]? = some (v.getD 0 0) :=
                get_of (L := L' + 1) (by rw [Gives.length h3 hscL]; exact hscL) (by omega)
              rw [List.range_succ_eq_map, List.foldlM_cons]
              simp only
              rw [rd_ok hv0, ok_bind]
              unfold divM
              rw [hsf0, if_pos (by simp)]
              rfl
            rw [h7]
            rfl
        · have e2 : ¬ z2 = true := fun h => hB (hz2'.1 h)
          have hpick2 : pickScale L (sdMean sqrt axis n p X dof) (sdAbout sqrt axis n p X dof)
              (some sh) (some sc) = fun k => sc.getD k 0 := by
            funext k; simp only [pickScale]; rw [if_neg hB]
          rw [hpick1, hpick2, if_neg (by rw [e1']; simp), if_neg e1, if_neg e2]
          refine ⟨fun _ => ?_, fun h => ?_⟩
          swap
          · obtain ⟨_, _, _, h1, _, h2⟩ := h; cases h1; exact absurd h2 hB
          refine ⟨_, rfl, ⟨fun h => (by cases h), fun l h => ?_⟩, ⟨fun h => (by cases h), fun l h => ?_⟩,
            ?_, ?_⟩
          · cases h; exact ⟨sh, rfl, gives_self hshL⟩
          · cases h; exact ⟨sc, rfl, gives_self hscL⟩
          · intro k hk; exact get_of hshL hk
          · intro k hk; exact get_of hscL hk

/-- One column. -/
theorem applyCol_ok (base n : Nat) (f : Nat → List K → M (List K)) (v w : Nat → K) (x : List K)
    (hx : ∀ j < n, x[base + j]? = some (v j))
    (hf : ∀ j < n, ∀ y : List K, y[base + j]? = some (v j) →
      f j y = .ok (y.set (base + j) (w j))) :
    ∃ x', forUp n f x = .ok x' ∧
      ∀ q, x'[q]? = if base ≤ q ∧ q < base + n then some (w (q - base)) else x[q]? := by
  induction n with
  | zero =>
    refine ⟨x, rfl, ?_⟩
    intro q
    rw [if_neg (by omega)]
  | succ n ih =>
    obtain ⟨x1, h1, h2⟩ := ih (fun j hj => hx j (by omega)) (fun j hj => hf j (by omega))
    have h3 : x1[base + n]? = some (v n) := by
      rw [h2 (base + n), if_neg (by omega), hx n (by omega)]
    have h4 : base + n < x1.length := by
      by_contra h
      rw [List.getElem?_eq_none (by omega)] at h3
      cases h3
    refine ⟨x1.set (base + n) (w n), ?_, ?_⟩
    · rw [forUp_succ, h1, ok_bind, hf n (by omega) _ h3]
    · intro q
      rw [List.getElem?_set, h2 q]
      by_cases hq : base + n = q
      · subst hq
        rw [if_pos rfl, if_pos h4, if_pos (by omega), Nat.add_sub_cancel_left]
      · rw [if_neg hq]
        by_cases hq2 : base ≤ q ∧ q < base + n
        · rw [if_pos hq2, if_pos (by omega)]
        · rw [if_neg hq2, if_neg (by omega)]

theorem applyAll_ok (axis : Axis) {n p ldx : Nat} (mode : Int) (sh sc x : List K)
    (X : Nat → Nat → K) (h s : Nat → K) (hld : n ≤ ldx) (hx : Holds .col n p ldx x X)
    (hh : ∀ k < outLen axis n p, sh[k]? = some (h k))
    (hs : ∀ k < outLen axis n p, sc[k]? = some (s k)) :
    ∃ x', applyAll axis n p ldx mode sh sc x = .ok x' ∧ x'.length = x.length ∧
      Holds .col n p ldx x' (fun i j => change mode (X i j) (h (line axis i j))
        (s (line axis i j))) ∧
      ∀ q, (∀ i < n, ∀ j < p, q ≠ at' .col ldx i j) → x'[q]? = x[q]? := by
  have main : ∀ p' ≤ p, ∃ x', applyAll axis n p' ldx mode sh sc x = .ok x' ∧
      x'.length = x.length ∧
      (∀ i < n, ∀ j < p, x'[at' .col ldx i j]? = some (if j < p' then
        change mode (X i j) (h (line axis i j)) (s (line axis i j)) else X i j)) ∧
      ∀ q, (∀ i < n, ∀ j < p, q ≠ at' .col ldx i j) → x'[q]? = x[q]? := by
    intro p'
    induction p' with
    | zero =>
      intro _
      refine ⟨x, rfl, rfl, ?_, fun _ _ => rfl⟩
      intro i hi j hj
      rw [if_neg (by omega)]
      exact hx i hi j hj
    | succ p' ih =>
      intro hp'
      obtain ⟨x1, h1, hlen, h2, h3⟩ := ih (by omega)
      obtain ⟨x2, h4, h5⟩ := applyCol_ok (p' * ldx) n
        (fun j x => do
          let k := match axis with
            | .col => p'
            | .row => j
            | .all => 0
          let s ← rd sc k
          let s := if s ≠ 0 then s else 1
          let h ← rd sh k
          let a ← rd x (p' * ldx + j)
          let b ← if mode = 0 then divM (a - h) s else .ok (a * s + h)
          wr x (p' * ldx + j) b)
        (fun j => X j p')
        (fun j => change mode (X j p') (h (line axis j p')) (s (line axis j p'))) x1
        (by
          intro j hj
          have := h2 j hj p' (by omega)
          rw [if_neg (by omega)] at this
          exact this)
        (by
          intro j hj y hy
          have hlt : line axis j p' < outLen axis n p := by
            cases axis
            · exact Nat.one_pos
            · exact hp'
            · exact hj
          have hylen : p' * ldx + j < y.length := by
            by_contra h
            rw [List.getElem?_eq_none (by omega)] at hy
            cases hy
          have hs' := hs _ hlt
          have hh' := hh _ hlt
          have hdiv : ∀ a b : K, b ≠ 0 → divM a b = .ok (a / b) := fun a b h => if_neg h
          cases axis <;>
          · simp only [line] at hs' hh' ⊢
            rw [rd_ok hs', ok_bind, rd_ok hh', ok_bind, rd_ok hy, ok_bind]
            unfold change
            by_cases hm : mode = 0
            · rw [if_pos hm, if_pos hm]
              rw [hdiv, ok_bind, wr_ok _ hylen]
              split
              · assumption
              · exact one_ne_zero
            · rw [if_neg hm, if_neg hm, ok_bind, wr_ok _ hylen])
      have hstep : applyAll axis n (p' + 1) ldx mode sh sc x = .ok x2 := by
        unfold applyAll at h1 ⊢
        rw [forUp_succ, h1, ok_bind, ← h4]
        cases axis <;> rfl
      refine ⟨x2, hstep, ?_, ?_, ?_⟩
      · rw [← hlen]
        have hl : ∀ q : Nat, x2[q]? = none ↔ x1[q]? = none := by
          intro q
          rw [h5 q]
          by_cases hq : p' * ldx ≤ q ∧ q < p' * ldx + n
          · rw [if_pos hq]
            have := h2 (q - p' * ldx) (by omega) p' (by omega)
            simp only [at'] at this
            rw [show p' * ldx + (q - p' * ldx) = q by omega] at this
            rw [this]; simp
          · rw [if_neg hq]
        have a1 := hl x1.length
        have a2 := hl x2.length
        simp only [List.getElem?_eq_none_iff, le_refl, iff_true, true_iff] at a1 a2
        omega
      · intro i hi j hj
        have hq := h5 (j * ldx + i)
        show x2[j * ldx + i]? = _
        by_cases hjp : j = p'
        · subst hjp
          rw [if_pos (by omega)] at hq
          rw [hq, if_pos (by omega), show j * ldx + i - j * ldx = i by omega]
        · rw [if_neg] at hq
          · have := h2 i hi j hj
            simp only [at'] at this
            rw [hq, this]
            by_cases hlt : j < p'
            · rw [if_pos hlt, if_pos (by omega)]
            · rw [if_neg hlt, if_neg (by omega)]
          · rintro ⟨b1, b2⟩
            rcases Nat.lt_or_gt_of_ne hjp with hlt | hgt
            · have : (j + 1) * ldx ≤ p' * ldx := Nat.mul_le_mul_right _ hlt
              rw [Nat.succ_mul] at this
              omega
            · have : (p' + 1) * ldx ≤ j * ldx := Nat.mul_le_mul_right _ hgt
              rw [Nat.succ_mul] at this
              omega
      · intro q hq
        rw [h5 q, if_neg, h3 q hq]
        rintro ⟨b1, b2⟩
        exact hq (q - p' * ldx) (by omega) p' (by omega) (by simp only [at']; omega)
  obtain ⟨x', h1, h2, h3, h4⟩ := main p (le_refl _)
  refine ⟨x', h1, h2, ?_, h4⟩
  intro i hi j hj
  rw [h3 i hi j hj, if_pos hj]

/-- The axis of the transposed matrix. -/
def Axis.swap : Axis → Axis
  | .all => .all
  | .col => .row
  | .row => .col

theorem outLen_swap (axis : Axis) (m n : Nat) : outLen axis.swap n m = outLen axis m n := by
  cases axis <;> rfl

theorem obs_swap (axis : Axis) (m n : Nat) : obs axis.swap n m = obs axis m n := by
  cases axis
  · exact Nat.mul_comm n m
  · rfl
  · rfl

theorem line_swap (axis : Axis) (i j : Nat) : line axis.swap j i = line axis i j := by
  cases axis <;> rfl

theorem total_swap {A W : Type} [AddCommMonoid W] (axis : Axis) (m n : Nat) (X : Nat → Nat → A)
    (g : A → W) (k : Nat) :
    total axis.swap n m (fun i j => X j i) g k = total axis m n X g k := by
  cases axis
  · exact sum_comm
  · rfl
  · rfl

theorem avg_swap (axis : Axis) (m n : Nat) (X : Nat → Nat → K) :
    avg axis.swap n m (fun i j => X j i) = avg axis m n X := by
  funext k
  unfold avg
  rw [total_swap, obs_swap]

theorem sdMean_swap (sqrt : K → K) (axis : Axis) (m n : Nat) (X : Nat → Nat → K) (dof : Int) :
    sdMean sqrt axis.swap n m (fun i j => X j i) dof = sdMean sqrt axis m n X dof := by
  funext k
  unfold sdMean
  rw [total_swap, obs_swap, avg_swap]

theorem sdAbout_swap (sqrt : K → K) (axis : Axis) (m n : Nat) (X : Nat → Nat → K) (dof : Int) :
    sdAbout sqrt axis.swap n m (fun i j => X j i) dof = sdAbout sqrt axis m n X dof := by
  funext c k
  unfold sdAbout
  rw [total_swap, obs_swap, outLen_swap]

/-- The shifts and scales that the code uses. -/
noncomputable def shifts (axis : Axis) (n p : Nat) (X : Nat → Nat → K)
    (shift scale : Option (List K)) : Nat → K :=
  pickShift (outLen axis n p) (avg axis n p X) shift scale

noncomputable def scales (sqrt : K → K) (axis : Axis) (n p : Nat) (X : Nat → Nat → K) (dof : Int)
    (shift scale : Option (List K)) : Nat → K :=
  pickScale (outLen axis n p) (sdMean sqrt axis n p X dof) (sdAbout sqrt axis n p X dof) shift
    scale

theorem standardize_ok (sqrt : K → K) (thr : Nat) (env : Nat → Env) (junk : List K)
    (order : Order) (axis : Axis) {n p ldx : Nat} (x : List K) (X : Nat → Nat → K) (dof mode : Int)
    (shift scale : Option (List K)) (hn : 0 < n) (hp : 0 < p) (ht : 0 < thr)
    (hld : LdOk order n p ldx) (hx : Holds order n p ldx x X)
    (he : ∀ k, (env k).OkFor thr order n p) (hmode : mode = 0 ∨ mode = 1)
    (hsh : ∀ l, shift = some l → outLen axis n p ≤ l.length)
    (hsc : ∀ l, scale = some l → outLen axis n p ≤ l.length) :
    (¬ (Given (outLen axis n p) shift scale ∧ scaleFactor dof (outLen axis n p) = 0) →
      ∃ x' sh' sc', standardize sqrt thr env junk order axis n p (some x) ldx dof mode shift scale
          = .ok (.success, some x', sh', sc') ∧ x'.length = x.length ∧
        Holds order n p ldx x' (fun i j => change mode (X i j)
          (shifts axis n p X shift scale (line axis i j))
          (scales sqrt axis n p X dof shift scale (line axis i j))) ∧
        (∀ q, (∀ i < n, ∀ j < p, q ≠ at' order ldx i j) → x'[q]? = x[q]?) ∧
        Leaves (outLen axis n p) shift sh' (shifts axis n p X shift scale) ∧
        Leaves (outLen axis n p) scale sc' (scales sqrt axis n p X dof shift scale)) ∧
    (Given (outLen axis n p) shift scale → scaleFactor dof (outLen axis n p) = 0 →
      standardize sqrt thr env junk order axis n p (some x) ldx dof mode shift scale =
        .error .divZero) := by
  have hjl : ∀ L : Nat, (junk.take L ++ List.replicate (L - junk.length) 0).length = L := by
    intro L; simp; omega
  cases order with
  | col =>
    have hld' : n ≤ ldx := hld
    obtain ⟨h1, h2⟩ := prepare_ok sqrt thr env axis x X dof _ shift scale hn hp ht hld' hx he
      (hjl (outLen axis n p)) hsh hsc
    have hr : rowToCol .col axis (n : Int) (p : Int) (ldx : Int) =
        .ok (axis, (n : Int), (p : Int)) := by
      unfold rowToCol
      rw [if_neg (by omega), if_pos rfl, if_neg (by omega)]
    have hlen : stdLength axis n p = outLen axis n p := by cases axis <;> rfl
    constructor
    · intro hb
      obtain ⟨q, h3, h4, h5, h6, h7⟩ := h1 hb
      obtain ⟨x', h8, h9, h10, h11⟩ := applyAll_ok axis mode q.useShift q.useScale x X _ _ hld' hx
        h6 h7
      refine ⟨x', q.shift, q.scale, ?_, h9, h10, h11, h4, h5⟩
      unfold standardize
      rw [hr]
      simp only
      rw [if_neg (by omega)]
      simp only [Int.toNat_natCast, hlen]
      rw [h3, ok_bind]
      rw [h8, ok_bind]
    · intro hG h0
      unfold standardize
      rw [hr]
      simp only
      rw [if_neg (by omega)]
      simp only [Int.toNat_natCast, hlen]
      rw [h2 hG h0]
      rfl
  | row =>
    have hld' : p ≤ ldx := hld
    have hx' : Holds .col p n ldx x (fun i j => X j i) := fun i hi j hj => hx j hj i hi
    obtain ⟨h1, h2⟩ := prepare_ok sqrt thr env axis.swap x (fun i j => X j i) dof
      (junk.take (outLen axis n p) ++ List.replicate (outLen axis n p - junk.length) 0) shift scale
      hp hn ht hld' hx' he
      (by rw [outLen_swap]; exact hjl (outLen axis n p)) (by rw [outLen_swap]; exact hsh)
      (by rw [outLen_swap]; exact hsc)
    rw [outLen_swap] at h1 h2
    rw [avg_swap, sdMean_swap, sdAbout_swap] at h1
    have hr : rowToCol .row axis (n : Int) (p : Int) (ldx : Int) =
        .ok (axis.swap, (p : Int), (n : Int)) := by
      unfold rowToCol
      rw [if_neg (by omega), if_neg (by simp), if_neg (by omega)]
      cases axis <;> rfl
    have hlen : stdLength axis.swap p n = outLen axis n p := by cases axis <;> rfl
    constructor
    · intro hb
      obtain ⟨q, h3, h4, h5, h6, h7⟩ := h1 hb
      obtain ⟨x', h8, h9, h10, h11⟩ := applyAll_ok axis.swap mode q.useShift q.useScale x
        (fun i j => X j i) _ _ hld' hx' (by rw [outLen_swap]; exact h6)
        (by rw [outLen_swap]; exact h7)
      refine ⟨x', q.shift, q.scale, ?_, h9, ?_, ?_, h4, h5⟩
      · unfold standardize
        rw [hr]
        simp only
        rw [if_neg (by omega)]
        simp only [Int.toNat_natCast, hlen]
        rw [h3, ok_bind]
        rw [h8, ok_bind]
      · intro i hi j hj
        have := h10 j hj i hi
        simp only [line_swap] at this
        exact this
      · intro q hq
        exact h11 q (fun i hi j hj => hq j hj i hi)
    · intro hG h0
      unfold standardize
      rw [hr]
      simp only
      rw [if_neg (by omega)]
      simp only [Int.toNat_natCast, hlen]
      rw [h2 hG h0]
      rfl

end Verif.Moments
