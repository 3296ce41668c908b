/- Helper lemmas for the serial method. -/
import Verif.Dbscan.Model
import Verif.Dbscan.Spec
namespace Verif.Dbscan

/-- Reading a label; `-1` outside the array. -/
def lab (l : List Int) (i : Nat) : Int := l.getD i (-1)

theorem lab_set (l : List Int) (i j : Nat) (v : Int) (hi : i < l.length) :
    lab (l.set i v) j = if j = i then v else lab l j := by
  unfold lab
  rw [List.getD_eq_getElem?_getD, List.getD_eq_getElem?_getD, List.getElem?_set]
  split <;> grind

theorem lab_get (l : List Int) (i : Nat) (h : i < l.length) : l[i] = lab l i := by
  simp [lab, h]

section
variable (n : Nat) (C : Nat → Prop) (adj : Nat → Nat → Prop)

/-- Chain of `C` samples. -/
abbrev Lk : Nat → Nat → Prop := Relation.ReflTransGen fun a b => C a ∧ C b ∧ adj a b

/-- Facts about the labels that hold between outer iterations and, with `Q ≠ ∅`, inside the
inner loop of cluster `k` started at `r`. -/
structure Inv (k : Nat) (r : Nat) (Q : List Nat) (L : Nat → Int) : Prop where
  range : ∀ j, j < n → L j = -2 ∨ L j = -1 ∨ (0 ≤ L j ∧ L j ≤ k)
  noiseNot : ∀ j, j < n → L j = -1 → ¬ C j
  closed : ∀ u v, C u → 0 ≤ L u → adj u v →
    (0 ≤ L v ∧ L v ≤ L u ∧ (C v → L v = L u)) ∨ (L u = k ∧ v ∈ Q)
  linked : ∀ u v, C u → C v → 0 ≤ L u → L u = L v → Lk C adj u v
  border : ∀ v, v < n → ¬ C v → 0 ≤ L v → ∃ u, C u ∧ adj u v ∧ L u = L v
  queue : ∀ v ∈ Q, ∃ u, C u ∧ L u = k ∧ adj u v
  root : C r ∧ L r = k

variable {n C adj}

theorem Inv.skip {k r v Q L} (sym : ∀ a b, adj a b → adj b a) (h : Inv n C adj k r (v :: Q) L) (h0 : 0 ≤ L v)
    (hk : L v ≤ k) : Inv n C adj k r Q L := by
  have hv : C v → L v = k := by
    intro cv
    obtain ⟨u, cu, lu, au⟩ := h.queue v (by simp)
    rcases h.closed v u cv h0 (sym _ _ au) with h1 | h1 <;> omega
  refine ⟨h.range, h.noiseNot, ?_, h.linked, h.border, fun w hw => h.queue w (by simp [hw]), h.root⟩
  intro u w cu lu au
  rcases h.closed u w cu lu au with h1 | ⟨h1, h2⟩
  · exact .inl h1
  · rcases List.mem_cons.mp h2 with rfl | h2
    · left; exact ⟨h0, by omega, fun c => by rw [hv c, h1]⟩
    · exact .inr ⟨h1, h2⟩

/-- Labelling the popped sample with the current cluster. -/
theorem Inv.label {k r v Q L L'} (sym : ∀ a b, adj a b → adj b a) (h : Inv n C adj k r (v :: Q) L)
    (hneg : L v < 0) (more : List Nat) (hmore : C v → ∀ w, adj v w → w ∈ more)
    (hmore' : ∀ w ∈ more, C v ∧ adj v w)
    (hL : ∀ j, L' j = if j = v then (k : Int) else L j) : Inv n C adj k r (Q ++ more) L' := by
  obtain ⟨u0, cu0, lu0, au0⟩ := h.queue v (by simp)
  have hLv : L' v = k := by simp [hL]
  have hne : ∀ u, L u = k → L' u = k := by intro u hu; rw [hL]; split <;> simp [hu]
  have hkeep : ∀ u, 0 ≤ L u → L' u = L u := by
    intro u hu; rw [hL, if_neg]; rintro rfl; omega
  have hold : ∀ u, 0 ≤ L' u → u ≠ v → L' u = L u := by
    intro u hu hv; rw [hL, if_neg hv]
  refine ⟨?_, ?_, ?_, ?_, ?_, ?_, ?_⟩
  · intro j hj; rw [hL]; split
    · right; right; omega
    · exact h.range j hj
  · intro j hj; rw [hL]; split
    · intro; omega
    · exact h.noiseNot j hj
  · intro u w cu lu au
    by_cases hu : u = v
    · subst hu; right; exact ⟨hLv, by simp [hmore cu w au]⟩
    · have e := hold u lu hu
      rw [e] at lu ⊢
      rcases h.closed u w cu lu au with ⟨h1, h2, h3⟩ | ⟨h1, h2⟩
      · left; rw [hkeep w h1]; exact ⟨h1, h2, h3⟩
      · rcases List.mem_cons.mp h2 with rfl | h2
        · left; rw [hLv]; exact ⟨by omega, by omega, fun _ => h1.symm⟩
        · right; exact ⟨h1, by simp [h2]⟩
  · have toV : ∀ u, C u → L u = k → C v → Lk C adj u v := by
      intro u cu lu cv
      exact (h.linked u u0 cu cu0 (by omega) (by omega)).tail ⟨cu0, cv, au0⟩
    have fromV : ∀ u, C u → L u = k → C v → Lk C adj v u := by
      intro u cu lu cv
      exact Relation.ReflTransGen.head ⟨cv, cu0, sym _ _ au0⟩ (h.linked u0 u cu0 cu (by omega) (by omega))
    intro u w cu cw lu e
    by_cases hu : u = v
    · subst hu
      by_cases hw : w = u
      · subst hw; exact .refl
      · rw [hLv, hold w (by omega) hw] at e
        exact fromV w cw e.symm cu
    · by_cases hw : w = v
      · subst hw
        rw [hLv, hold u lu hu] at e
        exact toV u cu e cw
      · have e1 := hold u lu hu
        have e2 := hold w (by omega) hw
        exact h.linked u w cu cw (by omega) (by omega)
  · intro w hw cw lw
    by_cases hv : w = v
    · subst hv; exact ⟨u0, cu0, au0, by rw [hne u0 lu0, hLv]⟩
    · have e1 := hold w lw hv
      rw [e1] at lw ⊢
      obtain ⟨u, cu, au, eu⟩ := h.border w hw cw lw
      exact ⟨u, cu, au, by rw [hkeep u (by omega)]; exact eu⟩
  · intro w hw
    rcases List.mem_append.mp hw with hw | hw
    · obtain ⟨u, cu, lu, au⟩ := h.queue w (by simp [hw])
      exact ⟨u, cu, hne u lu, au⟩
    · exact ⟨v, (hmore' w hw).1, hLv, (hmore' w hw).2⟩
  · exact ⟨h.root.1, hne r h.root.2⟩

/-- What holds between outer iterations. -/
structure Outer (n : Nat) (C : Nat → Prop) (adj : Nat → Nat → Prop) (k : Nat) (i : Nat) (L : Nat → Int) : Prop where
  range : ∀ j, j < n → L j = -2 ∨ L j = -1 ∨ (0 ≤ L j ∧ L j < k)
  noiseNot : ∀ j, j < n → L j = -1 → ¬ C j
  closed : ∀ u v, C u → 0 ≤ L u → adj u v → 0 ≤ L v ∧ L v ≤ L u ∧ (C v → L v = L u)
  linked : ∀ u v, C u → C v → 0 ≤ L u → L u = L v → Lk C adj u v
  border : ∀ v, v < n → ¬ C v → 0 ≤ L v → ∃ u, C u ∧ adj u v ∧ L u = L v
  leader : ∀ c : Nat, c < k → ∃ u, C u ∧ L u = c ∧ ∀ j, C j → j < u → 0 ≤ L j ∧ L j < c
  seen : ∀ j, j < i → L j ≠ -2
end

/-- What the inner loop does. -/
theorem expand_spec {n : Nat} {nb : List (List Nat)} {core : List Bool} {C : Nat → Prop} {adj : Nat → Nat → Prop}
    (hnb : nb.length = n) (hcore : core.length = n) (hC : ∀ i, C i ↔ core[i]? = some true)
    (hadj : ∀ i l, nb[i]? = some l → ∀ j, adj i j ↔ j ∈ l)
    (adjn : ∀ a b, adj a b → b < n) (sym : ∀ a b, adj a b → adj b a) (k r : Nat) (labels : List Int) (Q : List Nat)
    (hl : labels.length = n) (h : Inv n C adj k r Q (lab labels)) :
    ∃ out, expand nb core k labels Q = some out ∧ out.length = n ∧ Inv n C adj k r [] (lab out) ∧
      (∀ j, 0 ≤ lab labels j → lab out j = lab labels j) ∧ (∀ j, lab labels j ≠ -2 → lab out j ≠ -2) := by
  fun_induction expand nb core k labels Q with
  | case1 labels => exact ⟨labels, rfl, hl, h, fun _ _ => rfl, fun _ h => h⟩
  | case2 labels v Q hv hn ih =>
    rw [lab_get] at hn
    obtain ⟨out, h1, h2, h3, h4, h5⟩ := ih (by simpa using hl) (by
      have := Inv.label sym h (by simp [hn, noise]) [] (fun c => absurd c (h.noiseNot v (by omega) hn)) (by simp)
        (fun j => lab_set labels v j k hv)
      simpa using this)
    refine ⟨out, h1, h2, h3, ?_, ?_⟩
    · intro j hj
      have hjv : j ≠ v := by rintro rfl; simp [hn, noise] at hj
      have := h4 j; rw [lab_set _ _ _ _ hv, if_neg hjv] at this; exact this hj
    · intro j hj
      apply h5; rw [lab_set _ _ _ _ hv]; split
      · omega
      · exact hj
  | case3 labels v Q hv hn hu more hm2 hm1 ih =>
    rw [lab_get] at hu
    have hc : C v := (hC v).mpr hm1
    obtain ⟨out, h1, h2, h3, h4, h5⟩ := ih (by simpa using hl)
      (Inv.label sym h (by simp [hu, unvisited]) more (fun _ w hw => (hadj v more hm2 w).mp hw)
        (fun w hw => ⟨hc, (hadj v more hm2 w).mpr hw⟩) (fun j => lab_set labels v j k hv))
    refine ⟨out, h1, h2, h3, ?_, ?_⟩
    · intro j hj
      have hjv : j ≠ v := by rintro rfl; simp [hu, unvisited] at hj
      have := h4 j; rw [lab_set _ _ _ _ hv, if_neg hjv] at this; exact this hj
    · intro j hj
      apply h5; rw [lab_set _ _ _ _ hv]; split
      · omega
      · exact hj
  | case4 labels v Q hv hn hu hm ih =>
    rw [lab_get] at hu
    have hc : ¬ C v := by rw [hC, hm]; simp
    obtain ⟨out, h1, h2, h3, h4, h5⟩ := ih (by simpa using hl) (by
      have := Inv.label sym h (by simp [hu, unvisited]) [] (fun c => absurd c hc) (by simp)
        (fun j => lab_set labels v j k hv)
      simpa using this)
    refine ⟨out, h1, h2, h3, ?_, ?_⟩
    · intro j hj
      have hjv : j ≠ v := by rintro rfl; simp [hu, unvisited] at hj
      have := h4 j; rw [lab_set _ _ _ _ hv, if_neg hjv] at this; exact this hj
    · intro j hj
      apply h5; rw [lab_set _ _ _ _ hv]; split
      · omega
      · exact hj
  | case5 labels v Q hv hn hu h1 h2 =>
    exfalso
    have hvn : v < n := by omega
    obtain ⟨c, hc⟩ : ∃ c, core[v]? = some c := ⟨core[v], by simp [hcore, hvn]⟩
    obtain ⟨l, hl'⟩ : ∃ l, nb[v]? = some l := ⟨nb[v], by simp [hnb, hvn]⟩
    cases c with
    | true => exact h2 l hc hl'
    | false => exact h1 hc
  | case6 labels v Q hv hn hu ih =>
    rw [lab_get] at hn hu
    have hr := h.range v (by omega)
    simp only [noise, unvisited] at hn hu
    exact ih hl (Inv.skip sym h (by omega) (by omega))
  | case7 labels v Q hv =>
    exfalso
    obtain ⟨u, _, _, a⟩ := h.queue v (by simp)
    exact hv (by rw [hl]; exact adjn _ _ a)

/-- One outer iteration. -/
theorem serialStep_spec {n : Nat} {nb : List (List Nat)} {core : List Bool} {C : Nat → Prop} {adj : Nat → Nat → Prop}
    (hnb : nb.length = n) (hcore : core.length = n) (hC : ∀ i, C i ↔ core[i]? = some true)
    (hadj : ∀ i l, nb[i]? = some l → ∀ j, adj i j ↔ j ∈ l)
    (adjn : ∀ a b, adj a b → b < n) (sym : ∀ a b, adj a b → adj b a) (k i : Nat) (labels : List Int)
    (hi : i < n) (hl : labels.length = n) (h : Outer n C adj k i (lab labels)) :
    ∃ out k', serialStep nb core (labels, k) i = some (out, k') ∧ out.length = n ∧
      Outer n C adj k' (i + 1) (lab out) := by
  have hcn : ∀ j, C j → j < n := by
    intro j hj
    rw [hC] at hj
    obtain ⟨h1, _⟩ := List.getElem?_eq_some_iff.mp hj
    omega
  unfold serialStep
  simp only [List.getElem?_eq_getElem (show i < labels.length by omega),
    List.getElem?_eq_getElem (show i < core.length by omega),
    List.getElem?_eq_getElem (show i < nb.length by omega), lab_get]
  split
  · rename_i hv
    refine ⟨labels, k, rfl, hl, { h with seen := ?_ }⟩
    intro j hj
    rcases Nat.lt_succ_iff_lt_or_eq.mp hj with hj | rfl
    · exact h.seen j hj
    · exact hv
  · rename_i hv
    simp only [unvisited, ne_eq, not_not] at hv
    have hset : ∀ v j, lab (labels.set i v) j = if j = i then v else lab labels j :=
      fun v j => lab_set labels i j v (by omega)
    split
    · rename_i hc
      have hnC : ¬ C i := by rw [hC, List.getElem?_eq_getElem (by omega), hc]; simp
      refine ⟨_, k, rfl, by simpa using hl, ?_⟩
      have hneg : ∀ j, 0 ≤ lab (labels.set i noise) j → lab (labels.set i noise) j = lab labels j ∧ j ≠ i := by
        intro j hj; rw [hset] at hj ⊢
        split at hj
        · simp [noise] at hj
        · rename_i hji; simp [hji]
      have hkeep : ∀ j, 0 ≤ lab labels j → lab (labels.set i noise) j = lab labels j := by
        intro j hj; rw [hset, if_neg]; rintro rfl; omega
      refine ⟨?_, ?_, ?_, ?_, ?_, ?_, ?_⟩
      · intro j hj; rw [hset]; split
        · simp [noise]
        · exact h.range j hj
      · intro j hj; rw [hset]; split
        · rename_i e; subst e; exact fun _ => hnC
        · exact h.noiseNot j hj
      · intro u v cu lu au
        have e1 := (hneg u lu).1
        rw [e1] at lu ⊢
        obtain ⟨h1, h2, h3⟩ := h.closed u v cu lu au
        rw [hkeep v h1]; exact ⟨h1, h2, h3⟩
      · intro u v cu cv lu e
        have e1 := (hneg u lu).1
        have e2 := (hneg v (by omega)).1
        exact h.linked u v cu cv (by omega) (by omega)
      · intro v hv cv lv
        have e1 := (hneg v lv).1
        obtain ⟨u, cu, au, eu⟩ := h.border v hv cv (by omega)
        exact ⟨u, cu, au, by rw [hkeep u (by omega), e1]; exact eu⟩
      · intro c hc
        obtain ⟨u, cu, eu, hu⟩ := h.leader c hc
        refine ⟨u, cu, by rw [hkeep u (by omega)]; exact eu, ?_⟩
        intro j cj hj
        obtain ⟨h1, h2⟩ := hu j cj hj
        rw [hkeep j h1]; exact ⟨h1, h2⟩
      · intro j hj; rw [hset]; split
        · simp [noise]
        · exact h.seen j (by omega)
    · rename_i hc
      have hCi : C i := by rw [hC, List.getElem?_eq_getElem (by omega)]; simpa using hc
      have hnbi : nb[i]? = some (nb[i]'(by omega)) := List.getElem?_eq_getElem (by omega)
      have hold : ∀ j, 0 ≤ lab labels j → lab (labels.set i k) j = lab labels j := by
        intro j hj; rw [hset, if_neg]; rintro rfl; omega
      have hless : ∀ j, 0 ≤ lab labels j → j < n → lab labels j < k := by
        intro j h0 hj; have := h.range j hj; omega
      have hinv : Inv n C adj k i (nb[i]'(by omega)) (lab (labels.set i k)) := by
        refine ⟨?_, ?_, ?_, ?_, ?_, ?_, ?_⟩
        · intro j hj; rw [hset]; split
          · right; right; omega
          · have := h.range j hj; omega
        · intro j hj; rw [hset]; split
          · intro; omega
          · exact h.noiseNot j hj
        · intro u v cu lu au
          by_cases hu : u = i
          · subst hu; right; exact ⟨by simp [hset], (hadj _ _ hnbi v).mp au⟩
          · left
            have e1 : lab (labels.set i k) u = lab labels u := by rw [hset, if_neg hu]
            rw [e1] at lu ⊢
            obtain ⟨h1, h2, h3⟩ := h.closed u v cu lu au
            rw [hold v h1]; exact ⟨h1, h2, h3⟩
        · intro u v cu cv lu e
          rw [hset] at lu
          rw [hset, hset] at e
          by_cases hu : u = i
          · by_cases hv' : v = i
            · subst hu hv'; exact .refl
            · rw [if_pos hu, if_neg hv'] at e
              have := hless v (by omega) (hcn v cv); omega
          · rw [if_neg hu] at lu e
            by_cases hv' : v = i
            · rw [if_pos hv'] at e
              have := hless u (by omega) (hcn u cu); omega
            · rw [if_neg hv'] at e
              exact h.linked u v cu cv lu e
        · intro v hv' cv lv
          have hvi : v ≠ i := by rintro rfl; exact cv hCi
          rw [hset, if_neg hvi] at lv ⊢
          obtain ⟨u, cu, au, eu⟩ := h.border v hv' cv lv
          exact ⟨u, cu, au, by rw [hold u (by omega)]; exact eu⟩
        · intro v hv'
          exact ⟨i, hCi, by simp [hset], (hadj _ _ hnbi v).mpr hv'⟩
        · exact ⟨hCi, by simp [hset]⟩
      obtain ⟨out, h1, h2, h3, h4, h5⟩ := expand_spec hnb hcore hC hadj adjn sym k i _ _ (by simpa using hl) hinv
      refine ⟨out, k + 1, by rw [h1]; rfl, h2, ?_⟩
      have hkeep : ∀ j, 0 ≤ lab labels j → lab out j = lab labels j := by
        intro j hj; have e := hold j hj; rw [h4 j (by omega), e]
      refine ⟨?_, h3.noiseNot, ?_, h3.linked, h3.border, ?_, ?_⟩
      · intro j hj; have := h3.range j hj; omega
      · intro u v cu lu au
        rcases h3.closed u v cu lu au with h | ⟨_, h⟩
        · exact h
        · simp at h
      · intro c hc
        by_cases hck : c = k
        · subst hck
          refine ⟨i, hCi, h3.root.2, ?_⟩
          intro j cj hj
          have a1 := h.seen j hj
          have a2 := h.noiseNot j (hcn j cj)
          have a3 := h.range j (hcn j cj)
          have a4 : 0 ≤ lab labels j ∧ lab labels j < c := by
            rcases a3 with a | a | a
            · exact absurd a a1
            · exact absurd cj (a2 a)
            · exact a
          rw [hkeep j a4.1]; exact a4
        · obtain ⟨u, cu, eu, hu⟩ := h.leader c (by omega)
          refine ⟨u, cu, by rw [hkeep u (by omega)]; exact eu, ?_⟩
          intro j cj hj
          obtain ⟨h1, h2⟩ := hu j cj hj
          rw [hkeep j h1]; exact ⟨h1, h2⟩
      · intro j hj
        apply h5
        rw [hset]; split
        · omega
        · exact h.seen j (by omega)

/-- The serial method never fails and ends in a state with all samples seen. -/
theorem serial_spec {n : Nat} {nb : List (List Nat)} {core : List Bool} {C : Nat → Prop} {adj : Nat → Nat → Prop}
    (hnb : nb.length = n) (hcore : core.length = n) (hC : ∀ i, C i ↔ core[i]? = some true)
    (hadj : ∀ i l, nb[i]? = some l → ∀ j, adj i j ↔ j ∈ l)
    (adjn : ∀ a b, adj a b → b < n) (sym : ∀ a b, adj a b → adj b a) :
    ∃ out k, serial n nb core = some (out, k) ∧ out.length = n ∧ Outer n C adj k n (lab out) := by
  have key : ∀ m, m ≤ n → ∃ out k, (List.range m).foldlM (serialStep nb core) (List.replicate n unvisited, 0) =
      some (out, k) ∧ out.length = n ∧ Outer n C adj k m (lab out) := by
    intro m
    induction m with
    | zero =>
      intro _
      refine ⟨_, 0, rfl, by simp, ?_⟩
      have hu : ∀ j, j < n → lab (List.replicate n unvisited) j = -2 := by
        intro j hj; simp [lab, hj, unvisited]
      have hneg : ∀ j, ¬ 0 ≤ lab (List.replicate n unvisited) j := by
        intro j
        by_cases hj : j < n
        · rw [hu j hj]; omega
        · simp [lab, hj]
      exact ⟨fun j hj => .inl (hu j hj), fun j hj h => by rw [hu j hj] at h; omega,
        fun u v _ h => absurd h (hneg u), fun u v _ _ h => absurd h (hneg u), fun v _ _ h => absurd h (hneg v),
        by simp, by simp⟩
    | succ m ih =>
      intro hm
      obtain ⟨out, k, h1, h2, h3⟩ := ih (by omega)
      obtain ⟨out', k', h4, h5, h6⟩ := serialStep_spec hnb hcore hC hadj adjn sym k m out (by omega) h2 h3
      refine ⟨out', k', ?_, h5, h6⟩
      rw [List.range_succ, List.foldlM_append, h1]
      simp [h4]
  exact key n (Nat.le_refl n)
end Verif.Dbscan
