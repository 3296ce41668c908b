/-
`concatenate_columns` keeps the invariant.
-/
import Verif.DataStore.Step

namespace Verif.DataStore
variable {V : Type}

theorem IvOk.frame {h h' : List (Node V)} {g g' : Mat V} {x : Iv} (hx : IvOk h g x) (hle : x.lo ≤ x.hi)
    (hn : ∀ id ∈ x.path, nx h' id = nx h id) (hf : ∀ id ∈ x.path, blk h' id = blk h id ∧ off h' id = off h id)
    (hg : ∀ j, x.lo ≤ j → j ≤ x.hi → g'.ty j = g.ty j ∧ g'.rows j = g.rows j ∧ ∀ i, g'.cell i j = g.cell i j) :
    IvOk h' g' x := by
  refine ⟨hx.ne, path_frame hx.path hn, ?_, ?_, ?_, ?_, ?_⟩
  · intro id hid
    obtain ⟨nd, h1, h2, h3, h4, h5⟩ := hx.nodes id hid
    obtain ⟨h6, h7⟩ := hf id hid
    unfold blk off at *
    rw [h1] at h6 h7
    cases hh : h'[id]? with
    | none => rw [hh] at h6; cases h6
    | some nd' =>
      rw [hh] at h6 h7
      simp only [Option.map_some, Option.some.injEq] at h6 h7
      refine ⟨nd', rfl, ?_⟩
      rw [h6, h7, (hg x.lo (Int.le_refl _) hle).1]
      exact ⟨h2, h3, h4, h5⟩
  · intro j h1 h2
    rw [(hg j h1 h2).1, (hg x.lo (Int.le_refl _) hle).1, hx.ty j h1 h2]
  · intro j h1 h2
    rw [(hg j h1 h2).2.1, hx.rows j h1 h2]
    exact (pathRows_frame fun i hi => by rw [(hf i hi).1]).symm
  · intro j h1 h2 i
    rw [(hg j h1 h2).2.2, ← hx.cell j h1 h2 i]
    exact pathCell_frame hf i j
  · intro hs id hid
    rw [(hf id hid).2]
    exact hx.own hs id hid

theorem append_get {h k : List (Node V)} {id : Nat} (hid : id < h.length) : (h ++ k)[id]? = h[id]? :=
  List.getElem?_append_left hid

theorem append_fields {h k : List (Node V)} {id : Nat} (hid : id < h.length) :
    nx (h ++ k) id = nx h id ∧ off (h ++ k) id = off h id ∧ lp (h ++ k) id = lp h id ∧ blk (h ++ k) id = blk h id := by
  unfold nx off lp blk
  rw [append_get hid]
  exact ⟨rfl, rfl, rfl, rfl⟩

theorem get_new {h : List (Node V)} {nd : Node V} : (h ++ [nd])[h.length]? = some nd := by simp

/-- The parents of a list of ranges with one more range that has one block only. -/
theorem parents_snoc {h h' : List (Node V)} {L : List Iv} {x : Iv} (hp : Parents h L)
    (hf : ∀ y ∈ L, ∀ id ∈ y.path, lp h' id = lp h id ∧ off h' id = off h id) (hx : x.path.length ≤ 1) : Parents h' (L ++ [x]) := by
  intro A y B hL a b l r hpath
  rcases List.append_eq_append_iff.mp hL with ⟨A', h1, h2⟩ | ⟨B', h1, h2⟩
  · cases A' with
    | nil =>
      simp only [List.nil_append, List.cons.injEq] at h2
      rw [← h2.1] at hpath
      rw [hpath] at hx
      simp at hx
      omega
    | cons z A' =>
      have := congrArg List.length h2
      simp at this
  · cases B' with
    | nil =>
      simp only [List.nil_append, List.cons.injEq] at h2
      rw [h2.1] at hpath
      rw [hpath] at hx
      simp at hx
      omega
    | cons z B' =>
      simp only [List.cons_append, List.cons.injEq] at h2
      obtain ⟨rfl, -⟩ := h2
      have hy : y ∈ L := by rw [h1]; simp
      have hfa := hf y hy a (by rw [hpath]; simp)
      have hfb := hf y hy b (by rw [hpath]; simp)
      rw [hfb.1, hfb.2, hfa.2]
      exact hp A y B' h1 a b l r hpath

theorem Inv.path_lt {s : Store V} {g : Mat V} {L : List Iv} (h : Inv s g L) : ∀ x ∈ L, ∀ id ∈ x.path, id < s.heap.length :=
  fun x hx => path_mem_lt (h.ok x hx).path

theorem Inv.cols {s : Store V} {g : Mat V} {L : List Iv} (h : Inv s g L) (p : Piece V) :
    (∃ g', g.addCols p = some g' ∧ ∃ s', concatCols s p.m p.n p.ty p.order p.data = some (.success, s') ∧ ∃ L', Inv s' g' L') ∨
    (g.addCols p = none ∧ ∃ st, st ≠ .success ∧ concatCols s p.m p.n p.ty p.order p.data = some (st, s)) := by
  unfold Mat.addCols
  have hn0 := h.n_nonneg
  have hm : (s.m > 0 ∧ s.m ≠ p.m) ↔ ¬ (g.n = 0 ∨ p.m = g.rows 0) := by
    rw [h.m]
    unfold Mat.m
    by_cases c : g.n = 0
    · simp [c]
    · have := h.m_pos c
      rw [if_neg c]
      simp only [c, false_or]
      constructor
      · rintro ⟨-, h2⟩; exact fun w => h2 w.symm
      · intro h2; exact ⟨this, fun w => h2 w.symm⟩
  by_cases hc : g.start = 0 ∧ 0 < p.m ∧ 0 < p.n ∧ (g.n = 0 ∨ p.m = g.rows 0)
  · refine Or.inl ?_
    rw [if_pos hc]
    obtain ⟨h1, h2, h3, h4⟩ := hc
    have hmiss : s.missing = false := by
      cases hs : s.missing with
      | false => rfl
      | true => exact absurd h1 (h.missing.mp hs)
    refine ⟨_, rfl, ?_⟩
    unfold concatCols
    rw [hmiss, if_neg (by simp), if_neg (by omega), if_neg (by omega), if_neg (fun w => hm.mp w h4), h.cmap, h.n, cmap_insert h.tiles h3]
    refine ⟨_, rfl, L ++ [⟨g.n, g.n + p.n - 1, false, [s.heap.length]⟩], ?_⟩
    have hlt := h.path_lt
    have hmem := tiles_mem h.tiles
    constructor
    · rw [tiles_append]
      exact ⟨g.n, h.tiles, rfl, by show g.n ≤ g.n + p.n - 1; omega, by show g.n + p.n - 1 + 1 = g.n + p.n; omega⟩
    · rfl
    · show (if s.m = 0 then p.m else s.m) = _
      rw [h.m]
      unfold Mat.m
      dsimp only
      have c1 : ¬ g.n + p.n = 0 := by omega
      rw [if_neg c1]
      by_cases c : g.n = 0
      · rw [if_pos c, if_pos rfl, if_pos]
        simp only [Bool.and_eq_true, decide_eq_true_eq]
        omega
      · have := h.m_pos c
        rw [if_neg c, if_neg (by omega), if_neg]
        simp only [Bool.and_eq_true, decide_eq_true_eq]
        omega
    · simp [Iv.entry]
    · simp [h.spans, Iv.span]
    · intro x hx
      rcases List.mem_append.mp hx with hx | hx
      · have hb := hmem x hx
        refine (h.ok x hx).frame hb.2.1 (fun id hid => (append_fields (hlt x hx id hid)).1)
          (fun id hid => ⟨(append_fields (hlt x hx id hid)).2.2.2, (append_fields (hlt x hx id hid)).2.1⟩) ?_
        intro j a b
        have hnew : ¬ ((decide (g.n ≤ j) && decide (j < g.n + p.n)) = true) := by
          simp only [Bool.and_eq_true, decide_eq_true_eq]; omega
        exact ⟨if_neg hnew, if_neg hnew, fun i => if_neg hnew⟩
      · rw [List.mem_singleton] at hx
        subst hx
        have hin : ∀ j, g.n ≤ j → j ≤ g.n + p.n - 1 → (decide (g.n ≤ j) && decide (j < g.n + p.n)) = true := by
          intro j a b; simp only [Bool.and_eq_true, decide_eq_true_eq]; omega
        refine ⟨by simp, ?_, ?_, ?_, ?_, ?_, ?_⟩
        · exact .cons (by simp [nx]) .nil
        · intro id hid
          rw [List.mem_singleton] at hid
          subst hid
          refine ⟨_, get_new, h2, Int.le_refl _, by show g.n + p.n - 1 < g.n + p.n; omega, ?_⟩
          exact (if_pos (hin g.n (Int.le_refl _) (by omega))).symm
        · intro j a b
          show ite _ _ _ = ite _ _ _
          rw [if_pos (hin j a b), if_pos (hin g.n (Int.le_refl _) (by omega))]
        · intro j a b
          show ite _ _ _ = _
          rw [if_pos (hin j a b)]
          simp [pathRows, blk]
        · intro j a b i
          show _ = ite _ _ _
          rw [if_pos (hin j a b)]
          unfold pathCell pathPos
          simp only [blk, get_new, Option.map_some]
          by_cases c1 : i < p.m
          · by_cases c2 : 0 ≤ i
            · rw [if_pos c1, if_pos c2, if_pos ⟨c2, c1⟩]
              simp only [Option.bind_some, cellAt, get_new, Option.map_some]
              rfl
            · rw [if_pos c1, if_neg c2, if_neg (fun w => c2 w.1)]
              rfl
          · rw [if_neg c1, if_neg (fun w => c1 w.2)]
            rfl
        · intro _ id hid
          rw [List.mem_singleton] at hid
          subst hid
          simp [off]
    · rw [List.pairwise_append]
      refine ⟨h.apart, by simp, ?_⟩
      intro x hx y hy id h5 h6
      rw [List.mem_singleton] at hy
      subst hy
      rw [List.mem_singleton] at h6
      subst h6
      exact absurd (hlt x hx _ h5) (Nat.lt_irrefl _)
    · refine parents_snoc h.parents ?_ (by simp)
      intro y hy id hid
      exact ⟨(append_fields (hlt y hy id hid)).2.2.1, (append_fields (hlt y hy id hid)).2.1⟩
    · rw [← hmiss]; exact h.missing
    · intro hs; exact absurd hs (by simp)
    · intro hs; exact absurd h1 hs
    · intro _ j a b
      show ite _ _ _ = ite _ _ _
      by_cases c : g.n = 0
      · have e1 : (decide (g.n ≤ j) && decide (j < g.n + p.n)) = true := by
          simp only [Bool.and_eq_true, decide_eq_true_eq]
          exact ⟨by omega, b⟩
        have e2 : (decide (g.n ≤ 0) && decide (0 < g.n + p.n)) = true := by
          simp only [Bool.and_eq_true, decide_eq_true_eq]; omega
        rw [if_pos e1, if_pos e2]
      · have e2 : ¬ (decide (g.n ≤ 0) && decide (0 < g.n + p.n)) = true := by
          simp only [Bool.and_eq_true, decide_eq_true_eq]; omega
        rw [if_neg e2]
        by_cases e1 : (decide (g.n ≤ j) && decide (j < g.n + p.n)) = true
        · rw [if_pos e1]
          rcases h4 with h4 | h4
          · exact absurd h4 c
          · exact h4
        · rw [if_neg e1]
          refine h.even h1 j a ?_
          simp only [Bool.and_eq_true, decide_eq_true_eq] at e1
          have : j < g.n + p.n := b
          omega
  · refine Or.inr ?_
    rw [if_neg hc]
    refine ⟨rfl, ?_⟩
    unfold concatCols
    by_cases c1 : s.missing = true
    · rw [if_pos c1]; exact ⟨_, by decide, rfl⟩
    · rw [if_neg c1]
      by_cases c2 : p.m ≤ 0
      · rw [if_pos c2]; exact ⟨_, by decide, rfl⟩
      · rw [if_neg c2]
        by_cases c3 : p.n ≤ 0
        · rw [if_pos c3]; exact ⟨_, by decide, rfl⟩
        · rw [if_neg c3, if_pos]
          · exact ⟨_, by decide, rfl⟩
          · rw [hm]
            intro w
            refine hc ⟨?_, by omega, by omega, w⟩
            by_contra hs
            exact c1 (h.missing.mpr hs)

end Verif.DataStore
