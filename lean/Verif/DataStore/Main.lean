/-
The invariant holds after every supported history.
-/
import Verif.DataStore.Step
import Verif.DataStore.Rows
import Verif.DataStore.Hconcat

namespace Verif.DataStore
variable {V : Type}

theorem set_some {g g' : Mat V} {ty : Ty} {i j : Int} {v : V} (h : g.set ty i j v = some g') :
    0 ≤ j ∧ j < g.n ∧ 0 ≤ i ∧ i < g.rows j ∧ g.ty j = ty ∧
    g' = { g with cell := fun i' j' => if i' = i ∧ j' = j then some v else g.cell i' j' } := by
  unfold Mat.set at h
  split at h
  · rename_i c
    obtain ⟨c1, c2, c3, c4, c5⟩ := c
    refine ⟨c1, c2, c3, c4, c5, ?_⟩
    injection h with h
    exact h.symm
  · cases h

/-- No column has more rows than the store. -/
theorem Inv.rows_le {s : Store V} {g : Mat V} {L : List Iv} (h : Inv s g L) (hadd : 0 ≤ g.add) {j : Int} (h0 : 0 ≤ j) (h1 : j < g.n) :
    g.rows j ≤ g.m := by
  have hm : g.m = g.rows 0 := by
    unfold Mat.m
    rw [if_neg (by omega)]
  rw [hm]
  by_cases c : g.start = 0
  · rw [h.even c j h0 h1]
  · rw [(h.start0 c).2 j h0 h1]
    split <;> omega

theorem add_nonneg : ∀ (h : Hist V), 0 ≤ (contents h).add
  | .empty => Int.le_refl _
  | .cols h p => by
    have ih := add_nonneg h
    show 0 ≤ (((contents h).addCols p).getD (contents h)).add
    unfold Mat.addCols
    split
    · exact ih
    · exact ih
  | .rows h p => by
    have ih := add_nonneg h
    show 0 ≤ (((contents h).addRows p).getD (contents h)).add
    unfold Mat.addRows
    split
    · unfold Mat.addCols
      split
      · exact ih
      · exact ih
    · split
      · rename_i c
        show 0 ≤ p.m
        omega
      · exact ih
  | .hconcat h k => by
    have ih := add_nonneg h
    show 0 ≤ (((contents h).append (contents k)).getD (contents h)).add
    unfold Mat.append
    split
    · exact ih
    · exact ih
  | .set h ty i j v => by
    have ih := add_nonneg h
    show 0 ≤ (((contents h).set ty i j v).getD (contents h)).add
    unfold Mat.set
    split
    · exact ih
    · exact ih

theorem Inv.set {s : Store V} {g : Mat V} {L : List Iv} (h : Inv s g L) (hadd : 0 ≤ g.add) {i j : Int} {ty : Ty} {v : V}
    (hsup : elementSupported g i j) :
    (∃ g', g.set ty i j v = some g' ∧ ∃ s', setElement s ty i j v = some (.success, s') ∧ Inv s' g' L) ∨
    (g.set ty i j v = none ∧ setElement s ty i j v = some (.invalidInput, s)) := by
  cases hs : g.set ty i j v with
  | none => exact Or.inr ⟨rfl, h.set_refused hsup hs⟩
  | some g' =>
    obtain ⟨h0, h1, h2, h3, h5, rfl⟩ := set_some hs
    have h4 : i < g.m := Int.lt_of_lt_of_le h3 (h.rows_le hadd h0 h1)
    obtain ⟨s', a, b⟩ := h.write (v := v) h0 h1 h2 h3 h4 h5
    exact Or.inl ⟨_, rfl, s', a, b⟩

theorem exec_inv : ∀ (h : Hist V), Supported h → ∃ s, exec h = some s ∧ ∃ L, Inv s (contents h) L
  | .empty, _ => ⟨_, rfl, _, inv_empty⟩
  | .cols h p, hs => by
    obtain ⟨s, hs, L, hi⟩ := exec_inv h hs
    unfold exec contents
    rw [hs]
    dsimp only [Option.bind_some]
    rcases hi.cols p with ⟨g', w1, s', w2, L', w3⟩ | ⟨w1, st, _, w2⟩
    · rw [w1, w2]; exact ⟨s', rfl, L', w3⟩
    · rw [w1, w2]; exact ⟨s, rfl, L, hi⟩
  | .rows h p, hs => by
    obtain ⟨hs, hsup⟩ := hs
    obtain ⟨s, hs, L, hi⟩ := exec_inv h hs
    unfold exec contents
    rw [hs]
    dsimp only [Option.bind_some]
    rcases hi.rows p hsup with ⟨g', w1, s', w2, L', w3⟩ | ⟨w1, st, s', _, w2, L', w3⟩
    · rw [w1, w2]; exact ⟨s', rfl, L', w3⟩
    · rw [w1, w2]; exact ⟨s', rfl, L', w3⟩
  | .hconcat h k, hs => by
    obtain ⟨hs, ks⟩ := hs
    obtain ⟨s, hs, L, hi⟩ := exec_inv h hs
    obtain ⟨t, ht, K, ki⟩ := exec_inv k ks
    unfold exec contents
    rw [hs, ht]
    dsimp only [Option.bind_some]
    rcases hi.hconcat ki with ⟨g', w1, s', w2, L', w3⟩ | ⟨w1, st, _, w2⟩
    · rw [w1, w2]; exact ⟨s', rfl, L', w3⟩
    · rw [w1, w2]; exact ⟨s, rfl, L, hi⟩
  | .set h ty i j v, hs => by
    obtain ⟨hs, hsup⟩ := hs
    obtain ⟨s, hs, L, hi⟩ := exec_inv h hs
    unfold exec contents
    rw [hs]
    dsimp only [Option.bind_some]
    rcases hi.set (ty := ty) (v := v) (add_nonneg h) hsup with ⟨g', w1, s', w2, w3⟩ | ⟨w1, w2⟩
    · rw [w1, w2]; exact ⟨s', rfl, L, w3⟩
    · rw [w1, w2]; exact ⟨s, rfl, L, hi⟩

end Verif.DataStore
