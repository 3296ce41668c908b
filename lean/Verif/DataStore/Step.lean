/-
`set_element` and `concatenate_columns` keep the invariant.
-/
import Verif.DataStore.Inv

namespace Verif.DataStore
variable {V : Type}

theorem inv_empty : Inv ({} : Store V) ({} : Mat V) [] where
  tiles := rfl
  n := rfl
  m := rfl
  cmap := rfl
  spans := rfl
  ok := by simp
  apart := .nil
  parents := by intro A x B h; simp at h
  missing := by simp
  start := by simp
  start0 := by simp
  even := by intro _ j h0 h1; simp at h1; omega

/-! ### Writing an element -/

theorem write_get {h : List (Node V)} {id id' : Nat} {k : Int} {v : V} : (write h id k v)[id']? =
    if id = id' then (h[id']?).map fun nd => { nd with b := { nd.b with bl := fun x => if x = k then v else nd.b.bl x } }
    else h[id']? := by
  unfold write
  rw [List.getElem?_modify]
  split
  · simp
  · simp

theorem write_fields {h : List (Node V)} {id id' : Nat} {k : Int} {v : V} :
    nx (write h id k v) id' = nx h id' ∧ off (write h id k v) id' = off h id' ∧ lp (write h id k v) id' = lp h id' ∧
    (blk (write h id k v) id').map Block.m = (blk h id').map Block.m := by
  unfold nx off lp blk
  rw [write_get]
  split
  · cases h[id']? <;> simp
  · simp

theorem cell_write {b : Block V} {r c r' c' : Int} {v : V} {k : Int} (hr : 0 ≤ r ∧ r < b.m) (hc : 0 ≤ c ∧ c < b.n)
    (hr' : 0 ≤ r' ∧ r' < b.m) (hc' : 0 ≤ c' ∧ c' < b.n)
    (hk : k = match b.order with | .row => r * b.n + c | .col => c * b.m + r) :
    Block.cell { b with bl := fun x => if x = k then v else b.bl x } r' c' = if r' = r ∧ c' = c then v else b.cell r' c' := by
  unfold Block.cell
  cases ho : b.order with
  | row =>
    simp only [ho] at hk ⊢
    by_cases h : r' = r ∧ c' = c
    · rw [if_pos h, if_pos (by rw [hk, h.1, h.2])]
    · rw [if_neg h, if_neg]
      intro he
      rw [hk] at he
      exact h (index_inj hc'.1 hc'.2 hc.1 hc.2 he)
  | col =>
    simp only [ho] at hk ⊢
    by_cases h : r' = r ∧ c' = c
    · rw [if_pos h, if_pos (by rw [hk, h.1, h.2])]
    · rw [if_neg h, if_neg]
      intro he
      rw [hk] at he
      have := index_inj hr'.1 hr'.2 hr.1 hr.2 he
      exact h ⟨this.2, this.1⟩

theorem getCol_index {b : Block V} {r c col stride : Int} (h : getCol b c = some (col, stride)) :
    col + r * stride = match b.order with | .row => r * b.n + c | .col => c * b.m + r := by
  unfold getCol at h
  split at h
  · cases h
  · cases ho : b.order with
    | row => rw [ho] at h; cases h; dsimp only; omega
    | col => rw [ho] at h; cases h; dsimp only; rw [Int.mul_comm b.m c]; omega

/-- The invariant only looks at the fields of the objects. -/
theorem Inv.write {s : Store V} {g : Mat V} {L : List Iv} (h : Inv s g L) {i j : Int} {ty : Ty} {v : V} (h0 : 0 ≤ j) (h1 : j < g.n)
    (h2 : 0 ≤ i) (h3 : i < g.rows j) (h4 : i < g.m) (hty : g.ty j = ty) : ∃ s', setElement s ty i j v = some (.success, s') ∧
      Inv s' { g with cell := fun i' j' => if i' = i ∧ j' = j then some v else g.cell i' j' } L := by
  obtain ⟨x, hx, hl, hh, hf, ⟨nd0, hd, hty0⟩, q, nd, hq, hloc, hnd, hr0, hr1, hc0, hc1, hcell⟩ := h.locate h0 h1 h2 h3
  obtain ⟨col, stride, hg, -⟩ := getCol_cell (b := nd.b) (r := q.2) hc0 hc1
  have hk := getCol_index (r := q.2) hg
  have e1 : ¬ (i < 0 ∨ i ≥ s.m) := by rw [h.m]; omega
  have e2 : ¬ (j < 0 ∨ j ≥ s.n) := by rw [h.n]; omega
  refine ⟨{ s with heap := DataStore.write s.heap q.1 (col + q.2 * stride) v }, ?_, ?_⟩
  · unfold setElement
    rw [if_neg e1, if_neg e2, hf]
    dsimp only
    rw [hd]
    dsimp only
    rw [if_neg (by simp [hty0, hty]), hloc]
    dsimp only
    rw [hnd]
    dsimp only
    rw [hg]
    dsimp only
    rw [show i - (i - q.2) = q.2 by omega]
  · generalize hkk : col + q.2 * stride = k at hk
    refine { h with ok := ?_, parents := ?_ }
    · intro y hy
      have hok := h.ok y hy
      refine ⟨hok.ne, path_frame hok.path fun i _ => write_fields.1, ?_, hok.ty, ?_, ?_, ?_⟩
      · intro id hid
        obtain ⟨nd', g1, g2, g3, g4, g5⟩ := hok.nodes id hid
        show ∃ nd, (DataStore.write s.heap q.1 k v)[id]? = some nd ∧ _
        rw [write_get]
        by_cases c : q.1 = id
        · rw [if_pos c, g1]
          exact ⟨_, rfl, g2, g3, g4, g5⟩
        · rw [if_neg c]
          exact ⟨nd', g1, g2, g3, g4, g5⟩
      · intro j' a b
        show g.rows j' = _
        rw [hok.rows j' a b]
        exact (pathRows_frame fun i _ => write_fields.2.2.2).symm
      · intro j' a b i'
        show _ = if i' = i ∧ j' = j then some v else g.cell i' j'
        rw [← hok.cell j' a b i']
        unfold pathCell
        show Option.bind (pathPos (DataStore.write s.heap q.1 k v) y.path i') _ = _
        rw [pathPos_frame (h := s.heap) fun i _ => write_fields.2.2.2]
        cases hq' : pathPos s.heap y.path i' with
        | none =>
          rw [if_neg]
          · rfl
          · rintro ⟨rfl, rfl⟩
            rw [← hok.cell j' a b, pathCell, hq'] at hcell
            cases hcell
        | some q' =>
          obtain ⟨hm', b', hb', hr0', hr1'⟩ := pathPos_mem hq'
          obtain ⟨nd', g1, g2, g3, g4, g5⟩ := hok.nodes _ hm'
          have hbb : nd'.b = b' := by simpa [blk, g1] using hb'
          subst hbb
          simp only [Option.bind_some, cellAt]
          rw [write_get, g1]
          by_cases c : q.1 = q'.1
          · rw [if_pos c]
            have hndnd : nd' = nd := by
              rw [← c, hnd] at g1
              exact (Option.some.inj g1).symm
            subst hndnd
            simp only [Option.map_some]
            rw [cell_write (r := q.2) (c := j - nd'.offset) ⟨hr0, hr1⟩ ⟨hc0, hc1⟩ ⟨hr0', hr1'⟩ ⟨by omega, by omega⟩ hk]
            have hiff : (q'.2 = q.2 ∧ j' - nd'.offset = j - nd'.offset) ↔ (i' = i ∧ j' = j) := by
              constructor
              · rintro ⟨c1, c2⟩
                have hjj : j' = j := by omega
                subst hjj
                refine ⟨?_, rfl⟩
                have hxy : x = y := tiles_unique h.tiles hx hy hl hh a b
                subst hxy
                have : q' = q := Prod.ext c.symm c1
                rw [this] at hq'
                exact pathPos_inj (path_nodup hok.path) hq' hq
              · rintro ⟨rfl, rfl⟩
                have hxy : x = y := tiles_unique h.tiles hx hy hl hh a b
                subst hxy
                rw [hq] at hq'
                cases hq'
                exact ⟨rfl, rfl⟩
            by_cases c3 : i' = i ∧ j' = j
            · rw [if_pos c3, if_pos (hiff.mpr c3)]
            · rw [if_neg c3, if_neg (fun w => c3 (hiff.mp w))]
          · rw [if_neg c, if_neg]
            rintro ⟨rfl, rfl⟩
            have hxy : x = y := tiles_unique h.tiles hx hy hl hh a b
            subst hxy
            rw [hq] at hq'
            cases hq'
            exact c rfl
      · intro hs id hid
        exact write_fields.2.1.trans (hok.own hs id hid)
    · intro A y B hL a b l r hp
      have := h.parents A y B hL a b l r hp
      rw [show lp _ b = lp s.heap b from write_fields.2.2.1, show off _ b = off s.heap b from write_fields.2.1,
        show off _ a = off s.heap a from write_fields.2.1]
      exact this

theorem Inv.set_refused {s : Store V} {g : Mat V} {L : List Iv} (h : Inv s g L) {i j : Int} {ty : Ty} {v : V}
    (hsup : elementSupported g i j) (hno : g.set ty i j v = none) : setElement s ty i j v = some (.invalidInput, s) := by
  unfold setElement
  by_cases c1 : i < 0 ∨ i ≥ s.m
  · rw [if_pos c1]
  · rw [if_neg c1]
    by_cases c2 : j < 0 ∨ j ≥ s.n
    · rw [if_pos c2]
    · rw [if_neg c2]
      rw [h.m] at c1
      rw [h.n] at c2
      have hi := hsup (by omega) (by omega) (by omega)
      obtain ⟨x, hx, hl, hh, hf, ⟨nd0, hd, hty0⟩, -⟩ := h.locate (i := i) (j := j) (by omega) (by omega) (by omega) hi
      rw [hf]
      dsimp only
      rw [hd]
      dsimp only
      rw [if_pos]
      intro ht
      unfold Mat.set at hno
      rw [if_pos ⟨by omega, by omega, by omega, hi, by rw [← hty0, ht]⟩] at hno
      cases hno

end Verif.DataStore
