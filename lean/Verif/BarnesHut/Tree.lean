import Mathlib.Tactic.FieldSimp
import Mathlib.Tactic.Ring
import Mathlib.Data.Rat.Cast.Order
import Verif.BarnesHut.Divide

/-
What a stored tree is, and the leaves and sums of `build_subtree`.
-/
set_option linter.unusedSectionVars false

namespace Verif.BarnesHut

open Moments (M Fault rd wr forUp divM ok_bind rd_ok wr_ok forUp_zero forUp_succ)
open Finset (range sum_range_succ)

variable {K : Type} [Field K] [LinearOrder K] [IsStrictOrderedRing K]

/-- The fields of a node for the points at positions `s` to `e - 1` of `sorted_indices`: their
number, the first position and their mean; the points lie in a cube with half the width `hw`. -/
structure NodeOk (D : Nat) (X : Nat → Nat → K) (idx : List Nat) (nd : Node K) (s e : Nat) (hw : K) :
    Prop where
  pos : s < e
  cnt : nd.cnt = e - s
  start : nd.start = s
  comLen : nd.com.length = D
  com : ∀ d < D, ∃ v, nd.com[d]? = some v ∧
    v * ((e - s : Nat) : K) = ∑ i ∈ Finset.Ico s e, X (idx.getD i 0) d
  cube : ∃ c : Nat → K, ∀ i, s ≤ i → i < e → ∀ d < D, |X (idx.getD i 0) d - c d| ≤ hw

/-- A subtree in memory: in a slot, for the points at positions `s` to `e - 1`, with slots from `P`.
A leaf has at most `thr` points, or is at the greatest depth, or `full` holds; the children of any
other node divide its points, and their cubes have half the width. -/
inductive Cell (D thr : Nat) (full : Prop) (X : Nat → Nat → K) (nodes : List (Node K)) (idx : List Nat)
    (P : Nat → Prop) : (left slot s e : Nat) → (hw : K) → Prop
  | leaf {left slot s e : Nat} {hw : K} (nd : Node K) (hP : P slot) (hnd : nodes[slot]? = some nd)
      (hok : NodeOk D X idx nd s e hw) (hk : nd.kids = 0) (why : e - s ≤ thr ∨ left = 0 ∨ full) :
      Cell D thr full X nodes idx P left slot s e hw
  | split {left slot s e : Nat} {hw : K} (nd : Node K) (hP : P slot) (hnd : nodes[slot]? = some nd)
      (hok : NodeOk D X idx nd s e hw) (hk1 : 0 < nd.kids) (hk2 : nd.kids ≤ 2 ^ D) (why : thr < e - s)
      (b : Nat → Nat) (hb0 : b 0 = s) (hbm : b nd.kids = e) (hlt : ∀ j < nd.kids, b j < b (j + 1))
      (hkid : ∀ j < nd.kids,
        Cell D thr full X nodes idx P left (nd.first + j) (b j) (b (j + 1)) (hw / 2)) :
      Cell D thr full X nodes idx P (left + 1) slot s e hw

theorem steps_mono {b : Nat → Nat} {m : Nat} (h : ∀ j < m, b j < b (j + 1)) {i j : Nat} (hij : i ≤ j)
    (hj : j ≤ m) : b i ≤ b j := by
  induction j with
  | zero => obtain rfl : i = 0 := by omega
            exact Nat.le_refl _
  | succ j ih =>
    by_cases he : i = j + 1
    · subst he; exact Nat.le_refl _
    · have := ih (by omega) (by omega)
      have := h j (by omega)
      omega

theorem NodeOk.congr {D : Nat} {X : Nat → Nat → K} {idx idx' : List Nat} {nd : Node K} {s e : Nat}
    {hw : K} (h : NodeOk D X idx nd s e hw)
    (hidx : ∀ i, s ≤ i → i < e → idx'.getD i 0 = idx.getD i 0) : NodeOk D X idx' nd s e hw := by
  refine ⟨h.pos, h.cnt, h.start, h.comLen, ?_, ?_⟩
  · intro d hd
    obtain ⟨v, h1, h2⟩ := h.com d hd
    refine ⟨v, h1, ?_⟩
    rw [h2]
    apply Finset.sum_congr rfl
    intro i hi
    rw [Finset.mem_Ico] at hi
    rw [hidx i hi.1 hi.2]
  · obtain ⟨c, hc⟩ := h.cube
    refine ⟨c, ?_⟩
    intro i h1 h2 d hd
    rw [hidx i h1 h2]
    exact hc i h1 h2 d hd

theorem Cell.mono {D thr : Nat} {full : Prop} {X : Nat → Nat → K} {nodes nodes' : List (Node K)}
    {idx idx' : List Nat} {P P' : Nat → Prop} {left slot s e : Nat} {hw : K}
    (h : Cell D thr full X nodes idx P left slot s e hw) (hn : ∀ k, P k → nodes'[k]? = nodes[k]?)
    (hP' : ∀ k, P k → P' k) (hidx : ∀ i, s ≤ i → i < e → idx'.getD i 0 = idx.getD i 0) :
    Cell D thr full X nodes' idx' P' left slot s e hw := by
  induction h with
  | leaf nd hP hnd hok hk why =>
    exact .leaf nd (hP' _ hP) ((hn _ hP).trans hnd) (hok.congr hidx) hk why
  | split nd hP hnd hok hk1 hk2 why b hb0 hbm hlt hkid ih =>
    refine .split nd (hP' _ hP) ((hn _ hP).trans hnd) (hok.congr hidx) hk1 hk2 why b hb0 hbm hlt ?_
    intro j hj
    apply ih j hj
    intro i h1 h2
    have := steps_mono hlt (i := 0) (j := j) (by omega) (by omega)
    have := steps_mono hlt (i := j + 1) (j := nd.kids) (by omega) (by omega)
    exact hidx i (by omega) (by omega)

theorem Cell.ok {D thr : Nat} {full : Prop} {X : Nat → Nat → K} {nodes : List (Node K)}
    {idx : List Nat} {P : Nat → Prop} {left slot s e : Nat} {hw : K}
    (h : Cell D thr full X nodes idx P left slot s e hw) :
    ∃ nd, P slot ∧ nodes[slot]? = some nd ∧ NodeOk D X idx nd s e hw := by
  cases h with
  | leaf nd hP hnd hok hk why => exact ⟨nd, hP, hnd, hok⟩
  | split nd hP hnd hok hk1 hk2 why b hb0 hbm hlt hkid => exact ⟨nd, hP, hnd, hok⟩

variable {D n : Nat} {pts center : List K} {X : Nat → Nat → K} {C : Nat → K}

theorem childCenter_ok (hcen : ∀ d < D, center[d]? = some (C d)) (h : K) (c : Nat) :
    ∃ l, childCenter D center h c = .ok l ∧
      ∀ d < D, l[d]? = some (C d + if c.testBit d then h else -h) := by
  unfold childCenter
  suffices g : ∀ m ≤ D, forUp m (fun d l => do
      let x ← rd center d
      .ok (l ++ [x + if c.testBit d then h else -h])) [] =
      .ok ((List.range m).map fun d => C d + if c.testBit d then h else -h) by
    refine ⟨_, g D (Nat.le_refl D), ?_⟩
    intro d hd
    simp [hd]
  intro m
  induction m with
  | zero => intro _; rfl
  | succ m ih =>
    intro hm
    rw [forUp_succ, ih (by omega), ok_bind, rd_ok (hcen m (by omega)), ok_bind, List.range_succ,
      List.map_append]
    rfl

/-- Adding a function to an array, entry by entry. -/
theorem addTo_ok (sum : List K) (S v : Nat → K) (f : Nat → List K → M (List K))
    (hS : ∀ d < D, sum[d]? = some (S d)) (hlen : sum.length = D)
    (hf : ∀ d < D, ∀ l : List K, l.length = D → l[d]? = some (S d) → f d l = .ok (l.set d (S d + v d))) :
    ∃ l, forUp D f sum = .ok l ∧ l.length = D ∧ ∀ d < D, l[d]? = some (S d + v d) := by
  suffices g : ∀ m ≤ D, ∃ l, forUp m f sum = .ok l ∧ l.length = D ∧
      ∀ d < D, l[d]? = some (if d < m then S d + v d else S d) by
    obtain ⟨l, h1, h2, h3⟩ := g D (Nat.le_refl D)
    exact ⟨l, h1, h2, fun d hd => by rw [h3 d hd, if_pos hd]⟩
  intro m
  induction m with
  | zero => intro _; exact ⟨sum, rfl, hlen, fun d hd => by rw [hS d hd, if_neg (by omega)]⟩
  | succ m ih =>
    intro hm
    obtain ⟨l, h1, h2, h3⟩ := ih (by omega)
    refine ⟨l.set m (S m + v m), ?_, by rw [List.length_set]; exact h2, ?_⟩
    · rw [forUp_succ, h1, ok_bind]
      exact hf m (by omega) l h2 (by rw [h3 m (by omega), if_neg (by omega)])
    · intro d hd
      rw [List.getElem?_set]
      by_cases he : m = d
      · subst he; rw [if_pos rfl, if_pos (by omega), if_pos (by omega)]
      · rw [if_neg he, h3 d hd]
        by_cases hdm : d < m
        · rw [if_pos hdm, if_pos (by omega)]
        · rw [if_neg hdm, if_neg (by omega)]

theorem sumPoints_ok (hpts : ∀ p < n, ∀ d < D, pts[p * D + d]? = some (X p d)) {idx : List Nat}
    {start stop : Nat} (hss : start ≤ stop) (hlen : stop ≤ idx.length)
    (hidx : ∀ i, start ≤ i → i < stop → idx.getD i 0 < n) :
    ∃ l, sumPoints D pts idx start stop = .ok l ∧ l.length = D ∧
      ∀ d < D, l[d]? = some (∑ i ∈ Finset.Ico start stop, X (idx.getD i 0) d) := by
  unfold sumPoints
  obtain ⟨m, hm⟩ : ∃ m, m = stop - start := ⟨_, rfl⟩
  have hstop : stop = start + m := by omega
  rw [← hm, hstop]
  have hm' : start + m ≤ stop := by omega
  clear hm hstop
  induction m with
  | zero =>
    refine ⟨_, rfl, List.length_replicate, ?_⟩
    intro d hd
    rw [List.getElem?_replicate, if_pos hd]
    simp
  | succ m ih =>
    obtain ⟨l, h1, h2, h3⟩ := ih (by omega)
    have hp := hidx (start + m) (by omega) (by omega)
    obtain ⟨l', g1, g2, g3⟩ := addTo_ok (D := D) l _ (fun d => X (idx.getD (start + m) 0) d)
      (fun d sum => do
        let a ← rd pts (idx.getD (start + m) 0 * D + d)
        let s ← rd sum d
        wr sum d (s + a)) h3 h2 (by
          intro d hd l hl hld
          rw [rd_ok (hpts _ hp d hd), ok_bind, rd_ok hld, ok_bind, wr_ok _ (by omega)])
    refine ⟨l', ?_, g2, ?_⟩
    · rw [forUp_succ, h1, ok_bind, rd_ok (getElem?_getD (i := start + m) (by omega)), ok_bind, g1]
    · intro d hd
      rw [g3 d hd, ← Nat.add_assoc, Finset.sum_Ico_succ_top (by omega)]

/-- `make_leaf` writes a right node. -/
theorem makeLeaf_ok (hpts : ∀ p < n, ∀ d < D, pts[p * D + d]? = some (X p d)) {idx : List Nat}
    {nodes : List (Node K)} {slot start stop : Nat} {hw : K} (hss : start < stop)
    (hlen : stop ≤ idx.length) (hidx : ∀ i, start ≤ i → i < stop → idx.getD i 0 < n)
    (hcube : ∃ c : Nat → K, ∀ i, start ≤ i → i < stop → ∀ d < D, |X (idx.getD i 0) d - c d| ≤ hw)
    (hslot : slot < nodes.length) :
    ∃ nd, makeLeaf D pts idx nodes slot start stop = .ok (nodes.set slot nd) ∧
      NodeOk D X idx nd start stop hw ∧ nd.kids = 0 := by
  obtain ⟨l, h1, h2, h3⟩ := sumPoints_ok hpts (Nat.le_of_lt hss) hlen hidx
  have hne : ((stop - start : Nat) : K) ≠ 0 := by
    exact_mod_cast (by omega : stop - start ≠ 0)
  have hcom : ∀ m ≤ D, forUp m (fun d l' => do
      let s ← rd l d
      let q ← divM s ((stop - start : Nat) : K)
      .ok (l' ++ [q])) [] = .ok ((List.range m).map fun d =>
        (∑ i ∈ Finset.Ico start stop, X (idx.getD i 0) d) / ((stop - start : Nat) : K)) := by
    intro m
    induction m with
    | zero => intro _; rfl
    | succ m ih =>
      intro hm
      rw [forUp_succ, ih (by omega), ok_bind, rd_ok (h3 m (by omega)), ok_bind]
      unfold divM
      rw [if_neg hne, ok_bind, List.range_succ, List.map_append]
      rfl
  refine ⟨⟨(List.range D).map fun d =>
        (∑ i ∈ Finset.Ico start stop, X (idx.getD i 0) d) / ((stop - start : Nat) : K),
      stop - start, start, 0, 0⟩, ?_, ⟨hss, rfl, rfl, ?_, ?_, hcube⟩, rfl⟩
  · unfold makeLeaf
    rw [h1, ok_bind, hcom D (Nat.le_refl D), ok_bind, wr_ok _ hslot]
  · simp
  · intro d hd
    refine ⟨(∑ i ∈ Finset.Ico start stop, X (idx.getD i 0) d) / ((stop - start : Nat) : K), ?_, ?_⟩
    · simp [hd]
    · exact div_mul_cancel₀ _ hne

/-- `combine` writes a right node. -/
theorem combine_ok {nodes : List (Node K)} {idx : List Nat} {slot first ne start stop : Nat}
    {hw : K} (b : Nat → Nat) (kid : Nat → Node K) (hw' : Nat → K) (hne : 0 < ne)
    (hb0 : b 0 = start) (hbm : b ne = stop)
    (hkid : ∀ j < ne, nodes[first + j]? = some (kid j) ∧ NodeOk D X idx (kid j) (b j) (b (j + 1)) (hw' j))
    (hslot : slot < nodes.length)
    (hcube : ∃ c : Nat → K, ∀ i, start ≤ i → i < stop → ∀ d < D, |X (idx.getD i 0) d - c d| ≤ hw) :
    ∃ nd, combine D nodes slot start first ne = .ok (nodes.set slot nd) ∧
      NodeOk D X idx nd start stop hw ∧ nd.first = first ∧ nd.kids = ne := by
  have hlt : ∀ j < ne, b j < b (j + 1) := fun j hj => (hkid j hj).2.pos
  have hg : ∀ m ≤ ne, ∃ l, forUp m (fun s r => do
      let nd ← rd nodes (first + s)
      if nd.cnt > 0 then do
        let sum ← forUp D (fun d sum => do
          let x ← rd nd.com d
          let y ← rd sum d
          wr sum d (y + (nd.cnt : K) * x)) r.2
        .ok (r.1 + nd.cnt, sum)
      else .ok r) (0, List.replicate D (0 : K)) = .ok (b m - start, l) ∧ l.length = D ∧
      ∀ d < D, l[d]? = some (∑ i ∈ Finset.Ico start (b m), X (idx.getD i 0) d) := by
    intro m
    induction m with
    | zero =>
      intro _
      refine ⟨List.replicate D 0, ?_, List.length_replicate, ?_⟩
      · rw [hb0, Nat.sub_self]; rfl
      · intro d hd
        rw [List.getElem?_replicate, if_pos hd, hb0]
        simp
    | succ m ih =>
      intro hm
      obtain ⟨l, h1, h2, h3⟩ := ih (by omega)
      obtain ⟨k1, k2⟩ := hkid m (by omega)
      have hcnt : (kid m).cnt > 0 := by rw [k2.cnt]; have := k2.pos; omega
      have hsm := steps_mono hlt (i := 0) (j := m) (by omega) (by omega)
      obtain ⟨l', g1, g2, g3⟩ := addTo_ok (D := D) l _
        (fun d => ∑ i ∈ Finset.Ico (b m) (b (m + 1)), X (idx.getD i 0) d)
        (fun d sum => do
          let x ← rd (kid m).com d
          let y ← rd sum d
          wr sum d (y + ((kid m).cnt : K) * x)) h3 h2 (by
            intro d hd l hl hld
            obtain ⟨v, v1, v2⟩ := k2.com d hd
            rw [rd_ok v1, ok_bind, rd_ok hld, ok_bind, wr_ok _ (by omega), ← v2, k2.cnt, mul_comm])
      refine ⟨l', ?_, g2, ?_⟩
      · rw [forUp_succ, h1, ok_bind, rd_ok k1, ok_bind, if_pos hcnt, g1, ok_bind, k2.cnt]
        have := hlt m (by omega)
        rw [show b m - start + (b (m + 1) - b m) = b (m + 1) - start by omega]
      · intro d hd
        rw [g3 d hd, Finset.sum_Ico_consecutive _ (by omega) (Nat.le_of_lt (hlt m (by omega)))]
  obtain ⟨l, h1, h2, h3⟩ := hg ne (Nat.le_refl ne)
  rw [hbm] at h1 h3
  have hss : start < stop := by
    have := hlt 0 hne
    have := steps_mono hlt (i := 0 + 1) (j := ne) (by omega) (by omega)
    omega
  obtain ⟨old, hold⟩ : ∃ old, nodes[slot]? = some old := ⟨nodes[slot], List.getElem?_eq_getElem hslot⟩
  have hn0 : ((stop - start : Nat) : K) ≠ 0 := by
    exact_mod_cast (by omega : stop - start ≠ 0)
  refine ⟨⟨l.map fun s => s * (1 / ((stop - start : Nat) : K)), stop - start, start, first, ne⟩, ?_,
    ⟨hss, rfl, rfl, by simp [h2], ?_, hcube⟩, rfl, rfl⟩
  · unfold combine gather
    rw [h1, ok_bind, rd_ok hold, ok_bind]
    simp only
    rw [if_pos (show stop - start > 0 by omega)]
    unfold divM
    rw [if_neg hn0, ok_bind, wr_ok _ hslot]
  · intro d hd
    refine ⟨(∑ i ∈ Finset.Ico start stop, X (idx.getD i 0) d) * (1 / ((stop - start : Nat) : K)), ?_, ?_⟩
    · simp only [List.getElem?_map, h3 d hd, Option.map_some]
    · rw [one_div, inv_mul_cancel_right₀ hn0]

end Verif.BarnesHut
