/-
C33: DBSCAN labels are the density-connected clusters.
-/
import Verif.Dbscan.ProofPar
namespace Verif.Dbscan

section
variable {n : Nat} {within : Nat → Nat → Bool} {nb : List (List Nat)}

/-- A duplicate-free list of the other samples within eps has one entry less than the
neighbourhood. -/
theorem table_length (ht : IsTable n within nb) (i : Nat) (l : List Nat) (hl : nb[i]? = some l) :
    ((List.range n).filter fun j => j == i || within i j).length = l.length + 1 := by
  have hi : i < n := by rw [← ht.size]; exact (List.getElem?_eq_some_iff.mp hl).1
  have hp : ((List.range n).filter fun j => j == i || within i j).Perm (i :: l) := by
    refine (List.perm_ext_iff_of_nodup (List.nodup_range.filter _) ?_).mpr ?_
    · refine List.nodup_cons.mpr ⟨?_, ht.once i l hl⟩
      intro h; exact ((ht.mem i l hl i).mp h).2.1 rfl
    · intro j
      simp only [List.mem_filter, List.mem_range, Bool.or_eq_true, beq_iff_eq, List.mem_cons, ht.mem i l hl j]
      grind
  rw [hp.length_eq]; rfl

/-- The core flags are right. -/
theorem coreFlags_spec (ht : IsTable n within nb) (minSamples : Int) (i : Nat) :
    Core n within minSamples i ↔ (coreFlags nb minSamples)[i]? = some true := by
  unfold Core coreFlags
  rw [List.getElem?_map]
  cases hl : nb[i]? with
  | none =>
    have := List.getElem?_eq_none_iff.mp hl
    simp; intro h; have := ht.size; omega
  | some l =>
    have hi : i < n := by rw [← ht.size]; exact (List.getElem?_eq_some_iff.mp hl).1
    rw [table_length ht i l hl]
    simp [hi]
    omega

/-- Neighbours as a relation. -/
def Adj (n : Nat) (within : Nat → Nat → Bool) (a b : Nat) : Prop := a < n ∧ b < n ∧ b ≠ a ∧ within a b = true

theorem adj_spec (ht : IsTable n within nb) (i : Nat) (l : List Nat) (hl : nb[i]? = some l) (j : Nat) :
    Adj n within i j ↔ j ∈ l := by
  have hi : i < n := by rw [← ht.size]; exact (List.getElem?_eq_some_iff.mp hl).1
  rw [ht.mem i l hl]; simp [Adj, hi]
end

/-- C33, full statement: whatever the number of threads and the schedule, a completed clustering
of a neighbour table is a DBSCAN clustering. -/
def C33_statement : Prop :=
  ∀ (method : Option Bool) (threads : Nat) (schedule : List Nat) (n : Nat) (within : Nat → Nat → Bool)
    (nb : List (List Nat)) (minSamples : Int),
    (∀ i j, within i j = within j i) → IsTable n within nb →
    ∀ labels k nc flags, clusters method threads schedule n nb minSamples = some (labels, k, nc, flags) →
      IsClustering n within minSamples (fun i => labels.getD i (-1)) k

/-- C33 (with one thread, or when the serial method is requested).  For every symmetric distance
relation and its neighbour table, the clustering always completes, the labels are the
density-connected clusters, a border sample gets the smallest label among the clusters near it,
clusters are numbered by their first core sample, and the reported core samples are right.
Missing from the full statement: the parallel method, for which it is false. -/
theorem C33_serial_partial (method : Option Bool) (threads : Nat) (schedule : List Nat)
    (hserial : method = some false ∨ (method = none ∧ threads ≤ 1))
    (n : Nat) (within : Nat → Nat → Bool) (nb : List (List Nat)) (minSamples : Int)
    (sym : ∀ i j, within i j = within j i) (ht : IsTable n within nb) :
    ∃ labels k nc flags, clusters method threads schedule n nb minSamples = some (labels, k, nc, flags) ∧
      labels.length = n ∧
      IsClustering n within minSamples (fun i => labels.getD i (-1)) k ∧
      (∀ i j, i < n → Core n within minSamples j → within j i = true → i ≠ j →
        labels.getD i (-1) ≤ labels.getD j (-1)) ∧
      (∀ i, Core n within minSamples i → (∀ j, j < i → Core n within minSamples j → ¬ Linked n within minSamples i j) →
        ∀ j, j < i → Core n within minSamples j → labels.getD j (-1) < labels.getD i (-1)) ∧
      (∀ i, flags[i]? = some true ↔ Core n within minSamples i) ∧ flags.length = n ∧
      nc = flags.countP id := by
  have hfl : (coreFlags nb minSamples).length = n := by simp [coreFlags, ht.size]
  have hcn : ∀ i, Core n within minSamples i → i < n := fun i h => h.1
  obtain ⟨out, k, h1, h2, h3⟩ := serial_spec (n := n) (nb := nb) (core := coreFlags nb minSamples)
    (C := Core n within minSamples) (adj := Adj n within) ht.size hfl (coreFlags_spec ht minSamples)
    (adj_spec ht) (fun a b h => h.2.1) (fun a b ⟨x, y, z, w⟩ => ⟨y, x, z.symm, by rw [sym]; exact w⟩)
  have hlab : ∀ i, out.getD i (-1) = lab out i := fun _ => rfl
  have hlink : ∀ i j, Linked n within minSamples i j → Core n within minSamples i →
      Lk (Core n within minSamples) (Adj n within) i j := by
    intro i j h _
    induction h with
    | refl => exact .refl
    | tail h1 h2 ih =>
      rename_i b c
      by_cases hbc : c = b
      · subst hbc; exact ih
      · exact ih.tail ⟨h2.1, h2.2.1, h2.1.1, h2.2.1.1, hbc, h2.2.2⟩
  have hlink' : ∀ i j, Lk (Core n within minSamples) (Adj n within) i j → Linked n within minSamples i j := by
    intro i j h
    induction h with
    | refl => exact .refl
    | tail _ h2 ih => exact ih.tail ⟨h2.1, h2.2.1, h2.2.2.2.2.2⟩
  have hcore : ∀ i, Core n within minSamples i → 0 ≤ lab out i ∧ lab out i < k := by
    intro i hi
    rcases h3.range i hi.1 with h | h | h
    · exact absurd h (h3.seen i hi.1)
    · exact absurd hi (h3.noiseNot i hi.1 h)
    · exact h
  have hsame : ∀ i j, Core n within minSamples i → Linked n within minSamples i j → lab out i = lab out j := by
    intro i j hi h
    induction hlink i j h hi with
    | refl => rfl
    | tail h1 h2 ih =>
      rw [ih (hlink' _ _ h1)]
      obtain ⟨_, _, h⟩ := h3.closed _ _ h2.1 (hcore _ h2.1).1 h2.2.2
      exact (h h2.2.1).symm
  refine ⟨out, k, _, _, ?_, h2, ⟨hcore, ?_, ?_, ?_, ?_⟩, ?_, ?_, fun i => (coreFlags_spec ht minSamples i).symm, hfl, rfl⟩
  · unfold clusters
    rcases hserial with rfl | ⟨rfl, h⟩
    · simp [h1]
    · have : ¬ threads > 1 := by omega
      simp [this, h1]
  · intro i j hi hj
    refine ⟨fun h => hlink' _ _ (h3.linked i j hi hj (hcore i hi).1 h), hsame i j hi⟩
  · rintro i hi hni ⟨j, hj, hji⟩
    have hne : i ≠ j := by rintro rfl; exact hni hj
    have h0 := (h3.closed j i hj (hcore j hj).1 ⟨hj.1, hi, hne, hji⟩).1
    obtain ⟨u, hu, ha, he⟩ := h3.border i hi hni h0
    exact ⟨u, hu, ha.2.2.2, he.symm⟩
  · intro i hi hni hno
    rcases h3.range i hi with h | h | h
    · exact absurd h (h3.seen i hi)
    · exact h
    · obtain ⟨u, hu, ha, he⟩ := h3.border i hi hni h.1
      exact absurd ⟨u, hu, ha.2.2.2⟩ hno
  · intro c hc
    obtain ⟨u, hu, he, _⟩ := h3.leader c hc
    exact ⟨u, hu, he⟩
  · intro i j hi hj hw hne
    exact (h3.closed j i hj (hcore j hj).1 ⟨hj.1, hi, hne, hw⟩).2.1
  · intro i hi hfirst j hj hcj
    obtain ⟨h0, hk⟩ := hcore i hi
    obtain ⟨u, hu, he, hlt⟩ := h3.leader (lab out i).toNat (by omega)
    have hlu : Linked n within minSamples i u := hlink' _ _ (h3.linked i u hi hu h0 (by omega))
    have hui : ¬ u < i := fun h => hfirst u h hu hlu
    have hiu : ¬ i < u := fun h => by have := hlt i hi h; omega
    have : u = i := by omega
    subst this
    have := hlt j hcj hj
    rw [hlab, hlab]; omega

/-- Six samples on a line with eps 1 (positions 0 1 2 5 6 7.5): one cluster of three samples with
a single core sample, and noise. -/
def exNb : List (List Nat) := [[1], [0, 2], [1], [4], [3], []]
def exWithin (i j : Nat) : Bool := (exNb.getD i []).contains j

example : IsTable 6 exWithin exNb ∧ ∀ i j, exWithin i j = exWithin j i := by
  have hb : ∀ i l, exNb[i]? = some l → i < 6 ∧ l = exNb.getD i [] := by
    intro i l h
    obtain ⟨h1, h2⟩ := List.getElem?_eq_some_iff.mp h
    exact ⟨h1, by simp [h]⟩
  have hz : ∀ i, 6 ≤ i → exNb.getD i [] = [] := by
    intro i h
    rw [List.getD_eq_getElem?_getD, List.getElem?_eq_none (by simpa [exNb] using h)]; rfl
  have hm : ∀ i < 6, ∀ x ∈ exNb.getD i [], x < 6 ∧ x ≠ i := by decide
  have hs : ∀ i < 6, ∀ j < 6, exWithin i j = exWithin j i := by decide
  refine ⟨⟨rfl, ?_, ?_⟩, ?_⟩
  · intro i l h j
    obtain ⟨h1, rfl⟩ := hb i l h
    constructor
    · intro hj; exact ⟨(hm i h1 j hj).1, (hm i h1 j hj).2, by simpa [exWithin] using hj⟩
    · intro hj; simpa [exWithin] using hj.2.2
  · intro i l h
    obtain ⟨h1, rfl⟩ := hb i l h
    have : ∀ i < 6, (exNb.getD i []).Nodup := by decide
    exact this i h1
  · have hout : ∀ i j, 6 ≤ i → exWithin i j = exWithin j i := by
      intro i j h
      have h1 : exWithin i j = false := by simp only [exWithin, hz i h]; rfl
      have h2 : exWithin j i = false := by
        simp only [exWithin]
        by_cases hj : j < 6
        · by_contra hc
          have := hm j hj i (by simpa using hc)
          omega
        · rw [hz j (by omega)]; rfl
      rw [h1, h2]
    intro i j
    by_cases hi : i < 6
    · by_cases hj : j < 6
      · exact hs i hi j hj
      · exact (hout j i (by omega)).symm
    · exact hout i j (by omega)

example : serial 6 exNb (coreFlags exNb 3) = some ([0, 0, 0, -1, -1, -1], 1) := by
  simp [serial, serialStep, expand, coreFlags, exNb, List.range, List.range.loop, unvisited, noise, List.replicate]

/-- Three samples on a line at 0, 2, 1 with eps 1; every sample is core for min samples 2. -/
def lineWithin (i j : Nat) : Bool := (i == 0 && j == 2) || (i == 1 && j == 2) || (i == 2 && j == 0) || (i == 2 && j == 1)

theorem lineTable : IsTable 3 lineWithin [[2], [2], [0, 1]] := by
  refine ⟨rfl, ?_, ?_⟩
  · intro i l h j
    match i with
    | 0 => simp at h; subst h; simp [lineWithin]; grind
    | 1 => simp at h; subst h; simp [lineWithin]; grind
    | 2 => simp at h; subst h; simp [lineWithin]; grind
    | i + 3 => simp at h
  · intro i l h
    match i with
    | 0 => simp at h; subst h; decide
    | 1 => simp at h; subst h; decide
    | 2 => simp at h; subst h; decide
    | i + 3 => simp at h

/-- All iterations one after the other: what the guided schedule with chunks of at least 64
iterations (line 318) does when there are at most 64 samples. -/
def inOrder (s : PState) : List Nat := (List.range s.tasks.length).flatMap fun t =>
  List.replicate ((s.tasks[t]?.map fun k => k.todo.length).getD 0) t

/-- The parallel method on the three samples, iterations in order: two clusters, although the
samples form one chain of core samples. -/
theorem parallel_line :
    parallel 3 [[2], [2], [0, 1]] (coreFlags [[2], [2], [0, 1]] 2)
      (inOrder (pInit 3 [[2], [2], [0, 1]] (coreFlags [[2], [2], [0, 1]] 2))) = some ([0, 1, 0], 2) := by decide

/-- C33.  The full statement is false: with two threads, samples at 0, 2, 1 on a line, eps 1 and
min samples 2 are reported as two clusters. -/
theorem C33_parallel_violated : ¬ C33_statement := by
  intro h
  have h := h none 2 (inOrder (pInit 3 [[2], [2], [0, 1]] (coreFlags [[2], [2], [0, 1]] 2))) 3 lineWithin
    [[2], [2], [0, 1]] 2 (by intro i j; simp only [lineWithin]; grind) lineTable [0, 1, 0] 2 3 [true, true, true]
    (by unfold clusters; simp only [show decide (2 > 1) = true from rfl, if_true, parallel_line]; rfl)
  have c : ∀ i, i < 3 → Core 3 lineWithin 2 i := by
    have : ∀ i < 3, (2 : Int) ≤ (((List.range 3).filter fun j => j == i || lineWithin i j).length : Int) := by decide
    exact fun i hi => ⟨hi, this i hi⟩
  have hl : Linked 3 lineWithin 2 0 1 :=
    .tail (.tail .refl ⟨c 0 (by omega), c 2 (by omega), rfl⟩) ⟨c 2 (by omega), c 1 (by omega), rfl⟩
  have := (h.same 0 1 (c 0 (by omega)) (c 1 (by omega))).mpr hl
  simp at this

/-- Two core samples 1 and 2 that share the border sample 0 only. -/
def bridgeNb : List (List Nat) := [[1, 2], [0, 3, 4], [0, 5, 6], [1], [1], [2], [2]]

/-- C33.  The parallel method also merges two clusters that merely share a border sample: with min
samples 4 only samples 1 and 2 are core, they are not neighbours, and yet all seven samples are
put in one cluster; the serial method keeps them apart. -/
theorem C33_parallel_merges_violated :
    coreFlags bridgeNb 4 = [false, true, true, false, false, false, false] ∧
    parallel 7 bridgeNb (coreFlags bridgeNb 4) (inOrder (pInit 7 bridgeNb (coreFlags bridgeNb 4))) =
      some ([0, 0, 0, 0, 0, 0, 0], 1) ∧
    serial 7 bridgeNb (coreFlags bridgeNb 4) = some ([0, 0, 1, 0, 0, 1, 1], 2) := by
  refine ⟨by decide, by decide, ?_⟩
  simp [serial, serialStep, expand, coreFlags, bridgeNb, List.range, List.range.loop, unvisited, noise, List.replicate]

/-- C33 (parallel method, what does hold in every interleaving of its threads).  Every complete run
ends without undefined behaviour; exactly the samples that are neither core nor near a core sample
are noise; the labels are 0 .. k-1, all used; and two samples with the same label are connected by
a chain of neighbours in which each link has a core end.  Missing: chains must consist of core
samples only, and connected core samples need not get the same label (both false).  Stores to
`duplicate_labels` are taken to be atomic. -/
theorem C33_parallel_partial (n : Nat) (within : Nat → Nat → Bool) (nb : List (List Nat)) (minSamples : Int)
    (ht : IsTable n within nb) (schedule : List Nat) (s : PState)
    (hrun : pRun (pInit n nb (coreFlags nb minSamples)) schedule = some s) :
    (∀ t k, s.tasks[t]? = some k → k.todo ≠ [] → (pStep s t).isSome) ∧
    (s.finished → ∃ labels k, parallel n nb (coreFlags nb minSamples) schedule = some (labels, k) ∧
      labels.length = n ∧
      (∀ x, x < n → (labels.getD x (-1) = -1 ↔ ¬ Core n within minSamples x ∧
        ¬ ∃ i, Core n within minSamples i ∧ x ≠ i ∧ within i x = true)) ∧
      (∀ x, x < n → labels.getD x (-1) = -1 ∨ (0 ≤ labels.getD x (-1) ∧ labels.getD x (-1) < k)) ∧
      (∀ c : Nat, c < k → ∃ x, x < n ∧ labels.getD x (-1) = c) ∧
      (∀ x y, x < n → y < n → labels.getD x (-1) ≠ -1 → labels.getD x (-1) = labels.getD y (-1) →
        Relation.EqvGen (fun a b => within a b = true ∧ a < n ∧ b < n ∧
          (Core n within minSamples a ∨ Core n within minSamples b)) x y)) := by
  have hinv : PInv n (Core n within minSamples) (Adj n within) s := by
    refine pRun_inv (pInit_inv ht.size (coreFlags_spec ht minSamples) (adj_spec ht) (fun a b h => h.2.1) ?_) hrun
    intro a h; exact h.2.2.1 rfl
  refine ⟨fun t k h1 h2 => pStep_defined hinv k h1 h2, ?_⟩
  intro hf
  obtain ⟨out, k, h1, h2, h3, h4, h5, h6⟩ := finish_spec hinv hf (fun i h => h.1)
  refine ⟨out, k, ?_, h2, ?_, h4, h5, ?_⟩
  · simp [parallel, hrun, hf, h1]
  · intro x hx
    have := h3 x hx
    unfold lab at this
    rw [this]
    simp only [Touch, Adj]
    constructor
    · intro h
      refine ⟨fun hc => h ⟨x, hc, .inl rfl⟩, ?_⟩
      rintro ⟨i, hi, hne, hw⟩
      exact h ⟨i, hi, .inr ⟨hi.1, hx, hne, hw⟩⟩
    · rintro ⟨h, h'⟩ ⟨i, hi, rfl | hw⟩
      · exact h hi
      · exact h' ⟨i, hi, hw.2.2.1, hw.2.2.2⟩
  · have hconn : ∀ x y, Conn (Core n within minSamples) (Adj n within) x y →
        Relation.EqvGen (fun a b => within a b = true ∧ a < n ∧ b < n ∧
          (Core n within minSamples a ∨ Core n within minSamples b)) x y := by
      intro x y h
      induction h with
      | rel a b h =>
        rcases h with ⟨hc, ha⟩ | ⟨hc, ha⟩
        · exact .rel _ _ ⟨ha.2.2.2, ha.1, ha.2.1, .inl hc⟩
        · exact .symm _ _ (.rel _ _ ⟨ha.2.2.2, ha.1, ha.2.1, .inl hc⟩)
      | refl a => exact .refl _
      | symm a b _ ih => exact .symm _ _ ih
      | trans a b c _ _ ih1 ih2 => exact .trans _ _ _ ih1 ih2
    intro x y hx hy hne he
    exact hconn x y (h6 x y hx hy hne he)

example : ∃ s, pRun (pInit 6 exNb (coreFlags exNb 3)) (inOrder (pInit 6 exNb (coreFlags exNb 3))) = some s ∧ s.finished := by
  refine ⟨_, rfl, ?_⟩
  decide

end Verif.Dbscan
