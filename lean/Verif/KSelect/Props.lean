/- Property C42: brute-force neighbour selection keeps the k nearest in order. -/
import Verif.KSelect.Proof
import Mathlib.Algebra.Order.Ring.Rat
set_option linter.unusedSectionVars false
namespace Verif.KSelect

variable {K : Type} [LinearOrder K]

/-! #### Specification -/

/-- Nearer first: smaller distances, or larger inner products. -/
def Nearer (inner : Bool) (a b : K) : Prop := match inner with | false => a ≤ b | true => b ≤ a

/-- `l` lists `k` nearest samples of `0 .. n-1` for the distances `dist`, each with its own
distance, nearest first; no sample left out is nearer than one in the list. -/
def IsKNearest (inner : Bool) (k n : Nat) (dist : Nat → K) (l : List (Nat × K)) : Prop :=
  l.length = k ∧ l.Pairwise (fun a b => Nearer inner a.2 b.2) ∧ (l.map (·.1)).Nodup ∧
  (∀ a ∈ l, a.1 < n ∧ a.2 = dist a.1) ∧ ∀ a ∈ l, ∀ i, i < n → i ∉ l.map (·.1) → Nearer inner a.2 (dist i)

/-- The loop iterations (test block, training block) for given data sizes. -/
def Iterations (trainMax nQueries nSamples : Nat) : List (Nat × Nat) :=
  let nTest := (nQueries + min 1024 nQueries - 1) / min 1024 nQueries
  let nTrain := (nSamples + min trainMax nSamples - 1) / min trainMax nSamples
  (List.range nTest).flatMap fun j => (List.range nTrain).map fun i => (j, i)

/-! #### Lemmas -/

theorem nearer_iff (inner : Bool) (a b : K) : Nearer inner a b ↔ le inner a b := by cases inner <;> simp [Nearer, le]

theorem scheme_ceil {n bs nb rem : Nat} (h : Blocking.blockingScheme n bs = some (nb, rem)) : nb = (n + bs - 1) / bs := by
  unfold Blocking.blockingScheme at h
  split at h
  · simp at h
  · rename_i hbs
    simp only [Option.some.injEq, Prod.mk.injEq] at h
    obtain ⟨h1, h2⟩ := h
    have hd := Nat.div_add_mod n bs
    have hm := Nat.mod_lt n (show bs > 0 by omega)
    have hcom : bs * (n / bs) = n / bs * bs := Nat.mul_comm _ _
    symm
    rw [Nat.div_eq_iff (by omega)]
    split at h1 <;> subst h1 <;> [rw [Nat.add_mul]; skip] <;> omega

theorem kbest_nearest {inner : Bool} {k n : Nat} {dist : Nat → K} {seen buf l : List (Nat × K)} (hb : KBest inner k seen buf) (hkn : k ≤ n)
    (hs : seen.Perm ((List.range n).map fun i => (i, dist i))) (hl : l.Perm buf) (hp : l.Pairwise fun a b => le inner a.2 b.2) :
    IsKNearest inner k n dist l := by
  obtain ⟨h1, rest, h2, h3⟩ := hb
  have h2' := h2.trans hs
  have hmem : ∀ a, a ∈ buf ∨ a ∈ rest ↔ a.1 < n ∧ a.2 = dist a.1 := by
    intro a
    rw [← List.mem_append, h2'.mem_iff]
    simp only [List.mem_map, List.mem_range]
    constructor
    · rintro ⟨i, hi, rfl⟩; exact ⟨hi, rfl⟩
    · rintro ⟨hi, he⟩; exact ⟨a.1, hi, by rw [← he]⟩
  have hnd : ((buf ++ rest).map (·.1)).Nodup := by
    rw [(h2'.map (·.1)).nodup_iff, List.map_map]
    have : ((fun x : Nat × K => x.1) ∘ fun i => (i, dist i)) = id := rfl
    rw [this, List.map_id]; exact List.nodup_range
  refine ⟨?_, ?_, ?_, ?_, ?_⟩
  · rw [hl.length_eq, h1, hs.length_eq, List.length_map, List.length_range]; omega
  · exact hp.imp fun h => (nearer_iff _ _ _).mpr h
  · rw [(hl.map (·.1)).nodup_iff]
    rw [List.map_append] at hnd
    exact hnd.of_append_left
  · intro a ha
    exact (hmem a).mp (Or.inl (hl.mem_iff.mp ha))
  · intro a ha i hi hni
    rw [nearer_iff]
    rcases (hmem (i, dist i)).mpr ⟨hi, rfl⟩ with h | h
    · exact absurd (List.mem_map.mpr ⟨_, hl.mem_iff.mpr h, rfl⟩) hni
    · exact h3 a (hl.mem_iff.mp ha) _ h

theorem seen_all {nQ n : Nat} (d : Nat → Nat → K) (pl : Plan)
    (h1 : Blocking.blockingScheme nQ pl.testBs = some (pl.testNb, pl.testRem))
    (h2 : Blocking.blockingScheme n pl.trainBs = some (pl.trainNb, pl.trainRem)) {q : Nat} (hq : q < nQ) :
    seenBy d pl ((List.range pl.testNb).flatMap fun j => (List.range pl.trainNb).map fun i => (j, i)) q =
      (List.range n).map fun i => (i, d q i) := by
  classical
  obtain ⟨j0, hj0, hin⟩ := inBlock_exists h1 hq
  have e : seenBy d pl ((List.range pl.testNb).flatMap fun j => (List.range pl.trainNb).map fun i => (j, i)) q =
      (List.range pl.testNb).flatMap fun j => if InBlock pl.testBs pl.testNb pl.testRem q j then
        ((List.range pl.trainNb).flatMap fun i => candidates d q pl.trainBs pl.trainNb pl.trainRem i) else [] := by
    unfold seenBy
    rw [List.flatMap_assoc]
    refine List.flatMap_congr fun j _ => ?_
    rw [List.flatMap_map]
    by_cases hj : InBlock pl.testBs pl.testNb pl.testRem q j
    · simp [hj]
    · simp [hj]
  rw [e, flatMap_unique _ _ _ List.nodup_range j0 (by simpa using hj0)
    (fun j => ⟨fun hj => inBlock_unique h1 hj hin, fun hj => hj ▸ hin⟩), ← blocks_cover h2, List.map_flatMap]
  simp only [candidates, List.map_map, Function.comp_def]

theorem seenBy_flatten (d : Nat → Nat → K) (pl : Plan) (threads : List (List (Nat × Nat))) (q : Nat) :
    (threads.flatMap fun w => seenBy d pl w q) = seenBy d pl threads.flatten q := by
  unfold seenBy
  induction threads with
  | nil => rfl
  | cons w ws ih => rw [List.flatMap_cons, ih, List.flatten_cons, List.flatMap_append]

theorem sortBuf_spec (inner : Bool) (k : Nat) (zero : K) (buf : List (Nat × K)) (h : k ≤ buf.length) :
    (sortBuf inner k zero buf).Perm buf ∧ (sortBuf inner k zero buf).Pairwise fun a b => le inner a.2 b.2 := by
  have e : k - buf.length = 0 := by omega
  unfold sortBuf
  rw [e, List.replicate_zero, List.append_nil]
  refine ⟨List.perm_insertionSort _ _, ?_⟩
  have : Std.Total fun a b : Nat × K => le inner a.2 b.2 := ⟨fun a b => by
    by_cases hc : le inner a.2 b.2
    · exact Or.inl hc
    · exact Or.inr (le_of_not hc)⟩
  have : IsTrans (Nat × K) fun a b => le inner a.2 b.2 := ⟨fun a b c => le_trans'⟩
  exact List.pairwise_insertionSort _ _

theorem mapM_range {α : Type} (n : Nat) (f : Nat → Option α) (P : Nat → α → Prop) (h : ∀ q, q < n → ∃ a, f q = some a ∧ P q a) :
    ∃ out, (List.range n).mapM f = some out ∧ out.length = n ∧ ∀ q, q < n → ∃ a, out[q]? = some a ∧ P q a := by
  induction n with
  | zero => exact ⟨[], rfl, rfl, by simp⟩
  | succ n ih =>
    obtain ⟨out, e1, e2, e3⟩ := ih fun q hq => h q (by omega)
    obtain ⟨a, ha1, ha2⟩ := h n (by omega)
    refine ⟨out ++ [a], ?_, by simp [e2], ?_⟩
    · rw [List.range_succ, List.mapM_append, e1]
      simp [ha1]
    · intro q hq
      rcases Nat.lt_or_ge q n with h1 | h1
      · obtain ⟨b, hb1, hb2⟩ := e3 q h1
        exact ⟨b, by rw [List.getElem?_append_left (by omega)]; exact hb1, hb2⟩
      · have : q = n := by omega
        subst this
        exact ⟨a, by rw [List.getElem?_append_right (by omega)]; simp [e2], ha2⟩

/-! #### Theorems -/

/-- **C42.** For all data sizes, distances (with ties), numbers of neighbours `1 ≤ k ≤ n_samples`, vector
widths and training block limits, and for every distribution of the loop iterations over any positive
number of threads in any order: the search has no undefined behaviour and lists for every query
`k` nearest samples with their own indices and distances, nearest first. -/
theorem C42_brute_force (inner : Bool) (V trainMax k : Nat) (zero : K) (d : Nat → Nat → K) (nQueries nSamples : Nat)
    (threads : List (List (Nat × Nat))) (hk : 0 < k) (hkn : k ≤ nSamples) (hq : 0 < nQueries) (hm : 0 < trainMax)
    (ht : threads ≠ []) (hw : threads.flatten.Perm (Iterations trainMax nQueries nSamples)) :
    ∃ out, brute inner V trainMax k zero d nQueries nSamples threads = some out ∧ out.length = nQueries ∧
      ∀ q, q < nQueries → ∃ l, out[q]? = some l ∧ IsKNearest inner k nSamples (d q) l := by
  have e1 : ∃ tn tr, Blocking.blockingScheme nQueries (min 1024 nQueries) = some (tn, tr) := by
    unfold Blocking.blockingScheme; rw [if_neg (by omega)]; exact ⟨_, _, rfl⟩
  have e2 : ∃ rn rr, Blocking.blockingScheme nSamples (min trainMax nSamples) = some (rn, rr) := by
    unfold Blocking.blockingScheme; rw [if_neg (by omega)]; exact ⟨_, _, rfl⟩
  obtain ⟨tn, tr, e1⟩ := e1
  obtain ⟨rn, rr, e2⟩ := e2
  have hpl : plan trainMax nQueries nSamples = some ⟨min 1024 nQueries, tn, tr, min trainMax nSamples, rn, rr⟩ := by
    simp only [plan, e1, e2]
  generalize hpe : (⟨min 1024 nQueries, tn, tr, min trainMax nSamples, rn, rr⟩ : Plan) = pl at hpl
  have g1 : Blocking.blockingScheme nQueries pl.testBs = some (pl.testNb, pl.testRem) := by rw [← hpe]; exact e1
  have g2 : Blocking.blockingScheme nSamples pl.trainBs = some (pl.trainNb, pl.trainRem) := by rw [← hpe]; exact e2
  have g3 : 0 < pl.testBs := by rw [← hpe]; show 0 < min 1024 nQueries; omega
  have g4 : Iterations trainMax nQueries nSamples = (List.range pl.testNb).flatMap fun j => (List.range pl.trainNb).map fun i => (j, i) := by
    rw [← hpe]
    simp only [Iterations]
    rw [← scheme_ceil e1, ← scheme_ceil e2]
  rw [g4] at hw
  obtain ⟨sts, s1, s2⟩ := threads_spec inner V hk d pl g1 g3 threads (by
    intro w hwm ji hji
    have : ji ∈ threads.flatten := List.mem_flatten.mpr ⟨w, hwm, hji⟩
    rw [hw.mem_iff] at this
    simp only [List.mem_flatMap, List.mem_map, List.mem_range] at this
    obtain ⟨j, hj, i, _, rfl⟩ := this
    exact hj)
  unfold brute
  simp only [hpl, s1]
  cases s2 with
  | nil => exact absurd rfl ht
  | cons h0 hrest =>
    rename_i w0 t0 ws rest
    simp only
    refine mapM_range nQueries _ _ fun q hq => ?_
    obtain ⟨b0, hb1, hb2⟩ := h0.2 q hq
    obtain ⟨others, buf', m1, m2, m3⟩ := merges_spec inner hk hq d pl ws rest b0 _ hrest hb2
    have hseen : (seenBy d pl w0 q ++ ws.flatMap fun w => seenBy d pl w q).Perm ((List.range nSamples).map fun i => (i, d q i)) := by
      have : (seenBy d pl w0 q ++ ws.flatMap fun w => seenBy d pl w q) = seenBy d pl (w0 :: ws).flatten q := by
        rw [← seenBy_flatten, List.flatMap_cons]
      rw [this, ← seen_all d pl g1 g2 hq]
      unfold seenBy
      exact hw.flatMap_right _
    have hlen : buf'.length = k := by
      rw [m3.1, hseen.length_eq, List.length_map, List.length_range]; omega
    obtain ⟨p1, p2⟩ := sortBuf_spec inner k zero buf' (by omega)
    refine ⟨sortBuf inner k zero buf', ?_, kbest_nearest m3 hkn hseen p1 p2⟩
    simp [hb1, m1, m2]

/-- **C42**, the selection kernel alone: whatever the vector width, it keeps the best `k` of the
buffer and the scanned values. -/
theorem C42_kernel (inner : Bool) (V k : Nat) (buf cs : List (Nat × K)) (hk : 0 < k) (hb : buf.length = k) :
    ∃ buf' rest, vecKernel inner V buf cs = some buf' ∧ buf'.length = k ∧ (buf' ++ rest).Perm (buf ++ cs) ∧
      ∀ a ∈ buf', ∀ b ∈ rest, Nearer inner a.2 b.2 := by
  have h0 : KBest inner k buf buf := ⟨by omega, [], by simp, by simp⟩
  obtain ⟨buf', h1, h2, rest, h3, h4⟩ := blockUpdate_spec inner V hk h0 cs
  cases cs with
  | nil =>
    obtain ⟨s, e1, e2, _⟩ := topOf_spec inner (buf := buf) (by intro h; rw [h] at hb; simp at hb; omega)
    refine ⟨buf, [], ?_, hb, by simp, by simp⟩
    unfold vecKernel
    rw [e1]
    simp only
    rw [vecLoop, dif_neg (by simp; omega)]
    simp [e2]
  | cons c cs =>
    unfold blockUpdate at h1
    simp only [hb, Nat.sub_self, List.take_zero, List.append_nil, List.drop_zero, List.length_cons] at h1
    rw [if_pos (by omega)] at h1
    refine ⟨buf', rest, h1, ?_, h3, fun a ha b hb => (nearer_iff _ _ _).mpr (h4 a ha b hb)⟩
    rw [h2, List.length_append]; omega

/-- Three queries over two training blocks of two samples, two threads, ties. -/
example : brute (K := ℚ) false 2 2 2 0 (fun q i => if i = q then 0 else 1) 3 4 [[(0, 1)], [(0, 0)]] =
    some [[(0, 0), (1, 1)], [(1, 0), (3, 1)], [(2, 0), (1, 1)]] := by decide +kernel

example : ([[(0, 1)], [(0, 0)]] : List (List (Nat × Nat))).flatten.Perm (Iterations 2 3 4) := by decide

end Verif.KSelect
