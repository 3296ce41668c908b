import Mathlib.Algebra.BigOperators.Ring.List
import Verif.Cov.SyrkProof

/-
The parallel loop of the blocked product, and the whole function.
-/
namespace Verif.Cov

set_option linter.unusedSectionVars false

open Moments (M Fault rd wr forUp Order ok_bind rd_ok wr_ok forUp_zero forUp_succ)
open Finset

variable {K : Type} [CommRing K] [DecidableEq K]

/-- What OpenMP promises of `schedule(static)`: every block is run once, by a thread of the
team, the first block by thread 0, and the blocks of each thread in increasing order.  Blocks
of different threads may be run in any order. -/
structure SyrkEnv.Ok (e : SyrkEnv) : Prop where
  threads : 0 < e.maxThreads
  override : e.override ≠ some 0
  perm : ∀ nt nb, 0 < nt → 0 < nb → (e.seq nt nb).Perm (List.range nb)
  owner : ∀ nt nb, 0 < nt → 0 < nb → ∀ b < nb, e.owner nt nb b < nt
  first : ∀ nt nb, 0 < nt → 0 < nb → e.owner nt nb 0 = 0
  mono : ∀ nt nb, 0 < nt → 0 < nb →
    (e.seq nt nb).Pairwise fun a b => e.owner nt nb a = e.owner nt nb b → a < b

/-- The part of a sum that the blocks in `d` of thread `t` give. -/
def part (owner : Nat → Nat) (f : Nat → K) (t : Nat) (d : List Nat) : K :=
  ((d.filter fun b => owner b = t).map f).sum

theorem part_snoc (owner : Nat → Nat) (f : Nat → K) (t : Nat) (d : List Nat) (b : Nat) :
    part owner f t (d ++ [b]) = part owner f t d + if owner b = t then f b else 0 := by
  unfold part
  rw [List.filter_append, List.map_append, List.sum_append]
  by_cases h : owner b = t <;> simp [h]

theorem part_none (owner : Nat → Nat) (f : Nat → K) (t : Nat) (d : List Nat)
    (h : ∀ b ∈ d, owner b ≠ t) : part owner f t d = 0 := by
  unfold part
  rw [List.filter_eq_nil_iff.2 (by simpa using h)]
  rfl

theorem part_sum (owner : Nat → Nat) (f : Nat → K) (nt : Nat) (d : List Nat)
    (h : ∀ b ∈ d, owner b < nt) : ∑ t ∈ range nt, part owner f t d = (d.map f).sum := by
  induction d using List.reverseRecOn with
  | nil => simp [part]
  | append_singleton d b ih =>
    simp only [part_snoc]
    rw [sum_add_distrib, ih (fun b hb => h b (by simp [hb])), List.map_append, List.sum_append,
      sum_ite_eq, if_pos (mem_range.2 (h b (by simp)))]
    simp

theorem sum_flat (f : Nat → K) (L : List (Nat × Nat)) :
    ((L.flatMap fun b => List.range' b.1 b.2).map f).sum =
      (L.map fun b => ∑ l ∈ range b.2, f (b.1 + l)).sum := by
  induction L with
  | nil => rfl
  | cons b L ih =>
    rw [List.flatMap_cons, List.map_append, List.sum_append, ih, List.map_cons, List.sum_cons]
    congr 1
    rw [List.range'_eq_map_range, List.map_map, ← List.sum_toFinset _ List.nodup_range]
    simp [List.toFinset_range]

theorem range_sum (f : Nat → K) (k : Nat) : ((List.range k).map f).sum = ∑ l ∈ range k, f l := by
  rw [← List.sum_toFinset _ List.nodup_range, List.toFinset_range]

theorem opCell_block (order : Order) (trans : Trans) (ldA bs i b l : Nat) :
    b * blockOffset order trans ldA bs + opCell order trans ldA i l =
      opCell order trans ldA i (b * bs + l) := by
  cases order <;> cases trans <;> simp only [blockOffset, opCell, cell] <;> ring

/-- The state of the parallel loop after the blocks in `d`. -/
structure Inv (order : Order) (uplo : Uplo) (n : Nat) (alpha beta : K) (C : List K) (ldC nb bs nt : Nat)
    (owner : Nat → Nat) (blk : Nat → Nat → Nat → K) (c : Nat → Nat → K) (d : List Nat)
    (s : SyrkSt K) : Prop where
  len : s.C.length = C.length
  tmpLen : s.tmp.length = (nt - 1) * n * n
  count : ∀ t, s.count t = 0 ↔ ∀ b ∈ d, owner b ≠ t
  size : ∀ t, (nb - 1 ∈ d → owner (nb - 1) ≠ t) → s.size t = bs
  ld : ∀ t, t ≠ 0 → s.ld t = n
  main : ∀ i < n, ∀ j < n, InTri uplo i j → s.C[cell order ldC i j]? =
    some (if s.count 0 = 0 then c i j
      else alpha * part owner (fun b => blk b i j) 0 d + beta * c i j)
  rest : ∀ q, (∀ i < n, ∀ j < n, InTri uplo i j → q ≠ cell order ldC i j) → s.C[q]? = C[q]?
  tmp : ∀ t < nt - 1, ∀ i < n, ∀ j < n, InTri uplo i j →
    s.tmp[t * n * n + cell order n i j]? =
      some (alpha * part owner (fun b => blk b i j) (t + 1) d)

theorem region {n t t' a b : Nat} (ha : a < n * n) (hb : b < n * n) (h : t ≠ t') :
    t * n * n + a ≠ t' * n * n + b := by
  intro he
  rw [Nat.mul_assoc, Nat.mul_assoc] at he
  rcases Nat.lt_or_gt_of_ne h with h | h
  · have : (t + 1) * (n * n) ≤ t' * (n * n) := Nat.mul_le_mul_right _ h
    rw [Nat.add_mul] at this
    omega
  · have : (t' + 1) * (n * n) ≤ t * (n * n) := Nat.mul_le_mul_right _ h
    rw [Nat.add_mul] at this
    omega

/-- One block. -/
theorem step_inv (order : Order) (uplo : Uplo) (trans : Trans) (n : Nat) (alpha : K) (A : List K)
    (ldA : Nat) (beta : K) (C : List K) (ldC k nb bs fin nt : Nat) (owner : Nat → Nat)
    (a c : Nat → Nat → K) (blk : Nat → Nat → Nat → K) (d : List Nat) (s : SyrkSt K) (b : Nat)
    (hld : n ≤ ldC) (ha : ∀ i < n, ∀ l < k, A[opCell order trans ldA i l]? = some (a i l))
    (hblk : ∀ b i j, blk b i j =
      ∑ l ∈ range (if b = nb - 1 then fin else bs), a i (b * bs + l) * a j (b * bs + l))
    (hsz : ∀ b < nb, b * bs + (if b = nb - 1 then fin else bs) ≤ k)
    (hb : b < nb) (hown : owner b < nt)
    (hlast : nb - 1 ∈ d → owner (nb - 1) ≠ owner b)
    (h : Inv order uplo n alpha beta C ldC nb bs nt owner blk c d s) :
    ∃ s', syrkStep order uplo trans n alpha A ldA beta ldC nb fin (blockOffset order trans ldA bs)
        (owner b) b s = .ok s' ∧
      Inv order uplo n alpha beta C ldC nb bs nt owner blk c (d ++ [b]) s' := by
  obtain ⟨t, ht⟩ : ∃ t, t = owner b := ⟨_, rfl⟩
  rw [← ht] at hown hlast ⊢
  obtain ⟨size, hsize⟩ : ∃ size, size = (if b = nb - 1 then Function.update s.size t fin
    else s.size) := ⟨_, rfl⟩
  have hst : size t = if b = nb - 1 then fin else bs := by
    rw [hsize]
    by_cases e : b = nb - 1
    · rw [if_pos e, if_pos e, Function.update_self]
    · rw [if_neg e, if_neg e]; exact h.size t hlast
  have hA : ∀ i < n, ∀ l < size t, A[b * blockOffset order trans ldA bs +
      opCell order trans ldA i l]? = some (a i (b * bs + l)) := by
    intro i hi l hl
    rw [opCell_block]
    apply ha i hi
    have := hsz b hb
    rw [← hst] at this
    omega
  have hsum : ∀ i j, ∑ l ∈ range (size t), a i (b * bs + l) * a j (b * bs + l) = blk b i j := by
    intro i j; rw [hblk, hst]
  have hcount : ∀ t', Function.update s.count t (s.count t + 1) t' = 0 ↔
      ∀ b' ∈ d ++ [b], owner b' ≠ t' := by
    intro t'
    by_cases e : t' = t
    · subst e
      rw [Function.update_self]
      constructor
      · intro h0; omega
      · intro h0; exact absurd ht.symm (h0 b (by simp))
    · rw [Function.update_of_ne e, h.count]
      constructor
      · intro h0 b' hb'
        rcases List.mem_append.1 hb' with h1 | h1
        · exact h0 b' h1
        · rw [List.mem_singleton.1 h1, ← ht]; exact fun h => e h.symm
      · intro h0 b' hb'; exact h0 b' (by simp [hb'])
  have hsize' : ∀ t', (nb - 1 ∈ d ++ [b] → owner (nb - 1) ≠ t') → size t' = bs := by
    intro t' h0
    rw [hsize]
    by_cases e : b = nb - 1
    · have hne : t' ≠ t := by
        intro h1
        apply h0 (by simp [e])
        rw [← e, ← ht, h1]
      rw [if_pos e, Function.update_of_ne hne]
      exact h.size t' (fun h1 => h0 (by simp [h1]))
    · rw [if_neg e]
      exact h.size t' (fun h1 => h0 (by simp [h1]))
  by_cases h0 : t = 0
  · -- thread 0 works on `C`
    obtain ⟨C', g1, g2, g3, g4⟩ := blasSyrk_ok order uplo trans n (size t) alpha A
      (b * blockOffset order trans ldA bs) ldA (if s.count t = 0 then beta else 1) s.C 0 ldC
      (fun i l => a i (b * bs + l)) _ hld hA
      (by intro i hi j hj hin; rw [Nat.zero_add]; exact h.main i hi j hj hin)
    refine ⟨⟨C', s.tmp, Function.update s.count t (s.count t + 1), size,
      Function.update s.ld t ldC⟩, ?_, ?_⟩
    · unfold syrkStep
      simp only
      rw [if_pos h0, ← hsize, Function.update_self, g1, ok_bind]
    · refine ⟨by rw [g2, h.len], h.tmpLen, hcount, hsize', ?_, ?_, ?_, ?_⟩
      · intro t' ht'
        simp only
        rw [Function.update_of_ne (by rw [h0]; exact ht')]
        exact h.ld t' ht'
      · intro i hi j hj hin
        have := g3 i hi j hj hin
        rw [Nat.zero_add, hsum] at this
        simp only
        have hne : Function.update s.count t (s.count t + 1) 0 ≠ 0 := by
          rw [h0, Function.update_self]; omega
        rw [this, if_neg hne, part_snoc, if_pos (show owner b = 0 by omega)]
        congr 1
        rw [h0]
        by_cases hc0 : s.count 0 = 0
        · rw [if_pos hc0, if_pos hc0, part_none owner _ 0 d ((h.count 0).1 hc0)]
          ring
        · rw [if_neg hc0, if_neg hc0]
          ring
      · intro q hq
        simp only
        rw [g4 q (by intro i hi j hj hin; rw [Nat.zero_add]; exact hq i hi j hj hin), h.rest q hq]
      · intro t' ht' i hi j hj hin
        simp only
        rw [h.tmp t' ht' i hi j hj hin, part_snoc, if_neg (by omega), add_zero]
  · -- another thread works on its own temporary block
    have htm : t - 1 < nt - 1 := by omega
    obtain ⟨T, g1, g2, g3, g4⟩ := blasSyrk_ok order uplo trans n (size t) alpha A
      (b * blockOffset order trans ldA bs) ldA (if s.count t = 0 then 0 else 1) s.tmp
      ((t - 1) * n * n) n (fun i l => a i (b * bs + l)) _ (Nat.le_refl n) hA
      (h.tmp (t - 1) htm)
    refine ⟨⟨s.C, T, Function.update s.count t (s.count t + 1), size, s.ld⟩, ?_, ?_⟩
    · unfold syrkStep
      simp only
      rw [if_neg h0, ← hsize, h.ld t h0, g1, ok_bind]
    · refine ⟨h.len, by rw [g2, h.tmpLen], hcount, hsize', h.ld, ?_, h.rest, ?_⟩
      · intro i hi j hj hin
        simp only
        have he : Function.update s.count t (s.count t + 1) 0 = s.count 0 :=
          Function.update_of_ne (fun h1 => h0 h1.symm) _ _
        rw [h.main i hi j hj hin, part_snoc, if_neg (show ¬ owner b = 0 by omega), add_zero]
        by_cases hc0 : s.count 0 = 0
        · rw [if_pos hc0, if_pos (he.trans hc0)]
        · rw [if_neg hc0, if_neg (by rw [he]; exact hc0)]
      · intro t' ht' i hi j hj hin
        simp only
        by_cases e : t' = t - 1
        · subst e
          have h1 : t - 1 + 1 = t := by omega
          rw [g3 i hi j hj hin, hsum, part_snoc, h1, if_pos ht.symm]
          congr 1
          by_cases hc0 : s.count t = 0
          · rw [if_pos hc0, part_none owner _ t d ((h.count t).1 hc0)]
            ring
          · rw [if_neg hc0]
            ring
        · rw [g4 _ (by
            intro i' hi' j' hj' _
            exact region (cell_lt hi hj) (cell_lt hi' hj') e), h.tmp t' ht' i hi j hj hin,
            part_snoc, if_neg (by omega), add_zero]

/-- All blocks. -/
theorem loop_inv (order : Order) (uplo : Uplo) (trans : Trans) (n : Nat) (alpha : K) (A : List K)
    (ldA : Nat) (beta : K) (C : List K) (ldC k nb bs fin nt : Nat) (owner : Nat → Nat)
    (a c : Nat → Nat → K) (blk : Nat → Nat → Nat → K)
    (hld : n ≤ ldC) (ha : ∀ i < n, ∀ l < k, A[opCell order trans ldA i l]? = some (a i l))
    (hblk : ∀ b i j, blk b i j =
      ∑ l ∈ range (if b = nb - 1 then fin else bs), a i (b * bs + l) * a j (b * bs + l))
    (hsz : ∀ b < nb, b * bs + (if b = nb - 1 then fin else bs) ≤ k)
    (rest : List Nat) : ∀ (d : List Nat) (s : SyrkSt K),
    (∀ b ∈ d ++ rest, b < nb ∧ owner b < nt) →
    (d ++ rest).Pairwise (fun a b => owner a = owner b → a < b) →
    Inv order uplo n alpha beta C ldC nb bs nt owner blk c d s →
    ∃ s', rest.foldlM (fun s i => syrkStep order uplo trans n alpha A ldA beta ldC nb fin
        (blockOffset order trans ldA bs) (owner i) i s) s = .ok s' ∧
      Inv order uplo n alpha beta C ldC nb bs nt owner blk c (d ++ rest) s' := by
  induction rest with
  | nil => intro d s _ _ h; exact ⟨s, rfl, by simpa using h⟩
  | cons b rest ih =>
    intro d s hm hp h
    have hb := hm b (by simp)
    obtain ⟨s1, h1, h2⟩ := step_inv order uplo trans n alpha A ldA beta C ldC k nb bs fin nt owner
      a c blk d s b hld ha hblk hsz hb.1 hb.2 (by
        intro h3 h4
        have := (List.pairwise_append.1 hp).2.2 _ h3 b (by simp) h4
        omega) h
    obtain ⟨s2, h3, h4⟩ := ih (d ++ [b]) s1 (by simpa using hm) (by simpa using hp) h2
    refine ⟨s2, ?_, by simpa using h4⟩
    rw [List.foldlM_cons, h1, ok_bind, h3]

/-- The blocking covers the whole of `0 .. k - 1`. -/
theorem syrkPlan_ok (e : SyrkEnv) (he : e.Ok) (n k : Nat) (hn : 0 < n) :
    ∃ nb bs fin, syrkPlan e n k = .ok (nb, bs, fin) ∧
      (nb = 1 ∨ (0 < nb ∧ Blocking.Tiles k (Blocking.tallBlocks nb bs fin))) := by
  unfold syrkPlan
  rw [if_neg (by omega)]
  simp only
  obtain ⟨mb, hmb⟩ : ∃ mb, mb = syrkMax e n k := ⟨_, rfl⟩
  have hmb0 : 0 < mb := by
    rw [hmb]
    unfold syrkMax
    split
    · omega
    · omega
  rw [← hmb]
  by_cases h1 : k ≤ n ∨ mb = 1
  · rw [if_pos h1]; exact ⟨_, _, _, rfl, Or.inl rfl⟩
  · rw [if_neg h1]
    have hmin : 0 < e.override.getD 2048 := by
      cases ho : e.override with
      | none => decide
      | some v =>
        have : v ≠ 0 := by intro h; apply he.override; rw [ho, h]
        simp only [Option.getD_some]
        omega
    obtain ⟨nb, bs, fin, h2, h3, _⟩ := Blocking.C38_tall_skinny_tiles k (e.override.getD 2048) mb n
      (by omega) hmin hmb0 hn
    rw [h2]
    simp only
    by_cases h6 : (nb < (if e.nested = true then 1 else e.maxThreads) - 1 ∨ nb = 1) ∧
        e.override = none
    · rw [if_pos h6]; exact ⟨_, _, _, rfl, Or.inl rfl⟩
    · rw [if_neg h6]
      refine ⟨_, _, _, rfl, Or.inr ⟨?_, h3⟩⟩
      rcases Nat.eq_zero_or_pos nb with h4 | h4
      · subst h4
        have := h3.1
        simp only [Blocking.tallBlocks, List.range_zero, List.map_nil, List.flatMap_nil] at this
        have h5 : (List.range k).length = 0 := by rw [← this]; rfl
        rw [List.length_range] at h5
        omega
      · exact h4

theorem tiles_le {k nb bs fin : Nat} (h : Blocking.Tiles k (Blocking.tallBlocks nb bs fin)) :
    ∀ b < nb, b * bs + (if b = nb - 1 then fin else bs) ≤ k := by
  intro b hb
  have hm : (b * bs, if b = nb - 1 then fin else bs) ∈ Blocking.tallBlocks nb bs fin :=
    List.mem_map.2 ⟨b, List.mem_range.2 hb, rfl⟩
  have hp := h.2 _ hm
  have : b * bs + (if b = nb - 1 then fin else bs) - 1 ∈ List.range k := by
    rw [← h.1, List.mem_flatMap]
    refine ⟨_, hm, ?_⟩
    rw [List.mem_range'_1]
    simp only at hp ⊢
    omega
  have := List.mem_range.1 this
  simp only at hp
  omega

/-- `da_syrk`: the triangle gets the product, and nothing else is written. -/
theorem daSyrk_ok (e : SyrkEnv) (he : e.Ok) (halloc : e.alloc = true) (order : Order) (uplo : Uplo)
    (trans : Trans) {n k : Nat} (alpha : K) (A : List K) (ldA : Nat) (beta : K) (C : List K)
    {ldC : Nat} (a c : Nat → Nat → K) (hn : 0 < n) (hld : n ≤ ldC)
    (ha : ∀ i < n, ∀ l < k, A[opCell order trans ldA i l]? = some (a i l))
    (hc : ∀ i < n, ∀ j < n, InTri uplo i j → C[cell order ldC i j]? = some (c i j)) :
    ∃ C', daSyrk e order uplo trans n k alpha A ldA beta C ldC = .ok (true, C') ∧
      C'.length = C.length ∧
      (∀ i < n, ∀ j < n, InTri uplo i j → C'[cell order ldC i j]? =
        some (alpha * ∑ l ∈ range k, a i l * a j l + beta * c i j)) ∧
      ∀ q, (∀ i < n, ∀ j < n, InTri uplo i j → q ≠ cell order ldC i j) → C'[q]? = C[q]? := by
  unfold daSyrk
  by_cases hq : alpha = 0 ∧ beta = 1
  · rw [if_pos hq]
    refine ⟨C, rfl, rfl, ?_, fun _ _ => rfl⟩
    intro i hi j hj hin
    rw [hc i hi j hj hin, hq.1, hq.2]; simp
  rw [if_neg hq]
  obtain ⟨nb, bs, fin, hp, hcov⟩ := syrkPlan_ok e he n k hn
  rw [hp, ok_bind]
  simp only
  by_cases h1 : nb = 1
  · rw [if_pos h1]
    obtain ⟨C', g1, g2, g3, g4⟩ := blasSyrk_ok order uplo trans n k alpha A 0 ldA beta C 0 ldC a c
      hld (by simpa using ha) (by simpa using hc)
    refine ⟨C', ?_, g2, by simpa using g3, by simpa using g4⟩
    rw [g1, ok_bind]
  · rw [if_neg h1, if_pos halloc]
    obtain ⟨hnb, htiles⟩ := hcov.resolve_left h1
    obtain ⟨nt, hnt⟩ : ∃ nt, nt = min (if e.nested then 1 else e.maxThreads) nb := ⟨_, rfl⟩
    have hnt0 : 0 < nt := by
      have := he.threads
      rw [hnt]; split <;> omega
    rw [← hnt]
    have hperm := he.perm nt nb hnt0 hnb
    obtain ⟨blk, hblk⟩ : ∃ blk : Nat → Nat → Nat → K, ∀ b i j, blk b i j =
      ∑ l ∈ range (if b = nb - 1 then fin else bs), a i (b * bs + l) * a j (b * bs + l) :=
      ⟨_, fun _ _ _ => rfl⟩
    have hinit : Inv order uplo n alpha beta C ldC nb bs nt (e.owner nt nb) blk c []
        ⟨C, List.replicate ((nt - 1) * n * n) 0, fun _ => 0, fun _ => bs, fun _ => n⟩ := by
      refine ⟨rfl, by simp, by simp, fun _ _ => rfl, fun _ _ => rfl, ?_, fun _ _ => rfl, ?_⟩
      · intro i hi j hj hin
        simp only [if_pos trivial]
        exact hc i hi j hj hin
      · intro t ht i hi j hj _
        have h2 := cell_lt (order := order) hi hj
        have h3 : (t + 1) * (n * n) ≤ (nt - 1) * (n * n) := Nat.mul_le_mul_right _ ht
        rw [Nat.add_mul] at h3
        simp only
        rw [List.getElem?_replicate, if_pos (by rw [Nat.mul_assoc, Nat.mul_assoc]; omega)]
        simp [part]
    obtain ⟨s, h2, h3⟩ := loop_inv order uplo trans n alpha A ldA beta C ldC k nb bs fin nt
      (e.owner nt nb) a c blk hld ha hblk (tiles_le htiles) (e.seq nt nb) [] _ (by
        intro b hb
        have hb' : b < nb := List.mem_range.1 (hperm.mem_iff.1 (by simpa using hb))
        exact ⟨hb', he.owner nt nb hnt0 hnb b hb'⟩)
      (by simpa using he.mono nt nb hnt0 hnb) hinit
    rw [List.nil_append] at h3
    rw [h2, ok_bind]
    obtain ⟨C', g1, g2, g3, g4⟩ := accumulate_ok order uplo n (nt - 1) s.tmp s.C ldC _ _ hld h3.main
      h3.tmp
    refine ⟨C', by rw [g1, ok_bind], by rw [g2, h3.len], ?_, fun q hq => by rw [g4 q hq, h3.rest q hq]⟩
    intro i hi j hj hin
    rw [g3 i hi j hj hin]
    have h0 : s.count 0 ≠ 0 := by
      intro h
      exact (h3.count 0).1 h 0 (hperm.mem_iff.2 (List.mem_range.2 hnb)) (he.first nt nb hnt0 hnb)
    rw [if_neg h0, ← mul_sum]
    have hall : part (e.owner nt nb) (fun b => blk b i j) 0 (e.seq nt nb) +
        ∑ t ∈ range (nt - 1), part (e.owner nt nb) (fun b => blk b i j) (t + 1) (e.seq nt nb) =
        ∑ l ∈ range k, a i l * a j l := by
      obtain ⟨m, hm⟩ : ∃ m, nt = m + 1 := ⟨nt - 1, by omega⟩
      have h5 := part_sum (e.owner nt nb) (fun b => blk b i j) nt (e.seq nt nb) (by
        intro b hb
        exact he.owner nt nb hnt0 hnb b (List.mem_range.1 (hperm.mem_iff.1 hb)))
      have h6 : nt - 1 = m := by omega
      rw [h6]
      have h7 : ∑ t ∈ range nt, part (e.owner nt nb) (fun b => blk b i j) t (e.seq nt nb) =
          ∑ t ∈ range m, part (e.owner nt nb) (fun b => blk b i j) (t + 1) (e.seq nt nb) +
          part (e.owner nt nb) (fun b => blk b i j) 0 (e.seq nt nb) := by
        conv_lhs => rw [show range nt = range (m + 1) by rw [hm]]
        exact sum_range_succ' _ _
      rw [add_comm, ← h7, h5, (hperm.map _).sum_eq, ← range_sum, ← htiles.1, sum_flat]
      unfold Blocking.tallBlocks
      rw [List.map_map]
      congr 1
      apply List.map_congr_left
      intro b _
      exact hblk b i j
    congr 1
    linear_combination alpha * hall

end Verif.Cov
