/- Property C38: work is divided without gaps or overlaps. -/
import Verif.Blocking.Model
import Mathlib.Tactic.Common
import Mathlib.Tactic.Ring
import Mathlib.Algebra.BigOperators.Group.List.Basic
namespace Verif.Blocking

/-- Specification: the blocks (first sample, number of samples) list every sample
`0 .. n-1` exactly once, in order, and no block is empty. -/
def Tiles (n : Nat) (blocks : List (Nat × Nat)) : Prop :=
  blocks.flatMap (fun b => List.range' b.1 b.2) = List.range n ∧ ∀ b ∈ blocks, 0 < b.2

theorem flatMap_uniform (bs k : Nat) :
    ((List.range k).map fun i => (i * bs, bs)).flatMap (fun b => List.range' b.1 b.2)
      = List.range (k * bs) := by
  induction k with
  | zero => simp
  | succ k ih =>
    rw [List.range_succ, List.map_append, List.flatMap_append, ih]
    simp only [List.map_cons, List.map_nil, List.flatMap_cons, List.flatMap_nil, List.append_nil]
    rw [List.range_eq_range', List.range_eq_range', Nat.succ_mul]
    have := List.range'_append (s := 0) (m := k * bs) (n := bs) (step := 1)
    simpa using this

theorem tiles_last (bs last k n : Nat) (hbs : 0 < bs ∨ k = 0) (hl : 0 < last) (hn : k * bs + last = n) :
    Tiles n ((List.range (k + 1)).map fun i => (i * bs, if i = k then last else bs)) := by
  have hmap : (List.range (k + 1)).map (fun i => (i * bs, if i = k then last else bs)) =
      ((List.range k).map fun i => (i * bs, bs)) ++ [(k * bs, last)] := by
    rw [List.range_succ, List.map_append]
    congr 1
    · apply List.map_congr_left
      intro i hi
      have : i < k := List.mem_range.mp hi
      simp [show ¬ i = k by omega]
    · simp
  rw [hmap]
  constructor
  · rw [List.flatMap_append, flatMap_uniform]
    simp only [List.flatMap_cons, List.flatMap_nil, List.append_nil]
    rw [List.range_eq_range', List.range_eq_range', ← hn]
    have := List.range'_append (s := 0) (m := k * bs) (n := last) (step := 1)
    simpa using this
  · intro b hb
    simp only [List.mem_append, List.mem_map, List.mem_range, List.mem_singleton] at hb
    rcases hb with ⟨i, hi, rfl⟩ | rfl
    · simp; omega
    · exact hl

/-- C38.  `blocking_scheme` with the loop its callers use tiles the samples. -/
theorem C38_blocking_scheme_tiles (n bs : Nat) (hbs : 0 < bs) :
    ∃ blocks, schemeBlocks n bs = some blocks ∧ Tiles n blocks := by
  have hd : bs * (n / bs) + n % bs = n := Nat.div_add_mod n bs
  have hd' : n / bs * bs + n % bs = n := by rw [Nat.mul_comm]; exact hd
  unfold schemeBlocks blockingScheme
  rw [if_neg (by omega)]
  by_cases hr : n % bs > 0
  · simp only [hr, if_true, Option.bind_eq_bind, Option.bind_some, Option.pure_def]
    refine ⟨_, rfl, ?_⟩
    have := tiles_last bs (n % bs) (n / bs) n (Or.inl hbs) hr hd'
    convert this using 1
    apply List.map_congr_left
    intro i hi
    by_cases hk : i = n / bs
    · subst hk
      simp only [schemeBlock, Nat.add_sub_cancel, true_and, hr, if_true]
      congr 1; omega
    · simp [schemeBlock, hk]
  · simp only [hr, if_false, Option.bind_eq_bind, Option.bind_some, Option.pure_def]
    refine ⟨_, rfl, ?_⟩
    have hmap : (List.range (n / bs)).map (schemeBlock n bs (n / bs) (n % bs)) =
        (List.range (n / bs)).map fun i => (i * bs, bs) := by
      apply List.map_congr_left
      intro i _
      simp [schemeBlock, show ¬ n % bs > 0 from hr]
    rw [hmap]
    constructor
    · rw [flatMap_uniform]; congr 1; omega
    · intro b hb
      simp only [List.mem_map] at hb
      obtain ⟨i, _, rfl⟩ := hb
      exact hbs

/-- C38.  Every block of `blocking_scheme` has at most `block_size` samples, all but the
last exactly that many. -/
theorem C38_blocking_scheme_sizes (n bs nb rem : Nat) (h : blockingScheme n bs = some (nb, rem)) (k : Nat)
    (_ : k < nb) : (schemeBlock n bs nb rem k).2 ≤ bs ∧
      (k + 1 < nb → schemeBlock n bs nb rem k = (k * bs, bs)) := by
  unfold blockingScheme at h
  split at h
  · simp at h
  · simp only [Option.some.injEq, Prod.mk.injEq] at h
    obtain ⟨h1, h2⟩ := h
    have := Nat.mod_lt n (show 0 < bs by omega)
    constructor
    · unfold schemeBlock; split
      · simp; omega
      · simp
    · intro hk'
      unfold schemeBlock
      rw [if_neg (by omega)]

theorem tall_round (x : Nat) : ((x + 255) >>> 8) <<< 8 ≥ x ∧ ((x + 255) >>> 8) <<< 8 < x + 256 := by
  rw [Nat.shiftLeft_eq, Nat.shiftRight_eq_div_pow]
  omega

/-- C38.  `tall_skinny_blocking_scheme` tiles the samples: the final block is never empty
and every block but the last has `block_size` samples. -/
theorem C38_tall_skinny_tiles (n minBlock maxBlocks minFinal : Nat) (hn : 0 < n) (hmin : 0 < minBlock)
    (hmax : 0 < maxBlocks) (hfin : 0 < minFinal) :
    ∃ nb bs fin, tallSkinny n minBlock maxBlocks minFinal = some (nb, bs, fin) ∧
      Tiles n (tallBlocks nb bs fin) ∧ (minFinal ≤ fin ∨ bs ≤ fin) ∧
      (min minBlock n ≤ bs) := by
  obtain ⟨bs, hbs, hbs0, hbsn, hsel⟩ : ∃ bs, (if n / (min minBlock n) > maxBlocks then
        if maxBlocks = 0 then none else some (min (((n / maxBlocks + 255) >>> 8) <<< 8) n)
      else some (min minBlock n)) = some bs ∧ 0 < bs ∧ bs ≤ n ∧ min minBlock n ≤ bs := by
    by_cases h : n / (min minBlock n) > maxBlocks
    · rw [if_pos h, if_neg (by omega)]
      refine ⟨_, rfl, ?_, Nat.min_le_right _ _, ?_⟩
      · have := (tall_round (n / maxBlocks)).1
        have h2 : 0 < n / maxBlocks := by
          apply Nat.div_pos _ hmax
          have : n / min minBlock n ≤ n := Nat.div_le_self _ _
          omega
        omega
      · have := (tall_round (n / maxBlocks)).1
        have h2 : min minBlock n ≤ n / maxBlocks := by
          rw [Nat.le_div_iff_mul_le hmax]
          have h3 : maxBlocks ≤ n / min minBlock n := by omega
          rw [Nat.le_div_iff_mul_le (by omega)] at h3
          rw [Nat.mul_comm]; exact h3
        omega
    · rw [if_neg h]
      exact ⟨_, rfl, by omega, Nat.min_le_right _ _, Nat.le_refl _⟩
  have hd : n / bs * bs + n % bs = n := by rw [Nat.mul_comm]; exact Nat.div_add_mod n bs
  have hq : 0 < n / bs := Nat.div_pos hbsn hbs0
  unfold tallSkinny
  simp only [hbs]
  rw [if_neg (by omega), if_neg (by omega)]
  by_cases hf : n % bs ≥ minFinal
  · rw [if_pos hf]
    refine ⟨_, _, _, rfl, ?_, Or.inl hf, hsel⟩
    unfold tallBlocks
    simpa using tiles_last bs (n % bs) (n / bs) n (Or.inl hbs0) (by omega) hd
  · rw [if_neg hf]
    by_cases h1 : n / bs = 1
    · refine ⟨_, _, _, rfl, ?_, Or.inr (by rw [if_pos h1]), ?_⟩
      · have hn' : n % bs + bs = n := by rw [h1] at hd; omega
        rw [h1]
        simp only [tallBlocks, if_true, hn']
        have := tiles_last n n 0 n (Or.inr rfl) hn (by simp)
        simpa using this
      · rw [if_pos h1]; omega
    · refine ⟨_, _, _, rfl, ?_, Or.inr (by rw [if_neg h1]; omega), ?_⟩
      · rw [if_neg h1]
        unfold tallBlocks
        obtain ⟨q, hq'⟩ : ∃ q, n / bs = q + 1 := ⟨n / bs - 1, by omega⟩
        rw [hq'] at hd ⊢
        exact tiles_last bs (n % bs + bs) q n (Or.inl hbs0) (by omega) (by rw [Nat.add_mul] at hd; omega)
      · rw [if_neg h1]; exact hsel

/-- C38 finding.  The header comment promises at most `max_blocks` blocks; there can be one
more. -/
theorem C38_tall_skinny_limit_violated :
    tallSkinny 1124 256 4 50 = some (5, 256, 100) := by decide

/-- C38 finding.  With many blocks the excess is larger. -/
theorem C38_tall_skinny_limit_violated_more :
    tallSkinny 256900 100 1000 100 = some (1004, 256, 132) := by decide

/-- C38.  For a limit of at most 256 there is never more than one block above it.  (Missing
for the full claim: the limit itself, see the two theorems above.) -/
theorem C38_tall_skinny_limit_partial (n minBlock maxBlocks minFinal nb bs fin : Nat)
    (hmax : 0 < maxBlocks) (hmax' : maxBlocks ≤ 256)
    (h : tallSkinny n minBlock maxBlocks minFinal = some (nb, bs, fin)) : nb ≤ maxBlocks + 1 := by
  unfold tallSkinny at h
  dsimp only at h
  split at h
  · simp at h
  · rename_i hb0
    split at h
    · simp at h
    · rename_i bs' hbs
      split at h
      · simp at h
      · rename_i hb1
        have key : n / bs' ≤ maxBlocks := by
          split at hbs
          · rename_i hgt
            split at hbs
            · simp at hbs
            · simp only [Option.some.injEq] at hbs
              have hr := (tall_round (n / maxBlocks)).1
              -- bs' ≥ min (n / maxBlocks) n, and n < maxBlocks * (n / maxBlocks + 1)
              by_cases hc : ((n / maxBlocks + 255) >>> 8) <<< 8 ≤ n
              · have hbs'' : bs' = ((n / maxBlocks + 255) >>> 8) <<< 8 := by omega
                have hbig : 256 ≤ bs' := by
                  have h2 : 0 < n / maxBlocks := by
                    apply Nat.div_pos _ hmax
                    have : n / min minBlock n ≤ n := Nat.div_le_self _ _
                    omega
                  rw [hbs'', Nat.shiftLeft_eq, Nat.shiftRight_eq_div_pow]; omega
                have hge : n / maxBlocks ≤ bs' := by omega
                -- n / bs' ≤ n / (n / maxBlocks)
                by_contra hcon
                have hlt : (maxBlocks + 1) * bs' ≤ n := by
                  rw [← Nat.le_div_iff_mul_le (by omega)]; omega
                have hlt2 : n < maxBlocks * (n / maxBlocks + 1) := by
                  have := Nat.lt_mul_div_succ n hmax
                  simpa using this
                have h3 : maxBlocks * (n / maxBlocks + 1) ≤ maxBlocks * (bs' + 1) :=
                  Nat.mul_le_mul_left _ (by omega)
                rw [Nat.add_mul] at hlt
                rw [Nat.mul_add, Nat.mul_add] at h3
                rw [Nat.mul_add] at hlt2
                omega
              · have : bs' = n := by omega
                subst this
                have : bs' / bs' ≤ 1 := by rw [Nat.div_self (by omega)]
                omega
          · simp only [Option.some.injEq] at hbs
            subst hbs; omega
        split at h
        · simp only [Option.some.injEq, Prod.mk.injEq] at h; omega
        · simp only [Option.some.injEq, Prod.mk.injEq] at h; omega

/-- The full statement for the tree builders' split. -/
def C38_tree_statement : Prop :=
  ∀ n threads, 0 < n → 0 < threads → ∃ blocks, treeBlocks n threads 256 = some blocks ∧ Tiles n blocks

theorem tiles_sum {n : Nat} {blocks : List (Nat × Nat)} (h : Tiles n blocks) :
    (blocks.map (·.2)).sum = n := by
  have := congrArg List.length h.1
  simpa [List.length_flatMap] using this

/-- C38.  The split used while building k-d and ball trees covers the samples whenever the
thread count is at most 256 (missing: larger thread counts, for which it is false). -/
theorem C38_tree_blocks_tile_partial (n threads : Nat) (hn : 0 < n) (ht : 0 < threads)
    (ht' : threads ≤ 256) :
    ∃ blocks, treeBlocks n threads 256 = some blocks ∧ Tiles n blocks := by
  unfold treeBlocks
  rw [if_neg (by omega)]
  dsimp only
  generalize hnb : min threads (max (n / 256) 1) = nb
  have h0 : 0 < nb := by omega
  have hle : nb ≤ n := by omega
  have hbs : 0 < n / nb := Nat.div_pos hle h0
  rw [if_neg (by omega), if_neg (by omega)]
  refine ⟨_, rfl, ?_⟩
  obtain ⟨q, rfl⟩ : ∃ q, nb = q + 1 := ⟨nb - 1, by omega⟩
  have hd : n / (q + 1) * (q + 1) + n % (q + 1) = n := by
    rw [Nat.mul_comm]; exact Nat.div_add_mod n (q + 1)
  have hlt : n % (q + 1) < q + 1 := Nat.mod_lt _ (by omega)
  have hmod : n % (n / (q + 1)) = n % (q + 1) := by
    have hsmall : n % (q + 1) < n / (q + 1) := by
      by_cases hq : q = 0
      · subst hq; simp; omega
      · have : 256 ≤ n / (q + 1) := by
          rw [Nat.le_div_iff_mul_le (by omega)]; omega
        omega
    generalize n / (q + 1) = b at *
    generalize n % (q + 1) = r at *
    rw [← hd, Nat.mul_add_mod, Nat.mod_eq_of_lt hsmall]
  simp only [Nat.add_sub_cancel]
  refine tiles_last (n / (q + 1)) _ q n (Or.inl hbs) (by omega) ?_
  rw [hmod]
  rw [Nat.mul_add, Nat.mul_comm] at hd
  omega

/-- C38 finding.  With more threads the last samples can be left out: 131372 samples on a
machine with 512 hardware threads. -/
theorem C38_tree_blocks_violated : ¬ C38_tree_statement := by
  intro h
  obtain ⟨blocks, hb, ht⟩ := h 131372 512 (by decide) (by decide)
  have hs := tiles_sum ht
  have hb' : treeBlocks 131372 512 256 = some ((List.range 512).map fun i => (i * 256, if i = 511 then 300 else 256)) := by
    decide +kernel
  rw [hb'] at hb
  have hb2 := Option.some.inj hb
  subst hb2
  have : (((List.range 512).map fun i => (i * 256, if i = 511 then 300 else 256)).map (·.2)).sum = 131116 := by
    decide +kernel
  rw [this] at hs
  omega

/-- C38.  The threads given to the trees of a forest: each tree gets at least one and, when
there are enough threads and no per-tree limit applies, all of them are used. -/
theorem C38_forest_threads (nTree total maxTree : Nat) (hn : 0 < nTree) (_ : 0 < total) :
    ∃ f l, threadDistribution nTree total maxTree = some (f, l) ∧ l.length = nTree ∧
      f = min nTree total ∧ (∀ t ∈ l, 1 ≤ t) ∧ (0 < maxTree → ∀ t ∈ l, t ≤ maxTree) ∧
      (maxTree = 0 → l.sum = max nTree total) := by
  unfold threadDistribution
  dsimp only
  by_cases hr : total - min nTree total = 0
  · rw [if_pos hr]
    refine ⟨_, _, rfl, by simp, rfl, ?_, ?_, ?_⟩
    · intro t h; simp at h; omega
    · intro _ t h; simp at h; omega
    · intro _; simp; omega
  · rw [if_neg hr, if_neg (by omega)]
    by_cases hm : maxTree > 0 ∧ (total - min nTree total) / nTree + 1 ≥ maxTree
    · rw [if_pos hm]
      refine ⟨_, _, rfl, by simp, rfl, ?_, ?_, ?_⟩
      · intro t h; simp at h; omega
      · intro _ t h; simp at h; omega
      · omega
    · rw [if_neg hm]
      refine ⟨_, _, rfl, by simp, rfl, ?_, ?_, ?_⟩
      · intro t h
        simp only [List.mem_map] at h
        obtain ⟨i, _, rfl⟩ := h
        generalize (total - min nTree total) / nTree = d
        split <;> omega
      · intro hm0 t h
        simp only [List.mem_map] at h
        obtain ⟨i, _, rfl⟩ := h
        split <;> omega
      · intro _
        have key : ∀ p r k, ((List.range k).map fun i => if i < r then p + 1 else p).sum = k * p + min k r := by
          intro p r k
          induction k with
          | zero => simp
          | succ k ih =>
            rw [List.range_succ, List.map_append, List.sum_append, ih]
            simp only [List.map_cons, List.map_nil, List.sum_cons, List.sum_nil, Nat.add_mul]
            split <;> omega
        rw [key]
        have h1 := Nat.div_add_mod (total - min nTree total) nTree
        have h2 := Nat.mod_lt (total - min nTree total) hn
        rw [Nat.mul_add]
        omega

-- concrete cases
example : schemeBlocks 10 4 = some [(0, 4), (4, 4), (8, 2)] := by decide
example : tallSkinny 1000 100 3 7 = some (2, 512, 488) := by decide
example : treeBlocks 1000 3 256 = some [(0, 333), (333, 333), (666, 334)] := by decide
example : threadDistribution 3 8 0 = some (3, [3, 3, 2]) := by decide

end Verif.Blocking
