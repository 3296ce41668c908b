import Verif.SvmKernel.Proof
import Verif.SvmKernel.Threads

/-
C44: kernel columns delivered to the SVM solver.
-/
namespace Verif.SvmKernel
set_option linter.unusedSectionVars false
open Verif.Cache
variable {R : Type}

theorem session_main (K : Int → R) (cap ws ncols : Nat) (temps : Nat → Nat → Option R)
    (hws : ws ≤ ncols) (calls : List (List Int)) : ∀ (c : Cache R), CInv K cap c →
    (∀ keys ∈ calls, keys.length ≤ ws) →
    ∃ c', session K (smallFlag cap ws) ncols temps calls c =
      some (c', calls.map fun keys => keys.map fun k => some (K k)) ∧ CInv K cap c' := by
  induction calls with
  | nil => intro c h _; exact ⟨c, rfl, h⟩
  | cons keys calls ih =>
    intro c h hlen
    have hk := hlen keys List.mem_cons_self
    obtain ⟨s, h1, h2, h3, -⟩ := kernelCompute_correct K cap (smallFlag cap ws) ncols keys c
      (temps calls.length) h (by omega) (by
        simp only [smallFlag, decide_eq_true_eq]
        by_cases h0 : 0 < cap ∧ cap < ws
        · exact Or.inl h0
        · right
          by_cases hc : cap = 0
          · exact Or.inl hc
          · exact Or.inr (Or.inl (by omega)))
    obtain ⟨c', e, hc'⟩ := ih s.cache h2 (fun k hk => hlen k (List.mem_cons_of_mem _ hk))
    simp only [session, h1, e]
    refine ⟨c', ?_, hc'⟩
    have : (List.range keys.length).map s.column = keys.map fun k => some (K k) := by
      apply List.ext_getElem (by simp)
      intro i h4 h5
      simp only [List.getElem_map, List.getElem_range]
      exact h3 i _ (by simp)
    simp [this]

/-- **C44.** In the main loop of the solver (index sets of at most `ws_size`
elements, `kernel_temp` with at least `ws_size` columns of arbitrary old contents,
a cache of any capacity including none, the flag `cache_smaller_than_ws` as computed
by `compute_impl`) every call of `kernel_compute` delivers in position `i` the
kernel column of sample `idx[i] % n` -- whatever the index sets of the calls are,
repeated samples included -- and never accesses memory out of bounds.  In
particular no pointer into the cache is overwritten by the columns stored in the
same call. -/
theorem C44_kernel_columns (K : Int → R) (cap ws ncols : Nat) (temps : Nat → Nat → Option R)
    (hws : ws ≤ ncols) (n : Nat) (calls : List (List Nat)) (hlen : ∀ idx ∈ calls, idx.length ≤ ws) :
    ∃ c', session K (smallFlag cap ws) ncols temps
        (calls.map fun idx => idx.map fun i => ((i % n : Nat) : Int)) (init cap) =
      some (c', calls.map fun idx => idx.map fun i => some (K ((i % n : Nat) : Int))) := by
  obtain ⟨c', h, -⟩ := session_main K cap ws ncols temps hws
    (calls.map fun idx => idx.map fun i => ((i % n : Nat) : Int)) (init cap) (cinv_init K cap) (by
      intro keys hk
      obtain ⟨idx, hi, rfl⟩ := List.mem_map.1 hk
      simpa using hlen idx hi)
  exact ⟨c', by rw [h]; simp [Function.comp_def]⟩

/-- Capacity 3, working sets of 3: samples 1 and 4 = 1 + n share a key; the second
call finds one column in the cache. -/
example : (session (fun k => k * 100) (smallFlag 3 3) 3 (fun _ _ => none)
    ([[0, 1, 4], [1, 2, 0]].map fun idx : List Nat => idx.map fun i => ((i % 3 : Nat) : Int))
    (init 3)).map (·.2) =
    some [[some 0, some 100, some 100], [some 100, some 200, some 0]] := by decide +kernel

/-- Capacity 1 below the working set size 2: hits are copied out before the `put`. -/
example : (session (fun k => k * 100) (smallFlag 1 2) 2 (fun _ _ => none)
    [[1, 2], [1, 3], [4, 1]] (init 1)).map (·.2) =
    some [[some 100, some 200], [some 100, some 300], [some 400, some 100]] := by
  decide +kernel

theorem session_blocks (K : Int → R) (cap : Nat) (small : Bool) (ncols : Nat)
    (temps : Nat → Nat → Option R) (calls : List (List Int)) : ∀ (c : Cache R), CInv K cap c →
    (∀ keys ∈ calls, keys.length ≤ ncols) → calls.flatten.Nodup →
    (∀ k ∈ calls.flatten, c.map k = none) →
    ∃ c', session K small ncols temps calls c =
      some (c', calls.map fun keys => keys.map fun k => some (K k)) ∧ CInv K cap c' := by
  induction calls with
  | nil => intro c h _ _ _; exact ⟨c, rfl, h⟩
  | cons keys calls ih =>
    intro c h hlen hnd hno
    simp only [List.flatten_cons, List.nodup_append] at hnd
    obtain ⟨s, h1, h2, h3, h4⟩ := kernelCompute_correct K cap small ncols keys c
      (temps calls.length) h (hlen keys List.mem_cons_self)
      (Or.inr (Or.inr (Or.inr (fun k hk => hno k (by simp [hk])))))
    obtain ⟨c', e, hc'⟩ := ih s.cache h2 (fun k hk => hlen k (List.mem_cons_of_mem _ hk))
      hnd.2.1 (by
        intro k hk
        by_contra hh
        rcases h4 k hh with h5 | h5
        · exact h5 (hno k (by rw [List.flatten_cons, List.mem_append]; exact Or.inr hk))
        · exact hnd.2.2 k h5 k hk rfl)
    simp only [session, h1, e]
    refine ⟨c', ?_, hc'⟩
    have : (List.range keys.length).map s.column = keys.map fun k => some (K k) := by
      apply List.ext_getElem (by simp)
      intro i h4 h5
      simp only [List.getElem_map, List.getElem_range]
      exact h3 i _ (by simp)
    simp [this]

/-- **C44 (warm start).** `recompute_gradient` (base_svm.cpp 717-825) calls
`kernel_compute` with blocks that may be larger than `ws_size` and than the cache,
so the flag does not protect it.  Because its blocks consist of distinct samples
and the cache is still empty, all columns are right nevertheless, and so are those
of the main loop that follows. -/
theorem C44_warm_start (K : Int → R) (cap ws ncols block : Nat) (temps temps' : Nat → Nat → Option R)
    (hws : ws ≤ ncols) (blocks calls : List (List Int)) (hb : ∀ b ∈ blocks, b.length ≤ block)
    (hnd : blocks.flatten.Nodup) (hlen : ∀ idx ∈ calls, idx.length ≤ ws) :
    ∃ c1 c2, session K (smallFlag cap ws) block temps blocks (init cap) =
        some (c1, blocks.map fun keys => keys.map fun k => some (K k)) ∧
      session K (smallFlag cap ws) ncols temps' calls c1 =
        some (c2, calls.map fun keys => keys.map fun k => some (K k)) := by
  obtain ⟨c1, h1, h2⟩ := session_blocks K cap (smallFlag cap ws) block temps blocks (init cap)
    (cinv_init K cap) hb hnd (by simp [init])
  obtain ⟨c2, h3, -⟩ := session_main K cap ws ncols temps' hws calls c1 h2 hlen
  exact ⟨c1, c2, h1, h3⟩

example : (session (fun k => k * 100) (smallFlag 2 2) 3 (fun _ _ => none)
    [[0, 1, 2], [3, 4]] (init 2)).map (·.2) =
    some [[some 0, some 100, some 200], [some 300, some 400]] := by decide +kernel

/-- **C44 (nu variants).** `initialise_gradient` (nu_svm.cpp 369-501) lets several
threads compute blocks of columns and put them into the cache before the main loop.
`ops` is any interleaving of the steps of these `put`s -- any assignment of the blocks
`indexAux` is cut into to threads, any order, several blocks in flight at once, any
relation of the block size to the capacity -- that has run to its end.  Whatever is in
the cache then, every call of `kernel_compute` in the main loop delivers the right
columns. -/
theorem C44_nu_start (K : Int → R) (cap ws ncols n counter : Nat) (indexAux : List Nat)
    (temps : Nat → Nat → Option R) (hws : ws ≤ ncols) (ops : List (Op R))
    (hops : ∀ o ∈ ops, (∃ t i temp, o = nuPut K n t (nuBlock counter indexAux i) temp) ∨
      (∃ t i, o = .copy t i) ∨ ∃ t, o = .publish t)
    (calls : List (List Nat)) (hlen : ∀ idx ∈ calls, idx.length ≤ ws) :
    ∃ s tr, run (start cap) [] ops = some (s, tr) ∧
      ((∀ t, s.pend t = none) →
        ∃ c', session K (smallFlag cap ws) ncols temps
            (calls.map fun idx => idx.map fun i => ((i % n : Nat) : Int)) s.cache =
          some (c', calls.map fun idx => idx.map fun i => some (K ((i % n : Nat) : Int)))) := by
  obtain ⟨s, tr, h1, h2, h3⟩ := run_tinv (K := K) ops (start cap) [] (sinv_start cap)
    (tinv_start K cap) (by
      intro o ho
      rcases hops o ho with ⟨t, i, temp, rfl⟩ | ⟨t, i, rfl⟩ | ⟨t, rfl⟩
      · exact nuPut_ok K n t _ temp
      · trivial
      · trivial)
  refine ⟨s, tr, h1, fun hq => ?_⟩
  obtain ⟨c', h, -⟩ := session_main K cap ws ncols temps hws
    (calls.map fun idx => idx.map fun i => ((i % n : Nat) : Int)) s.cache (quiet_cinv h2 h3 hq) (by
      intro keys hk
      obtain ⟨idx, hi, rfl⟩ := List.mem_map.1 hk
      simpa using hlen idx hi)
  exact ⟨c', by rw [h]; simp [Function.comp_def]⟩

/-- Two threads store the columns of 33 samples (a block of 32 and a residual of one)
in a cache of two columns, their steps interleaved; the main loop then asks for the
cached and for other columns. -/
example : ((run (start 2) [] [nuPut (· * 100) 40 0 (nuBlock 33 (List.range 33) 0) (fun _ => none),
      .copy 0 1, nuPut (· * 100) 40 1 (nuBlock 33 (List.range 33) 1) (fun _ => none),
      .copy 0 0, .publish 1, .publish 0]).bind fun p =>
      (session (· * 100) (smallFlag 2 2) 2 (fun _ _ => none) [[0, 1], [1, 32]] p.1.cache).map
        fun q => (p.1.cache.items.map Node.key, q.2)) =
    some ([1, 0], [[some 0, some 100], [some 100, some 3200]]) := by decide +kernel

/-- The blocks handled by the threads at the start of nu-SVM contain every listed
sample exactly once, in order. -/
theorem C44_nu_blocks (indexAux : List Nat) (h : 0 < indexAux.length) :
    (List.range (indexAux.length / nuBlockSize indexAux.length + 1)).flatMap
      (nuBlock indexAux.length indexAux) = indexAux := nuBlock_partition indexAux h

example : (List.range 3).map (fun i => (nuBlock 70 (List.range 70) i).length) = [32, 32, 6] := by
  decide +kernel

/-- Outside these uses `kernel_compute` is not correct: with an index set larger than
the cache and the flag unset, the `put` overwrites a column that an earlier element
of the result points to.  Here the column of sample 1 is replaced by that of
sample 2. -/
theorem C44_oversized_set_wrong :
    (session (fun k => k * 100) (smallFlag 1 1) 2 (fun _ _ => none) [[1], [1, 2]] (init 1)).map
      (·.2) = some [[some 100], [some 200, some 200]] := by decide +kernel

end Verif.SvmKernel
