import Verif.Cache.ProofPut

/-
C18: the LRU cache of kernel columns.  C43: a key in the cache is found.
-/
namespace Verif.Cache
set_option linter.unusedSectionVars false
variable {R : Type}

/-- **C18.** Start from an empty cache and let any number of threads execute `get`
and `put` calls in any interleaving of their steps, with any keys, any data and
possibly null data pointers.  Then no access is undefined and

* every hit returns the data most recently stored for its key (from a slot owned
  by that key);
* an entry is only stored in a slot of the cache no other entry occupies, so two
  keys never share a slot;
* every evicted entry was used before every other entry present;
* every occupied slot is below the capacity, so at most `capacity` are occupied. -/
theorem C18_lru_cache (cap : Nat) (ops : List (Op R)) :
    ∃ s tr, run (start cap) [] ops = some (s, tr) ∧ TraceOk cap tr ∧
      (∀ slot, owner slot tr ≠ none → slot < cap) ∧ liveCount cap tr ≤ cap := by
  obtain ⟨s, tr, h1, h2⟩ := run_inv ops (start cap) [] (sinv_start cap)
  refine ⟨s, tr, h1, h2.inv.ok, ?_, ?_⟩
  · intro slot ho
    rw [owner_some_iff h2.inv] at ho
    obtain ⟨n, hn, rfl⟩ := List.mem_map.1 ho
    have := h2.inv.slotsLt n hn
    have := h2.inv.free
    omega
  · unfold liveCount
    have := List.length_filter_le (fun s => (owner s tr).isSome) (List.range cap)
    rwa [List.length_range] at this

/-- Capacity 2.  Keys 7 and 8 are stored, 7 is used, 9 replaces 8. -/
example : (run (start 2 : Sys Nat) []
    (putOps 0 [7, 8] (some fun i => 100 + i) ++ [.get 7] ++
      putOps 1 [9] (some fun _ => 200) ++ [.get 8, .get 9, .get 7])).map (·.2.reverse) =
    some [.stored 7 0 100, .stored 8 1 101, .hit 7 0 100, .evict 8 1, .stored 9 1 200,
      .miss 8, .hit 9 1 200, .hit 7 0 100] := by decide +kernel

/-- Two threads whose `put`s overlap: both take a free slot before either
publishes. -/
example : (run (start 2 : Sys Nat) []
    [.acquire 0 [5] (some fun _ => 50), .acquire 1 [6] (some fun _ => 60), .copy 1 0,
      .publish 1, .get 5, .copy 0 0, .publish 0, .get 5, .get 6]).map (·.2.reverse) =
    some [.stored 6 1 60, .miss 5, .stored 5 0 50, .hit 5 0 50, .hit 6 1 60] := by
  decide +kernel

/-- `TraceOk` is not trivially true: a hit returning old data violates it. -/
example : ¬ TraceOk 2 [.hit 1 0 5, .stored 1 1 6, .stored 1 0 5] := by
  intro h
  have := (h [] (.hit 1 0 5) [.stored 1 1 6, .stored 1 0 5] rfl).1
  exact absurd this (by decide)

/-- ... and so does the eviction of an entry that is not the least recently used. -/
example : ¬ TraceOk 2 [.evict 2 1, .stored 2 1 6, .stored 1 0 5] := by
  intro h
  have := (h [] (.evict 2 1) [.stored 2 1 6, .stored 1 0 5] rfl).2 0 (by decide) (by decide)
  exact absurd this (by decide)

/-- Calls of a sequential user who never passes a null pointer. -/
inductive Call (R : Type) where
  | get (key : Int)
  | put (keys : List Int) (d : Nat → R)

/-- The steps of a call. -/
def Call.ops : Call R → List (Op R)
  | .get k => [.get k]
  | .put keys d => putOps 0 keys (some d)

theorem calls_inv {cap : Nat} (calls : List (Call R)) : ∀ (s : Sys R) (tr : List (Event R)),
    Inv cap s.cache tr → s.pend 0 = none → s.cache.items.length + s.cache.nFree = cap →
    ∃ s' tr', run s tr (calls.flatMap Call.ops) = some (s', tr') ∧ Inv cap s'.cache tr' ∧
      s'.pend 0 = none ∧ s'.cache.items.length + s'.cache.nFree = cap := by
  induction calls with
  | nil => intro s tr h1 h2 h3; exact ⟨s, tr, rfl, h1, h2, h3⟩
  | cons call calls ih =>
    intro s tr h1 h2 h3
    rw [List.flatMap_cons, run_append]
    cases call with
    | get k =>
      obtain ⟨c', e, g1, g2, -, -, -, g6, g7, -⟩ := get_inv h1 k
      simp only [Call.ops, run, step, g1, Option.bind_some]
      exact ih _ _ g2 h2 (by show c'.items.length + c'.nFree = cap; rw [g6, g7]; exact h3)
    | put keys d =>
      obtain ⟨slots, out, p1, p2, p3, -⟩ := put_spec h1 h3 keys d
      simp only [Call.ops, run_putOps h1 0 h2 keys d, Option.bind_some]
      exact ih _ _ p2 h2 p3

/-- **C18 (what a `put` does).** After any sequence of `get`s and `put`s, a `put` of
columns `d 0, d 1, …` under any keys stores exactly the first
`min (number of keys) capacity` of them, each under its key, and evicts no more
entries than necessary: none as long as there is room. -/
theorem C18_put (cap : Nat) (calls : List (Call R)) (keys : List Int) (d : Nat → R) :
    ∃ (s : Sys R) (tr : List (Event R)) (s' : Sys R) (slots : List Nat)
      (evicted : List (Int × Nat)), run (start cap) [] (calls.flatMap Call.ops) = some (s, tr) ∧
      run s tr (putOps 0 keys (some d)) = some (s', ((evicted.map fun (p : Int × Nat) => Event.evict p.1 p.2) ++
        ((keys.zip slots).zipIdx.map fun (p : (Int × Nat) × Nat) =>
          Event.stored p.1.1 p.1.2 (d p.2))).reverse ++ tr) ∧
      slots.length = min keys.length cap ∧ slots.Nodup ∧
      evicted.length = liveCount cap tr + min keys.length cap - cap := by
  obtain ⟨s, tr, h1, h2, h3, h4⟩ := calls_inv (cap := cap) calls (start cap) []
    (inv_init cap) rfl (by simp [start, init])
  obtain ⟨slots, out, p1, p2, p3, p4, p5, p6, -⟩ := put_spec h2 h4 keys d
  refine ⟨s, tr, { s with cache := (put s.cache keys d).1 }, slots, out.map (fun n => (n.key, n.slot)), h1, ?_, p4, p5, ?_⟩
  · rw [run_putOps h2 0 h3 keys d, p1, List.map_map]
    rfl
  · rw [List.length_map, p6, liveCount_eq h2]

example : (run (start 3 : Sys Nat) [] (List.flatMap Call.ops
    [.put [1, 2] (fun i => i), .get 1, .put [3, 4] (fun i => 10 + i)])).map (·.2.reverse) =
    some [.stored 1 0 0, .stored 2 1 1, .hit 1 0 0, .evict 2 1, .stored 3 2 10, .stored 4 1 11] := by
  decide +kernel

/-- A failed `put` (null data) keeps the slots it acquired: afterwards the cache
can hold one entry less.  Hence the restriction of `C18_put` to non-null data. -/
theorem C18_failed_put_leaks : ∃ s tr,
    run (start 1 : Sys Nat) [] (putOps 0 [1] none ++ putOps 0 [2] (some fun _ => 5) ++ [.get 2])
      = some (s, tr) ∧ tr = [.miss 2, .failed] := by
  obtain ⟨s, tr, h, -⟩ := C18_lru_cache (R := Nat) 1
    (putOps 0 [1] none ++ putOps 0 [2] (some fun _ => 5) ++ [.get 2])
  refine ⟨s, tr, h, ?_⟩
  have h' := congrArg (Option.map Prod.snd) h
  have e : (run (start 1 : Sys Nat) [] (putOps 0 [1] none ++ putOps 0 [2] (some fun _ => 5) ++
      [.get 2])).map Prod.snd = some [.miss 2, .failed] := by decide +kernel
  rw [e] at h'
  simpa using h'.symm

/-! ### C43 -/

/-- **C43, full statement.** A lookup only misses if no entry of the key is in the
cache. -/
def C43_statement : Prop :=
  ∀ (cap : Nat) (ops : List (Op Nat)) (s : Sys Nat) (tr : List (Event Nat)),
    run (start cap) [] ops = some (s, tr) →
    ∀ post k pre, tr = post ++ .miss k :: pre → ∀ slot, owner slot pre ≠ some k

/-- The code violates C43: storing a key again leaves its old list entry behind,
and evicting that old entry removes the key's map entry although the new entry is
still in the cache. -/
theorem C43_violated : ¬ C43_statement := by
  intro h
  have e : (run (start 2 : Sys Nat) [] (putOps 0 [1] (some fun _ => 10) ++
      putOps 0 [1] (some fun _ => 11) ++ putOps 0 [2] (some fun _ => 20) ++ [.get 1])).map Prod.snd =
      some [.miss 1, .stored 2 0 20, .evict 1 0, .stored 1 1 11, .stored 1 0 10] := by
    decide +kernel
  obtain ⟨s, tr, hr, -⟩ := C18_lru_cache (R := Nat) 2 (putOps 0 [1] (some fun _ => 10) ++
      putOps 0 [1] (some fun _ => 11) ++ putOps 0 [2] (some fun _ => 20) ++ [.get 1])
  have h' := congrArg (Option.map Prod.snd) hr
  rw [e] at h'
  simp only [Option.map_some, Option.some.injEq] at h'
  exact h 2 _ s tr hr [] 1 _ h'.symm 1 (by decide)

/-- **C43, the part that holds.** If no key is stored while an entry of the same key
is in the cache, a lookup only misses if no entry of the key is in the cache --
for any interleaving of any threads' calls.
Missing: histories that store a key again (SVR and nu-SVR can, because the working
set may contain both `i` and `i + n`, which share the key `i`). -/
theorem C43_found_partial (cap : Nat) (ops : List (Op R)) (s : Sys R) (tr : List (Event R))
    (hr : run (start cap) [] ops = some (s, tr)) (hf : FreshStores tr) :
    ∀ post k pre, tr = post ++ .miss k :: pre → ∀ slot, owner slot pre ≠ some k :=
  (run_reach ops (start cap) s [] tr (sinv_start cap) (by intro n hn; simp [start, init] at hn)
    (by intro post k pre h; simp at h) hr hf).2

/-- The hypothesis of `C43_found_partial` is met by ordinary histories. -/
example : FreshStores ([.stored 3 0 9, .evict 1 0, .miss 3, .stored 2 1 8, .stored 1 0 7] :
    List (Event Nat)) := by
  intro post k s r pre h s'
  rcases post with _ | ⟨_, _ | ⟨_, _ | ⟨_, _ | ⟨_, _ | ⟨_, _ | ⟨_, _⟩⟩⟩⟩⟩⟩ <;> simp at h
  · obtain ⟨⟨rfl, rfl, rfl⟩, rfl⟩ := h
    simp only [owner]; split <;> (try split) <;> simp
  · obtain ⟨-, -, -, ⟨rfl, rfl, rfl⟩, rfl⟩ := h
    simp only [owner]; split <;> simp
  · obtain ⟨-, -, -, -, ⟨rfl, rfl, rfl⟩, rfl⟩ := h
    simp [owner]

end Verif.Cache
