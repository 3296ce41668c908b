import Verif.Kmeans.Empty

/-
perform_kmeans with the option `empty_cluster_handling`, /repo/source/core/clustering/kmeans/kmeans.cpp:996-1055, for the
three methods that share its loop, and the cleanup at the end of handle_empty_clusters, kmeans.cpp:1316-1328.
-/
namespace Verif.Kmeans

open Verif.HalfBlas (put forUp)

variable {K : Type} [Field K] [LinearOrder K] [IsStrictOrderedRing K]

/-- `empty_cluster_handling`. -/
inductive Handling
  | ignore
  | error
  | split
deriving DecidableEq

/-- The loop, kmeans.cpp:1012-1034: the state, `converged` and `current_n_iter`; `none` when the run is left with
da_status_empty_clusters (1021-1022).  `handle` gives the state and `clusters_split`. -/
def loopH {S : Type} (iter : Nat → S → S) (handle : S → Option (S × Bool)) (conv : Nat → S → Nat) : Nat → Nat → S → Option (S × Nat × Nat)
  | 0, it, s => some (s, 0, it)
  | fuel + 1, it, s =>
    match handle (iter it s) with
    | none => none
    | some (s', true) => loopH iter handle conv fuel (it + 1) s'
    | some (s', false) => if conv it s' > 0 then some (s', conv it s', it) else loopH iter handle conv fuel (it + 1) s'

/-- The loop and the last labelling, kmeans.cpp:1012-1045. -/
def performH {S : Type} (iter : Nat → S → S) (handle : S → Option (S × Bool)) (conv : Nat → S → Nat) (final : S → S) (maxIter : Nat) (s : S) : Option (S × Nat × Nat) :=
  match loopH iter handle conv maxIter 0 s with
  | none => none
  | some r => some (if r.2.1 = 1 ∨ r.2.2 = maxIter then (final r.1, r.2) else r)

/-- kmeans.cpp:1018-1025 with `back` putting the result of handle_empty_clusters into the members; `work_int1` and
`works1` are written before they are read, so what they hold before does not matter. -/
def handleWith {S : Type} (c : LCfg K) (byRows : Bool) (h : Handling) (cur : Nat → K) (lab : Nat → Nat) (count : Nat → Int) (s : S) (back : ESt K → Bool → S) : Option (S × Bool) :=
  match h with
  | .ignore => some (s, false)
  | _ => match handleEmpty c byRows (decide (h = .error)) ⟨cur, lab, fun _ => 0, fun _ => 0, count, false⟩ with
    | .emptyClusters => none
    | .ok e split => some (back e split, split)

/-- The handling for Lloyd's method: there is no cleanup. -/
def lloydHandle (c : LCfg K) (h : Handling) (s : LSt K) : Option (LSt K × Bool) :=
  handleWith c false h s.cur s.curLab (fun a => (s.count a : Int)) s fun e _ => { s with cur := e.cur, curLab := e.lab, count := fun a => (e.count a).toNat }

/-- perform_kmeans for Lloyd's method. -/
def lloydPerformH (c : LCfg K) (h : Handling) (nThreads maxIter : Nat) (sched : Nat → Sched) (last : Sched) (bound : K) (s : LSt K) : Option (LSt K × Nat × Nat) :=
  performH (fun it s => lloydIteration c nThreads (sched it) true (swapL s)) (lloydHandle c h) (convergenceTest c bound) (lloydFinal c nThreads last) maxIter s

/-- The norms of the centres, kmeans.cpp:1323-1327, with compute_squared_row_norms by columns, da_utils.cpp:775-787. -/
def mqNorms (c : LCfg K) (C norms : Nat → K) : Nat → K :=
  forUp c.nf (fun f m => forUp c.k (fun i m => put m i (m i + C (i + f * c.k) * C (i + f * c.k))) m) (forUp c.k (fun i m => put m i 0) norms)

/-- The handling for MacQueen's method. -/
def mqHandle (c : LCfg K) (h : Handling) (s : MSt K) : Option (MSt K × Bool) :=
  handleWith c false h s.cur s.curLab s.count s fun e split =>
    { s with cur := e.cur, curLab := e.lab, count := e.count, norms := if split then mqNorms c e.cur s.norms else s.norms }

/-- perform_kmeans for MacQueen's method, from centres in `cur`. -/
def mqPerformH (c : LCfg K) (h : Handling) (maxIter : Nat) (bound : K) (s : MSt K) : Option (MSt K × Nat × Nat) :=
  performH (fun _ s => mqIteration c true (swapM s)) (mqHandle c h) (mqConv c bound) (mqFinal c) maxIter (mqInit c s)

/-- What handle_empty_clusters reads of the configuration of Elkan's method; the data are by rows (kmeans.cpp:464-479). -/
def rowCfg (c : Cfg K) : LCfg K := ⟨c.n, c.k, c.nf, c.lda, c.bs, 0, c.spherical, c.normalize, false, false, none, c.sqrt, c.A, c.inv⟩

/-- The handling for Elkan's method: after a split the upper bounds are the largest number, `big`, and the lower bounds
zero, kmeans.cpp:1317-1321.  The half distances `workcc1` and `workc1` stay those of the centres before. -/
def elkanHandle (c : Cfg K) (big : K) (h : Handling) (s : St K) : Option (St K × Bool) :=
  handleWith (rowCfg c) true h s.cur s.curLab (fun a => (s.count a : Int)) s fun e split =>
    { s with cur := e.cur, curLab := e.lab, count := fun a => (e.count a).toNat,
             u := if split then fun _ => big else s.u, l := if split then forUp (c.n * c.ld) (fun i m => put m i 0) s.l else s.l }

/-- convergence_test, kmeans.cpp:1359-1397, as in `convergenceTest`. -/
def elkanConv (c : Cfg K) (bound : K) (it : Nat) (s : St K) : Nat :=
  if it > 1 ∧ (List.range c.n).all (fun i => s.curLab i == s.prevLab i) = true then 2
  else if c.sqrt (sumTo (c.k * c.nf) fun p => s.prev p * s.prev p) < bound then 1 else 0

/-- perform_kmeans for Elkan's method, from centres `C` by columns; the centres stay by rows. -/
def elkanPerformH (c : Cfg K) (big : K) (h : Handling) (C : Nat → K) (nThreads maxIter : Nat) (rest : Nat → K) (order : List Nat) (sched : Nat → Sched) (last : Sched)
    (bound : K) (s : St K) : Option (St K × Nat × Nat) :=
  performH (fun it s => elkanIteration c nThreads (sched it) rest true (swapSt s)) (elkanHandle c big h) (elkanConv c bound) (elkanFinal c nThreads last rest) maxIter
    (initElkan c C rest order s)

end Verif.Kmeans
