/-!
# Model of the search for the best split of a tree node on a continuous feature

`source/core/decision_forest/tree/decision_tree_training_split.hpp`.  The number type of the feature
values occurs only through `Num`, that of the scores only through `Crit`; both are parameters, so that
rounding and NaN are included.  Counts are integers; class labels are assumed to be below `n_class`.
-/

namespace Verif.TreeSplit

/-- What the search does with feature values. -/
structure Num (V : Type) where
  /-- `std::abs(a - b) < feat_thresh` -/
  near : V → V → Bool
  /-- `(a + b) / 2` -/
  mid : V → V → V

/-- What the search does with scores. -/
structure Crit (S : Type) where
  /-- `score_function(ns, n_class, counts)` -/
  score : Int → (Nat → Int) → S
  /-- `(left_score * ns_left + right_score * ns_right) / ns` -/
  avg : S → Int → S → Int → Int → S
  lt : S → S → Bool
  /-- `split_improvement > min_improvement` -/
  enough : S → Bool
  zero : S

/-- The samples: the class `y` and the weight `w` of each (`bootstrap_sample_frequency`, or 1 without
bootstrap, where the code has a second version of each counting function that adds 1). -/
structure Samples where
  y : Nat → Nat
  w : Nat → Nat

/-- The node: its range of positions, `n_samples`, `count_classes`, and score. -/
structure Nd (S : Type) where
  start : Nat
  end_ : Nat
  ns : Int
  counts : Nat → Int
  score : S

/-- A count per class, increased for one class. -/
def addClass (f : Nat → Int) (c : Nat) (w : Int) : Nat → Int :=
  fun k => if k = c then f k + w else f k

/-- `update_count_left` and `update_count_right` (decision_tree_training_split.hpp 52-97): add the
samples at the listed positions. -/
def addAll (sm : Samples) (samp : Nat → Nat) : List Nat → Int × (Nat → Int) → Int × (Nat → Int)
  | [], r => r
  | i :: is, r =>
    addAll sm samp is (r.1 + sm.w (samp i), addClass r.2 (sm.y (samp i)) (sm.w (samp i)))

/-- The end of the group of values near that at `sidx` (lines 109-113); `k` is `end_idx - next`. -/
def tieEnd {V} (near : V → V → Bool) (fv : Nat → V) (sidx : Nat) : Nat → Nat → Nat
  | 0, next => next
  | k + 1, next =>
    if near (fv (next + 1)) (fv sidx) then tieEnd near fv sidx k (next + 1) else next

/-- The variables of `split_raw_continuous` that depend on the candidate split. -/
structure Cand (S : Type) where
  nsl : Int
  nsr : Int
  cl : Nat → Int
  cr : Nat → Int
  ls : S
  rs : S
  sc : S

/-- `update_split_sorted` (lines 99-145): `next_idx` and the new counts and scores. -/
def update {V S} (nm : Num V) (cr : Crit S) (sm : Samples) (samp : Nat → Nat) (fv : Nat → V) (nd : Nd S)
    (sidx : Nat) (c : Cand S) : Nat × Cand S :=
  let next := tieEnd nm.near fv sidx (nd.end_ - sidx) sidx
  if nd.end_ ≤ next then (next, c)
  else
    let c1 : Cand S :=
      if next - sidx + 1 ≤ nd.end_ - next + 1 then
        let l := addAll sm samp (List.range' sidx (next + 1 - sidx)) (c.nsl, c.cl)
        { c with nsl := l.1, cl := l.2, nsr := nd.ns - l.1, cr := fun k => nd.counts k - l.2 k }
      else
        let r := addAll sm samp (List.range' (next + 1) (nd.end_ - next)).reverse (0, fun _ => 0)
        { c with nsr := r.1, cr := r.2, nsl := nd.ns - r.1, cl := fun k => nd.counts k - r.2 k }
    let ls := cr.score c1.nsl c1.cl
    let rs := cr.score c1.nsr c1.cr
    (next, { c1 with ls := ls, rs := rs, sc := cr.avg ls c1.nsl rs c1.nsr nd.ns })

/-- The best split found: the position before it and the counts it was judged by (not kept by the
code), and the values stored in `sp`. -/
structure Best (V S : Type) where
  next : Nat
  thr : V
  score : S
  cand : Cand S

/-- `sp.score`. -/
def spScore {V S} (nd : Nd S) : Option (Best V S) → S
  | none => nd.score
  | some b => b.score

/-- The loop of `split_raw_continuous` (lines 381-406); `fuel` is at least `end_idx - sidx`. -/
def loop {V S} (nm : Num V) (cr : Crit S) (sm : Samples) (samp : Nat → Nat) (fv : Nat → V) (nd : Nd S)
    (minNode : Int) : Nat → Nat → Cand S → Option (Best V S) → Option (Best V S)
  | 0, _, _, best => best
  | fuel + 1, sidx, c, best =>
    if sidx < nd.end_ then
      let r := update nm cr sm samp fv nd sidx c
      if r.2.nsl < minNode then loop nm cr sm samp fv nd minNode fuel (sidx + 1) r.2 best
      else if r.2.nsr < minNode then best
      else
        loop nm cr sm samp fv nd minNode fuel (r.1 + 1) r.2
          (if cr.lt r.2.sc (spScore nd best) && cr.enough r.2.sc then
            some { next := r.1, thr := nm.mid (fv r.1) (fv (r.1 + 1)), score := r.2.sc, cand := r.2 }
          else best)
    else best

/-- `split_raw_continuous` (lines 364-407).  `fv` are the feature values at the positions of the node,
sorted together with `samp`. -/
def splitRaw {V S} (nm : Num V) (cr : Crit S) (sm : Samples) (samp : Nat → Nat) (fv : Nat → V)
    (nd : Nd S) (minNode : Int) : Option (Best V S) :=
  loop nm cr sm samp fv nd minNode (nd.end_ - nd.start) nd.start
    { nsl := 0, nsr := nd.ns, cl := fun _ => 0, cr := nd.counts, ls := cr.zero, rs := nd.score,
      sc := cr.zero } none

end Verif.TreeSplit
