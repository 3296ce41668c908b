import Verif.TreeSplit.Model

/-!
# Model of the search for the best split on a categorical feature or a histogram

`source/core/decision_forest/tree/decision_tree_training_split.hpp`.
-/

namespace Verif.TreeSplit

/-- One entry of a table (category × class) increased. -/
def bump (t : Nat → Nat → Int) (a c : Nat) (w : Int) : Nat → Nat → Int :=
  fun x y => if x = a ∧ y = c then t x y + w else t x y

/-- `ws.node_hist` (lines 148-206) or `ws.cat_feat_table` (lines 325-331): the number of samples per
category and class.  `cat i` is the category of the sample at position `i`; `wg` its weight: the
bootstrap frequency in the second version of `update_node_histogram` (line 196), 1 in the first one
(line 168) and always 1 in `split_raw_onevall` (line 330). -/
def fillTable (y : Nat → Nat) (wg : Nat → Int) (samp : Nat → Nat) (cat : Nat → Nat) :
    List Nat → (Nat → Nat → Int) → Nat → Nat → Int
  | [], t => t
  | i :: is, t => fillTable y wg samp cat is (bump t (cat i) (y (samp i)) (wg (samp i)))

/-- The sum over the classes. -/
def sumClasses (nClass : Nat) (f : Nat → Int) : Int := ((List.range nClass).map f).sum

/-- The split found on categories: the category, the counts it was judged by, and its score. -/
structure BestCat (S : Type) where
  cat : Nat
  score : S
  cand : Cand S

def catScore {S} (nd : Nd S) : Option (BestCat S) → S
  | none => nd.score
  | some b => b.score

/-- The counts and scores of a candidate with the left counts `cl` (lines 221-227, 237-242, 286-288,
335-340, 346-349). -/
def candOf {S} (cr : Crit S) (nClass : Nat) (nd : Nd S) (cl : Nat → Int) : Cand S :=
  let nsl := sumClasses nClass cl
  let nsr := nd.ns - nsl
  let cr' := fun k => nd.counts k - cl k
  let ls := cr.score nsl cl
  let rs := cr.score nsr cr'
  { nsl := nsl, nsr := nsr, cl := cl, cr := cr', ls := ls, rs := rs, sc := cr.avg ls nsl rs nsr nd.ns }

/-- Whether a candidate replaces the best one (lines 289-299, 350-360). -/
def take {S} (cr : Crit S) (nd : Nd S) (cat : Nat) (c : Cand S) (best : Option (BestCat S)) :
    Option (BestCat S) :=
  if cr.lt c.sc (catScore nd best) && cr.enough c.sc then
    some { cat := cat, score := c.sc, cand := c } else best

/-- The loop of `split_raw_onevall` (lines 333-361). -/
def onevallLoop {S} (cr : Crit S) (nClass : Nat) (nd : Nd S) (minNode : Int) (t : Nat → Nat → Int) :
    List Nat → Option (BestCat S) → Option (BestCat S)
  | [], best => best
  | cat :: cats, best =>
    let c := candOf cr nClass nd (t cat)
    if c.nsl < minNode then onevallLoop cr nClass nd minNode t cats best
    else if c.nsr < minNode then onevallLoop cr nClass nd minNode t cats best
    else onevallLoop cr nClass nd minNode t cats (take cr nd cat c best)

/-- `split_raw_onevall` (lines 315-362).  `cat i` is `std::round(ws.feature_values[i])`, assumed to be
below `cat_feat[feat_idx]`. -/
def splitOnevall {S} (cr : Crit S) (sm : Samples) (samp cat : Nat → Nat) (nClass nCat : Nat) (nd : Nd S)
    (minNode : Int) : Option (BestCat S) :=
  let t := fillTable sm.y (fun _ => 1) samp cat (List.range' nd.start (nd.end_ + 1 - nd.start))
    (fun _ _ => 0)
  onevallLoop cr nClass nd minNode t (List.range nCat) none

/-- The loop of `compute_best_split_hist` (lines 269-300).  `present` is `hist_count_samples`, `acc`
the left counts so far (`ws.count_left_classes`), `old` is `old_ns_left`. -/
def histLoop {S} (cr : Crit S) (nClass : Nat) (nd : Nd S) (minNode : Int) (onevall : Bool)
    (present : Nat → Bool) (t : Nat → Nat → Int) :
    List Nat → (Nat → Int) → Int → Option (BestCat S) → Option (BestCat S)
  | [], _, _, best => best
  | cat :: cats, acc, old, best =>
    if !present cat then histLoop cr nClass nd minNode onevall present t cats acc old best
    else
      let cl := if onevall then t cat else fun k => acc k + t cat k
      let c := candOf cr nClass nd cl
      if c.nsl < minNode ∨ c.nsl ≤ old then
        histLoop cr nClass nd minNode onevall present t cats cl old best
      else if c.nsr < minNode then best
      else histLoop cr nClass nd minNode onevall present t cats cl c.nsl (take cr nd cat c best)

/-- `compute_best_split_hist` (lines 245-302) for a feature that is not constant in the node.  `bin i`
is the bin of the sample at position `i`; `onevall` is `prop == categorical_onevall`.  `nd.score` stands
for `sp.score` at the call, which here is the best score of the features tried before. -/
def splitHist {S} (cr : Crit S) (sm : Samples) (samp bin : Nat → Nat) (nClass nBins : Nat) (nd : Nd S)
    (minNode : Int) (onevall : Bool) : Option (BestCat S) :=
  let ps := List.range' nd.start (nd.end_ + 1 - nd.start)
  let t := fillTable sm.y (fun s => sm.w s) samp bin ps (fun _ _ => 0)
  histLoop cr nClass nd minNode onevall (fun b => ps.any fun i => bin i == b) t (List.range nBins)
    (fun _ => 0) 0 none

end Verif.TreeSplit
