import Verif.Partition.Model
import Verif.TreeSplit.CatModel

/-!
# Model of the growth of a decision tree and of prediction

`source/core/decision_forest/tree/decision_tree_training_fit.hpp` and
`source/core/decision_forest/tree/decision_tree_inference.hpp`.

The search for a split is the one of `TreeSplit`, the partition that of `Partition`.  Which features
are tried for a node (random draws, constant features), in which order and by which thread is left
open: the split taken may be the one found on any feature.  The vectors are lists, the stack
`nodes_to_treat` is a list whose head is the back of the deque.  Memory failures are left out.
-/

namespace Verif.Tree

open Verif.Partition (Data)
open Verif.TreeSplit (Num Crit Samples Nd)

/-- What is done with feature values. -/
structure Ops (α : Type) where
  lt : α → α → Bool
  le : α → α → Bool
  /-- `std::abs(a - b) < 1.0e-05` -/
  same : α → α → Bool
  round : α → Int
  /-- `x_threshold = 0.0`, the value in a new node -/
  zero : α
  num : Num α

/-- Data and options of a fit. -/
structure Cfg (α S : Type) where
  ops : Ops α
  crit : Crit S
  /-- `split_improvement > min_improvement`, from the size and the score of the node and the score of
  the split -/
  enough : Int → S → S → Bool
  /-- `score > min_split_score` -/
  above : S → Bool
  data : Data α
  sm : Samples
  nClass : Nat
  minNode : Nat
  maxDepth : Nat
  useHist : Bool
  /-- whether a feature is split one-vs-all -/
  onevall : Nat → Bool
  /-- `cat_feat` -/
  nCat : Nat → Nat
  nBins : Nat → Nat
  /-- `thresholds[feature * (max_bin - 1) + b]` -/
  thr : Nat → Nat → α

/-- A split: its kind, the feature and the numbers stored in the node. -/
inductive Split (α : Type) where
  | continuous (feature : Nat) (thr : α)
  | category (feature : Nat) (cat : Nat)
  | ordered (feature : Nat) (bin : Nat) (thr : α)
  | oneBin (feature : Nat) (bin : Nat)

/-- A node (decision_tree.hpp 51-87).  `stop` is `end_idx + 1`; `split` and the children are set for an
inner node (`is_leaf == false`) only; `counts` is the numerator of `class_props`. -/
structure Node (α S : Type) where
  start : Nat
  stop : Nat
  depth : Nat
  score : S
  ns : Int
  counts : Nat → Int
  pred : Nat
  inner : Option (Split α × Nat × Nat)

structure State (α S : Type) where
  nodes : List (Node α S)
  stack : List Nat
  samp : Nat → Nat
  nLeaves : Nat
  depth : Nat

variable {α S : Type}

/-- `count_class_occurences` (decision_tree_training_fit.hpp 81-107): the weight of each class in the
samples at the positions `start .. stop - 1`. -/
def classCounts (sm : Samples) (samp : Nat → Nat) (start stop : Nat) : Nat → Int :=
  (TreeSplit.addAll sm samp (List.range' start (stop - start)) (0, fun _ => 0)).2

def weightOf (sm : Samples) (samp : Nat → Nat) (start stop : Nat) : Int :=
  (TreeSplit.addAll sm samp (List.range' start (stop - start)) (0, fun _ => 0)).1

/-- `std::max_element`: the first largest of `f 0, …, f (n - 1)`. -/
def argmax (f : Nat → Int) : Nat → Nat
  | 0 => 0
  | n + 1 => if f (argmax f n) < f n then n else argmax f n

/-- The root (decision_tree_training_fit.hpp 525-544). -/
def root (cfg : Cfg α S) (samp : Nat → Nat) (nObs : Nat) : Node α S :=
  let c := classCounts cfg.sm samp 0 nObs
  let ns := weightOf cfg.sm samp 0 nObs
  { start := 0, stop := nObs, depth := 0, score := cfg.crit.score ns c, ns := ns, counts := c,
    pred := argmax c cfg.nClass, inner := none }

/-- The start of a fit (decision_tree_training_fit.hpp 521-549); `depth` is whatever an earlier fit
left. -/
def init (cfg : Cfg α S) (samp : Nat → Nat) (nObs depth : Nat) : State α S :=
  { nodes := [root cfg samp nObs], stack := if 0 < cfg.maxDepth then [0] else [], samp := samp,
    nLeaves := 0, depth := depth }

/-- `add_node` (decision_tree_training_fit.hpp 109-165): the new node. -/
def child (cfg : Cfg α S) (samp : Nat → Nat) (parent : Node α S) (start stop : Nat) (score : S) :
    Node α S :=
  let c := classCounts cfg.sm samp start stop
  { start := start, stop := stop, depth := parent.depth + 1, score := score,
    ns := weightOf cfg.sm samp start stop, counts := c, pred := argmax c cfg.nClass, inner := none }

/-- Whether a child is to be treated further (decision_tree_training_fit.hpp 216-218, 223-225). -/
def worth (cfg : Cfg α S) (nd : Node α S) : Bool :=
  cfg.above nd.score && decide (2 * (cfg.minNode : Int) ≤ nd.ns) && decide (nd.depth < cfg.maxDepth)

/-- The value of a feature of a sample. -/
def value (cfg : Cfg α S) (f s : Nat) : α := cfg.data.x (cfg.data.ldx * f + s)

/-- The partition functions with enough fuel for any tests that are opposite. -/
def runPartition (cfg : Cfg α S) (sp : Split α) (samp : Nat → Nat) (start end_ : Nat) :
    Option ((Nat → Nat) × Int) :=
  let fuel := 2 * (end_ - start) + 2
  match sp with
  | .continuous f t => Partition.rawContinuous cfg.ops.le cfg.ops.lt cfg.data f t fuel samp start end_
  | .category f c =>
    Partition.rawCategorical (fun v c => decide (cfg.ops.round v = c)) cfg.data f c fuel samp start end_
  | .ordered f b _ => Partition.histOrdered cfg.data f b fuel samp start end_
  | .oneBin f b => Partition.histOnevall cfg.data f b fuel samp start end_

/-- `split_node_and_add_children` (decision_tree_training_fit.hpp 176-234) for node `i`, already removed
from the stack: no split, or a split with the scores of the two children.  `none`: the partition does
not end. -/
def treat (cfg : Cfg α S) (st : State α S) (i : Nat) (sp : Option (Split α × S × S)) :
    Option (State α S) :=
  match st.nodes[i]? with
  | none => none
  | some nd =>
    match sp with
    | none => some { st with nLeaves := st.nLeaves + 1 }
    | some (s, ls, rs) =>
      match runPartition cfg s st.samp nd.start (nd.stop - 1) with
      | none => none
      | some (samp', m) =>
        let cut := (m + 1).toNat
        let n := st.nodes.length
        let r := child cfg samp' nd cut nd.stop rs
        let l := child cfg samp' nd nd.start cut ls
        some
          { nodes := st.nodes.set i { nd with inner := some (s, n + 1, n) } ++ [r, l]
            stack := (if worth cfg l then [n + 1] else []) ++ ((if worth cfg r then [n] else []) ++ st.stack)
            samp := samp'
            nLeaves := st.nLeaves + (if worth cfg r then 0 else 1) + (if worth cfg l then 0 else 1)
            depth := max st.depth (nd.depth + 1) }

/-- `b` is `a` with the entries at the positions of the node rearranged. -/
def Shuffled (nd : Node α S) (a b : Nat → Nat) : Prop :=
  ((List.range' nd.start (nd.stop - nd.start)).map b).Perm
      ((List.range' nd.start (nd.stop - nd.start)).map a) ∧
  ∀ i, i < nd.start ∨ nd.stop ≤ i → b i = a i

/-- The node as the search sees it. -/
def view (cfg : Cfg α S) (samp : Nat → Nat) (nd : Node α S) (score : S) : Nd S :=
  { start := nd.start, end_ := nd.stop - 1, ns := nd.ns,
    counts := classCounts cfg.sm samp nd.start nd.stop, score := score }

def critAt (cfg : Cfg α S) (nd : Node α S) : Crit S :=
  { cfg.crit with enough := cfg.enough nd.ns nd.score }

/-- The splits that the search can return for a node (`compute_best_split_raw`,
decision_tree_training_split.hpp 409-441, and `compute_best_split_hist`, 245-302).

* Raw continuous values: the samples are first sorted by the value (C25); `cat_feat` 1, which skips
  the sort, is left out.
* Raw categories must be in the table (otherwise the code writes outside it).
* Histograms: `s0` is the best score of the features tried before. -/
inductive Found (cfg : Cfg α S) (samp : Nat → Nat) (nd : Node α S) : Split α → S → S → Prop where
  | continuous (f : Nat) (sorted : Nat → Nat) (b : TreeSplit.Best α S) :
      cfg.useHist = false → cfg.onevall f = false → Shuffled nd samp sorted →
      (∀ i j, nd.start ≤ i → i ≤ j → j < nd.stop →
        cfg.ops.lt (value cfg f (sorted j)) (value cfg f (sorted i)) = false) →
      cfg.ops.same (value cfg f (sorted nd.start)) (value cfg f (sorted (nd.stop - 1))) = false →
      TreeSplit.splitRaw cfg.ops.num (critAt cfg nd) cfg.sm sorted (fun i => value cfg f (sorted i))
        (view cfg samp nd nd.score) cfg.minNode = some b →
      Found cfg samp nd (.continuous f b.thr) b.cand.ls b.cand.rs
  | category (f : Nat) (order : Nat → Nat) (b : TreeSplit.BestCat S) :
      cfg.useHist = false → cfg.onevall f = true → Shuffled nd samp order →
      (∀ i, nd.start ≤ i → i < nd.stop → 0 ≤ cfg.ops.round (value cfg f (order i)) ∧
        cfg.ops.round (value cfg f (order i)) < cfg.nCat f) →
      TreeSplit.splitOnevall (critAt cfg nd) cfg.sm order
        (fun i => (cfg.ops.round (value cfg f (order i))).toNat) cfg.nClass (cfg.nCat f)
        (view cfg samp nd nd.score) cfg.minNode = some b →
      Found cfg samp nd (.category f b.cat) b.cand.ls b.cand.rs
  | ordered (f : Nat) (s0 : S) (b : TreeSplit.BestCat S) :
      cfg.useHist = true → cfg.onevall f = false →
      (∃ i j, nd.start ≤ i ∧ i < nd.stop ∧ nd.start ≤ j ∧ j < nd.stop ∧
        Partition.binOf cfg.data f (samp i) ≠ Partition.binOf cfg.data f (samp j)) →
      TreeSplit.splitHist (critAt cfg nd) cfg.sm samp (fun i => Partition.binOf cfg.data f (samp i))
        cfg.nClass (cfg.nBins f) (view cfg samp nd s0) cfg.minNode false = some b →
      Found cfg samp nd (.ordered f b.cat (cfg.thr f b.cat)) b.cand.ls b.cand.rs
  | oneBin (f : Nat) (s0 : S) (b : TreeSplit.BestCat S) :
      cfg.useHist = true → cfg.onevall f = true →
      (∃ i j, nd.start ≤ i ∧ i < nd.stop ∧ nd.start ≤ j ∧ j < nd.stop ∧
        Partition.binOf cfg.data f (samp i) ≠ Partition.binOf cfg.data f (samp j)) →
      TreeSplit.splitHist (critAt cfg nd) cfg.sm samp (fun i => Partition.binOf cfg.data f (samp i))
        cfg.nClass (cfg.nBins f) (view cfg samp nd s0) cfg.minNode true = some b →
      Found cfg samp nd (.oneBin f b.cat) b.cand.ls b.cand.rs

/-- The states that `fit_serial` (236-292) or `fit_parallel` (294-421) go through: the top of the stack
is removed, the samples of the node may be left in another order by the search, and the node is split
or left as it is. -/
inductive Reach (cfg : Cfg α S) (samp0 : Nat → Nat) (nObs depth0 : Nat) : State α S → Prop where
  | init : Reach cfg samp0 nObs depth0 (init cfg samp0 nObs depth0)
  | leaf (st : State α S) (i : Nat) (rest : List Nat) (nd : Node α S) (samp' : Nat → Nat)
      (st' : State α S) : Reach cfg samp0 nObs depth0 st → st.stack = i :: rest →
      st.nodes[i]? = some nd → Shuffled nd st.samp samp' →
      treat cfg { st with stack := rest, samp := samp' } i none = some st' →
      Reach cfg samp0 nObs depth0 st'
  | split (st : State α S) (i : Nat) (rest : List Nat) (nd : Node α S) (samp' : Nat → Nat)
      (s : Split α) (ls rs : S) (st' : State α S) : Reach cfg samp0 nObs depth0 st →
      st.stack = i :: rest → st.nodes[i]? = some nd → Shuffled nd st.samp samp' →
      Found cfg st.samp nd s ls rs →
      treat cfg { st with stack := rest, samp := samp' } i (some (s, ls, rs)) = some st' →
      Reach cfg samp0 nObs depth0 st'

/-- Which child `predict` and `score` take (decision_tree_inference.hpp 75-90, 245-260). -/
def goLeft (ops : Ops α) (x : Nat → α) : Split α → Bool
  | .continuous f t => ops.lt (x f) t
  | .ordered f _ t => ops.lt (x f) t
  | .category f c => decide (ops.round (x f) = c)
  | .oneBin f c => decide (ops.round (x f) = c)

/-- Which child `predict_proba` takes (decision_tree_inference.hpp 151-158); the threshold of a
one-vs-all node is never set. -/
def goLeftProba (ops : Ops α) (x : Nat → α) : Split α → Bool
  | .continuous f t => ops.lt (x f) t
  | .ordered f _ t => ops.lt (x f) t
  | .category f _ => ops.lt (x f) ops.zero
  | .oneBin f _ => ops.lt (x f) ops.zero

/-- The walk from node `i` to a leaf.  `none`: the fuel runs out or an index is outside the tree. -/
def follow (nodes : List (Node α S)) (test : Split α → Bool) : Nat → Nat → Option Nat
  | 0, _ => none
  | fuel + 1, i =>
    match nodes[i]? with
    | none => none
    | some nd =>
      match nd.inner with
      | none => some i
      | some (s, l, r) => follow nodes test fuel (if test s then l else r)

end Verif.Tree
