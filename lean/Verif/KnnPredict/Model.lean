import Verif.Logistic.Model
import Mathlib.Algebra.Order.Field.Basic
import Mathlib.Algebra.Order.AbsoluteValue.Basic

/-
The prediction functions of the nearest neighbours handle,
source/core/nearest_neighbors/nearest_neighbors.cpp 293-422, 468-565 and 1017-1910, function by function.

Not modelled: the neighbour searches themselves (kneighbors_compute and radius_neighbors_compute appear as the arrays
of indices, counts and distances that they return; they are the subject of C30-C33), the checks of the arguments, the
conversion of X_test, and failed allocations.  Exact arithmetic over an ordered field in place of float and double.
-/
namespace Verif.KnnPredict

open Verif.Logistic (loop upd fill)

/-- The option "weights". -/
inductive Weights
  | uniform
  | distance
deriving DecidableEq

/-- The option "outlier handling". -/
inductive Outlier
  | none
  | manual
  | mostFrequent
deriving DecidableEq

/-- What a call leaves behind: the array, an error status, or a write outside of an array. -/
inductive Result (S : Type*)
  | done (s : S)
  | failed
  | outside

/-- Insertion into a std::set, which is sorted and holds each element once. -/
def setInsert (v : Int) : List Int → List Int
  | [] => [v]
  | c :: cs => if v < c then v :: c :: cs else if v = c then c :: cs else c :: setInsert v cs

/-- available_classes, nearest_neighbors.cpp 1060-1086: the std::set of the labels, copied to a vector. -/
def availableClasses (n : Nat) (y : Nat → Int) : List Int :=
  loop n [] fun i s => setInsert (y i) s

/-- `freq_map[v]++` on a std::map, which is sorted by its keys. -/
def mapBump (v : Int) : List (Int × Nat) → List (Int × Nat)
  | [] => [(v, 1)]
  | e :: es =>
    if v < e.1 then (v, 1) :: e :: es else if v = e.1 then (e.1, e.2 + 1) :: es
    else e :: mapBump v es

/-- most_frequent_element, nearest_neighbors.cpp 1037-1058; the pair is (max_freq, most_freq_element). -/
def mostFrequentElement (n : Nat) (x : Nat → Int) : Int :=
  ((loop n [] fun i m => mapBump (x i) m).foldl (fun s e =>
    if e.2 > s.1 ∨ (e.2 = s.1 ∧ e.1 < s.2) then (e.2, e.1) else s) ((0 : Nat), x 0)).2

/-- `std::find(classes.begin(), classes.end(), label)` as a position, nearest_neighbors.cpp 1310-1318; none for -1. -/
def findLabel (v : Int) : List Int → Option Nat
  | [] => none
  | c :: cs => if c = v then some 0 else (findLabel v cs).map (· + 1)

section
variable {K : Type*} [Field K] [LinearOrder K]

/-- get_weights for one distance, nearest_neighbors.cpp 1021-1033. -/
def getWeight (eps d : K) : K := if d ≤ eps then 1 else 1 / d

/-- The weight of a neighbour: `proba++` adds one when the weights are uniform. -/
def weightOf (wt : Weights) (eps d : K) : K :=
  match wt with
  | .uniform => 1
  | .distance => getWeight eps d

/-- The loop over the neighbours that adds up the votes for the class `c` in `proba[a]`, nearest_neighbors.cpp 1235-1238,
1256-1259, 1386-1391 and 1451-1456. -/
def tally (c : Int) (nn : Nat) (lab : Nat → Int) (w : Nat → K) (a : Nat) (p : Nat → K) : Nat → K :=
  loop nn p fun k p => if c = lab k then upd p a (p a + w k) else p

/-- The probabilities of one query, nearest_neighbors.cpp 1231-1243, 1253-1263, 1382-1396 and 1449-1461: votes for each
class with the running sum `denominator`, then the division. -/
def voteRow (cls : List Int) (nn : Nat) (lab : Nat → Int) (w : Nat → K) (base : Nat) (p : Nat → K) :
    Nat → K :=
  let s := loop cls.length (p, (0 : K)) fun i s =>
    let q := tally (cls.getD i 0) nn lab w (i + base) (upd s.1 (i + base) 0)
    (q, s.2 + q (i + base))
  loop cls.length s.1 fun i p => upd p (i + base) (p (i + base) / s.2)

/-- predict_proba_compute_knn, nearest_neighbors.cpp 1218-1264: `ind` and `dist` are n_ind and n_dist, the neighbours of a query
lie next to each other. -/
def probaKnn (wt : Weights) (eps : K) (nq nn : Nat) (cls : List Int) (y : Nat → Int) (ind : Nat → Nat)
    (dist : Nat → K) (p : Nat → K) : Nat → K :=
  loop nq p fun j p =>
    voteRow cls nn (fun k => y (ind (k + j * nn))) (fun k => weightOf wt eps (dist (k + j * nn)))
      (j * cls.length) p

/-- `imatcopy('T', n_classes, n_queries, 1.0, proba, n_classes, n_queries)` by its contract: the transpose in place. -/
def transposeOut (nc nq : Nat) (p : Nat → K) : Nat → K :=
  fun a => if a < nc * nq then p (a / nq + a % nq * nc) else p a

/-- predict_proba in the mode knn_search_mode, nearest_neighbors.cpp 1139-1158: column-major results are transposed. -/
def predictProbaKnn (colMajor : Bool) (wt : Weights) (eps : K) (nq nn : Nat) (cls : List Int) (y : Nat → Int)
    (ind : Nat → Nat) (dist : Nat → K) (p : Nat → K) : Nat → K :=
  let q := probaKnn wt eps nq nn cls y ind dist p
  if colMajor then transposeOut cls.length nq q else q

/-- cblas_iamax as in the reference BLAS: the first position of an entry of the greatest absolute value. -/
def iamax (n : Nat) (x : Nat → K) : Nat :=
  (loop n (0, |x 0|) fun i s => if s.2 < |x i| then (i, |x i|) else s).1

/-- The label of each query in the mode knn_search_mode, nearest_neighbors.cpp 1566-1573. -/
def predictKnn (wt : Weights) (eps : K) (nq nn : Nat) (cls : List Int) (y : Nat → Int) (ind : Nat → Nat)
    (dist : Nat → K) (p : Nat → K) (out : Nat → Int) : Nat → Int :=
  let q := probaKnn wt eps nq nn cls y ind dist p
  loop nq out fun i out => upd out i (cls.getD (iamax cls.length fun c => q (i * cls.length + c)) 0)

/-- The row of a query without neighbours, nearest_neighbors.cpp 1353-1381 and 1405-1433.  The store of 1.0 goes to
`proba[classes[manual_label_index] + j_local]`; `size` is the number of elements of proba. -/
def outlierRow (h : Outlier) (cls : List Int) (midx : Option Nat) (mf : Int) (size base : Nat) (p : Nat → K) :
    Result (Nat → K) :=
  match h with
  | .none => .failed
  | .manual =>
    let p := fill p base (base + cls.length) 0
    match midx with
    | none => .done p
    | some m =>
      let a := cls.getD m 0 + base
      if 0 ≤ a ∧ a < size then .done (upd p a.toNat 1) else .outside
  | .mostFrequent =>
    .done (loop cls.length p fun i p => upd p (i + base) (if cls.getD i 0 = mf then 1 else 0))

/-- predict_proba_compute_rnn, nearest_neighbors.cpp 1342-1464: `cnt j` neighbours of query `j`, with their indices `ind j` and their
weights `w j` (the square roots of 1436-1446 and get_weights already applied, or ones). -/
def probaRnn (h : Outlier) (nq : Nat) (cls : List Int) (midx : Option Nat) (mf : Int) (y : Nat → Int)
    (cnt : Nat → Nat) (ind : Nat → Nat → Nat) (w : Nat → Nat → K) (p : Nat → K) : Result (Nat → K) :=
  loop nq (.done p) fun j r =>
    match r with
    | .done p =>
      if cnt j = 0 then outlierRow h cls midx mf (nq * cls.length) (j * cls.length) p
      else .done (voteRow cls (cnt j) (fun k => y (ind j k)) (w j) (j * cls.length) p)
    | .failed => .failed
    | .outside => .outside

/-- The label of each query in the mode radius_search_mode, nearest_neighbors.cpp 1566-1596. -/
def labelsRnn (h : Outlier) (nq : Nat) (cls : List Int) (manualLabel mf : Int) (q : Nat → K)
    (out : Nat → Int) : Nat → Int :=
  loop nq out fun i out =>
    let m := iamax cls.length fun c => q (i * cls.length + c)
    upd out i
      (match h with
      | .none => cls.getD m 0
      | .manual => if q (m + i * cls.length) = 0 then manualLabel else cls.getD m 0
      | .mostFrequent => if q (m + i * cls.length) = 0 then mf else cls.getD m 0)

/-- predict for classes in the mode radius_search_mode. -/
def predictRnn (h : Outlier) (nq : Nat) (cls : List Int) (midx : Option Nat) (manualLabel mf : Int)
    (y : Nat → Int) (cnt : Nat → Nat) (ind : Nat → Nat → Nat) (w : Nat → Nat → K) (p : Nat → K)
    (out : Nat → Int) : Result (Nat → Int) :=
  match probaRnn h nq cls midx mf y cnt ind w p with
  | .done q => .done (labelsRnn h nq cls manualLabel mf q out)
  | .failed => .failed
  | .outside => .outside

/-- da_basic_statistics::mean of `n` numbers by its contract (C105 treats its model). -/
def mean (n : Nat) (x : Nat → K) : K := loop n 0 (fun i s => s + x i) / n

/-- predict_targets_knn, nearest_neighbors.cpp 1710-1748. -/
def targetsKnn (wt : Weights) (eps : K) (nq nn : Nat) (t : Nat → K) (ind : Nat → Nat) (dist : Nat → K)
    (out : Nat → K) : Nat → K :=
  match wt with
  | .uniform =>
    loop nq out fun j out => upd out j (mean nn fun i => t (ind (i + j * nn)))
  | .distance =>
    loop nq out fun j out =>
      let s := loop nn (upd out j 0, (0 : K)) fun i s =>
        (upd s.1 j (s.1 j + t (ind (i + j * nn)) * getWeight eps (dist (i + j * nn))),
          s.2 + getWeight eps (dist (i + j * nn)))
      upd s.1 j (s.1 j / s.2)

/-- `std::max_element(cnt, cnt + m)`: the position of the first greatest element, 0 when there is none. -/
def maxElement (m : Nat) (cnt : Nat → Nat) : Nat :=
  loop m 0 fun i b => if cnt b < cnt i then i else b

/-- The copy of the targets of the neighbours into pred_targets of `size` elements, nearest_neighbors.cpp 1841-1844. -/
def gather (size n : Nat) (t : Nat → K) (ind : Nat → Nat) (pred : Nat → K) : Result (Nat → K) :=
  loop n (.done pred) fun i r =>
    match r with
    | .done q => if i < size then .done (upd q i (t (ind i))) else .outside
    | .failed => .failed
    | .outside => .outside

/-- The target of a query without neighbours, nearest_neighbors.cpp 1823-1840 and 1854-1871. -/
def outlierTarget (h : Outlier) (manual meanTarget : K) (j : Nat) (out : Nat → K) : Result (Nat → K) :=
  match h with
  | .none => .failed
  | .mostFrequent => .done (upd out j meanTarget)
  | .manual => .done (upd out j manual)

/-- One query of predict_targets_rnn with uniform weights, nearest_neighbors.cpp 1821-1848; the state is (y_test, pred_targets). -/
def targetStep (h : Outlier) (manual meanTarget : K) (size : Nat) (t : Nat → K) (cnt : Nat → Nat)
    (ind : Nat → Nat → Nat) (j : Nat) (r : Result ((Nat → K) × (Nat → K))) :
    Result ((Nat → K) × (Nat → K)) :=
  match r with
  | .done (out, pred) =>
    if cnt j = 0 then
      match outlierTarget h manual meanTarget j out with
      | .done out => .done (out, pred)
      | .failed => .failed
      | .outside => .outside
    else
      match gather size (cnt j) t (ind j) pred with
      | .done pred => .done (upd out j (mean (cnt j) pred), pred)
      | .failed => .failed
      | .outside => .outside
  | .failed => .failed
  | .outside => .outside

/-- predict_targets_rnn with uniform weights, nearest_neighbors.cpp 1810-1848.  The vector temp_radius_neighbors_count has
n_queries elements (2001), and the maximum is taken up to `end() - 1`. -/
def targetsRnnUniform (h : Outlier) (manual meanTarget : K) (nq : Nat) (t : Nat → K) (cnt : Nat → Nat)
    (ind : Nat → Nat → Nat) (out : Nat → K) : Result (Nat → K) :=
  match loop nq (.done (out, fun _ => (0 : K)))
    (targetStep h manual meanTarget (cnt (maxElement (nq - 1) cnt)) t cnt ind) with
  | .done (out, _) => .done out
  | .failed => .failed
  | .outside => .outside

/-- predict_targets_rnn weighted by the distances, nearest_neighbors.cpp 1850-1893; `w j` as in `probaRnn`. -/
def targetsRnnDistance (h : Outlier) (manual meanTarget : K) (nq : Nat) (t : Nat → K) (cnt : Nat → Nat)
    (ind : Nat → Nat → Nat) (w : Nat → Nat → K) (out : Nat → K) : Result (Nat → K) :=
  loop nq (.done out) fun j r =>
    match r with
    | .done out =>
      if cnt j = 0 then outlierTarget h manual meanTarget j out
      else
        let s := loop (cnt j) (upd out j 0, (0 : K)) fun i s =>
          (upd s.1 j (s.1 j + t (ind j i) * w j i), s.2 + w j i)
        .done (upd s.1 j (s.1 j / s.2))
    | .failed => .failed
    | .outside => .outside

end

/-- The members of the handle that the predictions of classes use: the labels, the options as set by the user, and what is kept from
one call to the next; a member with a flag such as classes_computed is `none` while the flag is false. -/
structure Handle where
  n : Nat
  y : Nat → Int
  optOutlier : Outlier
  optLabel : Int
  outlier : Outlier
  manualLabel : Int
  classes : Option (List Int)
  mostFreq : Option Int
  manualIdx : Option (Option Nat)

/-- A fresh handle; the option "outlier label" is 0 and "outlier handling" is none at first. -/
def Handle.init : Handle :=
  ⟨0, fun _ => 0, .none, 0, .none, -1, none, none, none⟩

/-- set_labels, nearest_neighbors.cpp 518-539. -/
def Handle.setLabels (h : Handle) (n : Nat) (y : Nat → Int) : Handle := { h with n := n, y := y }

/-- da_options_set for the two options. -/
def Handle.setOptions (h : Handle) (o : Outlier) (v : Int) : Handle := { h with optOutlier := o, optLabel := v }

/-- set_data, nearest_neighbors.cpp 470-514, with set_params (295-349): the options are read. -/
def Handle.setData (h : Handle) : Handle := { h with outlier := h.optOutlier, manualLabel := h.optLabel }

/-- check_options_update, nearest_neighbors.cpp 398-424. -/
def Handle.checkOptions (h : Handle) : Handle :=
  let h := { h with outlier := h.optOutlier }
  if h.outlier = .manual then
    if h.optLabel ≠ h.manualLabel then { h with manualLabel := h.optLabel, manualIdx := none } else h
  else h

/-- `if (!classes_computed) available_classes()`. -/
def Handle.needClasses (h : Handle) : Handle :=
  match h.classes with
  | none => { h with classes := some (availableClasses h.n h.y) }
  | some _ => h

/-- The start of predict and predict_proba in the mode knn_search_mode. -/
def Handle.startKnn (h : Handle) : Handle := h.checkOptions.needClasses

/-- The start of predict and predict_proba in the mode radius_search_mode, with nearest_neighbors.cpp 1293-1318. -/
def Handle.startRnn (h : Handle) : Handle :=
  let h := h.checkOptions.needClasses
  let h :=
    if h.outlier = .mostFrequent then
      match h.mostFreq with
      | none => { h with mostFreq := some (mostFrequentElement h.n h.y) }
      | some _ => h
    else h
  if h.outlier = .manual then
    match h.manualIdx with
    | none => { h with manualIdx := some (findLabel h.manualLabel (h.classes.getD [])) }
    | some _ => h
  else h

/-- The calls that matter here. -/
inductive Op
  | labels (n : Nat) (y : Nat → Int)
  | options (o : Outlier) (v : Int)
  | data
  | knn
  | rnn

def Handle.step (h : Handle) : Op → Handle
  | .labels n y => h.setLabels n y
  | .options o v => h.setOptions o v
  | .data => h.setData
  | .knn => h.startKnn
  | .rnn => h.startRnn

end Verif.KnnPredict
