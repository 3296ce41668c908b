import Verif.Tree.Props
import Mathlib.Algebra.Order.Ring.Rat
import Mathlib.Tactic.Linarith

/-!
# C28, C52, C55: where they fail
-/

namespace Verif.Tree

open Verif.TreeSplit (gini2)

variable {α S : Type}

/-- A tree with one split. -/
theorem reach_one (cfg : Cfg α S) (samp0 : Nat → Nat) (nObs depth0 : Nat) (hd : 0 < cfg.maxDepth)
    (s : Split α) (ls rs : S) (st : State α S) (hf : Found cfg samp0 (root cfg samp0 nObs) s ls rs)
    (ht : treat cfg { init cfg samp0 nObs depth0 with stack := [] } 0 (some (s, ls, rs)) = some st) :
    Reach cfg samp0 nObs depth0 st :=
  Reach.split (init cfg samp0 nObs depth0) 0 [] (root cfg samp0 nObs) samp0 s ls rs st Reach.init
    (if_pos hd) rfl ⟨List.Perm.refl _, fun _ _ => rfl⟩ hf ht

/-- Integer values (in some unit), two classes, depth 1; midpoints are rounded down, and two values are
taken as equal when they differ by less than `t` units. -/
def small (x : Nat → Int) (ldx n : Nat) (y w : List Nat) (hist one : Bool) (t : Nat)
    (binned : Nat → Nat) (nBins : Nat → Nat) (thr : Int) : Cfg Int (Int × Int) where
  ops :=
    { lt := fun a b => decide (a < b), le := fun a b => decide (a ≤ b), same := fun a b => decide (a = b),
      round := id, zero := 0,
      num := { near := fun a b => decide ((a - b).natAbs < t), mid := fun a b => (a + b) / 2 } }
  crit := gini2
  enough := fun _ _ _ => true
  above := fun s => decide (0 < s.1)
  data := { x := x, ldx := ldx, nSamples := n, binned := binned }
  sm := { y := fun s => y.getD s 0, w := fun s => w.getD s 1 }
  nClass := 2
  minNode := 1
  maxDepth := 1
  useHist := hist
  onevall := fun _ => one
  nCat := fun _ => 2
  nBins := nBins
  thr := fun _ _ => thr

theorem small_sane (x : Nat → Int) (ldx n : Nat) (y w : List Nat) (hist one : Bool) (t : Nat)
    (binned : Nat → Nat) (nBins : Nat → Nat) (thr : Int) (hn : 0 < n) (hl : n ≤ ldx)
    (hy : ∀ p : Fin n, y.getD p.1 0 < 2) (hw : ∀ p : Fin n, 1 ≤ w.getD p.1 1)
    (hb : hist = true → ∀ f p, p < n → binned (f * n + p) =
      Histogram.binSearch (fun _ => decide (x (ldx * f + p) < thr)) 0 (nBins f - 1)) :
    Sane (small x ldx n y w hist one t binned nBins thr) id n where
  obs := hn
  minNode := Nat.le_refl _
  classes := Nat.le_succ 1
  lt _ _ := rfl
  le _ _ := rfl
  irrefl a := by simp [small, gini2]
  mid a b h := by simp only [small]; omega
  labels p hp := hy ⟨p, hp⟩
  drawn p hp := hw ⟨p, hp⟩
  ldx := hl
  thr _ _ _ _ _ _ := Int.le_refl _
  bins h f p hp := hb h f p hp

/-- The leaf that the sample at position `p` reaches, and the leaves whose range contains `p`. -/
def reached (cfg : Cfg α S) (st : State α S) (p : Nat) : Option Nat × List Nat :=
  (follow st.nodes (goLeft cfg.ops (row cfg (st.samp p))) st.nodes.length 0,
    (List.range st.nodes.length).filter fun k =>
      match st.nodes[k]? with
      | some x => x.inner.isNone && decide (x.start ≤ p) && decide (p < x.stop)
      | none => false)

theorem not_home (cfg : Cfg α S) (samp0 : Nat → Nat) (nObs depth0 : Nat) (st : State α S)
    (h : Reach cfg samp0 nObs depth0 st) (hs : st.stack = []) (p : Nat) (hp : p < nObs) (k j : Nat)
    (hk : k ≠ j) (e : reached cfg st p = (some k, [j])) : ¬ Home cfg samp0 nObs := by
  intro hh
  obtain ⟨k', e1, ⟨x, e2, e3, e4, e5⟩, _⟩ := (hh depth0 st h hs).1 p hp
  obtain ⟨a, b⟩ := Prod.mk.inj e
  rw [a] at e1
  cases e1
  have : k ∈ [j] := by
    rw [← b, List.mem_filter, e2]
    refine ⟨List.mem_range.2 (List.getElem?_eq_some_iff.1 e2).1, ?_⟩
    simp [e3, e4, e5]
  exact hk (List.mem_singleton.1 this)

/-- The state after the split `s` of the root. -/
def grown (cfg : Cfg α S) (samp0 : Nat → Nat) (n : Nat) (s : Split α) (ls rs : S) : Option (State α S) :=
  treat cfg { init cfg samp0 n 0 with stack := [] } 0 (some (s, ls, rs))

/-! ### One-vs-all on a histogram -/

/-- One feature with the values 10, 10, 20, 20, in two bins, and one-vs-all splits. -/
def hist : Cfg Int (Int × Int) :=
  small (fun i => if i < 2 then 10 else 20) 4 4 [0, 0, 1, 1] [] true true 1
    (fun i => if i = 2 ∨ i = 3 then 1 else 0) (fun f => if f = 0 then 2 else 1) 20

theorem hist_sane : Sane hist id 4 := by
  refine small_sane _ _ _ _ _ _ _ _ _ _ _ (by decide) (by decide) (by decide +kernel) (by decide +kernel) ?_
  intro _ f p hp
  by_cases hf : f = 0
  · subst hf
    match p, hp with
    | 0, _ => decide_cbv
    | 1, _ => decide_cbv
    | 2, _ => decide_cbv
    | 3, _ => decide_cbv
  · rw [if_neg (by omega), if_neg hf]
    unfold Histogram.binSearch
    rfl

def histSplit : Option (TreeSplit.BestCat (Int × Int)) :=
  TreeSplit.splitHist (critAt hist (root hist id 4)) hist.sm id
    (fun i => Partition.binOf hist.data 0 (id i)) hist.nClass (hist.nBins 0)
    (view hist id (root hist id 4) (root hist id 4).score) hist.minNode true

def histBest := histSplit.get (by decide +kernel)
def histTree := (grown hist id 4 (.oneBin 0 histBest.cat) histBest.cand.ls histBest.cand.rs).get
  (by decide +kernel)

theorem hist_reach : Reach hist id 4 0 histTree :=
  reach_one hist id 4 0 (by decide) _ _ _ histTree
    (Found.oneBin 0 _ histBest rfl rfl ⟨0, 2, by decide +kernel⟩ (Option.some_get _).symm)
    (Option.some_get _).symm

/-- The node holds the bin number 0, and prediction compares it with the rounded value 10: every
training sample is sent to the right. -/
theorem C28_hist_onevall : ¬ Home hist id 4 :=
  not_home hist id 4 0 histTree hist_reach (by decide +kernel) 0 (by decide) 1 2 (by decide)
    (by decide +kernel)

theorem C28_violated : ¬ C28_statement := fun h => C28_hist_onevall (h Int _ _ hist id 4 hist_sane)

/-! ### A feature threshold of 0 -/

/-- The values 2, 2, 4 of the classes 0, 1, 1. -/
def ties : Cfg Int (Int × Int) :=
  small (fun i => if i < 2 then 2 else 4) 3 3 [0, 1, 1] [] false false 0 (fun _ => 0) (fun _ => 1) 0

theorem ties_sane : Sane ties id 3 :=
  small_sane _ _ _ _ _ _ _ _ _ _ _ (by decide) (by decide) (by decide +kernel) (by decide +kernel)
    (fun h => by cases h)

def tiesBest := (TreeSplit.splitRaw ties.ops.num (critAt ties (root ties id 3)) ties.sm id
  (fun i => value ties 0 (id i)) (view ties id (root ties id 3) (root ties id 3).score) ties.minNode).get
  (by decide +kernel)
def tiesTree := (grown ties id 3 (.continuous 0 tiesBest.thr) tiesBest.cand.ls tiesBest.cand.rs).get
  (by decide +kernel)

theorem ties_reach : Reach ties id 3 0 tiesTree := by
  refine reach_one ties id 3 0 (by decide) _ _ _ tiesTree (Found.continuous 0 id tiesBest rfl rfl
    ⟨List.Perm.refl _, fun _ _ => rfl⟩ ?_ (by decide +kernel) (Option.some_get _).symm)
    (Option.some_get _).symm
  have : ∀ i j : Fin 3, i ≤ j → ties.ops.lt (value ties 0 j.1) (value ties 0 i.1) = false := by
    decide +kernel
  intro i j _ h1 h2
  have h2 : j < 3 := h2
  exact this ⟨i, by omega⟩ ⟨j, h2⟩ h1

/-- The best split is between the two samples of value 2; its threshold is 2, which training compares
with `<=` and prediction with `<`. -/
theorem C28_threshold_zero : ¬ Home ties id 3 :=
  not_home ties id 3 0 tiesTree ties_reach (by decide +kernel) 0 (by decide) 1 2 (by decide)
    (by decide +kernel)

/-! ### A midpoint that is rounded to one of the values -/

/-- The neighbouring values 6 and 7, of different classes. -/
def close2 : Cfg Int (Int × Int) :=
  small (fun i => if i < 1 then 6 else 7) 2 2 [0, 1] [] false false 1 (fun _ => 0) (fun _ => 1) 0

theorem close2_sane : Sane close2 id 2 :=
  small_sane _ _ _ _ _ _ _ _ _ _ _ (by decide) (by decide) (by decide +kernel) (by decide +kernel)
    (fun h => by cases h)

def close2Best := (TreeSplit.splitRaw close2.ops.num (critAt close2 (root close2 id 2)) close2.sm id
  (fun i => value close2 0 (id i)) (view close2 id (root close2 id 2) (root close2 id 2).score)
  close2.minNode).get (by decide +kernel)
def close2Tree :=
  (grown close2 id 2 (.continuous 0 close2Best.thr) close2Best.cand.ls close2Best.cand.rs).get
    (by decide +kernel)

theorem close2_reach : Reach close2 id 2 0 close2Tree := by
  refine reach_one close2 id 2 0 (by decide) _ _ _ close2Tree (Found.continuous 0 id close2Best rfl rfl
    ⟨List.Perm.refl _, fun _ _ => rfl⟩ ?_ (by decide +kernel) (Option.some_get _).symm)
    (Option.some_get _).symm
  have : ∀ i j : Fin 2, i ≤ j → close2.ops.lt (value close2 0 j.1) (value close2 0 i.1) = false := by
    decide +kernel
  intro i j _ h1 h2
  have h2 : j < 2 := h2
  exact this ⟨i, by omega⟩ ⟨j, h2⟩ h1

/-- Neighbouring floating-point values are separated by a threshold equal to the lower one (ties are
rounded to even): prediction sends it to the right.  The unit is that of the last place; the default
`feature threshold` 1e-5 is below it for values from 256 in single precision. -/
theorem C28_midpoint : ¬ Home close2 id 2 :=
  not_home close2 id 2 0 close2Tree close2_reach (by decide +kernel) 0 (by decide) 1 2 (by decide)
    (by decide +kernel)

/-! ### One-vs-all in a bootstrap sample -/

/-- Two samples of category 0, one drawn three times. -/
def boot : Cfg Int (Int × Int) :=
  small (fun _ => 0) 2 2 [0, 1] [3, 1] false true 1 (fun _ => 0) (fun _ => 1) 0

theorem boot_sane : Sane boot id 2 :=
  small_sane _ _ _ _ _ _ _ _ _ _ _ (by decide) (by decide) (by decide +kernel) (by decide +kernel)
    (fun h => by cases h)

def bootBest := (TreeSplit.splitOnevall (critAt boot (root boot id 2)) boot.sm id
  (fun i => (boot.ops.round (value boot 0 (id i))).toNat) boot.nClass (boot.nCat 0)
  (view boot id (root boot id 2) (root boot id 2).score) boot.minNode).get (by decide +kernel)
def bootTree := (grown boot id 2 (.category 0 bootBest.cat) bootBest.cand.ls bootBest.cand.rs).get
  (by decide +kernel)

theorem boot_reach : Reach boot id 2 0 bootTree :=
  reach_one boot id 2 0 (by decide) _ _ _ bootTree (Found.category 0 id bootBest rfl rfl
    ⟨List.Perm.refl _, fun _ _ => rfl⟩ (fun _ _ _ => ⟨Int.le_refl 0, (by decide : (0 : Int) < 2)⟩) (Option.some_get _).symm)
    (Option.some_get _).symm

/-- Both samples are in category 0, the split is accepted (C53), and the partition puts the last sample
on the right although it satisfies the split (C26). -/
theorem C28_bootstrap : ¬ Home boot id 2 :=
  not_home boot id 2 0 bootTree boot_reach (by decide +kernel) 1 (by decide) 2 1 (by decide)
    (by decide +kernel)

/-! ### Histograms of padded data -/

/-- Three samples with a constant and a second feature, of values 2, 0, 2, stored with leading
dimension 4. -/
def pad : Cfg Int (Int × Int) :=
  small (fun i => if i = 4 ∨ i = 6 then 2 else 0) 4 3 [0, 1, 0] [] true false 1
    (fun i => if i = 3 ∨ i = 5 then 1 else 0) (fun f => if f = 1 then 2 else 1) 1

theorem pad_sane : Sane pad id 3 := by
  refine small_sane _ _ _ _ _ _ _ _ _ _ _ (by decide) (by decide) (by decide +kernel) (by decide +kernel) ?_
  intro _ f p hp
  by_cases hf : f = 1
  · subst hf
    match p, hp with
    | 0, _ => decide_cbv
    | 1, _ => decide_cbv
    | 2, _ => decide_cbv
  · rw [if_neg (by omega), if_neg hf]
    unfold Histogram.binSearch
    rfl

def padBest := (TreeSplit.splitHist (critAt pad (root pad id 3)) pad.sm id
  (fun i => Partition.binOf pad.data 1 (id i)) pad.nClass (pad.nBins 1)
  (view pad id (root pad id 3) (root pad id 3).score) pad.minNode false).get (by decide +kernel)
def padTree :=
  (grown pad id 3 (.ordered 1 padBest.cat (pad.thr 1 padBest.cat)) padBest.cand.ls padBest.cand.rs).get
    (by decide +kernel)

theorem pad_reach : Reach pad id 3 0 padTree :=
  reach_one pad id 3 0 (by decide) _ _ _ padTree
    (Found.ordered 1 _ padBest rfl rfl ⟨0, 1, by decide +kernel⟩ (Option.some_get _).symm)
    (Option.some_get _).symm

theorem C28_padding : ¬ Home pad id 3 :=
  not_home pad id 3 0 padTree pad_reach (by decide +kernel) 0 (by decide) 1 2 (by decide)
    (by decide +kernel)

/-! ### C52 -/

/-- The categories 0, 1 of two samples of different classes. -/
def cats : Cfg Int (Int × Int) :=
  small (fun i => if i = 0 then 0 else 1) 2 2 [0, 1] [] false true 1 (fun _ => 0) (fun _ => 1) 0

theorem cats_sane : Sane cats id 2 :=
  small_sane _ _ _ _ _ _ _ _ _ _ _ (by decide) (by decide) (by decide +kernel) (by decide +kernel)
    (fun h => by cases h)

def catsBest := (TreeSplit.splitOnevall (critAt cats (root cats id 2)) cats.sm id
  (fun i => (cats.ops.round (value cats 0 (id i))).toNat) cats.nClass (cats.nCat 0)
  (view cats id (root cats id 2) (root cats id 2).score) cats.minNode).get (by decide +kernel)
def catsTree := (grown cats id 2 (.category 0 catsBest.cat) catsBest.cand.ls catsBest.cand.rs).get
  (by decide +kernel)

theorem cats_reach : Reach cats id 2 0 catsTree := by
  refine reach_one cats id 2 0 (by decide) _ _ _ catsTree (Found.category 0 id catsBest rfl rfl
    ⟨List.Perm.refl _, fun _ _ => rfl⟩ ?_ (Option.some_get _).symm) (Option.some_get _).symm
  intro i _ h
  have h : i < 2 := h
  have : ∀ i : Fin 2, 0 ≤ cats.ops.round (value cats 0 (id i.1)) ∧
      cats.ops.round (value cats 0 (id i.1)) < cats.nCat 0 := by decide +kernel
  exact this ⟨i, h⟩

/-- `predict_proba` compares with the threshold, which a one-vs-all node does not have: category 0 is
sent to the right, where the proportions are those of the other class. -/
theorem C52_violated : ¬ C52_statement := by
  intro h
  have := h Int _ _ cats id 2 cats_sane 0 catsTree cats_reach (by decide +kernel) (fun _ => 0)
  revert this
  decide +kernel

/-! ### C55 -/

/-- C55 in full. -/
def C55_statement : Prop :=
  ∀ (α S : Type) (_ : LinearOrder α) (cfg : Cfg α S) (samp0 : Nat → Nat) (nObs depth0 : Nat),
    Sane cfg samp0 nObs → Reported cfg samp0 nObs depth0

def shallow : Cfg Int (Int × Int) := { cats with maxDepth := 0 }

theorem shallow_sane : Sane shallow id 2 :=
  { cats_sane with }

/-- With maximum depth 0 the tree is a single leaf, and 0 leaves are reported. -/
theorem C55_depth_zero : ¬ Reported shallow id 2 0 := by
  intro h
  have := (h (init shallow id 2 0) Reach.init rfl).1
  revert this
  decide +kernel

def refit := (treat cats { init cats id 2 5 with stack := [] } 0
  (some (.category 0 catsBest.cat, catsBest.cand.ls, catsBest.cand.rs))).get (by decide +kernel)

theorem refit_reach : Reach cats id 2 5 refit := by
  refine reach_one cats id 2 5 (by decide) _ _ _ _ (Found.category 0 id catsBest rfl rfl
    ⟨List.Perm.refl _, fun _ _ => rfl⟩ ?_ (Option.some_get _).symm) (Option.some_get _).symm
  intro i _ h
  have h : i < 2 := h
  have : ∀ i : Fin 2, 0 ≤ cats.ops.round (value cats 0 (id i.1)) ∧
      cats.ops.round (value cats 0 (id i.1)) < cats.nCat 0 := by decide +kernel
  exact this ⟨i, h⟩

/-- `depth` is not reset by a second fit: here an earlier tree had depth 5. -/
theorem C55_second_fit : ¬ Reported cats id 2 5 := by
  intro h
  obtain ⟨_, _, j, x, e1, e2⟩ := h _ refit_reach (by decide +kernel)
  have hd : refit.depth = 5 := by decide +kernel
  have hn : (refit.nodes.map fun x => x.depth) = [0, 1, 1] := by decide +kernel
  have : x.depth ∈ refit.nodes.map fun x => x.depth := List.mem_map.2 ⟨x, List.mem_of_getElem? e1, rfl⟩
  rw [hn, e2, hd] at this
  revert this
  decide

theorem C55_violated : ¬ C55_statement := fun h =>
  C55_depth_zero (h Int _ _ shallow id 2 0 shallow_sane)

/-! ### Trees for which the properties hold -/

/-- Two features, the first constant; bins of the second. -/
def good : Cfg Int (Int × Int) :=
  small (fun i => if i = 3 ∨ i = 5 then 2 else 0) 3 3 [0, 1, 0] [3, 1, 1] true false 1
    (fun i => if i = 3 ∨ i = 5 then 1 else 0) (fun f => if f = 1 then 2 else 1) 1

theorem good_sane : Sane good id 3 := by
  refine small_sane _ _ _ _ _ _ _ _ _ _ _ (by decide) (by decide) (by decide +kernel) (by decide +kernel) ?_
  intro _ f p hp
  by_cases hf : f = 1
  · subst hf
    match p, hp with
    | 0, _ => decide_cbv
    | 1, _ => decide_cbv
    | 2, _ => decide_cbv
  · rw [if_neg (by omega), if_neg hf]
    unfold Histogram.binSearch
    rfl

theorem good_regular : Regular good id 3 where
  near h := by cases h
  mid h := by cases h
  once h := by cases h
  ldx _ := rfl
  codes _ _ h := by cases h

def goodBest := (TreeSplit.splitHist (critAt good (root good id 3)) good.sm id
  (fun i => Partition.binOf good.data 1 (id i)) good.nClass (good.nBins 1)
  (view good id (root good id 3) (root good id 3).score) good.minNode false).get (by decide +kernel)
def goodTree :=
  (grown good id 3 (.ordered 1 goodBest.cat (good.thr 1 goodBest.cat)) goodBest.cand.ls
    goodBest.cand.rs).get (by decide +kernel)

theorem good_reach : Reach good id 3 0 goodTree :=
  reach_one good id 3 0 (by decide) _ _ _ goodTree
    (Found.ordered 1 _ goodBest rfl rfl ⟨0, 1, by decide +kernel⟩ (Option.some_get _).symm)
    (Option.some_get _).symm

-- a tree with two leaves: samples 0 and 2 are on the right
example : Home good id 3 ∧ Reach good id 3 0 goodTree ∧ goodTree.stack = [] ∧
    reached good goodTree 0 = (some 2, [2]) ∧ reached good goodTree 1 = (some 1, [1]) ∧
    goodTree.samp 0 = 1 ∧ (goodTree.nodes.map fun x => (x.start, x.stop, x.pred)) =
      [(0, 3, 0), (1, 3, 0), (0, 1, 1)] :=
  ⟨C28_partial good id 3 good_sane good_regular, good_reach, by decide +kernel, by decide +kernel,
    by decide +kernel, by decide +kernel, by decide +kernel⟩

-- C54: the root holds 4 drawings of class 0 and one of class 1
example : classTotal good.sm goodTree.samp 0 0 3 = 4 ∧ classTotal good.sm goodTree.samp 1 0 3 = 1 ∧
    total good.sm goodTree.samp 0 3 = 5 ∧ (goodTree.nodes.map fun x => (x.ns, x.counts 0)) =
      [(5, 4), (4, 4), (1, 0)] := by decide +kernel

-- C55
example : Reported good id 3 0 ∧ goodTree.nLeaves = 2 ∧ goodTree.depth = 1 :=
  ⟨C55_partial good id 3 (by decide) (by decide) (by decide), by decide +kernel, by decide +kernel⟩

-- C52
example : SameLeaf good id 3 ∧
    follow goodTree.nodes (goLeftProba good.ops fun _ => 7) 3 0 = some 1 ∧
    follow goodTree.nodes (goLeftProba good.ops fun _ => -7) 3 0 = some 2 :=
  ⟨C52_partial good id 3 (by decide) (by decide) fun _ => rfl, by decide +kernel, by decide +kernel⟩

/-- Raw values, exact midpoints. -/
def exact : Cfg Rat (Int × Int) where
  ops :=
    { lt := fun a b => decide (a < b), le := fun a b => decide (a ≤ b), same := fun a b => decide (a = b),
      round := Rat.floor, zero := 0,
      num := { near := fun a b => decide (a = b), mid := fun a b => (a + b) / 2 } }
  crit := gini2
  enough := fun _ _ _ => true
  above := fun s => decide (0 < s.1)
  data := { x := fun i => if i < 2 then 1 else 2, ldx := 3, nSamples := 3, binned := fun _ => 0 }
  sm := { y := fun s => if s < 2 then 0 else 1, w := fun s => if s = 0 then 2 else 1 }
  nClass := 2
  minNode := 1
  maxDepth := 1
  useHist := false
  onevall := fun _ => false
  nCat := fun _ => 2
  nBins := fun _ => 1
  thr := fun _ _ => 0

theorem exact_sane : Sane exact id 3 where
  obs := by decide
  minNode := by decide
  classes := by decide
  lt _ _ := rfl
  le _ _ := rfl
  irrefl a := by simp [exact, gini2]
  mid a b h := by simp only [exact]; constructor <;> linarith
  labels p hp := by simp only [exact]; split <;> decide
  drawn p hp := by simp only [exact]; split <;> decide
  ldx := by decide
  thr h := by cases h
  bins h := by cases h

theorem exact_regular : Regular exact id 3 where
  near _ a := by simp [exact]
  mid _ a b h := by simp only [exact]; constructor <;> linarith
  once _ _ h := by cases h
  ldx h := by cases h
  codes h := by cases h

def exactBest := (TreeSplit.splitRaw exact.ops.num (critAt exact (root exact id 3)) exact.sm id
  (fun i => value exact 0 (id i)) (view exact id (root exact id 3) (root exact id 3).score)
  exact.minNode).get (by decide +kernel)
def exactTree :=
  (grown exact id 3 (.continuous 0 exactBest.thr) exactBest.cand.ls exactBest.cand.rs).get
    (by decide +kernel)

theorem exact_reach : Reach exact id 3 0 exactTree := by
  refine reach_one exact id 3 0 (by decide) _ _ _ exactTree (Found.continuous 0 id exactBest rfl rfl
    ⟨List.Perm.refl _, fun _ _ => rfl⟩ ?_ (by decide +kernel) (Option.some_get _).symm)
    (Option.some_get _).symm
  have : ∀ i j : Fin 3, i ≤ j → exact.ops.lt (value exact 0 j.1) (value exact 0 i.1) = false := by
    decide +kernel
  intro i j _ h1 h2
  have h2 : j < 3 := h2
  exact this ⟨i, by omega⟩ ⟨j, h2⟩ h1

example : Home exact id 3 ∧ Reach exact id 3 0 exactTree ∧ exactTree.stack = [] ∧ exactBest.thr = 3 / 2 ∧
    reached exact exactTree 1 = (some 2, [2]) ∧ reached exact exactTree 2 = (some 1, [1]) :=
  ⟨C28_partial exact id 3 exact_sane exact_regular, exact_reach, by decide +kernel, by decide +kernel,
    by decide +kernel, by decide +kernel⟩

end Verif.Tree
