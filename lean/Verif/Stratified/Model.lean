/-
Stratified shuffling, /repo/source/core/utilities/da_utils.cpp:263-532.

The random generator is an arbitrary function: `rnd t` is the number drawn for the t-th tie,
`shuf` the outcome of `da_std::shuffle` on a range.  Floating-point shares are exact rationals
here (the C++ computes them in double).  Vectors indexed by class are functions with an
explicit number of classes.
-/
import Mathlib.Data.Rat.Floor
namespace Verif.Stratified

inductive Status | success | invalidInput | invalidPointer | invalidArrayDimension
deriving DecidableEq, Repr

/-- `*std::max_element` over the `k` remainders (`none` for an empty vector: undefined). -/
def maxElement (r : Nat → ℚ) : Nat → Option ℚ
  | 0 => none
  | k + 1 => some ((List.range k).foldl (fun b i => if b < r (i + 1) then r (i + 1) else b) (r 0))

/-- Indices whose remainder equals the largest, da_utils.cpp:331-339. -/
def tied (r : Nat → ℚ) (k : Nat) (b : ℚ) : List Nat := (List.range k).filter fun i => r i = b

/-- One pass of the loop da_utils.cpp:306-352: add one draw to a class with the largest
remainder and null that remainder. -/
def giveOne (rnd : Nat → Nat) (t k : Nat) (freq : Nat → Nat) (r : Nat → ℚ) :
    Option ((Nat → Nat) × (Nat → ℚ)) := do
  let b ← maxElement r k
  let inds := tied r k b
  let idx ← if inds.length = 1 then inds[0]? else inds[rnd t % inds.length]?
  pure (fun i => if i = idx then freq i + 1 else freq i, fun i => if i = idx then 0 else r i)

def giveLoop (rnd : Nat → Nat) (k : Nat) : Nat → Nat → (Nat → Nat) → (Nat → ℚ) → Option (Nat → Nat)
  | 0, _, freq, _ => some freq
  | left + 1, t, freq, r => do
    let (f, r') ← giveOne rnd t k freq r
    giveLoop rnd k left (t + 1) f r'

/-- `class_frequency_approximation`, da_utils.cpp:278-357.  A negative number of left-over
draws runs the loop zero times. -/
def classFrequency (rnd : Nat → Nat) (nDraws m k : Nat) (counts : Nat → Nat) : Option (Nat → Nat) :=
  let expected : Nat → ℚ := fun i => ((counts i : ℚ) / m) * nDraws
  let appx : Nat → Nat := fun i => ⌊expected i⌋.toNat
  let rem : Nat → ℚ := fun i => expected i - appx i
  let flooredSum := ((List.range k).map appx).sum
  giveLoop rnd k (nDraws - flooredSum) 0 appx rem

/-- `validate_parameters_stratified_shuffle`, da_utils.cpp:359-374. -/
def validate (m trainSize testSize : Int) (nClasses : Nat) (counts : Nat → Nat) : Status :=
  if nClasses < 2 then .invalidInput
  else if trainSize + testSize > m then .invalidInput
  else if trainSize < nClasses ∨ testSize < nClasses then .invalidInput
  else if (List.range nClasses).any (fun i => counts i < 2) then .invalidInput
  else .success

/-- `class_indices_map[c].push_back(i)`: `std::map` as a list sorted by key. -/
def pushIndex (c : Int) (i : Nat) : List (Int × List Nat) → List (Int × List Nat)
  | [] => [(c, [i])]
  | (k, l) :: rest =>
    if c < k then (c, [i]) :: (k, l) :: rest
    else if c = k then (k, l ++ [i]) :: rest
    else (k, l) :: pushIndex c i rest

/-- Building the map, da_utils.cpp:386-394. -/
def classMap (classes : List Int) : List (Int × List Nat) :=
  classes.zipIdx.foldl (fun acc p => pushIndex p.1 p.2 acc) []

/-- `for (...) buf[pos++] = v`. A value read out of range is `none`. -/
def fillSeg (buf : List Nat) (pos : Nat) : List (Option Nat) → Option (List Nat)
  | [] => some buf
  | v :: vs => do
    let x ← v
    if pos < buf.length then fillSeg (buf.set pos x) (pos + 1) vs else none

/-- The class loop, da_utils.cpp:440-462. -/
def fillClasses (shuf : Nat → List Nat → List Nat) (ftr fte : Nat → Nat) :
    List (Int × List Nat) → Nat → List Nat → Nat → Nat → Option (List Nat)
  | [], _, buf, _, _ => some buf
  | (_, l) :: rest, c, buf, ti, si => do
    let s := shuf c l
    let buf ← fillSeg buf ti ((List.range (ftr c)).map fun j => s[j]?)
    let buf ← fillSeg buf si ((List.range (fte c)).map fun j => if j < s.length then s[s.length - 1 - j]? else none)
    fillClasses shuf ftr fte rest (c + 1) buf (ti + ftr c) (si + fte c)

/-- `stratified_shuffle`, da_utils.cpp:377-472.  `rnd1`, `rnd2` drive the two frequency
approximations, `shufC` the class shuffles, `shufTr`, `shufTe` the final ones.  Result: the
status and the output buffer. -/
def stratifiedShuffle (rnd1 rnd2 : Nat → Nat) (shufC : Nat → List Nat → List Nat)
    (shufTr shufTe : List Nat → List Nat) (trainSize testSize : Int) (classes : List Int) (out : List Nat) :
    Option (Status × List Nat) :=
  let m := classes.length
  let map := classMap classes
  let nClasses := map.length
  let counts : Nat → Nat := fun i => ((map[i]?).map fun e => e.2.length).getD 0
  match validate m trainSize testSize nClasses counts with
  | .success => do
    let tr := trainSize.toNat
    let te := testSize.toNat
    let ftr ← classFrequency rnd1 tr m nClasses counts
    let left : Nat → Nat := fun i => counts i - ftr i
    let fte ← classFrequency rnd2 te (m - tr) nClasses left
    let buf ← fillClasses shufC ftr fte map 0 out 0 tr
    pure (.success, shufTr (buf.take tr) ++ shufTe ((buf.drop tr).take te) ++ buf.drop (tr + te))
  | s => some (s, out)

/-- `get_shuffled_indices` for integer classes, da_utils.cpp:488-532 with the checks of
474-485; a null output is `none`, null classes are `none`. -/
def getShuffledIndices (rnd1 rnd2 : Nat → Nat) (shufC : Nat → List Nat → List Nat)
    (shufTr shufTe shufAll : List Nat → List Nat) (m seed trainSize testSize : Int) (classes : Option (List Int))
    (out : Option (List Nat)) : Option (Status × Option (List Nat)) :=
  match out with
  | none => some (.invalidPointer, none)
  | some out =>
    if m ≤ 1 then some (.invalidArrayDimension, some out)
    else if seed < -1 then some (.invalidInput, some out)
    else
      match classes with
      | none =>
        if m.toNat ≤ out.length then
          some (.success, some (shufAll (List.range m.toNat) ++ out.drop m.toNat))
        else none
      | some cl =>
        if m.toNat ≤ cl.length then
          (stratifiedShuffle rnd1 rnd2 shufC shufTr shufTe trainSize testSize (cl.take m.toNat) out).map
            fun (s, o) => (s, some o)
        else none

end Verif.Stratified
