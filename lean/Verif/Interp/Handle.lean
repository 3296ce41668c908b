import Verif.Interp.Spline
import Mathlib.Algebra.Order.Field.Basic

/-
Model of the interpolation handle over sequences of calls
(`source/core/interpolation/interpolation.cpp`, `interpolation_generic.hpp` lines 110-318,
`cubic_spline/cubic_spline.cpp` lines 49-98, 364-422, 512-567).

Simplified: exact arithmetic; vectors and arrays of the caller are a length and a function;
the caller keeps the arrays alive and they have the documented lengths; the contents of the
arrays of the tridiagonal system before `interpolate` are arbitrary; null arrays of the
caller and memory errors do not occur.  The value of the option "storage order" at the time of `set_values` and
the outcome of the check of the data are part of the call.  The cells of `evaluate` are
arbitrary cells (`C83_bounds`).
-/
namespace Verif.Interp

variable {F : Type} [Field F] [LinearOrder F]

/-- An array: its length and contents. -/
structure Arr (F : Type) where
  len : Nat
  val : Nat → F

/-- `std::vector::resize(n, v)`. -/
def Arr.resize (a : Arr F) (n : Nat) (v : F) : Arr F :=
  { len := n, val := fun k => if k < a.len then a.val k else v }

/-- The option "cubic spline type". -/
inductive Typ where
  | natural
  | clamped
  | custom
  | hermite
  deriving DecidableEq

/-- State of the handle. `model` is 0 for unset and 1 for cubic splines; `interp` is true
if the pointer to the object is not null. -/
structure St (F : Type) where
  model : Nat := 0
  interp : Bool := false
  n : Nat := 0
  dim : Nat := 0
  rowMajor : Bool := false
  x : Nat → F
  uniform : Bool := false
  dx : Arr F
  dy : Arr F
  y : Arr F
  yd : Arr F
  typ : Typ := .natural
  lord : Nat := 2
  rord : Nat := 2
  lbc : Arr F
  rbc : Arr F
  coeffs : Arr F
  sitesSet : Bool := false
  valuesSet : Bool := false
  derivSet : Bool := false
  bcSet : Bool := false
  trained : Bool := false

def empty : Arr F := ⟨0, fun _ => 0⟩

/-- A new handle. -/
def St.init : St F :=
  { x := fun _ => 0, dx := empty, dy := empty, y := empty, yd := empty, lbc := empty, rbc := empty, coeffs := empty }

/-- Calls of the public interface. -/
inductive Call (F : Type) where
  | selectModel (m : Nat)
  /-- an option is set: `some t` for "cubic spline type", `none` for any other -/
  | setOption (t : Option Typ)
  | setSites (n : Nat) (x : Nat → F)
  | setSitesUniform (n : Nat) (start stop : F)
  | setValues (rowMajor dataOk : Bool) (n dim : Nat) (y : Nat → F) (ld order : Nat)
  | setBc (dim lord : Nat) (lbc : Nat → F) (rord : Nat) (rbc : Nat → F)
  | interpolate (s : Sys F)
  | evaluate (cells : List Nat) (orders : List Nat)

/-- Outcome of a call. -/
inductive Out (F : Type) where
  | ok (s : St F)
  | error (s : St F)
  /-- dereference of the null pointer `interp` -/
  | null
  /-- read outside an array -/
  | outOfBounds

omit [LinearOrder F] in
/-- `select_model` (interpolation.cpp 47-65). -/
def selectModel (s : St F) (m : Nat) : Out F :=
  if s.model ≠ 0 then .error s
  else
    let s := { s with model := m }
    if m = 1 then .ok { s with interp := true } else .error s

/-- `set_sites_1d` (interpolation_generic.hpp 114-192); the index is in `Cells`. -/
def setSites1d (s : St F) (n : Nat) (x : Nat → F) : Out F :=
  if s.sitesSet then .error s
  else if n < 2 then .error s
  else if 0 < s.n ∧ n ≠ s.n then .error s
  else
    let dx0 := s.dx.resize (n - 1) 0
    let s := { s with n := n, x := x, uniform := false }
    match (List.range (n - 1)).find? fun i => decide (x (i + 1) - x i ≤ 0) with
    | some b => .error { s with dx := ⟨n - 1, fun k => if k ≤ b then x (k + 1) - x k else dx0.val k⟩ }
    | none => .ok { s with dx := ⟨n - 1, fun k => x (k + 1) - x k⟩, trained := false, sitesSet := true }

/-- `set_sites_uniform_1d` (interpolation_generic.hpp 195-239). -/
def setSitesUniform1d (s : St F) (n : Nat) (start stop : F) : Out F :=
  if s.sitesSet then .error s
  else if n < 2 then .error s
  else if stop ≤ start then .error s
  else if 0 < s.n ∧ n ≠ s.n then .error s
  else
    let h := (stop - start) / ((n - 1 : Nat) : F)
    .ok { s with
      n := n, dx := s.dx.resize (n - 1) h, x := fun i => start + (i : F) * h, uniform := true,
      trained := false, sitesSet := true }

/-- Length of a two-dimensional array of the caller. -/
def arrayLen (rowMajor : Bool) (n dim ld : Nat) : Nat :=
  if rowMajor then (n - 1) * ld + dim else (dim - 1) * ld + n

/-- The smallest leading dimension accepted by `check_2D_array`. -/
def ldMin (rowMajor : Bool) (n dim : Nat) : Nat := if rowMajor then dim else n

omit [LinearOrder F] in
/-- `set_values_1d` (interpolation_generic.hpp 243-318) with the checks of
`check_2D_array` (da_utils.cpp 571-640). -/
def setValues1d (s : St F) (rowMajor dataOk : Bool) (n dim : Nat) (y : Nat → F) (ld order : Nat) : Out F :=
  if order ≠ 0 ∧ order ≠ 1 then .error s
  else if s.n ≠ 0 ∧ n ≠ s.n then .error s
  else
    let s := { s with rowMajor := rowMajor }
    if n < 2 ∨ dim < 1 ∨ dataOk = false ∨ ld < ldMin rowMajor n dim then .error s
    else
      let s := { s with n := n, dim := dim, trained := false }
      if order = 1 then .ok { s with yd := ⟨arrayLen rowMajor n dim ld, y⟩, derivSet := true }
      else .ok { s with
        y := ⟨arrayLen rowMajor n dim ld, y⟩, dy := ⟨(n - 1) * dim, setDy rowMajor n dim y⟩, valuesSet := true }

omit [LinearOrder F] in
/-- `set_boundary_conditions` (cubic_spline.cpp 52-97). -/
def setBc (s : St F) (dim lord : Nat) (lbc : Nat → F) (rord : Nat) (rbc : Nat → F) : Out F :=
  if lord ≠ 1 ∧ lord ≠ 2 then .error s
  else if rord ≠ 1 ∧ rord ≠ 2 then .error s
  else if (s.valuesSet = true ∧ dim ≠ s.dim) ∨ dim < 1 then .error s
  else .ok { s with
    typ := .custom, lord := lord, rord := rord, lbc := ⟨dim, lbc⟩, rbc := ⟨dim, rbc⟩, trained := false, bcSet := true }

omit [LinearOrder F] in
/-- The kind of spline. -/
def kindOf (s : St F) : Kind F :=
  match s.typ with
  | .natural => .natural
  | .clamped => .clamped
  | .custom => .custom s.lord s.rord s.lbc.val s.rbc.val
  | .hermite => .hermite s.yd.val

omit [LinearOrder F] in
/-- The positions of `y` and `dy` read by all kinds (cubic_spline.cpp 144-147, 161-172,
326-360), and of `dx`. -/
def readsValues (s : St F) : Bool :=
  (List.range (s.n - 1)).all (fun i => decide (i < s.dx.len)) &&
  (loop2 s.dim (s.n - 1) fun d i => decide (d * (s.n - 1) + i < s.dy.len)).all id &&
  (loop2 s.dim (s.n - 1) fun d i => decide ((if s.rowMajor then i * s.dim + d else d * s.n + i) < s.y.len)).all id

omit [Field F] [LinearOrder F] in
/-- The positions of the derivatives read by Hermite splines (cubic_spline.cpp 333-334, 356-357). -/
def readsDeriv (s : St F) : Bool :=
  (loop2 s.dim s.n fun d i => decide ((if s.rowMajor then i * s.dim + d else d * s.n + i) < s.yd.len)).all id

omit [Field F] [LinearOrder F] in
/-- The boundary values read by custom splines (cubic_spline.cpp 259-274). -/
def readsBc (s : St F) : Bool :=
  (List.range s.dim).all fun d => decide (d < s.lbc.len) && decide (d < s.rbc.len)

omit [LinearOrder F] in
/-- `interpolate` (cubic_spline.cpp 364-422). -/
def interpolateH (gtsv : Solver F) (s : St F) (w : Sys F) : Out F :=
  if s.trained then .ok s
  else if s.sitesSet = false ∨ s.valuesSet = false then .error s
  else
    let sized := { s with coeffs := s.coeffs.resize (4 * (s.n - 1) * s.dim) 0 }
    if s.typ = .hermite ∧ s.derivSet = false then .error s
    else if s.typ = .custom ∧ s.bcSet = false then
      if readsValues s then .error sized else .outOfBounds
    else if readsValues s && (decide (s.typ ≠ .hermite) || readsDeriv s) && (decide (s.typ ≠ .custom) || readsBc s) then
      match interpolateDy gtsv s.uniform s.rowMajor s.n s.dim s.dx.val s.y.val s.dy.val (kindOf s) w with
      | none => .error sized
      | some c => .ok { s with coeffs := ⟨4 * (s.n - 1) * s.dim, c⟩, trained := true }
    else .outOfBounds

omit [Field F] [LinearOrder F] in
/-- `evaluate` (cubic_spline.cpp 512-567): reads of the coefficients. -/
def evaluateH (s : St F) (cells orders : List Nat) : Out F :=
  if s.trained = false then .error s
  else if cells = [] ∨ orders = [] then .error s
  else if orders.all (fun o => decide (o ≤ 3)) then
    if (List.range s.dim).all fun d => cells.all fun c => decide (d * 4 * (s.n - 1) + 4 * min c (s.n - 2) + 3 < s.coeffs.len) then
      .ok s
    else .outOfBounds
  else .error s

omit [LinearOrder F] in
/-- The calls pass through `interp` if a model is set (interpolation.cpp 69-160);
`refresh` when an option is set (163-166). -/
def viaInterp (s : St F) (o : Out F) : Out F :=
  if s.model = 0 then .error s else if s.interp then o else .null

/-- One call. -/
def step (gtsv : Solver F) (s : St F) : Call F → Out F
  | .selectModel m => selectModel s m
  | .setOption t =>
    let s := { s with typ := t.getD s.typ }
    if s.model = 0 then .ok s else if s.interp then .ok { s with trained := false } else .null
  | .setSites n x => viaInterp s (setSites1d s n x)
  | .setSitesUniform n a b => viaInterp s (setSitesUniform1d s n a b)
  | .setValues r ok n dim y ld order => viaInterp s (setValues1d s r ok n dim y ld order)
  | .setBc dim lord lbc rord rbc => viaInterp s (setBc s dim lord lbc rord rbc)
  | .interpolate w => viaInterp s (interpolateH gtsv s w)
  | .evaluate cells orders => viaInterp s (evaluateH s cells orders)

/-- A sequence of calls. -/
def run (gtsv : Solver F) (o : Out F) (l : List (Call F)) : Out F :=
  l.foldl (fun o c => match o with
    | .ok s => step gtsv s c
    | .error s => step gtsv s c
    | .null => .null
    | .outOfBounds => .outOfBounds) o

end Verif.Interp
