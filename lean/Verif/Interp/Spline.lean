import Mathlib.Algebra.Field.Basic

/-
Model of the cubic splines (`source/core/interpolation/cubic_spline/cubic_spline.cpp`):
`initialize_system` (lines 104-151), `coeffs_from_second_derivatives` (157-175), the four
types of splines (177-362) and `evaluate` (448-567), and of the differences computed in
`set_values_1d` (`interpolation_generic.hpp` lines 243-318).

Simplified: exact arithmetic; arrays are functions of an index; `gtsv` (LAPACK) is an
argument with its contract (`Gtsv` in the specification); memory errors do not occur.
-/
namespace Verif.Interp

variable {F : Type} [Field F]

/-- Assignments to the entries of an array, in order. -/
def store {α : Type} (a : Nat → α) (l : List (Nat × α)) : Nat → α :=
  l.foldl (fun a p => fun k => if k = p.1 then p.2 else a k) a

/-- Two nested loops. -/
def loop2 {α : Type} (n m : Nat) (f : Nat → Nat → α) : List α :=
  (List.range n).flatMap fun i => (List.range m).map (f i)

/-- `dy` (interpolation_generic.hpp 293-311): the leading dimension `ldy` is not used. -/
def setDy (rowMajor : Bool) (n dim : Nat) (y : Nat → F) : Nat → F :=
  if rowMajor then
    store (fun _ => 0) (loop2 (n - 1) dim fun i j => (j * (n - 1) + i, y ((i + 1) * dim + j) - y (i * dim + j)))
  else
    store (fun _ => 0) (loop2 dim (n - 1) fun j i => (j * (n - 1) + i, y (j * n + i + 1) - y (j * n + i)))

/-- The tridiagonal system. -/
structure Sys (F : Type) where
  diag : Nat → F
  up : Nat → F
  lo : Nat → F
  z : Nat → F

/-- `initialize_system` (cubic_spline.cpp 119-148); `s` contains the arrays before the
call. -/
def initSystem (uniform : Bool) (n dim : Nat) (dx dy : Nat → F) (s : Sys F) : Sys F :=
  { diag := store s.diag ((List.range' 1 (n - 2)).map fun i =>
      (i, if uniform then 4 * dx 0 else 2 * (dx (i - 1) + dx i)))
    up := store s.up ((List.range (n - 1)).map fun i => (i, if uniform then dx 0 else dx i))
    lo := store s.lo ((List.range (n - 1)).map fun i => (i, if uniform then dx 0 else dx i))
    z := store s.z (loop2 dim (n - 2) fun d i =>
      (d * n + (i + 1), 6 * dy (d * (n - 1) + (i + 1)) / dx (i + 1) - 6 * dy (d * (n - 1) + (i + 1) - 1) / dx (i + 1 - 1))) }

/-- `coeffs_from_second_derivatives` (cubic_spline.cpp 157-175). -/
def coeffsFromZ (rowMajor : Bool) (n dim : Nat) (dx y dy z : Nat → F) : Nat → F :=
  store (fun _ => 0) ((loop2 dim (n - 1) fun d i =>
    [(d * 4 * (n - 1) + 4 * i + 3, (z (d * n + i + 1) - z (d * n + i)) / (6 * dx i)),
     (d * 4 * (n - 1) + 4 * i + 2, z (d * n + i) / 2),
     (d * 4 * (n - 1) + 4 * i + 1, dy (d * (n - 1) + i) / dx i - dx i * z (d * n + i + 1) / 6 - dx i * z (d * n + i) / 3),
     (d * 4 * (n - 1) + 4 * i + 0, y (if rowMajor then i * dim + d else d * n + i))]).flatten)

/-- A solver: number of equations and right-hand sides, lower diagonal, diagonal, upper
diagonal, right-hand sides, their leading dimension. -/
abbrev Solver (F : Type) :=
  Nat → Nat → (Nat → F) → (Nat → F) → (Nat → F) → (Nat → F) → Nat → Option (Nat → F)

/-- `compute_natural_spline` (cubic_spline.cpp 177-204). -/
def natural (gtsv : Solver F) (n dim : Nat) (s : Sys F) : Option (Nat → F) :=
  let z := store s.z (((List.range dim).map fun i => [(i * n, (0 : F)), (i * n + n - 1, 0)]).flatten)
  if n ≤ 2 then some z
  else
    match gtsv (n - 2) dim (fun k => s.lo (k + 1)) (fun k => s.diag (k + 1)) (fun k => s.up (k + 1))
        (fun k => z (k + 1)) n with
    | none => none
    | some z' => some fun k => if k = 0 then z 0 else z' (k - 1)

/-- `compute_clamped_spline` (cubic_spline.cpp 206-233). -/
def clamped (gtsv : Solver F) (n dim : Nat) (dx dy : Nat → F) (s : Sys F) : Option (Nat → F) :=
  let diag := store s.diag [(0, 2 * dx 0), (n - 1, 2 * dx (n - 2))]
  let z := store s.z (((List.range dim).map fun d =>
    [(d * n, 6 * dy (d * (n - 1)) / dx 0), (d * n + n - 1, -6 * dy (d * (n - 1) + n - 2) / dx (n - 2))]).flatten)
  gtsv n dim s.lo diag s.up z n

/-- `compute_custom_bc_spline` (cubic_spline.cpp 235-286), the boundary conditions set. -/
def custom (gtsv : Solver F) (n dim : Nat) (dx dy : Nat → F) (lord rord : Nat) (lbc rbc : Nat → F) (s : Sys F) :
    Option (Nat → F) :=
  let diag := store s.diag [(0, if lord = 1 then 2 * dx 0 else 1)]
  let up := if lord = 1 then s.up else store s.up [(0, 0)]
  let diag := store diag [(n - 1, if rord = 1 then 2 * dx (n - 2) else 1)]
  let lo := if rord = 1 then s.lo else store s.lo [(n - 2, 0)]
  let z := store s.z (((List.range dim).map fun d =>
    [(d * n, if lord = 1 then 6 * dy (d * (n - 1)) / dx 0 - 6 * lbc d else lbc d),
     (d * n + n - 1, if rord = 1 then -6 * dy (d * (n - 1) + n - 2) / dx (n - 2) + 6 * rbc d else rbc d)]).flatten)
  gtsv n dim lo diag up z n

/-- `compute_hermite_spline` (cubic_spline.cpp 302-361), the derivatives set. -/
def hermite (rowMajor : Bool) (n dim : Nat) (dx y yd dy : Nat → F) : Nat → F :=
  if !rowMajor || decide (dim ≤ 1) then
    store (fun _ => 0) ((loop2 dim (n - 1) fun d i =>
      [(d * 4 * (n - 1) + 4 * i + 0, y (d * n + i)),
       (d * 4 * (n - 1) + 4 * i + 1, yd (d * n + i)),
       (d * 4 * (n - 1) + 4 * i + 2, 3 * dy (d * (n - 1) + i) / (dx i * dx i) - (2 * yd (d * n + i) + yd (d * n + i + 1)) / dx i),
       (d * 4 * (n - 1) + 4 * i + 3, -2 * dy (d * (n - 1) + i) / (dx i * dx i * dx i) +
         (yd (d * n + i) + yd (d * n + i + 1)) / (dx i * dx i))]).flatten)
  else
    store (fun _ => 0) ((loop2 (n - 1) dim fun i d =>
      [(i * 4 + 4 * d * (n - 1) + 0, y (i * dim + d)),
       (i * 4 + 4 * d * (n - 1) + 1, yd (i * dim + d)),
       (i * 4 + 4 * d * (n - 1) + 2, 3 * dy (d * (n - 1) + i) / (dx i * dx i) - (2 * yd (i * dim + d) + yd (i * dim + dim + d)) / dx i),
       (i * 4 + 4 * d * (n - 1) + 3, -2 * dy (d * (n - 1) + i) / (dx i * dx i * dx i) +
         (yd (i * dim + d) + yd (i * dim + dim + d)) / (dx i * dx i))]).flatten)

/-- Type of the spline. -/
inductive Kind (F : Type) where
  | natural
  | clamped
  | custom (lord rord : Nat) (lbc rbc : Nat → F)
  | hermite (yd : Nat → F)

/-- `interpolate` (cubic_spline.cpp 364-422) without the checks of the state, from given
differences `dy`; `s` contains the arrays left by earlier calls. -/
def interpolateDy (gtsv : Solver F) (uniform rowMajor : Bool) (n dim : Nat) (dx y dy : Nat → F) (k : Kind F) (s : Sys F) :
    Option (Nat → F) :=
  match k with
  | .hermite yd => some (hermite rowMajor n dim dx y yd dy)
  | .natural => (natural gtsv n dim (initSystem uniform n dim dx dy s)).map (coeffsFromZ rowMajor n dim dx y dy)
  | .clamped => (clamped gtsv n dim dx dy (initSystem uniform n dim dx dy s)).map (coeffsFromZ rowMajor n dim dx y dy)
  | .custom lord rord lbc rbc =>
    (custom gtsv n dim dx dy lord rord lbc rbc (initSystem uniform n dim dx dy s)).map (coeffsFromZ rowMajor n dim dx y dy)

/-- The same from the values, with the differences of `set_values_1d`. -/
def interpolate (gtsv : Solver F) (uniform rowMajor : Bool) (n dim : Nat) (dx y : Nat → F) (k : Kind F) (s : Sys F) :
    Option (Nat → F) :=
  interpolateDy gtsv uniform rowMajor n dim dx y (setDy rowMajor n dim y) k s

/-- `spline_eval` (cubic_spline.cpp 447-460). -/
def splineEval (order : Nat) (A B C D h : F) : F :=
  match order with
  | 0 => D + h * (C + h * (B + h * A))
  | 1 => C + h * (2 * B + h * 3 * A)
  | 2 => 2 * B + 6 * A * h
  | 3 => 6 * A
  | _ => 0

/-- `orders_bits`, `bitset_to_sequence` (cubic_spline.cpp 426-445, 531-541): `none` is an
error. -/
def ordersOf (orders : List Nat) : Option (List Nat) :=
  if orders.all fun o => decide (o ≤ 3) then some ((List.range 4).filter fun o => decide (o ∈ orders)) else none

/-- `evaluate` (cubic_spline.cpp 473-493, 543-566). -/
def evaluate (n dim nEval : Nat) (x xEval : Nat → F) (coeffs : Nat → F) (cells : Nat → Nat) (orders : List Nat)
    (yEval : Nat → F) : Option (Nat → F) :=
  match ordersOf orders with
  | none => none
  | some os =>
    some (store yEval ((loop2 dim nEval fun d i =>
      let c := d * 4 * (n - 1) + 4 * cells i
      os.zipIdx.map fun p =>
        (d * nEval + i + p.2 * (nEval * dim),
          splineEval p.1 (coeffs (c + 3)) (coeffs (c + 2)) (coeffs (c + 1)) (coeffs (c + 0)) (xEval i - x (cells i)))).flatten))

end Verif.Interp
