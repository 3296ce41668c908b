import Verif.TallSkinny.Model

/-
The blocked QR factorisation `da_qr` with `store_factors` and the application of its orthogonal
factor, `da_qr_apply` (source/core/utilities/da_qr.hpp).

`geqrf` and `orgqr` are parameters.  They get exactly what LAPACK reads: `seen` is the matrix
within its dimensions, `below` its part below the diagonal.  Their error codes, the workspace and
the variant with `geqrt3` are not modelled.
-/
namespace Verif.TallSkinny

open Verif.Logistic

variable {K : Type*} [Field K]

/-- `geqrf h n` overwrites a matrix by its factors and gives the scalars `tau`; `orgqr h n` makes
the first `n` columns of the orthogonal factor out of them. -/
structure Lapack (K : Type*) where
  geqrf : Nat → Nat → (Nat → Nat → K) → (Nat → Nat → K) × (Nat → K)
  orgqr : Nat → Nat → (Nat → Nat → K) → (Nat → K) → Nat → Nat → K

def seen (h n : Nat) (B : Nat → Nat → K) : Nat → Nat → K :=
  fun r c => if r < h ∧ c < n then B r c else 0

def below (h n : Nat) (F : Nat → Nat → K) : Nat → Nat → K :=
  fun r c => if r < h ∧ c < n ∧ c < r then F r c else 0

def upTo (n : Nat) (v : Nat → K) : Nat → K := fun i => if i < n then v i else 0

/-- `A`, `tau` and `R_blocked`. -/
structure QrState (K : Type*) where
  A : Nat → K
  tau : Nat → K
  Rb : Nat → K

/-- One iteration of the parallel loop (da_qr.hpp:246-271). -/
def qrBlock (la : Lapack K) (n lda nb bs fin : Nat) (i : Nat) (s : QrState K) : QrState K :=
  let mr := nb * n
  let h := height nb bs fin i
  let F := la.geqrf h n (seen h n fun r c => s.A (i * bs + (r + c * lda)))
  let A := loop n s.A fun c A => loop h A fun r A => upd A (i * bs + (r + c * lda)) (F.1 r c)
  { A := A
    tau := loop (min h n) s.tau fun r tau => upd tau (i * n + r) (F.2 r)
    Rb := if 1 < nb then
        loop n s.Rb fun j Rb => loop (j + 1) Rb fun k Rb =>
          upd Rb (i * n + mr * j + k) (A (i * bs + lda * j + k))
      else s.Rb }

/-- What `da_qr` leaves behind. -/
structure QrOut (K : Type*) where
  A : Nat → K
  tau : Nat → K
  Rb : Nat → K
  tauR : Nat → K
  R : Nat → K

/-- `da_qr` (da_qr.hpp:246-303) with the blocks taken in the order `L`; `tau0`, `tauR0` are what the
arrays of scalars held before.  `R_blocked` and `R` are zero at first (da_qr.hpp:176-179). -/
def daQr (la : Lapack K) (n : Nat) (A : Nat → K) (lda nb bs fin : Nat) (L : List Nat)
    (tau0 tauR0 : Nat → K) : QrOut K :=
  let mr := nb * n
  let s := L.foldl (fun s i => qrBlock la n lda nb bs fin i s) ⟨A, tau0, fun _ => 0⟩
  if 1 < nb then
    let F := la.geqrf mr n (seen mr n fun r c => s.Rb (r + c * mr))
    let Rb := loop n s.Rb fun c Rb => loop mr Rb fun r Rb => upd Rb (r + c * mr) (F.1 r c)
    { A := s.A, tau := s.tau, Rb := Rb
      tauR := loop n tauR0 fun r tau => upd tau r (F.2 r)
      R := loop n (fun _ => 0) fun j R => loop (j + 1) R fun i R =>
        upd R (i + j * n) (Rb (i + j * mr)) }
  else
    { A := s.A, tau := s.tau, Rb := s.Rb, tauR := tauR0
      R := loop n (fun _ => 0) fun j R => loop (j + 1) R fun i R =>
        upd R (i + j * n) (s.A (i + j * lda)) }

/-- `da_qr_apply` (da_qr.hpp:333-440) to the `n` by `r` matrix `C`, the blocks in the order `L`.  The
orthogonal factors that `orgqr` leaves in place of `R_blocked` and of the blocks of `A` go directly
into the products, which are the loop nests of `cblas_gemm`. -/
def daQrApply (la : Lapack K) (n : Nat) (o : QrOut K) (lda nb bs fin r : Nat) (C : Nat → K)
    (ldc : Nat) (L : List Nat) : Nat → K :=
  let mr := nb * n
  let k := min fin n
  let QC : Nat → K :=
    if 1 < nb then
      let Q := la.orgqr mr n (below mr n fun a l => o.Rb (a + l * mr)) (upTo n o.tauR)
      loop r (fun _ => 0) fun c QC => loop mr QC fun a QC =>
        upd QC (a + c * mr) (loop n 0 fun l s => s + Q a l * C (l + c * ldc))
    else
      loop r (fun _ => 0) fun j QC => loop n QC fun i QC => upd QC (j * n + i) (C (j * ldc + i))
  L.foldl (fun C i =>
    let h := height nb bs fin i
    let Q := la.orgqr h k (below h k fun a l => o.A (i * bs + (a + l * lda)))
      (upTo k fun x => o.tau (i * n + x))
    loop r C fun c C => loop h C fun a C =>
      upd C (i * bs + (a + c * ldc)) (loop k 0 fun l s => s + Q a l * QC (i * n + (l + c * mr)))) C

end Verif.TallSkinny
