import Verif.KernelPca.Spec
import Verif.Pca.Model

/-
What the properties of the principal component analysis say; of the model only the data types are used.
-/
namespace Verif.Pca

open Finset
open Verif.KernelPca (pos)

variable {K : Type*} [Field K] [LinearOrder K]

/-- The value x of feature j as the method standardises it, given the means and deviations of the features. -/
def std (method : Method) (means sds : Nat → K) (x : K) (j : Nat) : K :=
  match method with
  | .svd => x
  | .cov => x - means j
  | .corr => (x - means j) / (if sds j = 0 then 1 else sds j)

/-- The way back. -/
def unstd (method : Method) (means sds : Nat → K) (x : K) (j : Nat) : K :=
  match method with
  | .svd => x
  | .cov => x + means j
  | .corr => x * (if sds j = 0 then 1 else sds j) + means j

/-- By what the coordinate of component c is multiplied. -/
noncomputable def whitening (f : Fit K) (c : Nat) : K :=
  if f.whiten then f.sqrtDiv / (if f.sigma c = 0 then f.eps else f.sigma c) else 1

/-- Coordinate c of a sample. -/
noncomputable def coordinate (f : Fit K) (x : Nat → K) (c : Nat) : K :=
  (∑ j ∈ range f.p, std f.method f.means f.sds (x j) j * f.vt (c + f.ldvt * j)) * whitening f c

/-- Standardised feature j of the sample with coordinates y. -/
noncomputable def recon (f : Fit K) (y : Nat → K) (j : Nat) : K :=
  ∑ c ∈ range f.npc, y c * (if f.whiten then f.sigma c / f.sqrtDiv else 1) * f.vt (c + f.ldvt * j)

/-- What a trained handle satisfies: there are components, the deviations without zeros belong to the deviations, the singular
values are sorted and not negative. -/
structure Fitted (f : Fit K) : Prop where
  pos : 0 < f.npc
  sdnz : ∀ j < f.p, f.sdnz j = if f.sds j = 0 then 1 else f.sds j
  nonneg : ∀ c < f.npc, 0 ≤ f.sigma c
  sorted : ∀ c < f.npc, f.sigma (f.npc - 1) ≤ f.sigma c

end Verif.Pca
