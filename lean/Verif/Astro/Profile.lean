import Verif.Astro.Ds9Mask
import Verif.Astro.Filter
import Verif.Math.Gauss
/-!
# Radial and Gaussian profiles (`astro/image.hpp:385-426`)

Numbers are in an ordered field with a floor, or real, without rounding. The quotient by a null total, NaN in the code, is `none`.
-/
namespace Verif.Profile
open Verif Verif.Astro Verif.Ds9

variable {K : Type} [Field K] [LinearOrder K] [FloorRing K]

/-- the annulus of `radial_profile` (image.hpp:397-398); the arguments of `circular_mask` are the radius and the centre, in this order -/
def annulus (nx ny i : Nat) : Res (Img K) := do
  let a ← circularMask nx ny ((nx / 2 : Nat) : K) ((ny / 2 : Nat) : K) (i : K)
  let b ← circularMask nx ny ((nx / 2 : Nat) : K) ((ny / 2 : Nat) : K) ((i - 1 : Nat) : K)
  .ok ⟨nx, ny, List.zipWith (fun u v => u * (1 - v)) a.px b.px⟩

/-- `total(mask*img)/total(mask)` (image.hpp:399) -/
def average (mask img : Img K) : Option K :=
  if mask.px.sum = 0 then none else some ((List.zipWith (· * ·) mask.px img.px).sum / mask.px.sum)

/-- `radial_profile` (image.hpp:389-403); `npix` is not 0 (`res[0]` would be out of bounds) -/
def radialProfile (img : Img K) (npix : Nat) : Res (List (Option K)) := do
  Res.check (0 < npix)
  let c ← img.get (img.nx / 2) (img.ny / 2)
  let l ← ((List.range npix).drop 1).mapM fun i => do
    let mask ← annulus img.nx img.ny i
    .ok (average mask img)
  .ok (some c :: l)

/-- `gaussian_profile(dims, sigma, x0, y0)` (image.hpp:416-422) -/
noncomputable def gaussianProfile (nx ny : Nat) (sigma x0 y0 : ℝ) : Res (Img ℝ) :=
  generateImg nx ny (fun x y => Gauss.integrateGauss2d ((x : ℝ) - 0.5) (x + 0.5) ((y : ℝ) - 0.5) (y + 0.5) x0 y0 sigma 1) 0

/-- `gaussian_profile(dims, sigma)` (image.hpp:424-426): the centre is an integer quotient -/
noncomputable def gaussianProfileC (nx ny : Nat) (sigma : ℝ) : Res (Img ℝ) :=
  gaussianProfile nx ny sigma ((nx / 2 : Nat) : ℝ) ((ny / 2 : Nat) : ℝ)

end Verif.Profile
