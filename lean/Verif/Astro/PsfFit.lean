import Verif.Astro.Region
import Verif.Math.Linfit
/-!
# Model of `psffit` and `srcsub` (`astro/astro.hpp:221-287`)

Pixels and errors are `none` if they are not finite; `E` is `max_error`, the largest number of the type of the errors.
-/
namespace Verif.Astro
open Verif

variable {K : Type} [Field K] [LinearOrder K]

/-- the region around the position: `hx` is half of `dims[1]` and goes with the first coordinate (`astro.hpp:238,246-247,276,279`) -/
def psfRegion (psfNx psfNy : Nat) (p0 p1 : Int) : List Int :=
  let hx : Int := (psfNy / 2 : Nat)
  let hy : Int := (psfNx / 2 : Nat)
  [p0 - hx, p1 - hy, p0 + hx, p1 + hy]

/-- pixels that are not finite, or whose error is not, are replaced (`astro.hpp:249-253`) -/
def clean (E : K) : Option K → Option K → K × K
  | some a, some e => (a, e)
  | _, _ => (0, E)

/-- the errors: a map of the size of the image or one number (`astro.hpp:240-245`). The `assert` on the dimensions stops the program (it does nothing if `NDEBUG` is defined). -/
def psfErrors (img terr : Img (Option K)) : Res (Img (Option K)) :=
  if terr.nx = 1 ∧ terr.ny = 1 then do
    let e ← Res.rd terr.px 0
    .ok (Img.fill img.nx img.ny e)
  else do
    Res.check (terr.nx = img.nx ∧ terr.ny = img.ny)
    .ok terr

/-- `psffit(img, terr, psf, pos)` (`astro.hpp:231-261`): the failure of the fit is `none`. `linfit` refuses templates of other dimensions than the data (`linfit.hpp:188-193`). -/
def psffit (sq : K → K) (E : K) (img terr : Img (Option K)) (psf : Img K) (p0 p1 : Int) : Res (Option (Linfit.Result 2 K)) := do
  let err ← psfErrors img terr
  let icut ← subregionImg img (psfRegion psf.nx psf.ny p0 p1) (some 0)
  let ecut ← subregionImg err (psfRegion psf.nx psf.ny p0 p1) (some E)
  let cut := List.zipWith (clean E) icut.px ecut.px
  Res.check (icut.nx = ecut.nx ∧ icut.ny = ecut.ny ∧ icut.nx = psf.nx ∧ icut.ny = psf.ny)
  .ok (Linfit.linfit sq (fun m : Fin (psf.nx * psf.ny) => (cut.getD m (0, E)).1) (fun m => (cut.getD m (0, E)).2)
    fun i m => if i = 0 then 1 else psf.px.getD m 0)

/-- `img[rr] -= flux*psf[rs]` with index vectors whose bounds are checked: read the values, then subtract them one by one -/
def subIds (img psf : List K) (flux : K) : List (Nat × Nat) → Res (List K)
  | [] => .ok img
  | (r, s) :: l => do
    Res.check (s < psf.length)
    let a ← Res.rd psf s
    Res.check (r < img.length)
    let b ← Res.rd img r
    subIds (img.set r (b - flux * a)) psf flux l

/-- `srcsub(img, psf, flux, pos)` (`astro.hpp:275-282`). The code declares `vec1i rr, rs` while `subregion` has parameters `vec1u&`, so the function cannot be
instantiated; this is the function with `vec1u`. -/
def srcsub (img psf : Img K) (flux : K) (p0 p1 : Int) : Res (Img K) := do
  let (rr, rs) ← subregion img.nx img.ny (psfRegion psf.nx psf.ny p0 p1)
  let px ← subIds img.px psf.px flux (rr.zip rs)
  .ok { img with px := px }

end Verif.Astro
