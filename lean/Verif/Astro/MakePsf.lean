import Verif.Astro.Region
import Verif.Astro.Regrid
import Verif.Astro.Filter
import Verif.Math.Bilinear
import Verif.Math.Reduce
import Verif.Str.Model
/-!
# Model of `translate` (`astro/image.hpp:126-137`) and `make_psf` (`astro/astro.hpp:1386-1500`)

Numbers are elements of an ordered field, without rounding; a division by zero is not modelled (the theorems ask for widths that are not zero).
-/
namespace Verif.Psf
open Verif Verif.Astro Verif.Bil

variable {K : Type} [Field K] [LinearOrder K] [FloorRing K]

/-- `translate(v, dx, dy, def)` (`image.hpp:126-137`) -/
def translate (v : Img K) (dx dy d : K) : Res (Img K) :=
  for2 v.nx v.ny (fun x y r => do
    let a ← bilinearStrict ⟨v.px, v.nx, v.ny⟩ ((x : K) - dx) ((y : K) - dy) d
    r.put x y a) (Img.fill v.nx v.ny 0)

/-- What `make_psf` needs: `from_string` on a string that is not empty (its result, which is ignored, and the number afterwards: zero if there is none, since C++11),
the content of FITS files, the exponential and the square root -/
structure Env (K : Type) where
  read : Str.Str → Bool × K
  file : Str.Str → Option (Img K)
  exp : K → K
  sqrt : K → K

/-- `double a; from_string(s, a);`: nothing is written if the string is empty, and the number is then used without a value -/
def number (E : Env K) (s : Str.Str) : Res K := if s = [] then .ub else .ok (E.read s).2

/-- `params[i]` -/
def param (params : List Str.Str) (i : Nat) : Res Str.Str := do
  Res.check (i < params.length)
  Res.rd params i

/-- the four pixels at a distance `i` along the axes are zero (`astro.hpp:1458-1461`) -/
def crossZero (t : Img K) (m0 m1 i : Nat) : Bool :=
  t.at (m0 - i) m1 == some 0 && t.at (m0 + i) m1 == some 0 && t.at m0 (m1 - i) == some 0 && t.at m0 (m1 + i) == some 0

/-- the half size (`astro.hpp:1450-1467`): the first distance where the pixels are zero, otherwise the largest one in the image -/
def halfSize (t : Img K) (m0 m1 : Nat) : Nat :=
  let imax := min (min m0 (t.nx - 1 - m0)) (min m1 (t.ny - 1 - m1))
  match (List.range' 1 imax).find? (crossZero t m0 m1) with
  | some i => i
  | none => imax

/-- the source of a file (`astro.hpp:1441-1483`) -/
def filePsf (E : Env K) (nx ny : Nat) (x0 y0 : K) (name : Str.Str) : Res (Img K) :=
  match E.file name with
  | none => .abort
  | some t => do
    let m ← Math.vmax (t.px.map some)
    let m0 := m.1 / t.ny
    let m1 := m.1 % t.ny
    let h : Int := halfSize t m0 m1
    let t ← subregionImg t [(m0 : Int) - h, (m1 : Int) - h, (m0 : Int) + h, (m1 : Int) + h] 0
    let ix0 := roundI x0
    let iy0 := roundI y0
    let t ← translate t (x0 - (ix0 : K)) (y0 - (iy0 : K)) 0
    let ids ← subregion nx ny [ix0 - h, iy0 - h, ix0 + h, iy0 + h]
    let px ← copyIds (Img.fill nx ny 0).px t.px (ids.1.zip ids.2)
    .ok ⟨nx, ny, px⟩

/-- `make_psf(dims, x0, y0, psf_model, psf)` (`astro.hpp:1386-1500`): `none` is the result `false` -/
def makePsf (E : Env K) (nx ny : Nat) (x0 y0 : K) (model : Str.Str) : Res (Option (Img K)) := do
  let parts ← Str.split model [',']
  let params ← parts.mapM fun s => Str.trim s Str.blanks
  let kind ← param params 0
  if kind = "gaussian".toList then
    if params.length < 3 then .ok none
    else do
      let amp ← param params 1 >>= number E
      let width ← param params 2 >>= number E
      let r ← generateImg nx ny (fun x y => amp * E.exp (-(((x : K) - x0) ^ 2 + ((y : K) - y0) ^ 2) / (2 * width ^ 2))) 0
      .ok (some r)
  else if kind = "gaussring".toList then
    if params.length < 6 then .ok none
    else do
      let amp ← param params 1 >>= number E
      let width ← param params 2 >>= number E
      let rpos ← param params 3 >>= number E
      let rfrac ← param params 4 >>= number E
      let rwidth ← param params 5 >>= number E
      let r ← generateImg nx ny (fun x y =>
        let r2 := ((x : K) - x0) ^ 2 + ((y : K) - y0) ^ 2
        amp * (E.exp (-r2 / (2 * width ^ 2)) + rfrac * E.exp (-(E.sqrt r2 - rpos) ^ 2 / (2 * rwidth ^ 2)))) 0
      .ok (some r)
  else if kind = "file".toList then
    if params.length < 2 then .ok none
    else do
      let name ← param params 1
      let r ← filePsf E nx ny x0 y0 name
      .ok (some r)
  else .ok none

end Verif.Psf
