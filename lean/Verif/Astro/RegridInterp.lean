import Verif.Astro.RegridSum
/-!
# Projection of an image on another grid by interpolation (`astro/image.hpp:1808-1832`, `1866-2005`)

The source image has finite pixels. The map `s2d` goes from positions in the destination to positions in the source. The two
astrometries have their axes in the same order (the code takes the sizes of the loops from the destination with the axes of the source).
-/
namespace Verif.Astro
open Verif Verif.Bil

variable {K : Type} [Field K] [LinearOrder K] [FloorRing K]

/-- `interpolation_method` -/
inductive InterpMethod
  | nearest
  | linear
  | cubic
deriving DecidableEq

/-- `regrid_interpolate_params` (`image.hpp:1864-1869`) -/
structure InterpOpts where
  conserveFlux : Bool
  method : InterpMethod
  linearize : Bool

/-- `regrid_nearest` (`image.hpp:1809-1818`): `none` is `false` -/
def nearestAt (m : Map K) (xps yps : K) : Res (Option K) := do
  let mx ← s64 (roundI xps)
  let my ← s64 (roundI yps)
  if mx > 0 ∧ mx.toNat < m.d1 ∧ my > 0 ∧ my.toNat < m.d0 then do
    let a ← pix m my.toNat mx.toNat
    .ok (some a)
  else .ok none

/-- `regrid_linear` (`image.hpp:1820-1824`): `bilinear_strict(imgs, yps, xps, dnan)`, see `Bil.bilinearStrict`; `none` is `dnan` -/
def linearAt (m : Map K) (xps yps : K) : Res (Option K) := do
  let tix ← floorInt yps
  let tiy ← floorInt xps
  if tix < 0 ∨ sub64 m.d0 1 ≤ tix.toNat ∨ tiy < 0 ∨ sub64 m.d1 1 ≤ tiy.toNat then .ok none
  else (fromCell m tix.toNat tiy.toNat (yps - ((tix : Int) : K)) (xps - ((tiy : Int) : K))).map some

/-- `regrid_cubic` (`image.hpp:1826-1830`): `bicubic_strict(imgs, yps, xps, dnan)`, see `Bil.bicubicStrict` -/
def cubicAt (m : Map K) (xps yps : K) : Res (Option K) := do
  let tix ← floorInt yps
  let tiy ← floorInt xps
  if tix ≤ 0 ∨ sub64 m.d0 2 ≤ tix.toNat ∨ tiy ≤ 0 ∨ sub64 m.d1 2 ≤ tiy.toNat then .ok none
  else do
    let tmpx ← (List.range 4).mapM fun ix => do
      let tmpy ← (List.range 4).mapM fun iy => pix m (ix + tix.toNat - 1) (iy + tiy.toNat - 1)
      Spline.splineReg tmpy (xps - ((tiy : Int) : K) + 1)
    (Spline.splineReg tmpx (yps - ((tix : Int) : K) + 1)).map some

/-- the `switch` (`image.hpp:1966-1976`) -/
def interpAt (meth : InterpMethod) (m : Map K) (xps yps : K) : Res (Option K) :=
  match meth with
  | .nearest => nearestAt m xps yps
  | .linear => linearAt m xps yps
  | .cubic => cubicAt m xps yps

/-- one pixel of the destination (`image.hpp:1950-1993`) -/
def interpPixel (m : Map K) (o : InterpOpts) (larea : K) (pl pu : List (K × K)) (iy ix : Nat) (res : Img (Option K)) : Res (Img (Option K)) := do
  let p0 ← Res.rd pl ix
  let p1 ← Res.rd pl (ix + 1)
  let p2 ← Res.rd pu (ix + 1)
  let p3 ← Res.rd pu ix
  let xps := 1 / 4 * (p0.1 + p1.1 + p2.1 + p3.1)
  let yps := 1 / 4 * (p0.2 + p1.2 + p2.2 + p3.2)
  let r ← interpAt o.method m xps yps
  match r with
  | none => .ok res
  | some flx =>
    let area := if o.linearize then larea else polyArea [p0, p1, p2, p3]
    res.put iy ix (some (if o.conserveFlux then flx * area else flx))

/-- the loops (`image.hpp:1936-2001`) -/
def interpAll (s2d : K → K → K × K) (m : Map K) (o : InterpOpts) (larea : K) (ny nx : Nat) : Res (Img (Option K)) := do
  let st ← (List.range ny).foldlM (fun (st : List (K × K) × Img (Option K)) (iy : Nat) => do
      let pu := gridRow s2d nx ((iy : K) + 1 / 2)
      let r ← (List.range nx).foldlM (fun r ix => interpPixel m o larea st.1 pu iy ix r) st.2
      .ok (pu, r))
    (gridRow s2d nx (-1 / 2), Img.fill ny nx none)
  .ok st.2

/-- `regrid_interpolate(imgs, astros, astrod, opts)` (`image.hpp:1871-2005`), for a destination of `ny` rows and `nx` columns -/
def regridInterp (sqrt : K → K) (s2d : K → K → K × K) (m : Map K) (ny nx : Nat) (o : InterpOpts) : Res (Img (Option K)) :=
  if o.linearize then
    let l := linMatrix s2d nx ny
    if isShift l then do
      let (idd, ids) ← shiftIds nx ny nx ny l
      let px ← copyIds (Img.fill ny nx none).px (m.data.map some) (idd.zip ids)
      .ok ⟨ny, nx, px⟩
    else interpAll (linMap nx ny l) m o (linArea sqrt l) ny nx
  else interpAll s2d m o 0 ny nx

end Verif.Astro
