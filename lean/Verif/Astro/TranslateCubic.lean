import Verif.Astro.Img
import Verif.Math.Spline
/-!
# Translation of an image with cubic splines

Models `translate_bicubic` (`astro/image.hpp:139-155`) over `interpolate_3spline` on a regular grid
(C31).
-/
namespace Verif.Psf
open Verif Verif.Astro Verif.Spline
variable {K : Type} [Field K] [LinearOrder K] [FloorRing K]

/-- `interpolate_3spline(y, xn)` for a vector of positions (`interpolate.hpp:413-436`): the
coefficients are computed once, then the scalar form (439-458) for each position. -/
def splineRegV (y ts : List K) : Res (List K) := do
  Res.check (2 ≤ y.length)
  ts.mapM (splineReg y)

/-- the elements of the view `v.safe(x,_)` -/
def getRow (v : Img K) (x : Nat) : Res (List K) := (List.range v.ny).mapM fun y => v.get x y

/-- assignment to the view `v.safe(x,_)` -/
def putRow (v : Img K) (x : Nat) (l : List K) : Res (Img K) :=
  (List.range v.ny).foldlM (fun v y => do let a ← Res.rd l y; v.put x y a) v

/-- the elements of the view `v.safe(_,y)` -/
def getCol (v : Img K) (y : Nat) : Res (List K) := (List.range v.nx).mapM fun x => v.get x y

/-- assignment to the view `v.safe(_,y)` -/
def putCol (v : Img K) (y : Nat) (l : List K) : Res (Img K) :=
  (List.range v.nx).foldlM (fun v x => do let a ← Res.rd l x; v.put x y a) v

/-- `translate_bicubic(v, dx, dy, def)`, `image.hpp:139-155`: every row, then every column, is
replaced by its interpolation at the shifted positions. `def` does not occur in the body. -/
def translateBicubic (v : Img K) (dx dy _def : K) : Res (Img K) := do
  let t := (List.range v.ny).map fun y => ((y : Nat) : K) - dy
  let w ← (List.range v.nx).foldlM (fun w x => do
    let r ← getRow w x
    let s ← splineRegV r t
    putRow w x s) v
  let t := (List.range v.nx).map fun x => ((x : Nat) : K) - dx
  (List.range v.ny).foldlM (fun w y => do
    let r ← getCol w y
    let s ← splineRegV r t
    putCol w y s) w

end Verif.Psf
