import Verif.Astro.Img
import Verif.Math.Hull
import Mathlib.Algebra.Order.Floor.Ring
/-!
# Circular masks (`astro/image.hpp:358-383`) and masks of regions (`astro/ds9.hpp:247-289`)

Coordinates are in an ordered field with a floor, without rounding. The sine and cosine of the angle of a box are parameters. The order in
which `build_convex_hull` visits the corners is a parameter with the contract of `std::sort`.
-/
namespace Verif.Ds9
open Verif Verif.Astro Verif.Hull

variable {K : Type} [Field K] [LinearOrder K] [FloorRing K]

/-- the number of corners of the pixel in the circle (image.hpp:375-380), multiplied there by 0.25 -/
def corners (r2 x y : K) (ix iy : Nat) : K :=
  (if ((ix : K) - 1 / 2 - x) ^ 2 + ((iy : K) - 1 / 2 - y) ^ 2 ≤ r2 then 1 else 0) +
  (if ((ix : K) + 1 / 2 - x) ^ 2 + ((iy : K) - 1 / 2 - y) ^ 2 ≤ r2 then 1 else 0) +
  (if ((ix : K) + 1 / 2 - x) ^ 2 + ((iy : K) + 1 / 2 - y) ^ 2 ≤ r2 then 1 else 0) +
  (if ((ix : K) - 1 / 2 - x) ^ 2 + ((iy : K) + 1 / 2 - y) ^ 2 ≤ r2 then 1 else 0)

/-- the first index of the region (image.hpp:365-366) -/
def first (x radius : K) : Nat := if 0 < ⌊x - radius⌋ then ⌊x - radius⌋.toNat else 0

/-- the last index of the region (image.hpp:367-368) -/
def last (n : Nat) (x radius : K) : Nat := if ⌈x + radius⌉ < ((wsub n 1 : Nat) : Int) then ⌈x + radius⌉.toNat else wsub n 1

/-- `circular_mask(dims, radius, x, y)` (image.hpp:358-383) -/
def circularMask (nx ny : Nat) (radius x y : K) : Res (Img K) := do
  Res.check (0 ≤ radius)
  if 0 < x + radius ∧ 0 < y + radius then
    for2 (last nx x radius + 1 - first x radius) (last ny y radius + 1 - first y radius) (fun i j m =>
      m.put (first x radius + i) (first y radius + j) (1 / 4 * corners (radius * radius) x y (first x radius + i) (first y radius + j)))
      (Img.fill nx ny 0)
  else .ok (Img.fill nx ny 0)

/-- `circular_mask(dims, radius)` (image.hpp:385-387) -/
def circularMaskC (nx ny : Nat) (radius : K) : Res (Img K) := circularMask nx ny radius (nx / 2) (ny / 2)

/-- `mask = mask || (circular_mask(mask.dims, r, y, x) > 0.5)` (ds9.hpp:252) -/
def maskCircle (mask : Img Bool) (x y radius : K) : Res (Img Bool) := do
  Res.check (mask.px ≠ [])
  let c ← circularMask mask.nx mask.ny radius y x
  .ok { mask with px := List.zipWith (fun a b => a || decide (b > 1 / 2)) mask.px c.px }

/-- the corners of a box (ds9.hpp:254-259), as points `(y, x)` -/
def boxPts (x y w h ca sa : K) : List (K × K) :=
  [(1 / 2, 1 / 2), (1 / 2, -1 / 2), (-1 / 2, -1 / 2), (-1 / 2, 1 / 2)].map fun o : K × K =>
    (o.2 * h * ca + o.1 * w * sa + y, o.1 * w * ca - o.2 * h * sa + x)

/-- `min(v)` of a vector that is not empty -/
def lmin : List K → K
  | [] => 0
  | a :: l => l.foldl min a

/-- `max(v)` of a vector that is not empty -/
def lmax : List K → K
  | [] => 0
  | a :: l => l.foldl max a

/-- `mask_region` for a box (ds9.hpp:253-278); `ids` is the order of the corners in `build_convex_hull` -/
def maskBox (mask : Img Bool) (x y w h ca sa : K) (ids : List Nat) : Res (Img Bool) := do
  Res.check (mask.px ≠ [])
  let pts := boxPts x y w h ca sa
  let x0 := ⌊lmin (pts.map (·.2))⌋
  let x1 := ⌈lmax (pts.map (·.2))⌉
  let y0 := ⌊lmin (pts.map (·.1))⌋
  let y1 := ⌈lmax (pts.map (·.1))⌉
  if x1 < 0 ∨ y1 < 0 ∨ (mask.ny : Int) - 1 < x0 ∨ (mask.nx : Int) - 1 < y0 then .ok mask
  else do
    let x0 := max x0 0
    let y0 := max y0 0
    let x1 := min x1 (mask.ny - 1)
    let y1 := min y1 (mask.nx - 1)
    let hull ← build pts ids
    for2 (y1 + 1 - y0).toNat (x1 + 1 - x0).toNat (fun i j m => do
      let o ← m.get (y0.toNat + i) (x0.toNat + j)
      m.put (y0.toNat + i) (x0.toNat + j) (o || inHull (hull.map fun k => pts.getD k (0, 0)) 1 (((y0.toNat + i : Nat) : K), ((x0.toNat + j : Nat) : K)))) mask

end Verif.Ds9
