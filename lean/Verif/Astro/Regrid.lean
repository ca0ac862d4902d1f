import Verif.Astro.Deblend
import Verif.Astro.Region
import Verif.Math.Bilinear
/-!
# Projection of an image on another grid of pixels (`astro/image.hpp:1619-2193`)

Positions and weights are elements of an ordered field, values of pixels are such elements or `none` (not a finite number); there is no
rounding. `tol` stands for `5*epsilon()` in the intersection of two lines. The two astrometries only enter through the map from the
positions in the source to the positions in the destination (`xy2ad` followed by `ad2xy`, both from WCSLib): it is an arbitrary
function `s2d` here, with finite values. Images have two dimensions (the code also accepts cubes, which are a stack of images with the
same weights). Progress messages are left out.
-/
namespace Verif.Astro
open Verif Verif.Bil

variable {K : Type} [Field K] [LinearOrder K] [FloorRing K]

/-- the smallest of a non-empty list of values (`minmax(v).first`, see C40) -/
def minOf : List K → K
  | [] => 0
  | a :: l => l.foldl min a

/-- the largest of a non-empty list of values (`minmax(v).second`, see C40) -/
def maxOf : List K → K
  | [] => 0
  | a :: l => l.foldl max a

/-- `regrid_drizzle_getbounds(v, mi, ma, n)` (`image.hpp:1622-1628`): `mi` and `ma` -/
def getBounds (v : List K) (n : Int) : Res (Nat × Int) := do
  let t ← floorInt (maxOf v + 1 / 2)
  let ma := if t > n then n else t
  let t ← floorInt (minOf v + 1 / 2)
  let mi := if t > 0 then t.toNat else 0
  .ok (mi, ma)

/-- `regrid_drizzle_in_poly_edge` (`image.hpp:1635-1639`) -/
def inEdge (orient : K) (c1 c2 p : K × K) : Bool :=
  decide (((c2.1 - c1.1) * (p.2 - c1.2) - (c2.2 - c1.2) * (p.1 - c1.1)) * orient < 0)

/-- `regrid_drizzle_segment_intersect` (`image.hpp:1646-1672`) -/
def segIntersect (tol : K) (a1 a2 b1 b2 : K × K) : Option (K × K) :=
  let s1x := a2.1 - a1.1
  let s1y := a2.2 - a1.2
  let s2x := b2.1 - b1.1
  let s2y := b2.2 - b1.2
  let det := s1x * s2y - s1y * s2x
  if |det| < tol then none
  else
    let t := (s2x * (a1.2 - b1.2) - s2y * (a1.1 - b1.1)) / det
    some (a1.1 + t * s1x, a1.2 + t * s1y)

/-- the loop of `polyon_area` (`image.hpp:1687-1697`) over the points after the first -/
def fanArea (p : K × K) : List (K × K) → K
  | q :: r :: l => 1 / 2 * |p.1 * (q.2 - r.2) + q.1 * (r.2 - p.2) + r.1 * (p.2 - q.2)| + fanArea p (r :: l)
  | _ => 0

/-- `polyon_area(x, y)` (`image.hpp:1674-1700`) -/
def polyArea (l : List (K × K)) : K :=
  if l.length < 3 then 0
  else match l with
  | [] => 0
  | p :: l => fanArea p l

/-- the loop over the sides of the polygon (`image.hpp:1766-1793`); `q` is the point `i2` -/
def clipLoop (tol orient : K) (c1 c2 : K × K) (q : K × K) : List (K × K) → List (K × K)
  | [] => []
  | p :: l =>
    (if inEdge orient c1 c2 q ≠ inEdge orient c1 c2 p then (segIntersect tol c1 c2 p q).toList else []) ++
      ((if inEdge orient c1 c2 p then [p] else []) ++ clipLoop tol orient c1 c2 p l)

/-- one side of the projection: what remains of the polygon (`image.hpp:1749-1793`) -/
def clipEdge (tol orient : K) (c1 c2 : K × K) (poly : List (K × K)) : List (K × K) :=
  match poly.getLast? with
  | none => []
  | some q => clipLoop tol orient c1 c2 q poly

/-- the loop over the sides of the projection (`image.hpp:1748-1796`); `c2` is the previous corner. On an empty polygon, where the
loop stops, `clipEdge` would give an empty polygon again. -/
def clipAll (tol orient : K) (c2 : K × K) : List (K × K) → List (K × K) → List (K × K)
  | [], poly => poly
  | c1 :: cs, poly => clipAll tol orient c1 cs (clipEdge tol orient c1 c2 poly)

/-- the pixel at column `ipx` and row `ipy` (`image.hpp:1744-1745`) -/
def square (ipx ipy : Nat) : List (K × K) :=
  [((ipx : K) - 1 / 2, (ipy : K) - 1 / 2), ((ipx : K) + 1 / 2, (ipy : K) - 1 / 2),
   ((ipx : K) + 1 / 2, (ipy : K) + 1 / 2), ((ipx : K) - 1 / 2, (ipy : K) + 1 / 2)]

/-- the common part of the projection and of a pixel (`image.hpp:1741-1796`) -/
def clipped (tol orient : K) (proj : List (K × K)) (ipx ipy : Nat) : List (K × K) :=
  match proj.getLast? with
  | none => square ipx ipy
  | some c2 => clipAll tol orient c2 proj (square ipx ipy)

/-- the orientation of the projection (`image.hpp:1733-1734`) -/
def orientation (p0 p1 p2 : K × K) : K :=
  if (p1.1 - p0.1) * (p2.2 - p1.2) - (p1.2 - p0.2) * (p2.1 - p1.1) > 0 then 1 else -1

/-- the regridded image and its weights -/
abbrev Drz (K : Type) := Img (Option K) × Img K

/-- `add_flux(imgs, ix, iy, frac, res, idx, idy); wei.safe(idy,idx) += w;` (`image.hpp:1702-1707`, `1727-1728`, `1803-1804`);
`a` is the value of the source pixel -/
def addFlux (a frac : Option K) (w : K) (idx idy : Nat) (s : Drz K) : Res (Drz K) := do
  let r ← s.1.get idy idx
  let res ← s.1.put idy idx (addO r (mulO a frac))
  let u ← s.2.get idy idx
  let wei ← s.2.put idy idx (u + w)
  .ok (res, wei)

/-- the body of the loop over the pixels of the destination (`image.hpp:1741-1804`) -/
def drizzleDest (tol : K) (a : Option K) (frac : K) (proj : List (K × K)) (area orient : K) (ipx ipy : Nat) (s : Drz K) : Res (Drz K) :=
  let poly := clipped tol orient proj ipx ipy
  if poly.length < 3 then .ok s
  else addFlux a (mulO (some frac) (divO (some (polyArea poly)) (some area))) (polyArea poly) ipx ipy s

/-- `regrid_drizzle(imgs, ix, iy, flux_frac, xps, yps, pixel_area, res, wei)` (`image.hpp:1717-1806`): one source pixel, of value `a`
and with the four corners `p0`, `p1`, `p2`, `p3` -/
def drizzlePixel (tol : K) (a : Option K) (frac : K) (p0 p1 p2 p3 : K × K) (area : K) (s : Drz K) : Res (Drz K) := do
  let proj := [p0, p1, p2, p3]
  let (ymin, tymax) ← getBounds (proj.map Prod.snd) ((s.2.nx : Int) - 1)
  let (xmin, txmax) ← getBounds (proj.map Prod.fst) ((s.2.ny : Int) - 1)
  if tymax < 0 ∨ txmax < 0 ∨ xmin ≥ s.2.ny ∨ ymin ≥ s.2.nx then .ok s
  else if txmax.toNat = xmin ∧ tymax.toNat = ymin then addFlux a (some frac) area xmin ymin s
  else
    for2 (tymax.toNat + 1 - ymin) (txmax.toNat + 1 - xmin)
      (fun i j s => drizzleDest tol a frac proj area (orientation p0 p1 p2) (xmin + j) (ymin + i) s) s

/-- `regrid_drizzle_params` (`image.hpp:2007-2012`) -/
structure DrzOpts (K : Type) where
  pixfrac : K
  linearize : Bool
  destPixfrac : Bool

/-- the linear approximation of the map at the middle of the source image (`image.hpp:2073-2080`): `(cdx,cdy)`, `(cdx1,cdy1)` and
`(cdx2,cdy2)` -/
def linMatrix (s2d : K → K → K × K) (nx ny : Nat) : (K × K) × (K × K) × (K × K) :=
  let csx : K := ((nx / 2 : Nat) : K)
  let csy : K := ((ny / 2 : Nat) : K)
  let c := s2d csx csy
  let c1 := s2d (csx + 1) csy
  let c2 := s2d csx (csy + 1)
  (c, (c1.1 - c.1, c1.2 - c.2), (c2.1 - c.1, c2.2 - c.2))

/-- `s2d` with `linearize` (`image.hpp:2111-2119`) -/
def linMap (nx ny : Nat) (m : (K × K) × (K × K) × (K × K)) (sx sy : K) : K × K :=
  let csx : K := ((nx / 2 : Nat) : K)
  let csy : K := ((ny / 2 : Nat) : K)
  ((sx - csx) * m.2.1.1 + (sy - csy) * m.2.2.1 + m.1.1, (sx - csx) * m.2.1.2 + (sy - csy) * m.2.2.2 + m.1.2)

/-- the area of a pixel in the linear approximation (`image.hpp:2081`) -/
def linArea (sqrt : K → K) (m : (K × K) × (K × K) × (K × K)) : K :=
  sqrt (m.2.1.1 ^ 2 + m.2.1.2 ^ 2) * sqrt (m.2.2.1 ^ 2 + m.2.2.2 ^ 2)

/-- `std::round`: to the nearest integer, halves away from zero -/
def roundI (x : K) : Int := if 0 ≤ x then ⌊x + 1 / 2⌋ else ⌈x - 1 / 2⌉

/-- the test for an integer translation (`image.hpp:2083-2085`) -/
def isShift (m : (K × K) × (K × K) × (K × K)) : Bool :=
  decide (|m.1.1 - ((roundI m.1.1 : Int) : K)| < 1 / 1000000 ∧ |m.1.2 - ((roundI m.1.2 : Int) : K)| < 1 / 1000000 ∧
    |m.2.1.1 - 1| < 1 / 1000000 ∧ |m.2.2.2 - 1| < 1 / 1000000 ∧ |m.2.1.2| < 1 / 1000 ∧ |m.2.2.1| < 1 / 1000)

/-- the region and the indices used for an integer translation (`image.hpp:2088-2096`, `1911-1919`): `idd` and `ids`, for a source grid of
`ny` rows and `nx` columns and a destination of `dny` rows and `dnx` columns -/
def shiftIds (nx ny dnx dny : Nat) (m : (K × K) × (K × K) × (K × K)) : Res (List Nat × List Nat) := do
  let dx ← s64 (roundI m.1.1)
  let dy ← s64 (roundI m.1.2)
  let wx1 : Int := ((nx / 2 : Nat) : Int)
  let wx2 : Int := (nx : Int) - 1 - wx1
  let wy1 : Int := ((ny / 2 : Nat) : Int)
  let wy2 : Int := (ny : Int) - 1 - wy1
  subregion dny dnx [dy - wy1, dx - wx1, dy + wy2, dx + wx2]

/-- `wei[idd] = 1.0;` (`image.hpp:2100`) -/
def setOnes (v : List K) : List Nat → Res (List K)
  | [] => .ok v
  | i :: l => if i < v.length then setOnes (v.set i 1) l else .ub

/-- `mean(v)` of the four corners and the scaling of `dest_pixfrac` (`image.hpp:2167-2172`) -/
def shrinkQuad (f : K) (p0 p1 p2 p3 : K × K) : (K × K) × (K × K) × (K × K) × (K × K) :=
  let mx := (p0.1 + p1.1 + p2.1 + p3.1) / 4
  let my := (p0.2 + p1.2 + p2.2 + p3.2) / 4
  ((mx + f * (p0.1 - mx), my + f * (p0.2 - my)), (mx + f * (p1.1 - mx), my + f * (p1.2 - my)),
   (mx + f * (p2.1 - mx), my + f * (p2.2 - my)), (mx + f * (p3.1 - mx), my + f * (p3.2 - my)))

/-- a row of projected corners of the grid (`image.hpp:2130-2132`, `2145-2147`) -/
def gridRow (s2d : K → K → K × K) (nx : Nat) (y : K) : List (K × K) :=
  (List.range (nx + 1)).map fun ix : Nat => s2d ((ix : K) - 1 / 2) y

/-- the four corners of a source pixel, from the rows of corners `pl` below and `pu` above (`image.hpp:2162-2173`), or directly
(`image.hpp:2149-2156`, `2175-2176`) -/
def cornersOf (s2d : K → K → K × K) (o : DrzOpts K) (pl pu : List (K × K)) (ix iy : Nat) :
    Res ((K × K) × (K × K) × (K × K) × (K × K)) :=
  if o.pixfrac = 1 ∨ o.destPixfrac = true then do
    let p0 ← Res.rd pl ix
    let p1 ← Res.rd pl (ix + 1)
    let p2 ← Res.rd pu (ix + 1)
    let p3 ← Res.rd pu ix
    if o.destPixfrac = true ∧ o.pixfrac ≠ 1 then .ok (shrinkQuad o.pixfrac p0 p1 p2 p3) else .ok (p0, p1, p2, p3)
  else
    let dp := 1 / 2 * o.pixfrac
    .ok (s2d (ix - dp) (iy - dp), s2d (ix + dp) (iy - dp), s2d (ix + dp) (iy + dp), s2d (ix - dp) (iy + dp))

/-- one source pixel (`image.hpp:2155-2185`); `larea` is the area set by `linearize` -/
def drizzleAt (tol : K) (s2d : K → K → K × K) (img : Img (Option K)) (o : DrzOpts K) (larea : K) (pl pu : List (K × K)) (iy ix : Nat)
    (s : Drz K) : Res (Drz K) := do
  let (p0, p1, p2, p3) ← cornersOf s2d o pl pu ix iy
  let area := if o.linearize then larea else polyArea [p0, p1, p2, p3]
  let a ← img.get iy ix
  drizzlePixel tol a (o.pixfrac ^ 2) p0 p1 p2 p3 area s

/-- one row of source pixels (`image.hpp:2143-2191`): the rows of corners are exchanged at the end -/
def drizzleRow (tol : K) (s2d : K → K → K × K) (img : Img (Option K)) (o : DrzOpts K) (larea : K) (nx : Nat) (st : List (K × K) × Drz K)
    (iy : Nat) : Res (List (K × K) × Drz K) := do
  let pu := gridRow s2d nx ((iy : K) + 1 / 2)
  let s ← (List.range nx).foldlM (fun s ix => drizzleAt tol s2d img o larea st.1 pu iy ix s) st.2
  .ok (pu, s)

/-- `res /= wei` (`image.hpp:1848-1850`) -/
def applyWeights (s : Drz K) : Res (Img (Option K)) := do
  let px ← (List.range s.1.px.length).mapM fun i => do
    let r ← Res.rd s.1.px i
    let w ← Res.rd s.2.px i
    .ok (divO r (some w))
  .ok { s.1 with px := px }

/-- the loop over the source pixels and the division by the weights (`image.hpp:2121-2195`) -/
def drizzleAll (tol : K) (s2d : K → K → K × K) (img : Img (Option K)) (o : DrzOpts K) (larea : K) (ny nx dny dnx : Nat) : Res (Drz K) := do
  let st ← (List.range ny).foldlM (drizzleRow tol s2d img o larea nx)
    (gridRow s2d nx (-1 / 2), (Img.fill dny dnx (some 0), Img.fill dny dnx 0))
  let res ← applyWeights st.2
  .ok (res, st.2.2)

/-- `regrid_drizzle(imgs, astros, astrod, wei, opts)` (`image.hpp:2014-2199`): the dimensions of the two astrometries are `sny`, `snx`
and `dny`, `dnx` -/
def regridDrizzle (tol : K) (sqrt : K → K) (s2d : K → K → K × K) (img : Img (Option K)) (sny snx dny dnx : Nat) (o : DrzOpts K) :
    Res (Drz K) := do
  Res.check (img.nx = sny)
  Res.check (img.ny = snx)
  if o.linearize then
    let m := linMatrix s2d snx sny
    if isShift m then do
      let (idd, ids) ← shiftIds snx sny dnx dny m
      let px ← copyIds (Img.fill dny dnx none).px img.px (idd.zip ids)
      let wx ← setOnes (Img.fill dny dnx 0).px idd
      .ok (⟨dny, dnx, px⟩, ⟨dny, dnx, wx⟩)
    else drizzleAll tol (linMap snx sny m) img o (linArea sqrt m) sny snx dny dnx
  else drizzleAll tol s2d img o 0 sny snx dny dnx

end Verif.Astro
