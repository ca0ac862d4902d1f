import Verif.Math.Interp
import Verif.Math.Spline
/-!
# Interpolation in images (`math/interpolate.hpp:155-269`, `460-488`)

Pixel values and positions are elements of an ordered field: no rounding. (For maps of integers the code also truncates the results to
integers; this is not modelled.) An image is its list of pixels with its two dimensions, the pixel `(i,j)` is at `i*dims[1]+j`.
-/
namespace Verif.Bil
open Verif Verif.Math

/-- `2^64` -/
abbrev W : Nat := 2 ^ 64

/-- an image -/
structure Map (K : Type) where
  data : List K
  d0 : Nat
  d1 : Nat
deriving DecidableEq

variable {K : Type} [Field K] [LinearOrder K] [FloorRing K]

/-- the difference of two `uint_t` -/
def sub64 (a b : Nat) : Nat := (a + (W - b)) % W

/-- conversion of a `uint_t` to `int_t` -/
def toInt (n : Nat) : Int := if n < 2 ^ 63 then n else (n : Int) - 2 ^ 64

/-- `int_t t = floor(x)`: the conversion is undefined if the value is not in the range of `int_t` -/
def floorInt (x : K) : Res Int := if -(2 ^ 63) ≤ ⌊x⌋ ∧ ⌊x⌋ < 2 ^ 63 then .ok ⌊x⌋ else .ub

/-- `map.safe(i,j)`: not checked -/
def pix (m : Map K) (i j : Nat) : Res K := Res.rd m.data ((i * m.d1 + j) % W)

/-- `bilinear(v1, v2, v3, v4, x, y)` (`interpolate.hpp:156-158`) -/
def bil4 (v1 v2 v3 v4 x y : K) : K := v1 * (1 - x) * (1 - y) + v2 * (1 - x) * y + v3 * x * (1 - y) + v4 * x * y

/-- the choice of the cell along one axis with `d` pixels (`interpolate.hpp:162-182`): its index and the position inside -/
def cellOf (d : Nat) (x : K) : Res (Nat × K) := do
  let t ← floorInt x
  if t < 0 then .ok (0, x - 0)
  else if sub64 d 1 ≤ t.toNat then .ok (sub64 d 2, x - ((toInt (sub64 d 2) : Int) : K))
  else .ok (t.toNat, x - ((t : Int) : K))

/-- the four pixels (`interpolate.hpp:186-187`, `244-245`) -/
def fromCell (m : Map K) (ix iy : Nat) (dx dy : K) : Res K := do
  let v1 ← pix m ix iy
  let v2 ← pix m ix ((iy + 1) % W)
  let v3 ← pix m ((ix + 1) % W) iy
  let v4 ← pix m ((ix + 1) % W) ((iy + 1) % W)
  .ok (bil4 v1 v2 v3 v4 dx dy)

/-- `bilinear(map, x, y)` (`interpolate.hpp:160-188`) -/
def bilinear (m : Map K) (x y : K) : Res K := do
  let (ix, dx) ← cellOf m.d0 x
  let (iy, dy) ← cellOf m.d1 y
  fromCell m ix iy dx dy

/-- `indgen<double>(n)` -/
def indgen (n : Nat) : List K := List.map (fun i : Nat => (i : K)) (List.range n)

/-- `bilinear(map, mx, my, x, y)` (`interpolate.hpp:190-202`) -/
def bilinearAxes (m : Map K) (mx my : List K) (x y : K) : Res K := do
  Res.check (m.d0 = mx.length)
  Res.check (m.d1 = my.length)
  let ux ← interpolate (indgen mx.length) mx x
  let uy ← interpolate (indgen my.length) my y
  bilinear m ux uy

/-- `bilinear(map, mx, my, x, y)` for vectors of positions (`interpolate.hpp:204-226`) -/
def bilinearAxesV (m : Map K) (mx my x y : List K) : Res (List K) := do
  Res.check (m.d0 = mx.length)
  Res.check (m.d1 = my.length)
  Res.check (x.length = y.length)
  let ux ← interpolateV (indgen mx.length) mx x
  let uy ← interpolateV (indgen my.length) my y
  (ux.zip uy).mapM fun p => bilinear m p.1 p.2

/-- `bilinear_strict(map, x, y, def)` (`interpolate.hpp:229-246`) -/
def bilinearStrict (m : Map K) (x y dflt : K) : Res K := do
  let tix ← floorInt x
  let tiy ← floorInt y
  if tix < 0 ∨ sub64 m.d0 1 ≤ tix.toNat ∨ tiy < 0 ∨ sub64 m.d1 1 ≤ tiy.toNat then .ok dflt
  else fromCell m tix.toNat tiy.toNat (x - ((tix : Int) : K)) (y - ((tiy : Int) : K))

/-- `rebin(map, mx, my, x, y)` (`interpolate.hpp:248-269`) -/
def rebin (m : Map K) (mx my x y : List K) : Res (Map K) := do
  Res.check (m.d0 = mx.length)
  Res.check (m.d1 = my.length)
  let ux ← interpolateV (indgen mx.length) mx x
  let uy ← interpolateV (indgen my.length) my y
  let rows ← ux.mapM fun a => uy.mapM fun b => bilinear m a b
  .ok ⟨rows.flatten, x.length, y.length⟩

/-- `bicubic_strict(map, x, y, def)` (`interpolate.hpp:465-488`) -/
def bicubicStrict (m : Map K) (x y dflt : K) : Res K := do
  let tix ← floorInt x
  let tiy ← floorInt y
  if tix ≤ 0 ∨ sub64 m.d0 2 ≤ tix.toNat ∨ tiy ≤ 0 ∨ sub64 m.d1 2 ≤ tiy.toNat then .ok dflt
  else do
    let tmpx ← (List.range 4).mapM fun ix => do
      let tmpy ← (List.range 4).mapM fun iy => pix m (ix + tix.toNat - 1) (iy + tiy.toNat - 1)
      Spline.splineReg tmpy (y - ((tiy : Int) : K) + 1)
    Spline.splineReg tmpx (x - ((tix : Int) : K) + 1)

end Verif.Bil
