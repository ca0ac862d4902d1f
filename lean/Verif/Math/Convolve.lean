import Verif.Math.Interp
/-!
# Convolution of tabulated functions (`math/transform.hpp`)
-/
namespace Verif.Math
open Verif
variable {K : Type} [Field K] [LinearOrder K]

/-- `dx` (`transform.hpp:26-28`) -/
def convStep (x : List K) (i : Nat) : Res K := do
  let dx ← Res.rd x i
  if i = 0 then do
    let x1 ← Res.rd x (i + 1)
    .ok (x1 - dx)
  else do
    let x0 ← Res.rd x (i - 1)
    .ok (dx - x0)

/-- one turn of the loop (`transform.hpp:25-33`) -/
def convTurn (x y1 y2 r : List K) (i : Nat) : Res (List K) := do
  let dx ← convStep x i
  let xi ← Res.rd x i
  let tmp ← interpolateV y2 (x.map (· + xi)) x
  let y ← Res.rd y1 i
  .ok (List.zipWith (fun a t => a + y * t * dx) r tmp)

/-- `convolve` (`transform.hpp:11-37`) -/
def convolve (x y1 y2 : List K) : Res (List K) := do
  Res.check (x.length = y1.length)
  Res.check (x.length = y2.length)
  Res.check (3 < x.length)
  (List.range x.length).foldlM (convTurn x y1 y2) (List.replicate x.length 0)

end Verif.Math
