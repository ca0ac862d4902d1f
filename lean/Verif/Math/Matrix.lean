import Verif.Astro.Img
import Mathlib.Algebra.Ring.Defs
/-!
# Products of matrices and matrices of plane transforms (`math/bits/matrix-types.hpp:477-535`, `math/bits/matrix-functions.hpp:7-103`)

A matrix is its dimensions and its elements in row-major order, as in `vec<2,T>` (the type `Img` of the images). Elements are in a ring, without
rounding. The sine and cosine are parameters.
-/
namespace Verif.Matrices
open Verif Verif.Astro

variable {K : Type} [Ring K]

/-- matrix times matrix (`matrix-types.hpp:479-496`) -/
def mul (a b : Img K) : Res (Img K) := do
  Res.check (a.ny = b.nx)
  for2 a.nx a.ny (fun i k r => (List.range b.ny).foldlM (fun r j => do
    let o ← r.get i j
    let x ← a.get i k
    let y ← b.get k j
    r.put i j (o + x * y)) r) (Img.fill a.nx b.ny 0)

/-- `r.safe(i) = v` on a vector -/
def vput (v : List K) (i : Nat) (x : K) : Res (List K) := if i < v.length then .ok (v.set i x) else .ub

/-- matrix times vector (`matrix-types.hpp:499-515`) -/
def mulVec (a : Img K) (b : List K) : Res (List K) := do
  Res.check (a.ny = b.length)
  for2 a.nx a.ny (fun i k r => do
    let o ← Res.rd r i
    let x ← a.get i k
    let y ← Res.rd b k
    vput r i (o + x * y)) (List.replicate a.nx 0)

/-- vector times matrix (`matrix-types.hpp:518-534`) -/
def vecMul (a : List K) (b : Img K) : Res (List K) := do
  Res.check (a.length = b.nx)
  for2 b.nx b.ny (fun k i r => do
    let o ← Res.rd r i
    let x ← Res.rd a k
    let y ← b.get k i
    vput r i (o + x * y)) (List.replicate b.ny 0)

/-- `transpose` (`matrix-functions.hpp:7-13`, `utility/bits/generic-rearrange.hpp:32-48`) -/
def transpose (v : Img K) : Res (Img K) := do
  let px ← (List.range v.px.length).mapM fun i => Res.rd v.px ((i % v.nx) * v.ny + i / v.nx)
  .ok ⟨v.ny, v.nx, px⟩

/-- `diagonal` (`matrix-functions.hpp:15-29`) -/
def diagonal (v : Img K) : Res (List K) := do
  Res.check (v.nx = v.ny)
  (List.range v.nx).mapM fun i => v.get i i

/-- `as_diagonal` (`matrix-functions.hpp:48-56`) -/
def asDiagonal (v : List K) : Res (Img K) :=
  (List.range v.length).foldlM (fun m i => do
    let x ← Res.rd v i
    m.put i i x) (Img.fill v.length v.length 0)

/-- `make_identity` (`matrix-functions.hpp:58-63`): an assignment through the view on the diagonal -/
def makeIdentity (n : Nat) : Res (Img K) := (List.range n).foldlM (fun m i => m.put i i 1) (Img.fill n n 0)

/-- `make_scale(sx, sy)` (`matrix-functions.hpp:65-72`) -/
def makeScale (sx sy : K) : Res (Img K) := do
  let m ← (Img.fill 3 3 0).put 0 0 sx
  let m ← m.put 1 1 sy
  m.put 2 2 1

/-- `make_translation` (`matrix-functions.hpp:83-90`) -/
def makeTranslation (tx ty : K) : Res (Img K) := do
  let m ← makeIdentity 3
  let m ← m.put 0 2 tx
  m.put 1 2 ty

/-- `make_rotation` (`matrix-functions.hpp:92-102`), `ca` and `sa` the cosine and sine of the angle -/
def makeRotation (ca sa : K) : Res (Img K) := do
  let m ← (Img.fill 3 3 0).put 1 1 ca
  let m ← m.put 0 0 ca
  let m ← m.put 0 1 (-sa)
  let m ← m.put 1 0 sa
  m.put 2 2 1

end Verif.Matrices
