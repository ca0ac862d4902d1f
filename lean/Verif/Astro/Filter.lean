import Verif.Astro.Img
import Mathlib.Algebra.Ring.Defs
/-!
# Model of `astro/image.hpp`: moving windows, convolution, mask growth
-/
namespace Verif.Astro
open Verif

variable {α β σ : Type}

/-- `for (x = x0; x < x1; ++x)` -/
def forR (x0 x1 : Nat) (body : Nat → σ → Res σ) (s : σ) : Res σ :=
  (List.range' x0 (x1 - x0)).foldlM (fun s x => body x s) s

/-- `boxcar` (`astro/image.hpp:751-774`). The loops `tx <= x1` are the ranges up to `x1 + 1`; `z` is the initial value of the
elements of the result. The `reserve` is left out. -/
def boxcar (img : Img α) (h : Nat) (f : List α → β) (z : β) : Res (Img β) :=
  for2 img.nx img.ny (fun x y r => do
    let x0 := if x ≥ h then x - h else 0
    let x1 := if x < wsub img.nx h then wadd x h else img.nx - 1
    let y0 := if y ≥ h then y - h else 0
    let y1 := if y < wsub img.ny h then wadd y h else img.ny - 1
    let tmp ← forR x0 (x1 + 1) (fun tx tmp => forR y0 (y1 + 1) (fun ty tmp => do
      let a ← img.get tx ty
      .ok (tmp ++ [a])) tmp) []
    r.put x y (f tmp)) (Img.fill img.nx img.ny z)

/-- `convolve2d_naive` (`astro/image.hpp:429-457`), in exact arithmetic -/
def convolve {K : Type} [CommRing K] [DecidableEq K] (map kernel : Img K) : Res (Img K) := do
  Res.check (kernel.nx % 2 = 1 ∧ kernel.ny % 2 = 1)
  let hx := kernel.nx / 2
  let hy := kernel.ny / 2
  for2 kernel.nx kernel.ny (fun kx ky r => do
    let kw ← kernel.get kx ky
    if kw = 0 then .ok r
    else
      let x0 := if kx ≥ hx then 0 else hx - kx
      let xn := wsub map.nx (if kx ≥ hx then kx - hx else 0)
      let y0 := if ky ≥ hy then 0 else hy - ky
      let yn := wsub map.ny (if ky ≥ hy then ky - hy else 0)
      forR x0 xn (fun x r => forR y0 yn (fun y r => do
        let a ← map.get x y
        let b ← r.get (x + kx - hx) (y + ky - hy)
        r.put (x + kx - hx) (y + ky - hy) (b + a * kw)) r) r) (Img.fill map.nx map.ny 0)

/-- one term of the edge test of `mask_inflate` (`astro/image.hpp:785-786`): `cond && !m.safe(x,y)` -/
def offAt (m : Img Bool) (c : Prop) [Decidable c] (x y : Nat) : Res Bool :=
  if c then (do let b ← m.get x y; .ok (!b)) else .ok false

/-- the edge test of `mask_inflate` (`astro/image.hpp:783-788`), with the short-circuit order of the code -/
def isEdge (m : Img Bool) (x y : Nat) : Res Bool := do
  let b ← m.get x y
  if !b then .ok false
  else do
    let b1 ← offAt m (x > 0) (x - 1) y
    if b1 then .ok true
    else do
      let b2 ← offAt m (x < m.nx - 1) (x + 1) y
      if b2 then .ok true
      else do
        let b3 ← offAt m (y > 0) x (y - 1)
        if b3 then .ok true
        else offAt m (y < m.ny - 1) x (y + 1)

/-- one point of the kernel of `mask_inflate` (`astro/image.hpp:799-814`) -/
def kernelPoint (k l : Nat) : Int × Int :=
  let ml : Int := (l % k : Nat)
  if l < k then (k - ml, -ml)
  else if l < 2 * k then (-ml, -k + ml)
  else if l < 3 * k then (-k + ml, ml)
  else (ml, k - ml)

/-- the kernel of `mask_inflate` (`astro/image.hpp:795-814`) -/
def inflateKernel (d : Nat) : List (Int × Int) :=
  (List.range' 1 d).flatMap fun k => (List.range (4 * k)).map (kernelPoint k)

/-- `mask_inflate` (`astro/image.hpp:776-831`); `mult_ids` of a flat index is the quotient and remainder by the width (C03) -/
def maskInflate (m : Img Bool) (d : Nat) : Res (Img Bool) :=
  if d = 0 then .ok m
  else do
    let ids ← for2 m.nx m.ny (fun x y ids => do
      let e ← isEdge m x y
      .ok (if e then ids ++ [x * m.ny + y] else ids)) []
    ids.foldlM (fun m id => (inflateKernel d).foldlM (fun m p =>
      let tx := ((id / m.ny : Nat) : Int) + p.1
      let ty := ((id % m.ny : Nat) : Int) + p.2
      if tx ≥ 0 ∧ tx < m.nx ∧ ty ≥ 0 ∧ ty < m.ny then m.put tx.toNat ty.toNat true else .ok m) m) m

/-- `generate_img` (`astro/image.hpp:403-412`) -/
def generateImg (nx ny : Nat) (f : Nat → Nat → α) (z : α) : Res (Img α) :=
  for2 nx ny (fun x y r => r.put x y (f x y)) (Img.fill nx ny z)

end Verif.Astro
