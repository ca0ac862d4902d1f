import Verif.Astro.Cutout
/-!
# Cutouts of many sources, and choice of a band (`astro/astro.hpp:1139-1275`)

`pick_sources` is modelled for a half size which is not negative. Coordinates are `none` when they are not a number. A cube of images is the list of its images.
-/
namespace Verif.Astro
open Verif Verif.Bil

variable {K : Type} [Field K] [LinearOrder K] [FloorRing K]

/-- a coordinate out of the bounds of an axis of `n` pixels (`astro.hpp:1257`): comparisons with NaN are false -/
def outAxis (n h : Nat) (x : Option K) : Bool :=
  match x with
  | none => false
  | some x => decide (x - h < 1 ∨ (n : K) ≤ x + h)

/-- `uint_t ix = round(x)` (`astro.hpp:1261`): undefined for NaN -/
def pixOf (x : Option K) : Res Nat :=
  match x with
  | none => .ub
  | some x => .ok (roundI x).toNat

/-- `cube.push_back(cut)` (`core/vec.hpp:261-282`) -/
def cubePush {α : Type} (cube : List (Img α)) (cut : Img α) : Res (List (Img α)) :=
  match cube with
  | [] => .ok [cut]
  | c :: _ => do
    Res.check (c.nx = cut.nx ∧ c.ny = cut.ny)
    .ok (cube ++ [cut])

/-- one source of `pick_sources` (`astro.hpp:1255-1274`); `y[i]` is read only if `x[i]` is within the bounds -/
def pickOne (img : Img (Option K)) (h : Nat) (y : List (Option K)) (i : Nat) (x : Option K) (s : List (Img (Option K)) × List Nat) : Res (List (Img (Option K)) × List Nat) :=
  if outAxis img.nx h x then .ok s
  else do
    Res.check (i < y.length)
    let yi ← Res.rd y i
    if outAxis img.ny h yi then .ok s
    else do
      let ix ← pixOf x
      let iy ← pixOf yi
      let cut ← readRect img (ix - h) (ix + h) (iy - h) (iy + h)
      if cut.px.any (fun p => p.isNone) then .ok s
      else do
        let cube ← cubePush s.1 cut
        .ok (cube, s.2 ++ [i])

/-- the loop of `pick_sources` -/
def pickLoop (img : Img (Option K)) (h : Nat) (y : List (Option K)) : List (Option K) → Nat → List (Img (Option K)) × List Nat → Res (List (Img (Option K)) × List Nat)
  | [], _, s => .ok s
  | x :: l, i, s => do
    let s ← pickOne img h y i x s
    pickLoop img h y l (i + 1) s

/-- `pick_sources` (`astro.hpp:1244-1275`) -/
def pickSources (img : Img (Option K)) (x y : List (Option K)) (h : Nat) (cube : List (Img (Option K))) (ids : List Nat) : Res (List (Img (Option K)) × List Nat) :=
  pickLoop img h y x 0 (cube, ids)

/-- `get_band` (`astro.hpp:1139-1242`, five forms): `m` are the results of `regex_match` (or of both); `none` is `false`, with `bid` unchanged -/
def getBand (m : List Bool) : Option Nat :=
  let id := (List.range m.length).filter fun i => m.getD i false
  if id.length = 0 then none
  else if id.length > 1 then none
  else id.head?

end Verif.Astro
