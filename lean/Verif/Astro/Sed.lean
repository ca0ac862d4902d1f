import Verif.Math.Interp
import Verif.Core.Access

/-!
# Flux of a spectrum through a filter (`astro/astro.hpp:1283-1338,1371-1381`)

Values are the elements of an ordered field: no rounding. The result `none` is a NaN.
-/
namespace Verif.Sed
open Verif Verif.Math
variable {K : Type} [Field K] [LinearOrder K]

/-- `sed2flux_interpolate` (`astro.hpp:1283-1285`) -/
def sedInterp (l r : List K) (x : K) (i : Nat) : Res K := do
  let r0 ← Res.rd r i
  let r1 ← Res.rd r (i + 1)
  let l0 ← Res.rd l i
  let l1 ← Res.rd l (i + 1)
  .ok (interp2 r0 r1 l0 l1 x)

/-- the loop of `sed2flux` (`astro.hpp:1308-1333`), cut after a number of turns: the final `ifil` and the value -/
def sedLoop (flam fres lam sed : List K) : Nat → Nat → Nat → K → K → K → Res (Nat × K)
  | 0, _, _, _, _, _ => .diverge
  | n + 1, ifil, ised, plam, pval, value =>
    if ifil < flam.length - 1 ∧ ised < lam.length - 1 then do
      let fn ← Res.rd flam (ifil + 1)
      let ln ← Res.rd lam (ised + 1)
      if fn < ln then do
        let r ← Res.rd fres (ifil + 1)
        let s ← sedInterp lam sed fn ised
        let nval := r * s
        sedLoop flam fres lam sed n (ifil + 1) ised fn nval (value + (nval + pval) / 2 * (fn - plam))
      else do
        let s ← Res.rd sed (ised + 1)
        let r ← sedInterp flam fres ln ifil
        let nval := s * r
        sedLoop flam fres lam sed n ifil (ised + 1) ln nval (value + (nval + pval) / 2 * (ln - plam))
    else .ok (ifil, value)

/-- `sed2flux` (`astro.hpp:1288-1338`) -/
def sed2flux (flam fres lam sed : List K) : Res (Option K) := do
  Res.check (flam.length = fres.length)
  Res.check (lam.length = sed.length)
  Res.check (flam ≠ [])
  Res.check (lam ≠ [])
  let plam ← Res.rd flam 0
  match ← lowerB lam plam with
  | none => .ok none
  | some ised => do
    let r ← Res.rd fres 0
    let s ← sedInterp lam sed plam ised
    let (ifil, value) ← sedLoop flam fres lam sed (flam.length + lam.length) 0 ised plam (r * s) 0
    if ifil ≠ flam.length - 1 then .ok none else .ok (some value)

/-- `sed_luminosity` (`astro.hpp:1371-1381`); the range access is that of `Verif.Core.bracket` -/
def sedLuminosity (lam sed : List K) (l0 l1 : K) : Res (Option K) := do
  let s ← lowerB lam l0
  let e ← upperB lam l1
  match s, e with
  | some s, some e => do
    let li ← Core.bracket lam.length (.leftRight s e)
    let lx ← li.mapM (Res.rd lam)
    let si ← Core.bracket sed.length (.leftRight s e)
    let sy ← si.mapM (Res.rd sed)
    let v ← integrate lx (List.zipWith (· / ·) sy lx)
    .ok (some v)
  | _, _ => .ok none

end Verif.Sed
