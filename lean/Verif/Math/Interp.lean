import Verif.Core.Range
import Verif.Find.Find
import Mathlib.Algebra.Order.Field.Basic
import Mathlib.Tactic.Ring
import Mathlib.Tactic.Linarith
/-!
# Model of linear interpolation and integration

`math/interpolate.hpp:10-153`, `math/reduce.hpp:690-879`, `math/histogram.hpp:367-387`.
Values are the elements of an ordered field: no rounding, no NaN; division by zero is not meant to
be reached (theorems ask for strictly increasing abscissae).
-/
namespace Verif.Math
open Verif Verif.Core Verif.Find
variable {K : Type} [Field K] [LinearOrder K]

/-- `interpolate(y1, y2, x1, x2, x)`, `interpolate.hpp:11-14` -/
def interp2 (y1 y2 x1 x2 x : K) : K := y1 + (y2 - y1) * ((x - x1) / (x2 - x1))

/-- `lower_bound(x, t)` on numbers; see `Verif.Find.lowerBound` -/
def lowerB (x : List K) (t : K) : Res (Option Nat) := lowerBound (x.map some) (some t)

/-- `upper_bound(x, t)` on numbers -/
def upperB (x : List K) (t : K) : Res (Option Nat) := upperBound (x.map some) (some t)

/-- choice of the interval, `interpolate.hpp:49-62,85-98`: index of its lower end -/
def interval (nmax : Nat) (low : Option Nat) : Nat := match low with
  | some l => if l ≠ nmax - 1 then l else l - 1
  | none => 0

/-- value for one position, `interpolate.hpp:46-63,83-100` -/
def interpAt (y x : List K) (nx : K) : Res K := do
  let low ← lowerB x nx
  let i := interval x.length low
  let ylow ← Res.rd y i
  let yup ← Res.rd y (i + 1)
  let xlow ← Res.rd x i
  let xup ← Res.rd x (i + 1)
  pure (ylow + (yup - ylow) * (nx - xlow) / (xup - xlow))

/-- `interpolate(y, x, nx)` for one position, `interpolate.hpp:72-101` (one-dimensional `y`, `x`) -/
def interpolate (y x : List K) (nx : K) : Res K := do
  Res.check (y.length = x.length)
  Res.check (2 ≤ y.length)
  interpAt y x nx

/-- `interpolate(y, x, nx)` for a vector of positions, `interpolate.hpp:25-65` -/
def interpolateV (y x nx : List K) : Res (List K) := do
  Res.check (y.length = x.length)
  Res.check (2 ≤ y.length)
  nx.mapM (interpAt y x)

/-- `interpolate(y, e, x, nx)`, `interpolate.hpp:107-153`: value and square of the error
(the square root is left out) -/
def interpErrAt (y e x : List K) (nx : K) : Res (K × K) := do
  let low ← lowerB x nx
  let i := interval x.length low
  let ylow ← Res.rd y i
  let yup ← Res.rd y (i + 1)
  let elow ← Res.rd e i
  let eup ← Res.rd e (i + 1)
  let xlow ← Res.rd x i
  let xup ← Res.rd x (i + 1)
  let a := (nx - xlow) / (xup - xlow)
  pure (ylow + (yup - ylow) * a, (elow * (1 - a)) ^ 2 + (eup * a) ^ 2)

/-- one trapezoid between positions `i-1` and `i`: `reduce.hpp:701,875` -/
def trapezoid (x y : List K) (i : Nat) : Res K := do
  let y1 ← Res.rd y i
  let y0 ← Res.rd y (i - 1)
  let x1 ← Res.rd x i
  let x0 ← Res.rd x (i - 1)
  pure ((y1 + y0) / 2 * (x1 - x0))

/-- the indices `range(1, n)` runs through, `reduce.hpp:700,874`; see `Verif.Core.range2` -/
def rangeFrom1 (n : Nat) : List Nat := (range2 1 n).map Int.toNat

/-- `integrate(x, y)`, `reduce.hpp:690-705` -/
def integrate (x y : List K) : Res K := do
  Res.check (x.length = y.length)
  (rangeFrom1 x.length).foldlM (fun r i => do let t ← trapezoid x y i; pure (r + t)) 0

/-- loop of `cumul(x, y)`, `reduce.hpp:873-877` -/
def cumulLoop (x y : List K) : List Nat → K → List K → Res (List K)
  | [], _, dr => .ok dr
  | i :: is, r, dr => do
    let t ← trapezoid x y i
    if i < dr.length then cumulLoop x y is (r + t) (dr.set i (r + t)) else .ub

/-- `cumul(x, y)`, `reduce.hpp:866-879` -/
def cumul (x y : List K) : Res (List K) := do
  Res.check (x.length = y.length)
  cumulLoop x y (rangeFrom1 x.length) 0 (List.replicate y.length 0)

/-- loop of `cumul(y)`, `histogram.hpp:369-373` -/
def cumul1Loop (y : List K) : List Nat → List K → Res (List K)
  | [], dr => .ok dr
  | i :: is, dr => do
    let d ← (if i ≠ 0 then Res.rd dr (i - 1) else Res.rd dr i)
    let t ← Res.rd y i
    if i < dr.length then cumul1Loop y is (dr.set i (d + t)) else .ub

/-- `cumul(y)`, `histogram.hpp:367-376` -/
def cumul1 (y : List K) : Res (List K) :=
  cumul1Loop y (List.range y.length) (List.replicate y.length 0)

/-- loop of `cumul_reverse(y)`, `histogram.hpp:381-385`; line 383 reads `y`, not `dr`. -/
def cumulReverseLoop (y : List K) : List Nat → List K → Res (List K)
  | [], dr => .ok dr
  | i :: is, dr => do
    let ri := y.length - 1 - i
    let d ← (if i ≠ 0 then Res.rd y (ri + 1) else Res.rd dr ri)
    let t ← Res.rd y ri
    if ri < dr.length then cumulReverseLoop y is (dr.set ri (d + t)) else .ub

/-- `cumul_reverse(y)`, `histogram.hpp:378-388` -/
def cumulReverse (y : List K) : Res (List K) :=
  cumulReverseLoop y (List.range y.length) (List.replicate y.length 0)

/-- `npos` read as an index: out of bounds of any vector -/
def idx (i : Option Nat) (v : List K) : Res K := match i with
  | some i => Res.rd v i
  | none => .ub

/-- `i0 > i1` with `npos` the largest value -/
def idxGt : Option Nat → Option Nat → Bool
  | some a, some b => decide (b < a)
  | none, some _ => true
  | _, none => false

/-- second part of `integrate(x, y, x0, x1)` and `integrate_hinted`, `reduce.hpp:741-764,838-860` -/
def integrateBetween (x y : List K) (x0 x1 : K) (i0 i1 : Option Nat) : Res K :=
  if idxGt i0 i1 then do
    let ya ← idx i1 y
    let yb ← idx i0 y
    let xa ← idx i1 x
    let xb ← idx i0 x
    let y0 := interp2 ya yb xa xb x0
    let y1 := interp2 ya yb xa xb x1
    pure ((y0 + y1) / 2 * (x1 - x0))
  else match i0, i1 with
    | some i0, some i1 => do
      let r ← ((List.range (i1 - i0)).map (i0 + ·)).foldlM
        (fun r i => do let t ← trapezoid x y (i + 1); pure (r + t)) 0
      let r ← if 0 < i0 then do
          let ya ← Res.rd y (i0 - 1)
          let yb ← Res.rd y i0
          let xa ← Res.rd x (i0 - 1)
          let xb ← Res.rd x i0
          pure (r + (yb + interp2 ya yb xa xb x0) / 2 * (xb - x0))
        else pure r
      if i1 < x.length - 1 then do
          let ya ← Res.rd y i1
          let yb ← Res.rd y (i1 + 1)
          let xa ← Res.rd x i1
          let xb ← Res.rd x (i1 + 1)
          pure (r + (interp2 ya yb xa xb x1 + ya) / 2 * (x1 - xa))
        else pure r
    | _, _ => .ub

/-- checks of `integrate(x, y, x0, x1)`, `reduce.hpp:731-737` -/
def integrateChecks (x y : List K) (x0 x1 : K) : Res Unit := do
  Res.check (x.length = y.length)
  Res.check (y ≠ [])
  let f ← Res.rd x 0
  Res.check (f ≤ x0)
  let b ← Res.rd x (x.length - 1)
  Res.check (x1 ≤ b)

/-- `integrate(x, y, x0, x1)`, `reduce.hpp:728-765` -/
def integrateIn (x y : List K) (x0 x1 : K) : Res K := do
  integrateChecks x y x0 x1
  let i0 ← upperB x x0
  let i1 ← lowerB x x1
  integrateBetween x y x0 x1 i0 i1

/-- the loops `while (i < x.size()-1 && x[i+1] <= t) ++i`, `reduce.hpp:818-833` -/
def advance (x : List K) (t : K) (i : Nat) : Nat :=
  if _h : i < x.length - 1 then
    match x[i + 1]? with
    | some v => if v ≤ t then advance x t (i + 1) else i
    | none => i
  else i
termination_by x.length - 1 - i

/-- `integrate_hinted(x, y, ihint, x0, x1)`, `reduce.hpp:798-861`: the integral and the new hint;
`none` is the hint `npos` -/
def integrateHinted (x y : List K) (hint : Option Nat) (x0 x1 : K) : Res (K × Nat) := do
  integrateChecks x y x0 x1
  match hint with
  | none => do
    let i0 ← upperB x x0
    match i0 with
    | none => do
      let r ← integrateBetween x y x0 x1 none (some (x.length - 1))
      pure (r, x.length - 1)
    | some i0 => do
      let i1 := advance x x1 (i0 - 1)
      let r ← integrateBetween x y x0 x1 (some i0) (some i1)
      pure (r, i1)
  | some h => do
    let i0 := advance x x0 h
    let i1 := advance x x1 i0
    let i0 := if i0 ≠ x.length - 1 then i0 + 1 else i0
    let r ← integrateBetween x y x0 x1 (some i0) (some i1)
    pure (r, i1)

/-- binned `integrate(x, y)`, `reduce.hpp:707-726`; `lo`, `hi` are the two rows of `x` -/
def integrateBins (lo hi y : List K) : Res K := do
  Res.check (lo.length = y.length)
  (List.range lo.length).foldlM (fun r i => do
    let t ← Res.rd y i
    let b ← Res.rd hi i
    let a ← Res.rd lo i
    pure (r + t * (b - a))) 0

/-- binned `integrate(x, y, x0, x1)`, `reduce.hpp:767-793` -/
def integrateBinsIn (lo hi y : List K) (x0 x1 : K) : Res K := do
  Res.check (lo.length = y.length)
  Res.check (y ≠ [])
  let f ← Res.rd lo 0
  let b ← Res.rd hi (hi.length - 1)
  Res.check (f ≤ x0 ∧ x1 ≤ b)
  let i0 ← upperB lo x0
  let i1 ← lowerB lo x1
  if idxGt i0 i1 then do
    let v ← idx i1 y
    pure (v * (x1 - x0))
  else match i0, i1 with
    | some i0, some i1 => do
      let r ← ((List.range (i1 - i0)).map (i0 + ·)).foldlM (fun r i => do
        let t ← Res.rd y i
        let b ← Res.rd hi i
        let a ← Res.rd lo i
        pure (r + t * (b - a))) 0
      let ya ← Res.rd y i0
      let xa ← Res.rd lo i0
      let yb ← Res.rd y i1
      let xb ← Res.rd lo i1
      pure (r + ya * (xa - x0) + yb * (x1 - xb))
    | _, _ => .ub

end Verif.Math
