import Verif.Math.Interp
import Verif.Str.Conv
import Mathlib.Analysis.SpecialFunctions.Log.Base
import Mathlib.Analysis.SpecialFunctions.Pow.Real
/-!
# Cosmological functions (`astro/astro.hpp:288-428`) and logarithmic ranges (`math/base.hpp:214-231`)

Real numbers without rounding; `Fl` has the results that are not finite. A redshift is `none` if it is not a number. The integration `integrate_func` is a
parameter (see C109 for the code).
-/
namespace Verif.Cosmo
open Verif Verif.Math
open Verif.StrConv (Fl)

noncomputable section

/-- `rgen_log(i, j, n)` (`math/base.hpp:215-231`) -/
def rgenLog (i j : ℝ) (n : Nat) : Res (List ℝ) := do
  Res.check (i > 0 ∧ j > 0)
  if n = 1 then .ok [i]
  else
    let dx := Real.logb 10 (j / i) / ((n - 1 : Nat) : ℝ)
    .ok ((List.range n).map fun k : Nat => i * (10 : ℝ) ^ ((k : ℝ) * dx))

/-- `cosmo_t` (`astro.hpp:288-293`) -/
structure Cosmology where
  H0 : ℝ := 70
  wL : ℝ := 73 / 100
  wm : ℝ := 27 / 100
  wk : ℝ := 0

/-- `get_cosmo` (`astro.hpp:295-335`) -/
def getCosmo (name : Str.Str) : Cosmology :=
  if name = "wmap".toList then ⟨70, 73 / 100, 27 / 100, 0⟩
  else if name = "plank".toList then ⟨678 / 10, 692 / 1000, 308 / 1000, 0⟩
  else if name = "std".toList then ⟨70, 7 / 10, 3 / 10, 0⟩
  else {}

/-- `integrate_func(f, x0, x1)` -/
abbrev Integ := (ℝ → ℝ) → ℝ → ℝ → Res ℝ

/-- the integrand of `lumdist` (`astro.hpp:356-358`) -/
def expansion (c : Cosmology) (t : ℝ) : ℝ := ((1 + t) ^ 3 * c.wm + c.wL) ^ (-(1 / 2) : ℝ)

/-- the integrand of `lookback_time` (`astro.hpp:368-370`) -/
def lookbackRate (c : Cosmology) (t : ℝ) : ℝ := ((1 + t) ^ 3 * c.wm + c.wL + (1 + t) ^ 2 * c.wk) ^ (-(1 / 2) : ℝ) / (1 + t)

/-- a function of the redshift: its values for positive redshifts and for other ones -/
structure Func where
  pos : ℝ → Res ℝ
  zero : Fl ℝ

/-- `lumdist` (`astro.hpp:353-360`) -/
def lumdist (I : Integ) (c : Cosmology) : Func where
  pos z := do
    let s ← I (expansion c) 0 z
    .ok ((1 + z) * (299792458 / 1000 / c.H0) * s)
  zero := .fin 0

/-- `lookback_time` (`astro.hpp:365-372`) -/
def lookbackTime (I : Integ) (c : Cosmology) : Func where
  pos z := do
    let s ← I (lookbackRate c) 0 z
    .ok (309 / 100 / (c.H0 * (3155 / 1000000)) * s)
  zero := .fin 0

/-- `propsize` (`astro.hpp:339-345`) -/
def propsize (I : Integ) (c : Cosmology) : Func where
  pos z := do
    let d ← (lumdist I c).pos z
    .ok (10 / 36 * (Real.pi / 180) * d / (1 + z) ^ 2)
  zero := .inf false

/-- `vuniverse` (`astro.hpp:379-383`) -/
def vuniverse (I : Integ) (c : Cosmology) : Func where
  pos z := do
    let d ← (lumdist I c).pos z
    .ok (4 / 3 * Real.pi * (d / (1 + z)) ^ 3)
  zero := .fin 0

/-- one of these functions on a number: comparisons with NaN are false, and everything computed from it is NaN -/
def Func.scalar (f : Func) (z : Option ℝ) : Res (Fl ℝ) :=
  match z with
  | none => .ok .nan
  | some z => if z ≤ 0 then .ok f.zero else do
    let v ← f.pos z
    .ok (.fin v)

/-- a quotient of floating point numbers -/
def divFl (a b : ℝ) : Fl ℝ := if b = 0 then (if a = 0 then .nan else .inf (decide (a < 0))) else .fin (a / b)

/-- `y + q` -/
def addFl (y : ℝ) : Fl ℝ → Fl ℝ
  | .fin q => .fin (y + q)
  | q => q

/-- `interpolate` at a position (`interpolate.hpp:46-63`; see `Verif.Math.interpAt`) with its results that are not finite -/
def interpFl (y x : List ℝ) (nx : ℝ) : Res (Fl ℝ) := do
  let low ← lowerB x nx
  let i := interval x.length low
  let ylow ← Res.rd y i
  let yup ← Res.rd y (i + 1)
  let xlow ← Res.rd x i
  let xup ← Res.rd x (i + 1)
  .ok (addFl ylow (divFl ((yup - ylow) * (nx - xlow)) (xup - xlow)))

/-- the values that are positive: `z[where(z > 0)]` -/
def positive (z : List (Option ℝ)) : List ℝ := z.filterMap fun z => match z with
  | none => none
  | some z => if 0 < z then some z else none

/-- `min` and `max` of a vector which is not empty (`math/reduce.hpp:280-335`) -/
def minOf (l : List ℝ) : Res ℝ := match l with
  | [] => .abort
  | a :: l => .ok (l.foldl min a)

/-- `max` -/
def maxOf (l : List ℝ) : Res ℝ := match l with
  | [] => .abort
  | a :: l => .ok (l.foldl max a)

/-- `VECTORIZE_INTERPOL(name, npt)` (`astro.hpp:392-420`): the elements of `r` that are in neither selection keep the value they have after the construction, 0 -/
def Func.vector (f : Func) (npt : Nat) (z : List (Option ℝ)) : Res (List (Fl ℝ)) :=
  if z.length < 2 * npt then z.mapM f.scalar
  else do
    let mi ← minOf (positive z)
    let ma ← maxOf (positive z)
    let tz ← rgenLog mi ma npt
    let td ← tz.mapM f.pos
    z.mapM fun z => match z with
      | none => .ok (.fin 0)
      | some z => if 0 < z then interpFl td tz z else .ok f.zero

end
end Verif.Cosmo
