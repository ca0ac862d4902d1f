import Verif.Math.Reduce
import Mathlib.Analysis.SpecialFunctions.Sqrt
/-!
# Model of the statistics in `math/reduce.hpp`

Numbers are elements of an ordered field, without rounding.  `mean`, `rms` and so on have no special treatment of
NaN and are modelled on numbers; a result that is not a finite number is `none`.  The functions that skip NaN
(`weighted_percentile`, `mad`, `sigma_clip`) work on `Option K`, `none` being NaN.
-/
namespace Verif.Stats
open Verif Verif.Math Verif.Find

section
variable {K : Type} [Field K] [LinearOrder K]

/-- `total` (reduce.hpp:23-30) -/
def total (v : List K) : K := v.foldl (fun s t => s + t) 0

/-- `count` (reduce.hpp:34-41) -/
def count (v : List Bool) : Nat := v.foldl (fun n b => if b then n + 1 else n) 0

/-- `mean` (reduce.hpp:46-53); `0/0` for an empty vector -/
def mean (v : List K) : Option K := if v.length = 0 then none else some (total v / v.length)

/-- `weighted_mean` (reduce.hpp:58-70); not a finite number when the weights add up to 0 -/
def weightedMean (v w : List K) : Res (Option K) := do
  Res.check (v.length = w.length)
  let s := (v.zip w).foldl (fun s p => (s.1 + p.1 * p.2, s.2 + p.2)) ((0 : K), (0 : K))
  .ok (if s.2 = 0 then none else some (s.1 / s.2))

/-- `fraction_of` (reduce.hpp:92-94): `mean` of booleans taken as 0 and 1 -/
def fractionOf (b : List Bool) : Option K := mean (b.map fun x => if x then 1 else 0)

/-- `fraction_of` among a selection (reduce.hpp:99-113) -/
def fractionAmong (b among : List Bool) : Res (Option K) := do
  Res.check (b.length = among.length)
  let s := (b.zip among).foldl (fun s p => if p.2 then (s.1 + (if p.1 then 1 else 0), s.2 + 1) else s) ((0 : K), (0 : Nat))
  .ok (if s.2 = 0 then none else some (s.1 / s.2))

/-- one turn of the first loop of `weighted_percentile` (reduce.hpp:180) -/
def addWeight (s : K) : Option K × Option K → K
  | (some _, some x) => s + x
  | _ => s

/-- the sum of the weights where value and weight are numbers (reduce.hpp:178-181) -/
def totalWeight (v w : List (Option K)) : K := (v.zip w).foldl addWeight 0

/-- the second loop of `weighted_percentile` (reduce.hpp:187-196), over the sorted indices -/
def wpLoop (v w : List (Option K)) (lim : K) : K → List Nat → Res (Option K)
  | _, [] => .ok none
  | tot, j :: ids => do
    let a ← Res.rd v j
    let b ← Res.rd w j
    match a, b with
    | some a, some b => if tot + b ≥ lim then .ok (some a) else wpLoop v w lim (tot + b) ids
    | _, _ => wpLoop v w lim tot ids

/-- `weighted_percentile` (reduce.hpp:173-199) -/
def weightedPercentile (v w : List (Option K)) (p : K) : Res (Option K) := do
  Res.check (v ≠ [])
  Res.check (v.length = w.length)
  let totw := totalWeight v w
  if totw = 0 then .ok none else wpLoop v w (totw * p) 0 (Find.sort v)

/-- `weighted_median` (reduce.hpp:204-206) -/
def weightedMedian (v w : List (Option K)) : Res (Option K) := weightedPercentile v w (1 / 2)

/-- `abs(x - y)` with NaN -/
def absDiff (x y : Option K) : Option K :=
  match x, y with
  | some a, some b => some |a - b|
  | _, _ => none

/-- `mad` (reduce.hpp:473-475) -/
def mad (v : List (Option K)) : Res (Option K) := do
  let m ← median v
  median (v.map (absDiff · m))

/-- `sigma_clip` (reduce.hpp:259-266); `v'` is the order in which `inplace_median` leaves its argument -/
def sigmaClip (v v' : List (Option K)) (sigma : K) : Res (List Bool) := do
  let med ← median v
  let m ← median (v'.map (absDiff · med))
  .ok (v.map fun t => match absDiff t med, m with
    | some d, some m => decide (d ≤ sigma * (1.48 * m))
    | _, _ => false)

end

noncomputable section

/-- `optimal_mean` (reduce.hpp:75-88); without data or with an uncertainty 0 the mean is not a number -/
def optimalMean (v e : List ℝ) : Res (Option (ℝ × ℝ)) := do
  Res.check (v.length = e.length)
  if v = [] ∨ 0 ∈ e then .ok none else
  let s := (v.zip e).foldl (fun s p => (s.1 + 1 / (p.2 * p.2) * p.1, s.2 + 1 / (p.2 * p.2))) ((0 : ℝ), (0 : ℝ))
  .ok (some (s.1 / s.2, 1 / √s.2))

/-- `rms` (reduce.hpp:454-461) -/
def rms (v : List ℝ) : Option ℝ := if v.length = 0 then none else some (√(v.foldl (fun s t => s + t * t) 0 / v.length))

/-- `stddev` (reduce.hpp:466-468) -/
def stddev (v : List ℝ) : Option ℝ :=
  match mean v with
  | none => rms v
  | some m => rms (v.map (· - m))

end
end Verif.Stats
