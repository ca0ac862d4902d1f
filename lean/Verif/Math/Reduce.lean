import Verif.Core.Vec
import Verif.Find.Sort
import Mathlib.Data.Rat.Floor
/-!
# Reductions

Models `math/reduce.hpp`: partial reductions, `min`/`max`/`minmax`, `median`, `percentile`.
-/
namespace Verif.Math
open Verif Verif.Core Verif.Find

section partial_
variable {α β : Type}

/-- one slice of the loop in `run_index_` (`reduce.hpp:520-525`) and `run_dim_final_`
(`reduce.hpp:555-562`): `base = (i % mpitch) + (i / mpitch)*nint*mpitch`, elements
`base + j*mpitch`; remainder by zero is undefined. -/
def sliceOf (data : List α) (nint mpitch i : Nat) : Res (List α) :=
  if mpitch = 0 then .ub
  else (List.range nint).mapM fun j => Res.rd data (i % mpitch + i / mpitch * nint * mpitch + j * mpitch)

/-- `partial_xxx(dim, v)`, `reduce.hpp:477-530,639-648`. The result has the dimensions of `v` without
dimension `dim`; `f` is the reducing function. Sizes are computed without overflow (they are at
most the size of `v` unless a dimension is zero). -/
def runIndex (f : List α → Res β) (dim : Nat) (v : Vec α) : Res (Vec β) := do
  Res.check (dim < v.dims.length)
  let rdims := v.dims.take dim ++ v.dims.drop (dim + 1)
  let mpitch := (v.dims.drop (dim + 1)).foldl (· * ·) 1
  let data ← (List.range rdims.prod).mapM fun i => do
    let tmp ← sliceOf v.data (v.dims.getD dim 0) mpitch i
    f tmp
  .ok ⟨data, rdims⟩

/-- loop of `run_dim_final_`, `reduce.hpp:543-551`: number of slices and pitch -/
def runDimSizes (dim : Nat) : Nat → List Nat → Nat × Nat
  | _, [] => (1, 1)
  | i, d :: ds =>
    let r := runDimSizes dim (i + 1) ds
    (if i ≠ dim then d * r.1 else r.1, if dim < i then d * r.2 else r.2)

/-- write of the lambda in `reduce` (`reduce.hpp:624-626`) for each slice -/
def reduceLoop (f : List α → Res β) (data : List α) (nint mpitch : Nat) :
    List Nat → List β → Res (List β)
  | [], r => .ok r
  | i :: is, r => do
    let tv ← sliceOf data nint mpitch i
    let y ← f tv
    if i < r.length then reduceLoop f data nint mpitch is (r.set i y) else .ub

/-- `reduce(dim, v, func)`, `reduce.hpp:608-630`, on one vector. -/
def reduce [Inhabited β] (f : List α → Res β) (dim : Nat) (v : Vec α) : Res (Vec β) := do
  Res.check (dim < v.dims.length)
  let rdims := v.dims.take dim ++ v.dims.drop (dim + 1)
  let r := List.replicate rdims.prod default
  let (np, mpitch) := runDimSizes dim 0 v.dims
  let data ← reduceLoop f v.data (v.dims.getD dim 0) mpitch (List.range np) r
  .ok ⟨data, rdims⟩
end partial_

section order
variable {α : Type} [LinearOrder α]

/-- `strict_comparator_greater` (`core/bits/helpers.hpp:413-420`): NaN last, larger first. -/
def greater : Option α → Option α → Bool
  | none, _ => false
  | some _, none => true
  | some a, some b => decide (b < a)

/-- loop of `std::min_element`: `res` and `k` are positions -/
def minElementLoop (comp : Option α → Option α → Bool) : (res : Nat) → Option α → (k : Nat) →
    List (Option α) → Nat × Option α
  | res, x, _, [] => (res, x)
  | res, x, k, y :: ys =>
    if comp y x then minElementLoop comp k y (k + 1) ys else minElementLoop comp res x (k + 1) ys

/-- `min_`/`max_` with the given comparator, `reduce.hpp:267-288`: position and value. -/
def extremum (comp : Option α → Option α → Bool) : List (Option α) → Res (Nat × Option α)
  | [] => .abort
  | x :: v => .ok (minElementLoop comp 0 x 1 v)

/-- `min(v, id)`, `min(v)`, `min_id(v)`: `reduce.hpp:327-330,344-348,366-369` -/
def vmin (v : List (Option α)) : Res (Nat × Option α) := extremum FP.less v

/-- `max(v, id)`, `max(v)`, `max_id(v)` -/
def vmax (v : List (Option α)) : Res (Nat × Option α) := extremum greater v

/-- main loop of `minmax_`, `reduce.hpp:317-321` -/
def minmaxLoop : (Nat × α) → (Nat × α) → Nat → List (Option α) → (Nat × α) × (Nat × α)
  | a, b, _, [] => (a, b)
  | a, b, k, none :: v => minmaxLoop a b (k + 1) v
  | a, b, k, some y :: v =>
    if y < a.2 then minmaxLoop (k, y) b (k + 1) v
    else if ¬ y < b.2 then minmaxLoop a (k, y) (k + 1) v
    else minmaxLoop a b (k + 1) v

/-- first part of `minmax_`: skip NaN, `reduce.hpp:304-315` -/
def minmaxSkip : Nat → List (Option α) → Option ((Nat × α) × (Nat × α))
  | _, [] => none
  | k, none :: v => minmaxSkip (k + 1) v
  | k, some y :: v => some (minmaxLoop (k, y) (k, y) (k + 1) v)

/-- `minmax(v, ids)`, `reduce.hpp:290-325,338-342,358-364`: positions and values. -/
def minmax : List (Option α) → Res ((Nat × Option α) × (Nat × Option α))
  | [] => .abort
  | x :: v => match minmaxSkip 0 (x :: v) with
    | none => .ok ((0, x), (0, x))
    | some (a, b) => .ok ((a.1, some a.2), (b.1, some b.2))

/-- `nth_element_(v, n)`, `reduce.hpp:117-123`: `std::nth_element` puts at position `n` the value
that sorting would put there. -/
def nthElement (v : List (Option α)) (n : Nat) : Res (Option α) := Res.rd (inplaceSort v) n

/-- `count_nans_`, `reduce.hpp:136-144` -/
def countNans (v : List (Option α)) : Nat := v.foldl (fun n t => if t.isNone then n + 1 else n) 0

/-- `median(v)`, `reduce.hpp:146-165` (integer types have no NaN, same computation). -/
def median (v : List (Option α)) : Res (Option α) := do
  Res.check (v ≠ [])
  let nwrong := countNans v
  if nwrong = v.length then .ok none
  else nthElement v ((v.length - nwrong) / 2)

/-- `clamp(t, 0u, hi)` then conversion to an unsigned integer, for `t` a number -/
def clampIndex (t : ℚ) (hi : Nat) : Nat :=
  (if t < 0 then 0 else if t > hi then (hi : ℚ) else t).floor.toNat

/-- `percentile(v, u)`, `reduce.hpp:208-224`; `u` is a number, the product is not rounded. -/
def percentile (v : List (Option α)) (u : ℚ) : Res (Option α) := do
  Res.check (v ≠ [])
  let nwrong := countNans v
  if nwrong = v.length then .ok none
  else nthElement v (clampIndex (((v.length - nwrong : Nat) : ℚ) * u) (v.length - 1))

/-- `percentiles(v, us...)`, `reduce.hpp:226-255`: no special case when all values are NaN. -/
def percentiles (v : List (Option α)) (us : List ℚ) : Res (List (Option α)) := do
  Res.check (v ≠ [])
  let nwrong := countNans v
  us.mapM fun u => nthElement v (clampIndex (((v.length - nwrong : Nat) : ℚ) * u) (v.length - 1))

end order
end Verif.Math
