import Verif.Basic
import Mathlib.Algebra.Order.Field.Basic
/-!
# Convex hulls (`math/convex_hull.hpp`)

Coordinates are elements of an ordered field (no rounding, no NaN). The array `res` of `build_convex_hull` with its counter `k` is kept as the
list of its first `k` elements, last one first; `cap` is its size.
-/
namespace Verif.Hull
open Verif

variable {K : Type} [LinearOrder K] [Field K]

/-- the `cross` of three points (`convex_hull.hpp:124-127`) -/
def cross3 (a b c : K × K) : K := (b.1 - a.1) * (c.2 - a.2) - (b.2 - a.2) * (c.1 - a.1)

/-- the comparison given to `std::sort` (`convex_hull.hpp:117-122`) -/
def ptLess (a b : K × K) : Prop := a.1 < b.1 ∨ (¬ b.1 < a.1 ∧ a.2 < b.2)

/-- the contract of `std::sort`: `ids` is a permutation of the indices in an order compatible with the comparison -/
def Sorted (pts : List (K × K)) (ids : List Nat) : Prop :=
  ids.Perm (List.range pts.length) ∧ ids.Pairwise fun i j => ¬ ptLess (pts.getD j (0, 0)) (pts.getD i (0, 0))

/-- `while (k >= t && cross(res[k-2], res[k-1], p) <= 0) --k;` (`convex_hull.hpp:131`, `138`); reading `res[k-2]` with fewer than two
elements is out of bounds -/
def popLoop {ι : Type} (pt : ι → K × K) (t : Nat) (p : ι) : List ι → Res (List ι)
  | [] => if t = 0 then .ub else .ok []
  | [a] => if t ≤ 1 then .ub else .ok [a]
  | a :: b :: s =>
    if t ≤ s.length + 2 ∧ cross3 (pt b) (pt a) (pt p) ≤ 0 then popLoop pt t p (b :: s) else .ok (a :: b :: s)

/-- the body of the two loops (`convex_hull.hpp:130-134`, `137-141`) -/
def addPoint {ι : Type} (pt : ι → K × K) (cap t : Nat) (s : List ι) (p : ι) : Res (List ι) := do
  let s ← popLoop pt t p s
  if s.length < cap then .ok (p :: s) else .ub

/-- `build_convex_hull` (`convex_hull.hpp:109-150`) on the sorted indices `ids`: the indices of the vertices. With no point the second loop
starts at `npt-2 = 2^64-2` and reads outside `ids`. -/
def build (pts : List (K × K)) (ids : List Nat) : Res (List Nat) := do
  let pt := fun i => pts.getD i (0, 0)
  let cap := 2 * ids.length
  let s ← ids.foldlM (addPoint pt cap 2) []
  if ids = [] then .ub
  else do
    let s ← ids.reverse.tail.foldlM (addPoint pt cap (s.length + 1)) s
    .ok s.reverse

/-- `in_convex_hull` (`convex_hull.hpp:152-168`) on a closed hull; `orient` is 1 or -1 -/
def inHull (hull : List (K × K)) (orient : K) (p : K × K) : Bool :=
  (hull.zip hull.tail).all fun e => !decide (cross3 e.1 e.2 p * orient < 0)

/-- one pass of the outer loop of the vector form (`convex_hull.hpp:181-190`) -/
def inHullEdge (orient : K) (ps : List (K × K)) (res : List Bool) (e : (K × K) × (K × K)) : List Bool :=
  List.zipWith (fun p r => if !r then r else if cross3 e.1 e.2 p * orient < 0 then false else r) ps res

/-- `in_convex_hull` of a vector of points (`convex_hull.hpp:170-194`) -/
def inHullVec (hull : List (K × K)) (orient : K) (ps : List (K × K)) : List Bool :=
  (hull.zip hull.tail).foldl (inHullEdge orient ps) (List.replicate ps.length true)

/-- `convex_hull::validate` (`convex_hull.hpp:42-60`): `(closed, orient)`; `eps` is the machine epsilon -/
def validate (eps : K) (h : List (K × K)) : Res (Bool × K) :=
  match h with
  | a :: b :: c :: t =>
    let z := (c :: t).getLastD c
    .ok (decide (|a.1 - z.1| < eps ∧ |a.2 - z.2| < eps),
      if 0 < (b.1 - a.1) * (c.2 - b.2) - (b.2 - a.2) * (c.1 - b.1) then 1 else -1)
  | _ => .abort

end Verif.Hull
