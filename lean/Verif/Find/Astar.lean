import Verif.Basic
import Mathlib.Tactic.Ring
/-!
# `astar_find`

Models `utility/bits/generic-find.hpp:437-487`. `map.safe(x,y)` and `visit.safe(x,y)` are element
`(x,y)` of the 2-D vectors (row-major indexing is C03): the map is a function of the position and
its two dimensions, the visited flags are the list of the flagged positions.
-/
namespace Verif.Find
open Verif

/-- A 2-D map of booleans: `d0`, `d1` are `map.dims[0]`, `map.dims[1]`. -/
structure BMap where
  d0 : Nat
  d1 : Nat
  at_ : Nat → Nat → Bool

namespace BMap

/-- Outcome of looking at some neighbours: found one that is true, or the updated lists. -/
inductive Step where
  | found (x y : Nat)
  | more (open_ visit : List (Nat × Nat))
deriving DecidableEq

/-- the neighbour in direction `d` (`generic-find.hpp:462-471`) -/
def neighbour (ox oy : Int) (d : Nat) : Int × Int :=
  if d = 0 then (ox, oy + 1)
  else if d = 1 then (ox + 1, oy)
  else if d = 2 then (ox, oy - 1)
  else (ox - 1, oy)

/-- body of the loop over directions (`generic-find.hpp:473-484`) -/
def visitOne (m : BMap) (t : Int × Int) (open_ visit : List (Nat × Nat)) : Step :=
  if t.1 < 0 ∨ t.2 < 0 then .more open_ visit
  else
    let x := t.1.toNat
    let y := t.2.toNat
    if m.d0 ≤ x ∨ m.d1 ≤ y ∨ (x, y) ∈ visit then .more open_ visit
    else if m.at_ x y = false then .more (open_ ++ [(x, y)]) ((x, y) :: visit)
    else .found x y

/-- loop over the given directions -/
def dirs (m : BMap) (p : Nat × Nat) : List Nat → List (Nat × Nat) → List (Nat × Nat) → Step
  | [], o, v => .more o v
  | d :: ds, o, v =>
    match visitOne m (neighbour p.1 p.2 d) o v with
    | .found x y => .found x y
    | .more o v => dirs m p ds o v

/-- loop over `old_open` -/
def level (m : BMap) : List (Nat × Nat) → List (Nat × Nat) → List (Nat × Nat) → Step
  | [], o, v => .more o v
  | p :: ps, o, v =>
    match dirs m p [0, 1, 2, 3] o v with
    | .found x y => .found x y
    | .more o v => level m ps o v

/-- `while (!open.empty())`; `diverge` when the given number of iterations is not enough. -/
def search (m : BMap) : Nat → List (Nat × Nat) → List (Nat × Nat) → Res (Option (Nat × Nat))
  | 0, [], _ => .ok none
  | 0, _ :: _, _ => .diverge
  | n + 1, o, v =>
    if o = [] then .ok none
    else match level m o [] v with
      | .found x y => .ok (some (x, y))
      | .more o v => search m n o v

/-- `astar_find(map, x, y)`: `some (x, y)` when it returns true with the new values of `x` and `y`,
`none` when it returns false. -/
def astarFind (m : BMap) (fuel x y : Nat) : Res (Option (Nat × Nat)) := do
  Res.check (m.d0 * m.d1 ≠ 0)
  let x := if m.d0 ≤ x then m.d0 - 1 else x
  let y := if m.d1 ≤ y then m.d1 - 1 else y
  if m.at_ x y then .ok (some (x, y))
  else search m fuel [(x, y)] [(x, y)]

end BMap
end Verif.Find
