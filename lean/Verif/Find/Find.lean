import Verif.Find.Sort
/-!
# Searching vectors

Models `utility/bits/generic-find.hpp`. `npos` is `none`. The standard algorithms are modelled by
their libstdc++ text (`bits/stl_algobase.h`, `bits/stl_algo.h`), on list positions.
-/
namespace Verif.Find
open Verif Verif.Core
variable {α : Type} [LinearOrder α]

/-- loop of `where`, `generic-find.hpp:9-20`, from index `i` on -/
def whereFrom : Nat → List Bool → List Nat
  | _, [] => []
  | i, b :: v => if b then i :: whereFrom (i + 1) v else whereFrom (i + 1) v

/-- `where(v)` -/
def where_ (v : List Bool) : List Nat := whereFrom 0 v

/-- loop of `where_first`, `generic-find.hpp:26-37` -/
def firstFrom : Nat → List Bool → Option Nat
  | _, [] => none
  | i, b :: v => if b then some i else firstFrom (i + 1) v

def whereFirst (v : List Bool) : Option Nat := firstFrom 0 v

/-- loop of `where_last`, `generic-find.hpp:42-53`: `i` runs over the given indices and element
`size - 1 - i` is tested (unsigned subtraction, never below zero for `i < size`). -/
def lastLoop (v : List Bool) : List Nat → Res (Option Nat)
  | [] => .ok none
  | i :: is => do
    let b ← Res.rd v (v.length - 1 - i)
    if b then .ok (some (v.length - 1 - i)) else lastLoop v is

def whereLast (v : List Bool) : Res (Option Nat) :=
  if v = [] then .ok none else lastLoop v (List.range v.length)

/-- marking loop of `complement`, `generic-find.hpp:62-65`; `sel[i]` aborts when out of range -/
def markLoop : List Bool → List Nat → Res (List Bool)
  | sel, [] => .ok sel
  | sel, i :: is => do
    Res.check (i < sel.length)
    markLoop (sel.set i true) is

/-- `complement(v, ids)`, `generic-find.hpp:57-75`; `n` is `v.size()`. -/
def complement (n : Nat) (ids : List Nat) : Res (List Nat) :=
  if ids.length = n then .ok []
  else do
    Res.check (ids.length < n)
    let sel ← markLoop (List.replicate n false) ids
    .ok (whereFrom 0 (sel.map (!·)))

/-- `is_any_of(x, v2)`, `generic-find.hpp:170-179` -/
def isAnyOf1 (x : Option α) : List (Option α) → Bool
  | [] => false
  | y :: v2 => if FP.eq x y then true else isAnyOf1 x v2

/-- `is_any_of(v1, v2)`, `generic-find.hpp:183-195`: inner loop with `break`. -/
def isAnyOf (v1 v2 : List (Option α)) : List Bool := v1.map fun x => isAnyOf1 x v2

/-- inner brute force loop of `match` with `break`, `generic-find.hpp:215-222` -/
def matchInner (x : Option α) : Nat → List (Option α) → Option Nat
  | _, [] => none
  | j, y :: v2 => if FP.eq y x then some j else matchInner x (j + 1) v2

/-- brute force loop of `match`; the two index vectors are filled together, here as pairs -/
def matchBrute (v2 : List (Option α)) : Nat → List (Option α) → List (Nat × Nat)
  | _, [] => []
  | i, x :: v1 =>
    match matchInner x 0 v2 with
    | some j => (i, j) :: matchBrute v2 (i + 1) v1
    | none => matchBrute v2 (i + 1) v1

/-- merging loop of `match`, `generic-find.hpp:228-242` -/
def matchMerge (v1 v2 : List (Option α)) : List Nat → List Nat → List (Nat × Nat)
  | i :: is, j :: js =>
    if FP.lt (elt v1 i) (elt v2 j) then matchMerge v1 v2 is (j :: js)
    else if FP.lt (elt v2 j) (elt v1 i) then matchMerge v1 v2 (i :: is) js
    else (i, j) :: matchMerge v1 v2 is js
  | _, _ => []
termination_by a b => a.length + b.length

/-- `match(v1, v2, id1, id2)`, `generic-find.hpp:200-249`; the result is the list of pairs
`(id1[k], id2[k])`. -/
def matchIds (v1 v2 : List (Option α)) : List (Nat × Nat) :=
  if min v1.length v2.length < 64 then matchBrute v2 0 v1
  else matchMerge v1 v2 (sort v1) (sort v2)

/-- `std::set_intersection` (`set_intersection_sorted`, `generic-find.hpp:255-269`) -/
def setIntersectionSorted : List (Option α) → List (Option α) → List (Option α)
  | a :: as, b :: bs =>
    if FP.less a b then setIntersectionSorted as (b :: bs)
    else if FP.less b a then setIntersectionSorted (a :: as) bs
    else a :: setIntersectionSorted as bs
  | _, _ => []
termination_by a b => a.length + b.length

/-- `set_intersection`, `generic-find.hpp:286-291` -/
def setIntersection (v1 v2 : List (Option α)) : List (Option α) :=
  setIntersectionSorted (inplaceSort v1) (inplaceSort v2)

/-- `std::set_union` (`set_union_sorted`, `generic-find.hpp:296-310`) -/
def setUnionSorted : List (Option α) → List (Option α) → List (Option α)
  | a :: as, b :: bs =>
    if FP.less a b then a :: setUnionSorted as (b :: bs)
    else if FP.less b a then b :: setUnionSorted (a :: as) bs
    else a :: setUnionSorted as bs
  | [], bs => bs
  | as, [] => as
termination_by a b => a.length + b.length

/-- `set_union`, `generic-find.hpp:313-318` -/
def setUnion (v1 v2 : List (Option α)) : List (Option α) :=
  setUnionSorted (inplaceSort v1) (inplaceSort v2)

/-- `std::upper_bound` (libstdc++ `__upper_bound`) over `[first, first + len)` -/
def stdUpper (v : List (Option α)) (x : Option α) (first len : Nat) : Res Nat :=
  if len = 0 then .ok first
  else do
    let half := len / 2
    let m ← Res.rd v (first + half)
    if FP.less x m then stdUpper v x first half
    else stdUpper v x (first + half + 1) (len - half - 1)
termination_by len

/-- `std::lower_bound` (libstdc++ `__lower_bound`) over `[first, first + len)` -/
def stdLower (v : List (Option α)) (x : Option α) (first len : Nat) : Res Nat :=
  if len = 0 then .ok first
  else do
    let half := len / 2
    let m ← Res.rd v (first + half)
    if FP.less m x then stdLower v x (first + half + 1) (len - half - 1)
    else stdLower v x first half
termination_by len

/-- `std::equal_range` (libstdc++ `__equal_range`) over `[first, first + len)` -/
def stdEqual (v : List (Option α)) (x : Option α) (first len : Nat) : Res (Nat × Nat) :=
  if len = 0 then .ok (first, first)
  else do
    let half := len / 2
    let m ← Res.rd v (first + half)
    if FP.less m x then stdEqual v x (first + half + 1) (len - half - 1)
    else if FP.less x m then stdEqual v x first half
    else do
      let l ← stdLower v x first half
      let u ← stdUpper v x (first + half + 1) (first + len - (first + half + 1))
      .ok (l, u)
termination_by len

/-- `lower_bound(v, x)`, `generic-find.hpp:322-334` -/
def lowerBound (v : List (Option α)) (x : Option α) : Res (Option Nat) :=
  if v = [] then .ok none
  else do
    let it ← stdUpper v x 0 v.length
    .ok (if it = 0 then none else some (it - 1))

/-- `upper_bound(v, x)`, `generic-find.hpp:339-351` -/
def upperBound (v : List (Option α)) (x : Option α) : Res (Option Nat) :=
  if v = [] then .ok none
  else do
    let it ← stdUpper v x 0 v.length
    .ok (if it = v.length then none else some it)

/-- `bounds(v, x)`, `generic-find.hpp:356-380` -/
def bounds (v : List (Option α)) (x : Option α) : Res (Option Nat × Option Nat) :=
  if v = [] then .ok (none, none)
  else do
    let it ← stdUpper v x 0 v.length
    .ok (if it = v.length then (some (v.length - 1), none)
      else if it = 0 then (none, some 0)
      else (some (it - 1), some it))

/-- `bounds(v, x1, x2)`, `generic-find.hpp:387-416`; the second search starts where the first
ended. -/
def bounds2 (v : List (Option α)) (x1 x2 : Option α) : Res (Option Nat × Option Nat) :=
  if v = [] then .ok (none, none)
  else do
    let it ← stdUpper v x1 0 v.length
    let r0 := if it = 0 then none else some (it - 1)
    let it2 ← stdUpper v x2 it (v.length - it)
    .ok (r0, if it2 = v.length then none else some it2)

/-- `equal_range(v, x)`, `generic-find.hpp:421-435` -/
def equalRange (v : List (Option α)) (x : Option α) : Res (Option Nat × Option Nat) := do
  let t ← stdEqual v x 0 v.length
  .ok (if t.1 ≠ v.length then (some t.1, some t.2) else (none, none))

end Verif.Find
