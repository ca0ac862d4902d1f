import Verif.Find.FP
import Verif.Core.Range
/-!
# Sorting and unique values

Models `utility/bits/generic-rearrange.hpp:79-116` (`sort`, `inplace_sort`, `is_sorted`) and
`utility/bits/generic-find.hpp:78-165` (`unique_ids*`, `unique_values*`).
`std::stable_sort` is modelled by a stable merge sort: for a strict weak order the result of any
stable sort is the same.
-/
namespace Verif.Find
open Verif Verif.Core
variable {α : Type} [LinearOrder α]

/-- element `i`; only used for `i` below the size -/
def elt (v : List (Option α)) (i : Nat) : Option α := v.getD i none

/-- `sort(v)`, `generic-rearrange.hpp:79-87`: indices sorted by value, stably. -/
def sort (v : List (Option α)) : List Nat :=
  (List.range v.length).mergeSort fun i j => FP.le (elt v i) (elt v j)

/-- `inplace_sort(v)`, `generic-rearrange.hpp:99-102`. -/
def inplaceSort (v : List (Option α)) : List (Option α) := v.mergeSort FP.le

/-- loop of `is_sorted` over the given indices -/
def isSortedLoop (v : List (Option α)) : List Int → Res Bool
  | [] => .ok true
  | i :: is => do
    let a ← Res.rd v (i - 1).toNat
    let b ← Res.rd v i.toNat
    if !FP.less a b then .ok false else isSortedLoop v is

/-- `is_sorted(v)`, `generic-rearrange.hpp:110-116`: loops over `range(1, v.size())`, which counts
down from 1 when the vector is empty. -/
def isSorted (v : List (Option α)) : Res Bool := isSortedLoop v (range2 1 v.length)

/-- loop of `unique_ids`: `sid` are the remaining indices, `last` the last value kept. -/
def uniqueLoop (v : List (Option α)) (last : Option α) : List Nat → Res (List Nat)
  | [] => .ok []
  | i :: is => do
    let x ← Res.rd v i
    if FP.ne x last then do
      let r ← uniqueLoop v x is
      .ok (i :: r)
    else uniqueLoop v last is

/-- `unique_ids(v, sid)` without bound checks, and the common part of all variants
(`generic-find.hpp:81-145`). `v[i]` of the third variant aborts instead of being undefined when an
index is outside; with indices from `sort` or `range` none is. -/
def uniqueIdsFrom (v : List (Option α)) : List Nat → Res (List Nat)
  | [] => .ok []
  | i :: is => do
    let x ← Res.rd v i
    let r ← uniqueLoop v x is
    .ok (i :: r)

/-- `unique_ids_sorted(v)`, `generic-find.hpp:81-97`. -/
def uniqueIdsSorted (v : List (Option α)) : Res (List Nat) := uniqueIdsFrom v (List.range v.length)

/-- `unique_ids(v)`, `generic-find.hpp:102-120`. -/
def uniqueIds (v : List (Option α)) : Res (List Nat) := uniqueIdsFrom v (sort v)

/-- `unique_values(v)`, `generic-find.hpp:154-157`. -/
def uniqueValues (v : List (Option α)) : Res (List (Option α)) := do
  (← uniqueIds v).mapM (Res.rd v)

end Verif.Find
