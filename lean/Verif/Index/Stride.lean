import Verif.Index.Lemmas
/-!
# Strides: iterating along one dimension (`core/bits/access.hpp:661-740`, `core/bits/iterator.hpp:82-110`)

`v.stride(i0, ..., _, ..., in)` is modelled by the list of its arguments, `none` being the placeholder `_`.
Iterators are positions in the data; offsets are `int_t` in the source and assumed not to overflow.
-/
namespace Verif.Index
open Verif

/-- `begin_policy.offset`, `end_policy.offset` and the common `stride` -/
structure Policy where
  bo : Nat
  eo : Nat
  stride : Nat
deriving DecidableEq, Repr

/-- `get_stride_offset_` (`core/bits/access.hpp:671-703`); `D` is the current dimension -/
def strideOffset (dims : List Nat) : (D : Nat) → Policy → List (Option Int) → Res Policy
  | D, p, [] => if D = dims.length then .ok p else .abort
  | D, p, none :: is =>
    match dims[D]? with
    | none => .abort
    | some d => strideOffset dims (D + 1) ⟨p.bo, p.eo + d * pitch dims D, pitch dims D⟩ is
  | D, p, some i :: is =>
    match dims[D]? with
    | none => .abort
    | some d => do
      let k ← toIdxSigned d i
      strideOffset dims (D + 1) ⟨p.bo + k * pitch dims D, p.eo + k * pitch dims D, p.stride⟩ is

/-- the range-based loop: positions visited by `for (it = begin; it != end; ++it)`; `diverge` if the end is not met within
the fuel -/
def strideWalk (stride e : Nat) : Nat → Nat → Res (List Nat)
  | 0, _ => .diverge
  | n + 1, i =>
    if i = e then .ok []
    else do
      let l ← strideWalk stride e n (i + stride)
      .ok (i :: l)

/-- `for (auto& x : v.stride(args...))`: the positions visited (`core/bits/access.hpp:710-737`). The `static_assert`s are
`abort`. -/
def strideLoop (dims : List Nat) (args : List (Option Int)) : Res (List Nat) := do
  Res.check ((args.filter Option.isNone).length = 1)
  let p ← strideOffset dims 0 ⟨0, 0, 1⟩ args
  strideWalk p.stride p.eo (dims.sum + 1) p.bo

/-- `end() - begin()`: `(i - j)/stride` (`core/bits/iterator.hpp:106-109`) -/
def strideCount (dims : List Nat) (args : List (Option Int)) : Res Nat := do
  Res.check ((args.filter Option.isNone).length = 1)
  let p ← strideOffset dims 0 ⟨0, 0, 1⟩ args
  if p.stride = 0 then .ub else .ok ((p.eo - p.bo) / p.stride)

end Verif.Index
