import Verif.Index.Model
import Verif.Core.Range
/-!
# Range and multi-dimensional access

Models `core/range.hpp:93-170` (range objects, sizes, bound checks) and
`core/bits/access.hpp:264-282,337-552,643-657` (`v(...)`, `v[rng]`).

`uint_t` has 64 bits; the sizes of the created views are computed modulo `2^64` as in the code.
`std::vector::resize` above `max_size()` throws `std::length_error`; this is modelled as `abort`
(the program does not continue normally). A view is represented by its dimensions and the list of
flat positions in the parent its pointers designate.
-/
namespace Verif.Core
open Verif Verif.Index

def W : Nat := 2 ^ 64

/-- `std::vector<T*>::max_size() + 1` on a 64-bit platform (`PTRDIFF_MAX / sizeof(T*)` is the
largest size). -/
def maxSize : Nat := 2 ^ 60

/-- `std::vector::resize(n)` for the pointers of a view. -/
def alloc (n : Nat) : Res Unit := if n < maxSize then .ok () else .abort

/-- One selector of `v(s1, s2, ...)`. A range bound is stored as `uint_t` (`range.hpp:97-111`),
an index list is iterated as `uint_t` (`access.hpp:425,462`), a scalar keeps its sign. -/
inductive Sel where
  /-- scalar index -/
  | idx (i : Int)
  /-- `_` -/
  | full
  /-- `_-last` -/
  | left (last : Nat)
  /-- `first-_` -/
  | right (first : Nat)
  /-- `first-_-last` -/
  | leftRight (first last : Nat)
  /-- vector of indices -/
  | ids (l : List Nat)
deriving Repr, DecidableEq

/-- unsigned 64-bit subtraction -/
def sub64 (a b : Nat) : Nat := (a + (W - b % W)) % W

/-- `range_size`, `range.hpp:159-170` (and `ids.size()`, `access.hpp:367-370`). -/
def rangeSize (size : Nat) : Sel → Nat
  | .idx _ => 1
  | .full => size
  | .left l => (l + 1) % W
  | .right f => sub64 size f
  | .leftRight f l => sub64 ((l + 1) % W) f
  | .ids l => l.length

/-- `check_bounds`, `range.hpp:132-157`. -/
def checkBounds (size : Nat) : Sel → Res Unit
  | .left l => Res.check (l < size)
  | .right f => Res.check (f < size)
  | .leftRight f l => do Res.check (l < size); Res.check (f < size)
  | _ => .ok ()

/-- `vec_access::range(rng, size)`, `access.hpp:264-282`: the integers iterated. -/
def rangeElems (size : Nat) (s : Sel) : Res (List Int) := do
  checkBounds size s
  match s with
  | .left l => .ok (range1 (l + 1))
  | .right f => .ok (range2 f size)
  | .leftRight f l => .ok (range2 f (l + 1 : Nat))
  | _ => .ok (range1 size)

/-- run the body for each value, concatenating the produced positions -/
def loop (f : Nat → Res (List Nat)) : List Nat → Res (List Nat)
  | [] => .ok []
  | j :: js => do
    let a ← f j
    let b ← loop f js
    .ok (a ++ b)

/-- `make_indices_`, `access.hpp:396-468`: positions produced from dimension list `dims` (the
remaining dimensions) for the remaining selectors, starting at offset `ivx`. -/
def makeIndices : (dims : List Nat) → List Sel → (ivx : Nat) → Res (List Nat)
  | [], [], ivx => .ok [ivx]
  | d :: ds, s :: ss, ivx =>
    let body := fun j => makeIndices ds ss (ivx + j * ds.prod)
    match s with
    | .idx i => do body (← toIdxSigned d i)
    | .ids l => loop (fun j => do body (← toIdxUnsigned d j)) l
    | s => do loop body ((← rangeElems d s).map Int.toNat)
  | _, _, _ => .abort  -- rejected at compile time

/-- dimensions of the view, `resize_`, `access.hpp:353-382`; scalars produce none. -/
def viewDims : List Nat → List Sel → List Nat
  | _ :: ds, .idx _ :: ss => viewDims ds ss
  | d :: ds, s :: ss => rangeSize d s :: viewDims ds ss
  | _, _ => []

/-- `v(sels...)` with at least one non-scalar selector (`access.hpp:470-488`), on a vector with
dimensions `dims` and `dims.prod` elements. `t.resize()` allocates the product of the view
dimensions modulo `2^64`; writing a different number of pointers, or forming the address of an
element that does not exist, is undefined behaviour. -/
def access (dims : List Nat) (sels : List Sel) : Res (List Nat × List Nat) := do
  let rd := viewDims dims sels
  alloc (rd.prod % W)
  let as ← makeIndices dims sels 0
  if as.length = rd.prod % W ∧ ∀ a ∈ as, a < dims.prod then .ok (rd, as) else .ub

/-- `v[rng]` / `v(rng)` on one dimension or flat (`access.hpp:524-538,643-657`). -/
def bracket (size : Nat) (s : Sel) : Res (List Nat) := do
  let n := rangeSize size s
  alloc n
  let is ← rangeElems size s
  let as := is.map Int.toNat
  if as.length = n ∧ ∀ a ∈ as, a < size then .ok as else .ub

end Verif.Core
