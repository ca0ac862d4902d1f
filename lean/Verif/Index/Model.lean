import Verif.Basic
/-!
# Scalar indexing and index arithmetic

Models `core/bits/access.hpp:284-333` and `utility/bits/generic-indices.hpp`.
`uint_t` (`std::size_t`) is `Nat`; wrap-around of products of dimensions at 2^64
is outside this model (a vector with 2^64 elements cannot exist).
-/
namespace Verif.Index
open Verif

/-- `while (i < 0) i += size;` of `access.hpp:293`, index type wide enough not to
overflow; `size > 0` was checked before. -/
def wrapLoop (size : Nat) (hs : 0 < size) (i : Int) : Int :=
  if i < 0 then wrapLoop size hs (i + size) else i
termination_by (-i).toNat
decreasing_by omega

/-- `to_idx_(uint_t size, T i, cte_t<true>)`, `access.hpp:290-297` (signed index). -/
def toIdxSigned (size : Nat) (i : Int) : Res Nat :=
  if hs : 0 < size then
    let ui := (wrapLoop size hs i).toNat
    if ui < size then .ok ui else .abort
  else .abort

/-- `to_idx_(uint_t size, T ui, cte_t<false>)`, `access.hpp:284-288` (unsigned index). -/
def toIdxUnsigned (size : Nat) (ui : Nat) : Res Nat :=
  if ui < size then .ok ui else .abort

/-- `v[i]` for a scalar signed index: `to_idx` then `data[ui]` (`vec.hpp:321-330`). A read
outside the data is undefined behaviour. -/
def at' {α : Type} (v : List α) (i : Int) : Res α := do
  let ui ← toIdxSigned v.length i
  match v[ui]? with
  | some a => .ok a
  | none => .ub

/-- The loop of `access.hpp:293` for an index type of `w` bits: `i += size` computes in 64 bits
and converts back to `w` bits, i.e. it adds `size mod 2^w`. `LoopExit size i j` : started at `i`
the loop exits with value `j`. Divergence is the absence of any such `j`. -/
inductive LoopExit {w : Nat} (size : Nat) : BitVec w → BitVec w → Prop
  | done (i : BitVec w) : 0 ≤ i.toInt → LoopExit size i i
  | step (i j : BitVec w) : i.toInt < 0 → LoopExit size (i + BitVec.ofNat w size) j →
      LoopExit size i j

/-- `pitch(dims, i)`, `access.hpp:326-333`: product of the dimensions after `i`. -/
def pitch (dims : List Nat) (i : Nat) : Nat := (dims.drop (i + 1)).foldl (· * ·) 1

/-- `flat_id_` recursion over the arguments, `generic-indices.hpp:43-56`; `I` is the current
dimension and `ret` the accumulator. Each index goes through `to_idx<I>`
(`access.hpp:299-312`, same text as the flat version with `dims[I]`). A wrong number of
arguments is rejected at compile time, modelled as `abort`. -/
def flatIdLoop (dims : List Nat) : (I : Nat) → (ret : Nat) → List Int → Res Nat
  | I, ret, [] => if I = dims.length then .ok ret else .abort
  | I, ret, i :: is =>
    match dims[I]? with
    | none => .abort
    | some d => do
      let k ← toIdxSigned d i
      flatIdLoop dims (I + 1) (ret + pitch dims I * k) is

/-- `flat_id(dims, args...)`, `generic-indices.hpp:68-72`. -/
def flatId (dims : List Nat) (is : List Int) : Res Nat := flatIdLoop dims 0 0 is

/-- The loop of `mult_ids`, `generic-indices.hpp:8-17`, over the dimensions from last to first:
`r[D-1-j] = i % dims[D-1-j]; i /= dims[D-1-j]`. `i % 0` is undefined behaviour. -/
def multIdsLoop : (revDims : List Nat) → (i : Nat) → (acc : List Nat) → Res (List Nat)
  | [], _, acc => .ok acc
  | d :: ds, i, acc => if d = 0 then .ub else multIdsLoop ds (i / d) (i % d :: acc)

def multIds (dims : List Nat) (i : Nat) : Res (List Nat) := multIdsLoop dims.reverse i []

/-- `increment_index_list(ids, n)`, `generic-indices.hpp:92-103`, processing positions from the
last to the first; lists here are reversed (head = last position). `ids` empty makes `--i`
wrap and `ids.safe[i]` out of bounds: undefined behaviour, treated in `incrementIndexList`. -/
def incRev : List Nat → List Nat → List Nat
  | i :: is, n :: ns => if i + 1 = n then 0 :: incRev is ns else (i + 1) :: is
  | is, _ => is

def incrementIndexList (ids n : List Nat) : Res (List Nat) :=
  if ids = [] then .ub
  else if n.length < ids.length then .ub
  else .ok (incRev ids.reverse (n.take ids.length).reverse).reverse

end Verif.Index
