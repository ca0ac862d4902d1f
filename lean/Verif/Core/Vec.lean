import Verif.Core.Access
/-!
# The vector type and the functions that change its shape

Models `core/vec.hpp:64-282` (class `vec<Dim,Type>`), `utility/bits/generic-dims.hpp` and
`utility/bits/generic-rearrange.hpp`. A vector is its data and its dimension array; the number of
dimensions `Dim` is `dims.length`. Element type conversions are identities here.
-/
namespace Verif.Core
open Verif Verif.Index

structure Vec (α : Type) where
  data : List α
  dims : List Nat
deriving Repr, DecidableEq

namespace Vec
variable {α : Type}

/-- `vec()` : default constructor, `vec.hpp:78-83`. -/
def empty (dim : Nat) : Vec α := ⟨[], List.replicate dim 0⟩

/-- `std::vector::resize(n)`: keeps the first elements, pads with value-initialised ones, throws
above `max_size()` (modelled as abort). -/
def resizeData [Inhabited α] (d : List α) (n : Nat) : Res (List α) :=
  if n < 2 ^ 63 then .ok (d.take n ++ List.replicate (n - d.length) default) else .abort

/-- `resize()`, `vec.hpp:207-214`: the size is the product of `dims`, modulo `2^64`. -/
def resize0 [Inhabited α] (v : Vec α) : Res (Vec α) := do
  let n := v.dims.foldl (fun s d => s * d % W) 1
  let d ← resizeData v.data n
  .ok { v with data := d }

/-- `resize(args...)`, `vec.hpp:216-220`. -/
def resize [Inhabited α] (v : Vec α) (dims : List Nat) : Res (Vec α) := resize0 { v with dims := dims }

/-- dimension constructor, `vec.hpp:98-106`. -/
def ofDims [Inhabited α] (dims : List Nat) : Res (Vec α) := resize0 ⟨[], dims⟩

/-- `clear()`, `vec.hpp:222-227`. -/
def clear (v : Vec α) : Vec α := ⟨[], v.dims.map fun _ => 0⟩

/-- move constructor, `vec.hpp:91-95`: (new object, moved-from object). -/
def moveCtor (v : Vec α) : Vec α × Vec α := (v, ⟨[], v.dims.map fun _ => 0⟩)

/-- move assignment `a = std::move(v)`, `vec.hpp:147-151`: `std::move` of an array of integers
copies it, so the dimensions of the moved-from vector stay. -/
def moveAssign (v : Vec α) : Vec α × Vec α := (v, ⟨[], v.dims⟩)

/-- copy construction and copy assignment, `vec.hpp:86,141-145`. -/
def copy (v : Vec α) : Vec α := v

/-- `push_back(t)` for one dimension, `vec.hpp:249-259`. `++dims[0]` is modulo `2^64`. -/
def pushBack (v : Vec α) (t : α) : Vec α :=
  ⟨v.data ++ [t], match v.dims with | d :: ds => (d + 1) % W :: ds | [] => []⟩

/-- `push_back(slice)`, `vec.hpp:261-282`. -/
def pushSlice (v t : Vec α) : Res (Vec α) :=
  if v.data = [] then .ok ⟨t.data, 1 :: t.dims⟩
  else match v.dims with
    | d :: ds => do
      Res.check (ds = t.dims)
      .ok ⟨v.data ++ t.data, (d + 1) % W :: ds⟩
    | [] => .ub

/-- `flatten`, `generic-dims.hpp:11-17`. -/
def flatten (v : Vec α) : Vec α := ⟨v.data, [v.data.length]⟩

/-- `reform(v, dims...)`, `generic-dims.hpp:43-58`. -/
def reform (v : Vec α) (dims : List Nat) : Res (Vec α) := do
  Res.check (v.data.length = dims.foldl (fun s d => s * d % W) 1)
  .ok ⟨v.data, dims⟩

/-- `reverse`, `generic-rearrange.hpp:6-10`. -/
def reverse (v : Vec α) : Vec α := ⟨v.data.reverse, v.dims⟩

/-- `inplace_shift(v, n)`, `generic-rearrange.hpp:12-21`: `n = (-n) % size` (C++ remainder; `% 0`
is undefined), made non-negative, then `std::rotate` by `n` to the left. -/
def shift (v : Vec α) (n : Int) : Res (Vec α) :=
  if v.data.length = 0 then .ub
  else
    let m := (-n).tmod v.data.length
    let m := if m < 0 then (v.data.length : Int) + m else m
    .ok ⟨v.data.drop m.toNat ++ v.data.take m.toNat, v.dims⟩

/-- `transpose(v)`, `generic-rearrange.hpp:30-48`: element `i` of the result is
`v.data[(i % dims[0])*dims[1] + i/dims[0]]`. -/
def transpose (v : Vec α) : Res (Vec α) :=
  match v.dims with
  | [n, m] => do
    let d ← (List.range v.data.length).mapM fun i =>
      if n = 0 then .ub else Res.rd v.data ((i % n) * m + i / n)
    .ok ⟨d, [m, n]⟩
  | _ => .abort  -- compile-time

/-- the double loop of `replicate`: `v[i*pitch + j] = t[j]` for `i < n`, `j < pitch`. -/
def replicateData (t : List α) (n : Nat) : List α :=
  (List.range n).flatMap fun _ => t

/-- `replicate(t, args...)` for a vector `t`, `generic-rearrange.hpp:50-66`: the result has
dimensions `args ++ t.dims`; `n = v.size()/pitch` divides by zero when `t` is empty. -/
def replicate [Inhabited α] (t : Vec α) (args : List Nat) : Res (Vec α) := do
  let v : Vec α ← ofDims (args ++ t.dims)
  let pitch := t.data.length
  if pitch = 0 then .ub
  else
    let n := v.data.length / pitch
    -- positions not covered by the loop keep their initial value
    .ok ⟨replicateData t.data n ++ v.data.drop (n * pitch), v.dims⟩

/-- `replicate(t, args...)` for a scalar `t`, `generic-rearrange.hpp:68-78`. -/
def replicateScalar [Inhabited α] (t : α) (args : List Nat) : Res (Vec α) := do
  let v : Vec α ← ofDims args
  .ok ⟨v.data.map fun _ => t, v.dims⟩

/-- assignment through a view: `*data[i] = v[i]` in order (`vec.hpp:770-774`), where the view
designates positions `as`. -/
def assignAt (data : List α) : List Nat → List α → Res (List α)
  | [], [] => .ok data
  | a :: as, x :: xs => if a < data.length then assignAt (data.set a x) as xs else .ub
  | _, _ => .abort  -- size check, `vec.hpp:782-784`

/-- the selectors `repeat<N>(_), ids, repeat<Dim-N-1>(_)` -/
def sliceSels (dim n : Nat) (ids : List Nat) : List Sel :=
  List.replicate n .full ++ [.ids ids] ++ List.replicate (dim - n - 1) .full

/-- `append<N>(t1, t2)`, `generic-rearrange.hpp:157-178`. -/
def append [Inhabited α] (n : Nat) (t1 t2 : Vec α) : Res (Vec α) :=
  if t1.data = [] then .ok t2
  else if t2.data = [] then .ok t1
  else
    let n1 := t1.dims.getD n 0
    let n2 := t2.dims.getD n 0
    if n1 = 0 ∨ n2 = 0 then .ub else do
    Res.check (t1.data.length / n1 = t2.data.length / n2)
    let r ← resize0 ⟨t1.data, t1.dims.set n ((n1 + n2) % W)⟩
    let (_, as1) ← access r.dims (sliceSels r.dims.length n (List.range n1))
    let d1 ← assignAt r.data as1 t1.data
    let (_, as2) ← access r.dims (sliceSels r.dims.length n ((List.range n2).map (n1 + ·)))
    let d2 ← assignAt d1 as2 t2.data
    .ok ⟨d2, r.dims⟩

/-- `prepend<N>(t1, t2)`, `generic-rearrange.hpp:180-201`. -/
def prepend [Inhabited α] (n : Nat) (t1 t2 : Vec α) : Res (Vec α) :=
  if t1.data = [] then .ok t2
  else if t2.data = [] then .ok t1
  else
    let n1 := t1.dims.getD n 0
    let n2 := t2.dims.getD n 0
    if n1 = 0 ∨ n2 = 0 then .ub else do
    Res.check (t1.data.length / n1 = t2.data.length / n2)
    let r ← resize0 ⟨t1.data, t1.dims.set n ((n1 + n2) % W)⟩
    let (_, as2) ← access r.dims (sliceSels r.dims.length n (List.range n2))
    let d1 ← assignAt r.data as2 t2.data
    let (_, as1) ← access r.dims (sliceSels r.dims.length n ((List.range n1).map (n2 + ·)))
    let d2 ← assignAt d1 as1 t1.data
    .ok ⟨d2, r.dims⟩

/-- one-dimensional `append(t1, t2)`, `generic-rearrange.hpp:203-208` (distinct objects). -/
def append1 (t1 t2 : Vec α) : Vec α :=
  ⟨t1.data ++ t2.data, [(t1.dims.getD 0 0 + t2.dims.getD 0 0) % W]⟩

/-- one-dimensional `prepend(t1, t2)`, `generic-rearrange.hpp:210-215`. -/
def prepend1 (t1 t2 : Vec α) : Vec α :=
  ⟨t2.data ++ t1.data, [(t1.dims.getD 0 0 + t2.dims.getD 0 0) % W]⟩

/-- The inner loop of `inplace_remove`, `generic-rearrange.hpp:136-145`: extends the block
`[i0, i1]` downwards. `rest` are the remaining indices in decreasing order. The subtraction
`i0 - next` does not wrap because the list is sorted. Returns the new `i0` and the rest. -/
def removeBlock (osize i1 : Nat) : (i0 : Nat) → (rest : List Nat) → Res (Nat × List Nat)
  | i0, [] => .ok (i0, [])
  | i0, x :: xs =>
    if i0 - x ≤ 1 then
      if x = i1 then .abort  -- "remove indices contain duplicates"
      else if x < osize then removeBlock osize i1 x xs
      else .abort
    else .ok (i0, x :: xs)

theorem removeBlock_len (osize i1 i0 : Nat) (rest : List Nat) (r : Nat × List Nat)
    (h : removeBlock osize i1 i0 rest = .ok r) : r.2.length ≤ rest.length := by
  induction rest generalizing i0 with
  | nil => simp [removeBlock] at h; subst h; simp
  | cons x xs ih =>
    simp only [removeBlock] at h
    split at h
    · split at h
      · simp at h
      · split at h
        · have := ih x h; simp; omega
        · simp at h
    · simp at h; subst h; simp

/-- The outer loop, `generic-rearrange.hpp:126-148`; `ids` in decreasing order. Erasing past the
end is undefined behaviour. -/
def removeLoop (osize pitch : Nat) (ids : List Nat) (data : List α) : Res (List α) :=
  match ids with
  | [] => .ok data
  | i1 :: rest =>
    if i1 < osize then
      match _h : removeBlock osize i1 i1 rest with
      | .ok (i0, rest') =>
        if (i1 + 1) * pitch ≤ data.length then
          removeLoop osize pitch rest' (data.take (i0 * pitch) ++ data.drop ((i1 + 1) * pitch))
        else .ub
      | .abort => .abort
      | .ub => .ub
      | .diverge => .diverge
    else .abort
termination_by ids.length
decreasing_by have := removeBlock_len _ _ _ _ _ _h; simp at *; omega

/-- `inplace_remove(v, ids)`, `generic-rearrange.hpp:118-150`: sorts the indices, erases blocks
from the back, then `dims[0] -= ids.size()` (modulo `2^64`). -/
def remove (v : Vec α) (ids : List Nat) : Res (Vec α) :=
  match v.dims with
  | d :: ds => do
    let sorted := ids.mergeSort (· ≤ ·)
    let data ← removeLoop v.data.length ds.prod sorted.reverse v.data
    .ok ⟨data, sub64 d ids.length :: ds⟩
  | [] => .abort

end Vec
end Verif.Core
