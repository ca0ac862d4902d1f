import Verif.Basic
/-!
# Model of `core/bits/initializer_list.hpp`: vectors from nested lists

`{{1,2},{3,4}}` is a list of lists: `Nest α n` is `n` levels of lists (`meta::nested_initializer_list`).
-/
namespace Verif.Core
open Verif

/-- `meta::nested_initializer_list<n,T>` (`core/meta.hpp`) -/
def Nest (α : Type) : Nat → Type
  | 0 => α
  | n + 1 => List (Nest α n)

/-- the elements of the outermost list -/
def Nest.items {α : Type} {n : Nat} (il : Nest α (n + 1)) : List (Nest α n) := il

/-- the sizes collected by `set_dim_` along the first elements (`core/bits/initializer_list.hpp:12-32`); `none`
when an empty list is met, which sets all dimensions to zero -/
def firstDims {α : Type} : (n : Nat) → Nest α n → Option (List Nat)
  | 0, _ => some []
  | n + 1, il =>
    match Nest.items il with
    | [] => none
    | x :: xs => (firstDims n x).map (((x :: xs).length) :: ·)

/-- `set_dim_` (`core/bits/initializer_list.hpp:12-32`) -/
def setDim {α : Type} (n : Nat) (il : Nest α n) : List Nat := (firstDims n il).getD (List.replicate n 0)

/-- `v.data[idx] = t; ++idx;` (`core/bits/initializer_list.hpp:37-38`) -/
def store {α : Type} (a : α) (s : List α × Nat) : Res (List α × Nat) :=
  if s.2 < s.1.length then .ok (s.1.set s.2 a, s.2 + 1) else .ub

/-- `fill_` (`core/bits/initializer_list.hpp:34-48`, and for views `:64-78`), with the dimensions of the vector
from this level on -/
def fillN {α : Type} : (n : Nat) → List Nat → Nest α n → List α × Nat → Res (List α × Nat)
  | 0, _, a, s => store a s
  | n + 1, dims, il, s => do
    Res.check ((Nest.items il).length = dims.headD 0)
    (Nest.items il).foldlM (fun s x => fillN n dims.tail x s) s

/-- `helper::fill` (`core/bits/initializer_list.hpp:50-57`): the dimensions and the elements of the vector;
`dflt` is the value of the elements after `resize` -/
def fromNest {α : Type} (dflt : α) (n : Nat) (il : Nest α n) : Res (List Nat × List α) := do
  let dims := setDim n il
  let data := List.replicate dims.prod dflt
  if data = [] then .ok (dims, [])
  else do
    let (data, _) ← fillN n dims il (data, 0)
    .ok (dims, data)

/-- `helper<Dim,Type*>::fill` (`core/bits/initializer_list.hpp:80-83`): assignment of a nested list to a view with
the given dimensions; `data` are the elements it refers to -/
def assignNest {α : Type} (n : Nat) (dims : List Nat) (data : List α) (il : Nest α n) : Res (List α) := do
  let (data, _) ← fillN n dims il (data, 0)
  .ok data

end Verif.Core
