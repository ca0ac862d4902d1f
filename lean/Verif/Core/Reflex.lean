import Verif.Basic

/-!
# Copying and selecting the members of structures (`reflex/reflex_helpers.hpp`)

A structure is the list of its members: a variable, with its type and its number of dimensions (0 for a value that is not a vector) and its content as the list of its elements
along the first dimension, or another structure. A variable of another type is one for which the overload with `M&` is not chosen.
-/

namespace Verif.Reflex

variable {α : Type}

/-- the members of a structure -/
inductive S (α : Type)
  | nil
  | leaf (n : String) (ty dim : Nat) (rows : List α) (rest : S α)
  | sub (n : String) (ms rest : S α)
deriving DecidableEq

/-- a variable `m` of the source with each member of the destination (`do_run_<M,false>`, `reflex_helpers.hpp:87-107`, and `do_run_ids_<M,false>`, 185-207): `c` is the new content -/
def runLeaf (m : String) (ty dim : Nat) (c : Res (List α)) : S α → Res (S α)
  | .nil => .ok .nil
  | .leaf n ty' dim' rows rest =>
    if ty = ty' ∧ dim = dim' then do
      let rows ← if m = n then c else .ok rows
      let rest ← runLeaf m ty dim c rest
      .ok (.leaf n ty' dim' rows rest)
    else do
      Res.check (m ≠ n)
      let rest ← runLeaf m ty dim c rest
      .ok (.leaf n ty' dim' rows rest)
  | .sub n ms rest => do
    Res.check (m ≠ n)
    let rest ← runLeaf m ty dim c rest
    .ok (.sub n ms rest)

/-- a structure `m` of the source with each member of the destination (`do_run_<M,true>`, `reflex_helpers.hpp:109-134`, and `do_run_ids_<M,true>`, 209-236); `g` merges the members of the source.
A structure of the destination is given as a temporary, so that the overload with `struct_t<P>` is chosen, which does not compare the names. -/
def runSub (m : String) (g : S α → Res (S α)) : S α → Res (S α)
  | .nil => .ok .nil
  | .leaf n ty dim rows rest => do
    Res.check (m ≠ n)
    let rest ← runSub m g rest
    .ok (.leaf n ty dim rows rest)
  | .sub n ms rest => do
    let ms ← g ms
    let rest ← runSub m g rest
    .ok (.sub n ms rest)

/-- the content that is copied (`merge_elements_`, `reflex_helpers.hpp:76-79` and 163-176): with `ids`, only vectors of one or two dimensions are selected -/
def content (ids : Option (List Nat)) (dim : Nat) (rows : List α) : Res (List α) :=
  match ids with
  | none => .ok rows
  | some ids => if dim = 1 ∨ dim = 2 then ids.mapM fun i => if h : i < rows.length then .ok rows[i] else .abort else .ok rows

/-- `merge_elements` of the structures `u` into `t` (`reflex_helpers.hpp:136-165`, 238-275) -/
def merge (ids : Option (List Nat)) : S α → S α → Res (S α)
  | .nil, t => .ok t
  | .leaf m ty dim rows rest, t => do
    let t ← runLeaf m ty dim (content ids dim rows) t
    merge ids rest t
  | .sub m us rest, t => do
    let t ← runSub m (merge ids us) t
    merge ids rest t

/-- a new structure of the same type -/
def S.blank : S α → S α
  | .nil => .nil
  | .leaf n ty dim _ rest => .leaf n ty dim [] rest.blank
  | .sub n ms rest => .sub n ms.blank rest.blank

/-- `pick_elements` (`reflex_helpers.hpp:279-289`) -/
def pickElements (t : S α) (ids : List Nat) : Res (S α) := merge (some ids) t t.blank

/-! ### Specification -/

/-- the names of the members -/
def S.names : S α → List String
  | .nil => []
  | .leaf n _ _ _ rest => n :: rest.names
  | .sub n _ rest => n :: rest.names

/-- the variable of a name -/
def S.var : S α → String → Option (Nat × Nat × List α)
  | .nil, _ => none
  | .leaf n ty dim rows rest, x => if n = x then some (ty, dim, rows) else rest.var x
  | .sub n _ rest, x => if n = x then none else rest.var x

/-- the structures in a structure -/
def S.subs : S α → List (S α)
  | .nil => []
  | .leaf _ _ _ _ rest => rest.subs
  | .sub _ ms rest => ms :: rest.subs

/-- without structures in the structure -/
def S.Flat : S α → Prop
  | .nil => True
  | .leaf _ _ _ _ rest => rest.Flat
  | .sub _ _ _ => False

/-- two structures with no member in common: also between any structure of one and any structure of the other -/
def S.Apart : S α → S α → Prop
  | .nil, _ => True
  | .leaf m _ _ _ rest, t => m ∉ t.names ∧ rest.Apart t
  | .sub m us rest, t => m ∉ t.names ∧ (∀ ts ∈ t.subs, us.Apart ts) ∧ rest.Apart t

/-- the members of a structure have different names, at each level, and its structures are apart -/
def S.Clean : S α → Prop
  | .nil => True
  | .leaf m _ _ _ rest => m ∉ rest.names ∧ rest.Clean
  | .sub m us rest => m ∉ rest.names ∧ us.Clean ∧ (∀ ts ∈ rest.subs, us.Apart ts ∧ ts.Apart us) ∧ rest.Clean

/-- the selection of elements in all the vectors -/
def S.Picked (ids : List Nat) : S α → S α → Prop
  | .nil, r => r = .nil
  | .leaf n ty dim rows rest, r => ∃ rows' rest', r = .leaf n ty dim rows' rest' ∧ rest.Picked ids rest' ∧
      if dim = 1 ∨ dim = 2 then rows'.map some = ids.map (rows[·]?) else rows' = rows
  | .sub n ms rest, r => ∃ ms' rest', r = .sub n ms' rest' ∧ ms.Picked ids ms' ∧ rest.Picked ids rest'

/-- all the elements exist -/
def S.InRange (ids : List Nat) : S α → Prop
  | .nil => True
  | .leaf _ _ dim rows rest => ((dim = 1 ∨ dim = 2) → ∀ i ∈ ids, i < rows.length) ∧ rest.InRange ids
  | .sub _ ms rest => ms.InRange ids ∧ rest.InRange ids

end Verif.Reflex
