import Verif.Basic
/-!
# Merging catalogues (`astro/catalog_merge.hpp`)

A position is an element of an arbitrary type `P` (the pair `ra`, `dec`: the two vectors have the same size, it is checked at
catalog_merge.hpp:151). `qxmatch` is a parameter: it gives for each new source the index `id(0,i)` of its closest source in the pool, and
for each source of the pool the index `rid` of its closest new source. The file in which the result of `qxmatch` is saved (see CatalogCache), the distances
`d` and the texts (names, comments) are not modelled.
-/
namespace Verif.Catalog
open Verif

variable {P α : Type}

/-- `v[ids]`, with the check of the bounds -/
def gather (l : List α) (ids : List Nat) : Res (List α) :=
  ids.mapM fun i => match l[i]? with
    | some a => .ok a
    | none => .abort

/-- one checked element -/
def at_ (l : List α) (i : Nat) : Res α := match l[i]? with
  | some a => .ok a
  | none => .abort

/-- `catalog_t` (catalog_merge.hpp:75-88): `idi` are indices in the catalogue, `idm` in the pool -/
structure Cat where
  idi : List Nat
  idm : List Nat
deriving DecidableEq

/-- `catalog_pool` (catalog_merge.hpp:120-133) -/
structure Pool (P : Type) where
  ngal : Nat
  pos : List P
  origin : List Nat
  cats : List Cat
deriving DecidableEq

/-- `xm.id(0,_)` and `xm.rid` -/
structure Xm where
  id : List Nat
  rid : List Nat

/-- the loop on the new sources (catalog_merge.hpp:208-224); `k` is the number of the catalogue. The state is `idm`, `tsel` (the elements added
by the loop), and the positions and origins of the pool. -/
def addLoop (noNew : Bool) (xm : Xm) (csel : List P) (k : Nat) :
    List Nat → List Nat × List Nat × List P × List Nat → Res (List Nat × List Nat × List P × List Nat)
  | [], s => .ok s
  | i :: is, (idm, tsel, pos, origin) => do
    let j ← at_ xm.id i
    let r ← at_ xm.rid j
    if r = i then
      addLoop noNew xm csel k is (idm ++ [j], if noNew then tsel ++ [i] else tsel, pos, origin)
    else if noNew then addLoop noNew xm csel k is (idm, tsel, pos, origin)
    else do
      let p ← at_ csel i
      addLoop noNew xm csel k is (idm ++ [pos.length], tsel, pos ++ [p], origin ++ [k])

/-- `add_catalog_` (catalog_merge.hpp:147-244) -/
def addCatalog (xmatch : List P → List P → Xm) (noNew : Bool) (cat : List P) (sel : List Nat) (pool : Pool P) : Res (Pool P) := do
  let sel := if sel = [] then List.range cat.length else sel
  if pool.cats = [] then
    let pos ← gather cat sel
    .ok { ngal := sel.length, pos := pos, origin := List.replicate sel.length 1, cats := [⟨sel, List.range sel.length⟩] }
  else do
    let csel ← gather cat sel
    let xm := xmatch csel pool.pos
    let n := sel.length
    let (idm, tsel, pos, origin) ← addLoop noNew xm csel (pool.cats.length + 1) (List.range n)
      ([], if noNew then [] else List.range n, pool.pos, pool.origin)
    let sel ← gather sel tsel
    -- `ngal += idn.size()`: one element of `idn` for each position added
    let ngal := if noNew then pool.ngal else pool.ngal + (pos.length - pool.pos.length)
    .ok { ngal := ngal, pos := pos, origin := origin, cats := pool.cats ++ [⟨sel, idm⟩] }

/-- `add_catalog` without positions (catalog_merge.hpp:138-145). On a new pool `ngal` is not initialised. -/
def addPlain (pool : Pool P) : Res (Pool P) :=
  if pool.cats = [] then .ub
  else .ok { pool with cats := pool.cats ++ [⟨List.range pool.ngal, List.range pool.ngal⟩] }

/-- `in[idm] = vals` -/
def scatter : List Nat → List α → List α → Res (List α)
  | [], [], l => .ok l
  | i :: is, v :: vs, l => if i < l.length then scatter is vs (l.set i v) else .abort
  | _, _, _ => .abort

/-- `catalog_t::merge` for vectors of one dimension (catalog_merge.hpp:296-301) -/
def merge (pool : Pool P) (c : Cat) (in_ out : List α) (def_ : α) : Res (List α) := do
  Res.check (in_ = [])
  let v ← gather out c.idi
  scatter c.idm v (List.replicate pool.ngal def_)

/-- the rows of `pool.flux` after `append<1>(pool.flux, tflux)` (catalog_merge.hpp:472): the new columns are added to each row. The first call
replaces the empty vector. -/
def appendColumns (old new : List (List α)) : Res (List (List α)) := do
  if old = [] then .ok new
  else do
    Res.check (old.length = new.length)
    .ok (List.zipWith (· ++ ·) old new)

/-- `catalog_t::merge_flux` (catalog_merge.hpp:448-474) for the fluxes; `err` and `bands` are only checked, `nan` is `fnan` -/
def mergeFlux (pool : Pool P) (c : Cat) (poolFlux flux err : List (List α)) (nband : Nat) (bands : Nat) (nan : α) : Res (List (List α)) := do
  Res.check (∀ r ∈ flux, r.length = nband)
  Res.check (∀ r ∈ err, r.length = nband)
  Res.check (nband = bands)
  let t ← merge pool c [] flux (List.replicate nband nan)
  appendColumns poolFlux t

end Verif.Catalog
