import Verif.Astro.Img
/-!
# Segmentation of images (`astro/image.hpp:833-984`)

Positions are `(y,x)` with `y` the first index, as in the source. The two stacks `oy`, `ox` of the flood fill are
one list whose head is the back of the vectors. The `while` loops carry a fuel argument; running out of fuel is
`diverge`, and the theorems show that the fuel given is always enough.

`out.px`, `out.py` are the sums of the positions before the final division by the area.
-/
namespace Verif.Astro
open Verif

/-- one entry of `segment_output` (`astro/image.hpp:888-897`); `sx`, `sy` are `px`, `py` before the division -/
structure SegOut where
  id : Nat
  area : Nat
  sx : Nat
  sy : Nat
  origin : Nat
deriving DecidableEq, Repr

/-- variables of the flood fill -/
structure Fill where
  map : Img Nat
  smap : Img Nat
  st : List (Nat × Nat)
  area : Nat
  sx : Nat
  sy : Nat
deriving DecidableEq, Repr

/-- `check_add` (`astro/image.hpp:930-939`) -/
def checkAdd (s : Fill) (ty tx : Nat) : Res Fill := do
  let a ← s.map.get ty tx
  if a ≠ 0 then .ok { s with area := s.area + 1, sx := s.sx + tx, sy := s.sy + ty, st := (ty, tx) :: s.st } else .ok s

/-- the neighbours that `process_point` and `fetch_neighbors` visit, in order (`astro/image.hpp:941-944`, `851-854`) -/
def nbrs (ny nx ty tx : Nat) : List (Nat × Nat) :=
  (if ty ≠ 0 then [(ty - 1, tx)] else []) ++ (if ty ≠ ny - 1 then [(ty + 1, tx)] else []) ++
  (if tx ≠ 0 then [(ty, tx - 1)] else []) ++ (if tx ≠ nx - 1 then [(ty, tx + 1)] else [])

/-- `process_point` (`astro/image.hpp:926-945`) -/
def processPoint (id : Nat) (s : Fill) (ty tx : Nat) : Res Fill := do
  let map ← s.map.put ty tx 0
  let smap ← s.smap.put ty tx id
  (nbrs map.nx map.ny ty tx).foldlM (fun s p => checkAdd s p.1 p.2) { s with map := map, smap := smap }

/-- the `while` loop of the flood fill (`astro/image.hpp:951-955`) -/
def fillLoop (id : Nat) : Nat → Fill → Res Fill
  | 0, _ => .diverge
  | n + 1, s =>
    match s.st with
    | [] => .ok s
    | (ty, tx) :: st => do
      let s ← processPoint id { s with st := st } ty tx
      fillLoop id n s

/-- state of the scan: map, segmentation map, entries so far, next id -/
structure Scan where
  map : Img Nat
  smap : Img Nat
  out : List SegOut
  id : Nat
deriving DecidableEq, Repr

/-- body of the scan (`astro/image.hpp:910-962`) -/
def scanBody (y x : Nat) (s : Scan) : Res Scan := do
  let a ← s.map.get y x
  if a = 0 then .ok s
  else do
    let f ← processPoint s.id ⟨s.map, s.smap, [], 1, x, y⟩ y x
    let f ← fillLoop s.id (10 * s.map.px.length + 10) f
    .ok ⟨f.map, f.smap, s.out ++ [⟨s.id, f.area, f.sx, f.sy, y * s.map.ny + x⟩], s.id + 1⟩

/-- the labelling part of `segment` (`astro/image.hpp:902-962`) -/
def segmentScan (map : Img Nat) (first : Nat) : Res (Img Nat × List SegOut) := do
  Res.check (first > 0)
  let s ← for2 map.nx map.ny scanBody ⟨map, Img.fill map.nx map.ny 0, [], first⟩
  .ok (s.smap, s.out)

/-! ### `foreach_segment` and the removal of small segments -/

/-- variables of the breadth-first walk: `visited`, the next level `(oy,ox)`, `sids` -/
structure Walk where
  vis : Img Nat
  nxt : List (Nat × Nat)
  sids : List Nat
deriving DecidableEq, Repr

/-- `check_add` of `foreach_segment` (`astro/image.hpp:842-848`) -/
def walkAdd (cur : Nat) (w : Walk) (p : Nat × Nat) : Res Walk := do
  let v ← w.vis.get p.1 p.2
  if v ≠ cur then do
    let vis ← w.vis.put p.1 p.2 cur
    .ok { w with vis := vis, nxt := w.nxt ++ [p] }
  else .ok w

/-- the body of the loop over one level (`astro/image.hpp:870-875`) -/
def walkPoint (seg : Img Nat) (cur : Nat) (w : Walk) (p : Nat × Nat) : Res Walk := do
  let a ← seg.get p.1 p.2
  if a = cur then
    (nbrs seg.nx seg.ny p.1 p.2).foldlM (walkAdd cur) { w with sids := w.sids ++ [p.1 * seg.ny + p.2] }
  else .ok w

/-- the `while` loop of `foreach_segment` (`astro/image.hpp:867-876`) -/
def walkLoop (seg : Img Nat) (cur : Nat) : Nat → Walk → Res Walk
  | 0, _ => .diverge
  | n + 1, w =>
    if w.nxt = [] then .ok w
    else do
      let w ← w.nxt.foldlM (walkPoint seg cur) { w with nxt := [] }
      walkLoop seg cur n w

/-- one iteration of `foreach_segment` for the origin `mid` (`astro/image.hpp:857-878`): the new `visited` and `sids` -/
def walkSegment (seg vis : Img Nat) (mid : Nat) : Res (Img Nat × List Nat) := do
  let cur ← Res.rd seg.px mid
  let w ← walkLoop seg cur (vis.px.length + 3) ⟨vis, [(mid / seg.ny, mid % seg.ny)], []⟩
  .ok (w.vis, w.sids)

/-- `smap[ids] = 0` with checked indices -/
def eraseIds (smap : Img Nat) (ids : List Nat) : Res (Img Nat) :=
  ids.foldlM (fun (s : Img Nat) i => if i < s.px.length then .ok { s with px := s.px.set i 0 } else .abort) smap

/-- the removal of small segments (`astro/image.hpp:964-979`): the new map, and the entries kept. `inplace_remove` of the
indices `eids` (increasing, without repetition) is the removal of those entries (C10). -/
def eraseSmall (smap : Img Nat) (out : List SegOut) (minArea : Nat) : Res (Img Nat × List SegOut) := do
  if out.any (fun o => decide (o.area < minArea)) then do
    let s ← out.foldlM (fun (s : Img Nat × Img Nat × List SegOut) o => do
      let (vis, sids) ← walkSegment s.1 s.2.1 o.origin
      if sids.length < minArea then do
        let smap ← eraseIds s.1 sids
        .ok (smap, vis, s.2.2)
      else .ok (s.1, vis, s.2.2 ++ [o])) (smap, Img.fill smap.nx smap.ny 0, [])
    .ok (s.1, s.2.2)
  else .ok (smap, out)

/-- `segment` (`astro/image.hpp:902-984`) -/
def segment (map : Img Nat) (first minArea : Nat) : Res (Img Nat × List SegOut) := do
  let (smap, out) ← segmentScan map first
  eraseSmall smap out minArea

end Verif.Astro
