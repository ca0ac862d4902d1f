import Verif.Astro.SegDist
import Verif.Find.Sort
import Mathlib.Algebra.Field.Defs
/-!
# Model of `segment_deblend` (`astro/image.hpp:992-1279`)

Positions are `(y,x)` with `y` the first index. The value of a pixel is `none` if it is NaN or `+∞` (both come last in the order
of `sort`); `-∞` is any value below the threshold. Sums of values are over a field, without rounding. The pairs of vectors `oy`, `ox` are one list
of positions. `deblend_threshold` is given by the least integer that is not below it: it is only compared to a counter.
`reserve` is left out, as is the message printed when `sids.size() != out.area[s]`.
-/
namespace Verif.Astro
open Verif

variable {K : Type}

/-- `segment_deblend_params` (`astro/image.hpp:992-1003`) -/
structure DebParams (K : Type) where
  thr : K
  reach : Nat
  minArea : Nat
  first : Nat
  flim : K

/-- `segment_deblend_output` (`astro/image.hpp:1005-1018`) -/
structure DebOut (K : Type) where
  id : List Nat := []
  area : List Nat := []
  by_ : List (Option K) := []
  bx : List (Option K) := []
  py : List Nat := []
  px : List Nat := []
  origin : List Nat := []
  flux : List (Option K) := []
deriving DecidableEq

/-- `v[i]`, checked -/
def chk {β : Type} (l : List β) (i : Nat) : Res β :=
  match l[i]? with
  | some a => .ok a
  | none => .abort

/-- `a >= b` -/
def geO [LinearOrder K] : Option K → Option K → Bool
  | some a, some b => decide (b ≤ a)
  | _, _ => false

/-- sums and products of values that may not be finite -/
def addO [Field K] (a b : Option K) : Option K := Option.map₂ (· + ·) a b
def mulO [Field K] (a b : Option K) : Option K := Option.map₂ (· * ·) a b

/-- a division by zero is not finite -/
def divO [Field K] [LinearOrder K] : Option K → Option K → Option K
  | some a, some b => if b = 0 then none else some (a / b)
  | _, _ => none

/-- `resize` -/
def resizeTo {β : Type} (l : List β) (n : Nat) (z : β) : List β := l.take n ++ List.replicate (n - l.length) z

/-! ### Growing the segments from the brightest pixels -/

/-- variables of the search around one pixel: `visited` and the next positions, `neib_seg`, `closest` (`none` is `dinf`) -/
structure Look where
  w : Walk
  neib : Nat
  closest : Option Nat
deriving DecidableEq

/-- body of the loop over the positions (`astro/image.hpp:1086-1100`), `explore_neighbors` (`astro/image.hpp:1040-1053`) being the same as in `foreach_segment` -/
def lookPoint (seg : Img Nat) (origin : List Nat) (first cur : Nat) (s : Look) (p : Nat × Nat) : Res Look := do
  let t ← seg.get p.1 p.2
  let s ← if t > 0 then do
      let o ← Res.rd origin (t - first)
      let d := sqd p (o / seg.ny, o % seg.ny)
      .ok (if farther s.closest d then { s with neib := t, closest := some d } else s)
    else .ok s
  if s.neib = 0 then do
    let w ← (nbrs seg.nx seg.ny p.1 p.2).foldlM (walkAdd cur) s.w
    .ok { s with w := w }
  else .ok s

/-- the `while` loop (`astro/image.hpp:1082-1104`); the number is that of the iterations left, `deblend_threshold - iter` -/
def lookLoop (seg : Img Nat) (origin : List Nat) (first cur : Nat) : Nat → Look → Res Look
  | 0, s => .ok s
  | n + 1, s =>
    if s.w.nxt = [] ∨ s.neib ≠ 0 then .ok s
    else do
      let s ← s.w.nxt.foldlM (lookPoint seg origin first cur) { s with w := { s.w with nxt := [] } }
      lookLoop seg origin first cur n s

/-- variables of the first part -/
structure Deb where
  seg : Img Nat
  vis : Img Nat
  ids : List Nat
  origin : List Nat
  py : List Nat
  px : List Nat
  id : Nat
deriving DecidableEq

/-- one pixel given to a segment (`astro/image.hpp:1073-1115`); `(mid / dims[1], mid % dims[1])` is `mult_ids(img, mid)` -/
def debPixel (P : DebParams K) (ipos mid : Nat) (s : Deb) : Res Deb := do
  let o := (mid / s.seg.ny, mid % s.seg.ny)
  let vis ← s.vis.put o.1 o.2 ipos
  let l ← lookLoop s.seg s.origin P.first ipos P.reach ⟨⟨vis, [o], []⟩, 0, none⟩
  if l.neib > 0 then do
    let seg ← s.seg.put o.1 o.2 l.neib
    .ok { s with seg := seg, vis := l.w.vis }
  else do
    let seg ← s.seg.put o.1 o.2 s.id
    .ok { s with seg := seg, vis := l.w.vis, ids := s.ids ++ [s.id], origin := s.origin ++ [mid], py := s.py ++ [o.1], px := s.px ++ [o.2], id := s.id + 1 }

/-- the loop over the pixels, from the brightest one (`astro/image.hpp:1070-1119`) -/
def debLoop [LinearOrder K] (P : DebParams K) (img : Img (Option K)) (sid : List Nat) : Nat → Deb → Res Deb
  | 0, s => .ok s
  | ipos + 1, s => do
    let mid ← chk sid (ipos + 1)
    let v ← chk img.px mid
    if geO v (some P.thr) then do
      let s ← debPixel P (ipos + 1) mid s
      debLoop P img sid ipos s
    else .ok s

/-- the first pixel: the last one that is finite (`astro/image.hpp:1031-1036`) -/
def lastFinite (img : Img (Option K)) (sid : List Nat) : Nat → Res Nat
  | 0 => .ok 0
  | ipos + 1 => do
    let mid ← Res.rd sid (ipos + 1)
    match ← Res.rd img.px mid with
    | some _ => .ok (ipos + 1)
    | none => lastFinite img sid ipos

/-! ### The walk over a segment -/

/-- body of the loop over one level, with the rest of what is done for each position: `f` is given the value of the map there -/
def walkPointA {σ : Type} (seg : Img Nat) (cur : Nat) (f : σ → Nat × Nat → Nat → Res σ) (s : Walk × σ) (p : Nat × Nat) : Res (Walk × σ) := do
  let t ← seg.get p.1 p.2
  let a ← f s.2 p t
  if t = cur then do
    let w ← (nbrs seg.nx seg.ny p.1 p.2).foldlM (walkAdd cur) { s.1 with sids := s.1.sids ++ [p.1 * seg.ny + p.2] }
    .ok (w, a)
  else .ok (s.1, a)

/-- the `while` loops of the second and third parts (`astro/image.hpp:1159-1177`, `1220-1241`) -/
def walkLoopA {σ : Type} (seg : Img Nat) (cur : Nat) (f : σ → Nat × Nat → Nat → Res σ) : Nat → Walk × σ → Res (Walk × σ)
  | 0, _ => .diverge
  | n + 1, s =>
    if s.1.nxt = [] then .ok s
    else do
      let s ← s.1.nxt.foldlM (walkPointA seg cur f) ({ s.1 with nxt := [] }, s.2)
      walkLoopA seg cur f n s

/-! ### Islands -/

/-- what is summed over the pixels of a segment, and the new map -/
structure Acc (K : Type) where
  seg : Img Nat
  area : Nat
  flux : Option K
  by_ : Option K
  bx : Option K
  fc : Option K
deriving DecidableEq

/-- the contribution of a pixel to the barycentre (`astro/image.hpp:1168-1172`) -/
def centroid [Field K] [LinearOrder K] (flim : K) (peak v : Option K) (p : Nat × Nat) (a : Acc K) : Acc K :=
  if geO v (mulO (some flim) peak) then
    { a with by_ := addO a.by_ (mulO (some (p.1 : K)) v), bx := addO a.bx (mulO (some (p.2 : K)) v), fc := addO a.fc v }
  else a

/-- a pixel of the segment `cur` (`astro/image.hpp:1163-1172`) -/
def islAdd [Field K] [LinearOrder K] (img : Img (Option K)) (flim : K) (peak : Option K) (cur : Nat) (a : Acc K) (p : Nat × Nat) (t : Nat) : Res (Acc K) :=
  if t = cur then do
    let seg ← a.seg.put p.1 p.2 cur
    let v ← img.get p.1 p.2
    .ok (centroid flim peak v p { a with seg := seg, area := a.area + 1, flux := addO a.flux v })
  else .ok a

/-- variables of the second and third parts -/
structure Isl (K : Type) where
  seg : Img Nat
  vis : Img Nat
  area : List Nat
  flux : List (Option K)
  by_ : List (Option K)
  bx : List (Option K)
  fc : List (Option K)
deriving DecidableEq

/-- one segment (`astro/image.hpp:1151-1178`); the elements `s` of the vectors are changed by the walk only -/
def islSegment [Field K] [LinearOrder K] (img : Img (Option K)) (P : DebParams K) (old : Img Nat) (ids origin : List Nat) (x : Isl K) (s : Nat) : Res (Isl K) := do
  let cur ← chk ids s
  let o ← chk origin s
  let peak ← chk img.px o
  let area ← chk x.area s
  let flux ← chk x.flux s
  let by_ ← chk x.by_ s
  let bx ← chk x.bx s
  let fc ← chk x.fc s
  let r ← walkLoopA old cur (islAdd img P.flim peak cur) (x.vis.px.length + 3)
    (⟨x.vis, [(o / x.seg.ny, o % x.seg.ny)], []⟩, ⟨x.seg, area, flux, by_, bx, fc⟩)
  .ok ⟨r.2.seg, r.1.vis, x.area.set s r.2.area, x.flux.set s r.2.flux, x.by_.set s r.2.by_, x.bx.set s r.2.bx, x.fc.set s r.2.fc⟩

/-! ### Small segments -/

/-- the segment around that has the closest peak (`astro/image.hpp:1224-1235`) -/
def smallAdd (x : Isl K) (P : DebParams K) (origin : List Nat) (cur : Nat) (a : Nat × Option Nat) (p : Nat × Nat) (t : Nat) : Res (Nat × Option Nat) :=
  if t > 0 ∧ t ≠ cur then do
    let area ← Res.rd x.area (t - P.first)
    if P.minArea ≤ area then do
      let o ← Res.rd origin (t - P.first)
      let d := sqd p (o / x.seg.ny, o % x.seg.ny)
      .ok (if farther a.2 d then (t, some d) else a)
    else .ok a
  else .ok a

/-- `seg[sids] = neib_seg`, with checked indices -/
def setIds (seg : Img Nat) (ids : List Nat) (z : Nat) : Res (Img Nat) :=
  ids.foldlM (fun (s : Img Nat) i => if i < s.px.length then .ok { s with px := s.px.set i z } else .abort) seg

/-- the sums of the pixels given to another segment (`astro/image.hpp:1252-1258`) -/
def mergeAdd [Field K] [LinearOrder K] (img : Img (Option K)) (flim : K) (peak : Option K) (ny : Nat) (a : Acc K) (i : Nat) : Res (Acc K) := do
  let v ← chk img.px i
  .ok (centroid flim peak v (i / ny, i % ny) a)

/-- one segment (`astro/image.hpp:1203-1260`); the second component is `eids` -/
def smallSegment [Field K] [LinearOrder K] (img : Img (Option K)) (P : DebParams K) (ids origin : List Nat) (x : Isl K × List Nat) (s : Nat) :
    Res (Isl K × List Nat) := do
  let cur ← chk ids s
  let area ← chk x.1.area s
  if P.minArea ≤ area then .ok x
  else do
    let o ← chk origin s
    let r ← walkLoopA x.1.seg cur (smallAdd x.1 P origin cur) (x.1.vis.px.length + 3)
      (⟨x.1.vis, [(o / x.1.seg.ny, o % x.1.seg.ny)], []⟩, (0, none))
    let neib := r.2.1
    let seg ← setIds x.1.seg r.1.sids neib
    let y := { x.1 with seg := seg, vis := r.1.vis }
    let eids := x.2 ++ [s]
    if neib ≠ 0 then do
      let k := neib - P.first
      let narea ← chk y.area k
      let flux ← chk y.flux s
      let nflux ← chk y.flux k
      let no ← chk origin k
      let peak ← chk img.px no
      let by_ ← chk y.by_ k
      let bx ← chk y.bx k
      let fc ← chk y.fc k
      let a ← r.1.sids.foldlM (mergeAdd img P.flim peak img.ny) ⟨seg, narea + area, addO nflux flux, by_, bx, fc⟩
      .ok ({ y with area := y.area.set k a.area, flux := y.flux.set k a.flux, by_ := y.by_.set k a.by_, bx := y.bx.set k a.bx, fc := y.fc.set k a.fc }, eids)
    else .ok (y, eids)

/-- `inplace_remove` of the indices `eids`, increasing and without repetition (C10) -/
def dropIds {β : Type} (l : List β) (eids : List Nat) : List β := (l.zipIdx.filter fun x => decide (x.2 ∉ eids)).map Prod.fst

/-- `segment_deblend` (`astro/image.hpp:1020-1279`): the map and the new value of `out`, `old` being the previous one; `sid` is the result of `sort` (line 1030) -/
def deblendSorted [Field K] [LinearOrder K] (img : Img (Option K)) (old : DebOut K) (P : DebParams K) (sid : List Nat) : Res (Img Nat × DebOut K) := do
  Res.check (P.first > 0)
  if sid = [] then .ub
  else do
    let ipos ← lastFinite img sid (sid.length - 1)
    let z := Img.fill img.nx img.ny 0
    let d ← debLoop P img sid ipos ⟨z, z, old.id, [], old.py, old.px, P.first⟩
    let n := d.ids.length
    let x ← (List.range n).foldlM (islSegment img P d.seg d.ids d.origin)
      ⟨z, z, resizeTo [] n 0, resizeTo old.flux n (some 0), resizeTo old.by_ n (some 0), resizeTo old.bx n (some 0), resizeTo [] n (some 0)⟩
    if x.area.any (fun a => decide (a < P.minArea)) then do
      let y ← (List.range n).foldlM (smallSegment img P d.ids d.origin) ({ x with vis := z }, [])
      let f := fun {β : Type} (l : List β) => dropIds l y.2
      .ok (y.1.seg, ⟨f d.ids, f y.1.area, List.zipWith divO (f y.1.by_) (f y.1.fc), List.zipWith divO (f y.1.bx) (f y.1.fc), f d.py, f d.px, f d.origin, f y.1.flux⟩)
    else .ok (x.seg, ⟨d.ids, x.area, List.zipWith divO x.by_ x.fc, List.zipWith divO x.bx x.fc, d.py, d.px, d.origin, x.flux⟩)

/-- `segment_deblend` -/
def segmentDeblend [Field K] [LinearOrder K] (img : Img (Option K)) (old : DebOut K) (P : DebParams K) : Res (Img Nat × DebOut K) :=
  deblendSorted img old P (Find.sort img.px)

end Verif.Astro
