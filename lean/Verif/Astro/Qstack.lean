import Verif.Astro.Img
import Mathlib.Algebra.Order.Floor.Ring
/-!
# Cutouts of sources (`astro/qstack.hpp:88-355`)

Positions are in an ordered field with a floor. An image is given by its dimensions, its pixels and the positions of the sources on it (the
result of `ad2xy`, pixels are numbered from 1). Files, progress output and reservations of memory are left out.
-/
namespace Verif.Qstack
open Verif Verif.Astro

variable {K : Type} [Field K] [LinearOrder K] [FloorRing K] {α : Type}

/-- `std::round`: halves are rounded away from zero -/
def rnd (x : K) : Int := if 0 ≤ x then ⌊x + 1 / 2⌋ else -⌊-x + 1 / 2⌋

/-- the type of the pixels: NaN, zero, `is_finite` -/
structure Num (α : Type) where
  nan : α
  zero : α
  fin : α → Bool

/-- an opened image (qstack.hpp:12-59): `naxis` axes, of which two are longer than 1; pixel `(x, y)` is at `(y-1)*width + x-1` -/
structure Image (K α : Type) where
  naxis : Nat
  width : Nat
  height : Nat
  px : List α
  pos : List (K × K)

/-- `fits_read_subset` of cfitsio on a rectangle, first coordinate fastest. The function reads `naxis` elements of the arrays of two elements
that hold the corners: undefined behaviour if there are more axes. Rectangles out of the image are an error that the code ignores; the
content of the buffer is then unknown. -/
def readSubset (N : Num α) (im : Image K α) (x0 y0 x1 y1 : Int) : Res (List α) :=
  if im.naxis = 2 ∧ 1 ≤ x0 ∧ x0 ≤ x1 ∧ x1 ≤ im.width ∧ 1 ≤ y0 ∧ y0 ≤ y1 ∧ y1 ≤ im.height then
    .ok ((List.range (y1 - y0 + 1).toNat).flatMap fun j => (List.range (x1 - x0 + 1).toNat).map fun i =>
      im.px.getD ((y0.toNat + j - 1) * im.width + (x0.toNat + i - 1)) N.nan)
  else .ub

/-- a source that overlaps the edges (qstack.hpp:153-175): `cut(y0-_-y1,x0-_-x1) = subcut` checks the bounds and copies the elements in order -/
def partialCut (N : Num α) (h : Nat) (im : Image K α) (p0x p0y p1x p1y : Int) : Res (Img α) := do
  let bx0 := max 1 p0x
  let by0 := max 1 p0y
  let bx1 := min (im.width : Int) p1x
  let by1 := min (im.height : Int) p1y
  let sub ← readSubset N im bx0 by0 bx1 by1
  let x0 := (bx0 - p0x).toNat
  let x1 := (bx1 - p0x).toNat
  let y0 := (by0 - p0y).toNat
  let y1 := (by1 - p0y).toNat
  Res.check (x1 < 2 * h + 1 ∧ y1 < 2 * h + 1)
  for2 (y1 + 1 - y0) (x1 + 1 - x0) (fun i j c => c.put (y0 + i) (x0 + j) (sub.getD (i * (x1 + 1 - x0) + j) N.nan)) (Img.fill (2 * h + 1) (2 * h + 1) N.nan)

/-- a source in the image (qstack.hpp:177-182) -/
def fullCut (N : Num α) (h : Nat) (im : Image K α) (p0x p0y p1x p1y : Int) : Res (Img α) := do
  let l ← readSubset N im p0x p0y p1x p1y
  if l.length ≤ (2 * h + 1) * (2 * h + 1) then
    .ok ⟨2 * h + 1, 2 * h + 1, l ++ List.replicate ((2 * h + 1) * (2 * h + 1) - l.length) N.zero⟩
  else .ub

/-- the choice between the two cases (qstack.hpp:153-182) -/
def rawCut (N : Num α) (h : Nat) (im : Image K α) (p0x p0y p1x p1y : Int) : Res (Img α) :=
  if p0x < 1 ∨ (im.width : Int) ≤ p1x ∨ p0y < 1 ∨ (im.height : Int) ≤ p1y then partialCut N h im p0x p0y p1x p1y
  else fullCut N h im p0x p0y p1x p1y

/-- the cutout of a source at `(x, y)` in an image, `none` if it is discarded (qstack.hpp:142-187) -/
def makeCut (N : Num α) (keepNan : Bool) (h : Nat) (im : Image K α) (x y : K) : Res (Option (Img α)) := do
  let p0x := rnd (x - h)
  let p0y := rnd (y - h)
  let p1x := rnd (x + h)
  let p1y := rnd (y + h)
  if p1x < 1 ∨ (im.width : Int) ≤ p0x ∨ p1y < 1 ∨ (im.height : Int) ≤ p0y then .ok none
  else do
    let cut ← rawCut N h im p0x p0y p1x p1y
    if !keepNan && cut.px.any (fun v => !N.fin v) then .ok none else .ok (some cut)

/-- `qstack_params` (qstack.hpp:77-82) -/
structure Params where
  keepNan : Bool
  saveOffsets : Bool
  saveSection : Bool

/-- the results of `qstack` and its local `found` -/
structure St (K α : Type) where
  ids : List Nat
  cube : List (Img α)
  found : List Bool
  dx : List K
  dy : List K
  sect : List Nat
  deriving DecidableEq

/-- `cube.push_back(cut)` (core/vec.hpp:263-282) -/
def pushCube (cube : List (Img α)) (cut : Img α) : Res (List (Img α)) :=
  match cube with
  | [] => .ok [cut]
  | c :: _ => if c.nx = cut.nx ∧ c.ny = cut.ny then .ok (cube ++ [cut]) else .abort

/-- `where_last(ids == i)` -/
def whereLast (ids : List Nat) (i : Nat) : Nat := ids.length - 1 - ids.reverse.idxOf i

/-- the elements that are not finite are taken from the other cutout (qstack.hpp:208-210) -/
def combine (N : Num α) (cube : List (Img α)) (id : Nat) (cut : Img α) : Res (List (Img α)) :=
  match cube[id]? with
  | none => .abort
  | some o => if o.nx = cut.nx ∧ o.ny = cut.ny then
      .ok (cube.set id { o with px := List.zipWith (fun a b => if N.fin a then a else b) o.px cut.px }) else .abort

/-- a cutout that is kept (qstack.hpp:189-211) -/
def record (N : Num α) (p : Params) (k i : Nat) (x y : K) (cut : Img α) (s : St K α) : Res (St K α) :=
  if s.found.getD i false then do
    let cube ← combine N s.cube (whereLast s.ids i) cut
    .ok { s with cube := cube }
  else do
    let cube ← pushCube s.cube cut
    .ok { ids := s.ids ++ [i], cube := cube, found := s.found.set i true,
          dx := if p.saveOffsets then s.dx ++ [x - rnd x] else s.dx, dy := if p.saveOffsets then s.dy ++ [y - rnd y] else s.dy,
          sect := if p.saveSection then s.sect ++ [k] else s.sect }

/-- one source in one image (qstack.hpp:139-212) -/
def step (N : Num α) (p : Params) (h : Nat) (imgs : List (Image K α)) (s : St K α) (ki : Nat × Nat) : Res (St K α) := do
  let im ← Res.rd imgs ki.1
  let xy ← Res.rd im.pos ki.2
  let c ← makeCut N p.keepNan h im xy.1 xy.2
  match c with
  | none => .ok s
  | some cut => record N p ki.1 ki.2 xy.1 xy.2 cut s

/-- the pairs image, source in the order of the loops (qstack.hpp:134-138) -/
def pairs (m n : Nat) : List (Nat × Nat) := (List.range m).flatMap fun k => (List.range n).map fun i => (k, i)

/-- `qstack` without weights on `n` sources (qstack.hpp:88-216) -/
def qstack (N : Num α) (p : Params) (h n : Nat) (imgs : List (Image K α)) (ids : List Nat) (cube : List (Img α)) : Res (St K α) :=
  (pairs imgs.length n).foldlM (step N p h imgs) ⟨ids, cube, List.replicate n false, [], [], []⟩

/-- the results with weights -/
structure WSt (K α : Type) where
  ids : List Nat
  cube : List (Img α)
  wcube : List (Img α)
  dx : List K
  dy : List K
  sect : List Nat

/-- one source with weights (qstack.hpp:309-349); `w` is the weight image -/
def wstep (N : Num α) (p : Params) (h : Nat) (im w : Image K α) (s : WSt K α) (i : Nat) : Res (WSt K α) := do
  let xy ← Res.rd im.pos i
  let x := xy.1
  let y := xy.2
  if rnd (x - h) < 1 ∨ (im.width : Int) ≤ rnd (x + h) ∨ rnd (y - h) < 1 ∨ (im.height : Int) ≤ rnd (y + h) then .ok s
  else do
    let cut ← fullCut N h im (rnd (x - h)) (rnd (y - h)) (rnd (x + h)) (rnd (y + h))
    let wcut ← fullCut N h w (rnd (x - h)) (rnd (y - h)) (rnd (x + h)) (rnd (y + h))
    if !p.keepNan && (cut.px.any (fun v => !N.fin v) || wcut.px.any (fun v => !N.fin v)) then .ok s
    else do
      let cube ← pushCube s.cube cut
      let wcube ← pushCube s.wcube wcut
      .ok { ids := s.ids ++ [i], cube := cube, wcube := wcube,
            dx := if p.saveOffsets then s.dx ++ [x - rnd x] else s.dx, dy := if p.saveOffsets then s.dy ++ [y - rnd y] else s.dy,
            sect := if p.saveSection then s.sect ++ [0] else s.sect }

/-- `qstack` with weights on single images (qstack.hpp:245-355) -/
def wqstack (N : Num α) (p : Params) (h n : Nat) (im w : Image K α) (ids : List Nat) (cube wcube : List (Img α)) : Res (WSt K α) := do
  Res.check (im.width = w.width ∧ im.height = w.height)
  (List.range n).foldlM (wstep N p h im w) ⟨ids, cube, wcube, [], [], []⟩

/-- `qstack` with weights when a file is a list of sections (qstack.hpp:233-251): the output of the two calls is dropped, the identifiers of
the second too -/
def wqstackSect (N : Num α) (p : Params) (h n : Nat) (imgs ws : List (Image K α)) (ids : List Nat) (cube wcube : List (Img α)) : Res (WSt K α) := do
  let s ← qstack N p h n imgs ids cube
  let t ← qstack N p h n ws [] wcube
  Res.check (s.ids.length - ids.length = t.ids.length)
  .ok ⟨s.ids, s.cube, t.cube, [], [], []⟩

end Verif.Qstack
