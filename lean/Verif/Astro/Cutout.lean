import Verif.Astro.Regrid
/-!
# Cutouts of a source in a set of images (`cutout_extractor`, `astro/image.hpp:1416-1590`)

An image is its pixels (`none` is not a finite number) and the position of the source in it, `dxc` and `dyc` (column and row, from 0): the
conversion from sky coordinates by the WCS of the image, with the correction of the distortion map if there is one, gives an arbitrary
position here. `aspix` is the size of the pixels, `none` if it is not known (there is no image). The header is the one it was copied from with the keywords set at
the end; `filter_wcs` and `setkey` are in C120 and C122 and always succeed here.
-/
namespace Verif.Astro
open Verif Verif.Bil

variable {K : Type} [Field K] [LinearOrder K] [FloorRing K]

/-- an image and the position of the source in it -/
structure CutImg (K : Type) where
  img : Img (Option K)
  dxc : K
  dyc : K

/-- the half size of the box: `int_t hs = max(1, ceil(0.5*size/aspix))` (`image.hpp:1485`). With `aspix` not a number, `max` gives the
second argument, and its conversion is undefined. -/
def halfSize (size : K) (aspix : Option K) : Res Nat :=
  match aspix with
  | none => .ub
  | some a => if a = 0 then .ub else do
    let hs ← s64 (max 1 ⌈1 / 2 * size / a⌉)
    .ok hs.toNat

/-- `read_subset(v, y0-_-y1, x0-_-x1)` by its contract (C134): a range that ends outside of the image is an error, a range that ends before
it starts is undefined -/
def readRect {β : Type} (v : Img β) (y0 y1 x0 x1 : Nat) : Res (Img β) :=
  if y1 < v.nx ∧ x1 < v.ny then
    if y0 ≤ y1 ∧ x0 ≤ x1 then do
      let l ← (List.range (y1 + 1 - y0)).mapM fun i => (List.range (x1 + 1 - x0)).mapM fun j => v.get (y0 + i) (x0 + j)
      .ok ⟨y1 + 1 - y0, x1 + 1 - x0, l.flatten⟩
    else .ub
  else .abort

/-- `data(y0-_-y1,x0-_-x1) = s`, with its checks (C05 to C07) -/
def assignRect {β : Type} (d : Img β) (y0 y1 x0 x1 : Nat) (s : Img β) : Res (Img β) := do
  Res.check (y1 < d.nx ∧ x1 < d.ny)
  Res.check (y0 ≤ y1 ∧ x0 ≤ x1)
  Res.check (s.nx = y1 + 1 - y0 ∧ s.ny = x1 + 1 - x0)
  for2 (y1 + 1 - y0) (x1 + 1 - x0) (fun i j d => do
    let a ← s.get i j
    d.put (y0 + i) (x0 + j) a) d

/-- the box of one image (`image.hpp:1493-1525`); `none` if the image does not cover the source -/
def cutData (c : CutImg K) (hs : Nat) (dflt : Option K) : Res (Option (Img (Option K))) := do
  let xc ← s64 (roundI c.dxc)
  let yc ← s64 (roundI c.dyc)
  let iy0 ← s64 (yc - hs)
  let iy1 ← s64 (yc + hs)
  let ix0 ← s64 (xc - hs)
  let ix1 ← s64 (xc + hs)
  if ix1 < 0 ∨ ix0 ≥ c.img.ny ∨ iy1 < 0 ∨ iy0 ≥ c.img.nx then .ok none
  else if ix0 < 0 ∨ ix1 ≥ c.img.ny ∨ iy0 < 0 ∨ iy1 ≥ c.img.nx then do
    let data := Img.fill (2 * hs + 1) (2 * hs + 1) dflt
    let tx0 := (max 0 ix0).toNat
    let ty0 := (max 0 iy0).toNat
    let tx1 := min (sub64 c.img.ny 1) ix1.toNat
    let ty1 := min (sub64 c.img.nx 1) iy1.toNat
    let sub ← readRect c.img ty0 ty1 tx0 tx1
    let r ← assignRect data ((ty0 : Int) - iy0).toNat ((ty1 : Int) - iy0).toNat ((tx0 : Int) - ix0).toNat ((tx1 : Int) - ix0).toNat sub
    .ok (some r)
  else do
    let r ← readRect c.img iy0.toNat iy1.toNat ix0.toNat ix1.toNat
    .ok (some r)

/-- one pixel of `cut[idb] = data[idb]` -/
def fillPix (cut data : Img (Option K)) (i : Nat) : Res (Option K) := do
  let a ← Res.rd cut.px i
  match a with
  | some v => .ok (some v)
  | none => chk data.px i

/-- `cut[idb] = data[idb]` with `idb = where(!is_finite(cut))` (`image.hpp:1541-1542`) -/
def fillIn (cut data : Img (Option K)) : Res (Img (Option K)) := do
  let px ← (List.range cut.px.length).mapM (fillPix cut data)
  .ok { cut with px := px }

/-- where the header comes from: it was given by the caller, or it is that of the image `i` -/
inductive HdrFrom
  | caller
  | image (i : Nat)
deriving DecidableEq

/-- variables of the loop; `cut` is `none` when it is empty, `hdr` when it is empty -/
structure CutSt (K : Type) where
  cut : Option (Img (Option K))
  hdr : Option HdrFrom
  px : K
  py : K

/-- body of the loop over the images (`image.hpp:1488-1544`) -/
def cutStep (hs : Nat) (dflt : Option K) (gethdr : Bool) (st : CutSt K) (ci : CutImg K × Nat) : Res (CutSt K) := do
  let r ← cutData ci.1 hs dflt
  match r with
  | none => .ok st
  | some data =>
    match st.cut with
    | none => .ok ⟨some data, if gethdr then some (.image ci.2) else st.hdr, (hs : K) + 1 + (ci.1.dxc - ((roundI ci.1.dxc : Int) : K)),
        (hs : K) + 1 + (ci.1.dyc - ((roundI ci.1.dyc : Int) : K))⟩
    | some cut => do
      let cut ← fillIn cut data
      .ok { st with cut := some cut }

/-- the header returned: its source, `NAXIS1`, `NAXIS2`, `CRPIX1` and `CRPIX2`; `CRVAL1` and `CRVAL2` are the coordinates asked for -/
structure CutHdr (K : Type) where
  src : HdrFrom
  naxis1 : Nat
  naxis2 : Nat
  crpix1 : K
  crpix2 : K
deriving DecidableEq

/-- the header (`image.hpp:1546-1558`) -/
def cutHeader (gethdr : Bool) (noImg : Bool) (st : CutSt K) : Res (Option (CutHdr K)) :=
  if gethdr then
    match st.hdr with
    | some s => .ok (some ⟨s, (st.cut.map Img.ny).getD 0, (st.cut.map Img.nx).getD 0, st.px, st.py⟩)
    | none =>
      if noImg then .abort else .ok (some ⟨.image 0, (st.cut.map Img.ny).getD 0, (st.cut.map Img.nx).getD 0, st.px, st.py⟩)
  else .ok none

/-- `get_cutout_(cut, hdr, gethdr, ra, dec, size, def)` (`image.hpp:1466-1566`): whether the source is covered, the cutout and the header;
`hdr` is the header given by the caller, `none` if it is empty -/
def getCutout (imgs : List (CutImg K)) (aspix : Option K) (size : K) (dflt : Option K) (gethdr : Bool) (hdr : Option HdrFrom) :
    Res (Bool × Img (Option K) × Option (CutHdr K)) := do
  let hs ← halfSize size aspix
  let st ← imgs.zipIdx.foldlM (cutStep hs dflt gethdr) ⟨none, hdr, (hs : K) + 1, (hs : K) + 1⟩
  let h ← cutHeader gethdr imgs.isEmpty st
  match st.cut with
  | none => .ok (false, Img.fill (2 * hs + 1) (2 * hs + 1) dflt, h)
  | some cut => .ok (true, cut, h)

end Verif.Astro
