import Verif.Io.FitsTable
/-!
# Images in FITS files (`io/fits/image.hpp`, `io/fits/base.hpp:317-640,764-771`)

A file is the list of its HDUs (header and data units) and the position of the current one; a file that was just created has none. The functions of `cfitsio` are
modelled by their contract (section *cfitsio* below). The axes of an image are those of the file: the first one varies the fastest. An HDU without axes is
an *empty* HDU. The conversions of numbers are arbitrary functions, which fail for numbers that do not fit. The number of dimensions of a vector, static in C++, is
the length of its list of dimensions. Exceptions, errors of `cfitsio` and `vif_check` are all `abort` (what remains of the state after a caught
exception is in `FitsStatus`). Products of dimensions do not overflow. Headers are not modelled here.
-/
namespace Verif.FitsImage
open Verif Verif.Core Verif.FitsTable

variable {α : Type}

inductive Hdu (α : Type)
  | image (type : CT) (naxes : List Nat) (px : List α)
  | table
deriving DecidableEq

structure File (α : Type) where
  hdus : List (Hdu α)
  cur : Nat
deriving DecidableEq

/-- `access_right` (base.hpp:354-358); `write_only` and `read_write` differ only when a file is opened -/
inductive Rights
  | readOnly | write
deriving DecidableEq

/-- the conversions of numbers to the type of an image, and to the type of a vector -/
structure Conv (α : Type) where
  store : CT → α → Res α
  load : ET → α → Res α

/-! ### cfitsio -/

/-- an image without axes, of the type of `float` -/
def emptyHdu : Hdu α := .image .float [] []

/-- `fits_insert_img`: after the current HDU, or first in a file without HDU; the new one is current -/
def insertHdu (f : File α) (h : Hdu α) : File α :=
  if f.hdus = [] then ⟨[h], 0⟩ else ⟨f.hdus.take (f.cur + 1) ++ h :: f.hdus.drop (f.cur + 1), f.cur + 1⟩

/-- `fits_movabs_hdu`; HDUs are numbered from 1 -/
def movabs (f : File α) (n : Nat) : Res (File α) := if 1 ≤ n ∧ n ≤ f.hdus.length then .ok { f with cur := n - 1 } else .abort

/-- `fits_delete_hdu`: the first HDU is replaced by an empty one; after the removal of another, the current HDU is the next one, or the last one -/
def deleteHdu (f : File α) : Res (File α) :=
  if f.hdus.length ≤ f.cur then .abort
  else if f.cur = 0 then .ok { f with hdus := emptyHdu :: f.hdus.tail }
  else .ok ⟨f.hdus.eraseIdx f.cur, min f.cur (f.hdus.length - 2)⟩

/-- the number of pixels of an image -/
def npix (naxes : List Nat) : Nat := if naxes = [] then 0 else naxes.prod

/-- `fits_resize_img`: the current HDU is an image of these dimensions; its content is that of zeros `z` -/
def resizeImg (z : α) (f : File α) (t : CT) (naxes : List Nat) : File α :=
  { f with hdus := f.hdus.set f.cur (.image t naxes (List.replicate (npix naxes) z)) }

/-- `fits_write_img` from the first pixel -/
def writeImg (c : Conv α) (f : File α) (v : List α) : Res (File α) :=
  match f.hdus[f.cur]? with
  | some (.image t naxes px) =>
    if px.length < v.length then .abort
    else do
      let w ← v.mapM (c.store t)
      .ok { f with hdus := f.hdus.set f.cur (.image t naxes (overwrite px 0 w)) }
  | _ => .abort

/-- `fits_read_img`; pixels are numbered from 1 -/
def readImg (c : Conv α) (e : ET) (px : List α) (first n : Nat) : Res (List α) :=
  if n = 0 then .ok []
  else if 1 ≤ first ∧ first - 1 + n ≤ px.length then ((px.drop (first - 1)).take n).mapM (c.load e) else .abort

/-- the positions of the pixels of a subset, the first axis being the fastest -/
def subsetPos : List Nat → List Nat → List Nat → List Nat
  | n :: ns, f :: fs, l :: ls => (subsetPos ns fs ls).flatMap fun b => (List.range (l + 1 - f)).map fun k => (f - 1 + k) + n * b
  | _, _, _ => [0]

/-- `fits_read_subset` without steps. Outside of its contract (`fpixel ≤ lpixel ≤ naxes`) the number of pixels written is not the size of the vector. -/
def readSubsetC (c : Conv α) (e : ET) (naxes : List Nat) (px : List α) (fp lp : List Nat) : Res (List α) :=
  if fp.length = naxes.length ∧ lp.length = naxes.length ∧
      (∀ i < naxes.length, 1 ≤ fp.getD i 0 ∧ fp.getD i 0 ≤ lp.getD i 0 ∧ lp.getD i 0 ≤ naxes.getD i 0) then do
    let l ← (subsetPos naxes fp lp).mapM (Res.rd px)
    l.mapM (c.load e)
  else .ub

/-! ### vif: HDUs -/

/-- `axis_count` (base.hpp:615-623): `fits_get_img_dim` fails for tables -/
def axisCount (f : File α) : Res Nat := match f.hdus[f.cur]? with
  | some (.image _ naxes _) => .ok naxes.length
  | _ => .abort

/-- the loop that reverses the axes (base.hpp:635-637, image.hpp:124-126) -/
def revAxes (naxes : List Nat) : List Nat := (List.range naxes.length).map fun i => naxes.getD (naxes.length - 1 - i) 0

/-- `image_dims` (base.hpp:627-643) -/
def imageDims (f : File α) : Res (List Nat) := match f.hdus[f.cur]? with
  | some (.image _ naxes _) => .ok (revAxes naxes)
  | _ => .abort

/-- `n` calls of `fits_insert_img` (base.hpp:599-604) -/
def insertN : Nat → File α → File α
  | 0, f => f
  | n + 1, f => insertN n (insertHdu f emptyHdu)

/-- `reach_hdu` (base.hpp:586-612) -/
def reachHdu (r : Rights) (f : File α) (hdu : Nat) : Res (File α) := do
  if r = .readOnly then Res.check (hdu < f.hdus.length) else .ok ()
  let g := if r = .write ∧ f.hdus.length ≤ hdu then insertN (hdu + 1 - f.hdus.length) f else f
  movabs g (hdu + 1)

/-- `remove_hdu` (base.hpp:764-771) -/
def removeHdu (f : File α) : Res (File α) := deleteHdu f

/-- `hdu_type` is `empty_hdu` or `null_hdu` (base.hpp:552-584) -/
def isEmpty (f : File α) : Bool := match f.hdus[f.cur]? with
  | some (.image _ naxes _) => decide (naxes = [])
  | _ => false

/-! ### vif: writing -/

/-- `output_image::write` (image.hpp:223-250) -/
def write (z : α) (c : Conv α) (f : File α) (e : ET) (v : Vec α) : Res (File α) := do
  let naxes := revAxes v.dims
  let g ← if f.hdus ≠ [] then do
      Res.check (isEmpty f = true)
      .ok (resizeImg z f (writtenAs e) naxes)
    else .ok (insertHdu f (.image (writtenAs e) naxes (List.replicate (npix naxes) z)))
  writeImg c g v.data

/-- `output_image::write_empty` (image.hpp:252-274) -/
def writeEmpty (z : α) (f : File α) : Res (File α) :=
  if f.hdus ≠ [] then do
    Res.check (isEmpty f = true)
    .ok (resizeImg z f .float [])
  else .ok (insertHdu f emptyHdu)

/-- `image::update` (image.hpp:291-321) -/
def update (c : Conv α) (f : File α) (e : ET) (v : Vec α) : Res (File α) :=
  match f.hdus[f.cur]? with
  | some (.image t naxes _) => do
    Res.check (naxes.length = v.dims.length)
    Res.check (convertible e t = true)
    Res.check (v.dims = revAxes naxes)
    writeImg c f v.data
  | _ => .abort

/-! ### vif: reading -/

/-- `read_prep_` (image.hpp:25-42) -/
def readPrep (f : File α) (e : ET) (rdims : Nat) : Res (List Nat × List α) :=
  match f.hdus[f.cur]? with
  | some (.image t naxes px) => do
    Res.check (naxes.length = rdims)
    Res.check (convertible e t = true)
    .ok (naxes, px)
  | _ => .abort

/-- `input_image::read` (image.hpp:115-133) -/
def read (c : Conv α) (f : File α) (e : ET) (dim : Nat) : Res (Vec α) := do
  let (naxes, px) ← readPrep f e dim
  let dims := revAxes naxes
  let l ← readImg c e px 1 dims.prod
  .ok ⟨l, dims⟩

/-- the arguments of `read_subset`: `_`, `_-last`, `first-_`, `first-_-last`, an index -/
inductive Arg
  | full
  | left (last : Nat)
  | right (first : Nat)
  | leftRight (first last : Nat)
  | index (i : Nat)

/-- the first and last pixels on one axis (image.hpp:47-110) -/
def axisRange (n : Nat) : Arg → Res (Nat × Nat)
  | .full => .ok (1, n)
  | .left last => do Res.check (last < n); .ok (1, last + 1)
  | .right first => .ok (first + 1, n)
  | .leftRight first last => do Res.check (last < n); .ok (first + 1, last + 1)
  | .index i => do Res.check (i < n); .ok (i + 1, i + 1)

/-- `make_indices_` (image.hpp:44-110) -/
def makeIndices (naxes : List Nat) : Nat → List Arg → List Nat × List Nat → Res (List Nat × List Nat)
  | _, [], s => .ok s
  | idim, a :: as, (fp, lp) => do
    let n ← Res.rd naxes (naxes.length - 1 - idim)
    let (x, y) ← axisRange n a
    makeIndices naxes (idim + 1) as (fp.set (naxes.length - 1 - idim) x, lp.set (naxes.length - 1 - idim) y)

/-- `input_image::read_subset` (image.hpp:135-159) -/
def readSubset (c : Conv α) (f : File α) (e : ET) (args : List Arg) : Res (Vec α) := do
  let (naxes, px) ← readPrep f e args.length
  let (fp, lp) ← makeIndices naxes 0 args (List.replicate args.length 0, List.replicate args.length 0)
  let dims := (List.range naxes.length).map fun i => lp.getD (naxes.length - 1 - i) 0 + 1 - fp.getD (naxes.length - 1 - i) 0
  let l ← readSubsetC c e naxes px fp lp
  .ok ⟨l, dims⟩

/-- variables of the loop of `read_pixel` -/
structure Pix where
  ppos : Nat
  pitch : Nat
  noError : Bool

/-- the body of the loop of `read_pixel` (image.hpp:172-176) -/
def pixStep (naxes p : List Nat) (s : Pix) (i : Nat) : Res Pix := do
  let x ← Res.rd p (naxes.length - 1 - i)
  let n ← Res.rd naxes i
  .ok ⟨s.ppos + x * s.pitch, s.pitch * n, s.noError && decide (x < n)⟩

/-- `input_image::read_pixel` (image.hpp:161-198) -/
def readPixel (c : Conv α) (f : File α) (e : ET) (p : List Nat) : Res α := do
  let (naxes, px) ← readPrep f e p.length
  let s ← (List.range p.length).foldlM (pixStep naxes p) ⟨1, 1, true⟩
  Res.check (s.noError = true)
  let l ← readImg c e px s.ppos 1
  match l with
  | [x] => .ok x
  | _ => .ub

end Verif.FitsImage
