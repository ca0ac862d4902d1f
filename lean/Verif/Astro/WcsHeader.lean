import Verif.Io.Header
import Mathlib.Algebra.Field.Defs
/-!
# Headers with WCS keywords (`astro/wcs.hpp:20-230`)

`fmt` is `to_string` of a `double` with 16 digits, `dec` that of an integer, `num` and `nat` are `from_string`. A number that is not finite is
`none` (it is then ignored), as `npos` for the dimensions. Error messages are left out.
-/
namespace Verif.WcsHeader
open Verif Verif.Str Verif.Fits

variable {K : Type}

/-- `make_wcs_header_params` (wcs.hpp:21-30) -/
structure Params (K : Type) where
  scale : Option K := none
  ra : Option K := none
  dec : Option K := none
  px : Option K := none
  py : Option K := none
  nx : Option Nat := none
  ny : Option Nat := none
deriving DecidableEq

/-- `"END" + std::string(77, ' ')` (wcs.hpp:35) -/
def endCard : Str := "END".toList ++ List.replicate 77 ' '

/-- the texts of the numbers -/
structure Fmt (K : Type) where
  dbl : K → Str
  nat : Nat → Str

/-- the pixel scale (wcs.hpp:38-63) -/
def keysScale [Field K] (f : Fmt K) : Option K → List (Str × Str)
  | some s => [("CDELT1".toList, f.dbl (-s / 3600)), ("CDELT2".toList, f.dbl (s / 3600)), ("CTYPE1".toList, "'RA---TAN'".toList),
      ("CTYPE2".toList, "'DEC--TAN'".toList), ("EQUINOX".toList, f.dbl 2000)]
  | none => []

/-- the reference pixel (wcs.hpp:65-76) -/
def keysPixel (f : Fmt K) : Option K → Option K → List (Str × Str)
  | some x, some y => [("CRPIX1".toList, f.dbl x), ("CRPIX2".toList, f.dbl y)]
  | _, _ => []

/-- the reference position (wcs.hpp:78-89) -/
def keysSky (f : Fmt K) : Option K → Option K → List (Str × Str)
  | some x, some y => [("CRVAL1".toList, f.dbl x), ("CRVAL2".toList, f.dbl y)]
  | _, _ => []

/-- the dimensions (wcs.hpp:91-115) -/
def keysDims (f : Fmt K) : Option Nat → Option Nat → List (Str × Str)
  | some x, some y => [("NAXES".toList, f.nat 2), ("NAXIS1".toList, f.nat x), ("NAXIS2".toList, f.nat y), ("META_0".toList, f.nat 2),
      ("META_1".toList, f.nat x), ("META_2".toList, f.nat y)]
  | _, _ => []

/-- the keys in the order of the calls (wcs.hpp:38-115) -/
def keysOf [Field K] (f : Fmt K) (p : Params K) : List (Str × Str) :=
  keysScale f p.scale ++ (keysPixel f p.px p.py ++ (keysSky f p.ra p.dec ++ keysDims f p.nx p.ny))

/-- the successive calls of `setkey`, up to the first that fails -/
def setAll : List (Str × Str) → Str → Res (Bool × Str)
  | [], h => .ok (true, h)
  | (k, v) :: l, h => do
    match ← setkey h k v [] with
    | none => .ok (false, h)
    | some h => setAll l h

/-- `make_wcs_header` (wcs.hpp:33-118): the returned flag and the header -/
def makeHeader [Field K] (f : Fmt K) (p : Params K) (hdr : Str) : Res (Bool × Str) :=
  setAll (keysOf f p) (if hdr = [] then endCard else hdr)

/-- the conversions from text; the value of `from_string` may be NaN or infinite, `some none` -/
structure Env (K : Type) where
  num : Str → Option (Option K)
  nat : Str → Option Nat

/-- `to_lower` (utility/bits/string-format.hpp:12-36), for the classic locale -/
def toLower (s : Str) : Str := s.map Char.toLower

/-- two numbers separated by a comma (wcs.hpp:146-162 and so on) -/
def pair {α : Type} (num : Str → Option α) (s : Str) : Res (Option (α × α)) := do
  match ← split s [','] with
  | [a, b] => match num a, num b with
    | some x, some y => .ok (some (x, y))
    | _, _ => .ok none
  | _ => .ok none

/-- `npos` is the absence of dimension -/
def ofDim (n : Nat) : Option Nat := if n = 2 ^ 64 - 1 then none else some n

/-- one text parameter (wcs.hpp:130-204) -/
def parseOne (e : Env K) (p : Params K) (s : Str) : Res (Option (Params K)) := do
  match ← split s [':'] with
  | [k, v] => do
    let k ← trim (toLower k) blanks
    if k = "pixel_scale".toList then .ok ((e.num v).map fun x => { p with scale := x })
    else if k = "pixel_ref".toList then do
      let r ← pair e.num v
      .ok (r.map fun r => { p with px := r.1, py := r.2 })
    else if k = "sky_ref".toList then do
      let r ← pair e.num v
      .ok (r.map fun r => { p with ra := r.1, dec := r.2 })
    else if k = "dims".toList then do
      let r ← pair e.nat v
      .ok (r.map fun r => { p with nx := ofDim r.1, ny := ofDim r.2 })
    else .ok none
  | _ => .ok none

/-- the loop on the text parameters (wcs.hpp:130-204) -/
def parseAll (e : Env K) : List Str → Params K → Res (Option (Params K))
  | [], p => .ok (some p)
  | s :: l, p => do
    match ← parseOne e p s with
    | none => .ok none
    | some p => parseAll e l p

/-- `make_wcs_header` from texts (wcs.hpp:127-207) -/
def makeHeaderText [Field K] (f : Fmt K) (e : Env K) (ps : List Str) (hdr : Str) : Res (Bool × Str) := do
  match ← parseAll e ps {} with
  | none => .ok (false, hdr)
  | some p => makeHeader f p hdr

/-- the keywords of `filter_wcs` (wcs.hpp:211-215) -/
def wcsKeys : List Str :=
  ["RA", "DEC", "EPOCH", "EQUINOX", "RADECSYS", "SECPIX", "IMWCS", "CD1_1", "CD1_2", "CD2_1", "CD2_2", "PC1_1", "PC1_2", "PC2_1", "PC2_2",
    "PC001001", "PC001002", "PC002001", "PC002002", "LATPOLE", "LONPOLE", "SECPIX", "CTYPE", "CRVAL", "CDELT", "CRPIX", "CROTA",
    "CUNIT", "CO1_", "CO2_", "PROJP", "PV1_", "PV2_", "END"].map String.toList

/-- the two loops of `filter_wcs` (wcs.hpp:219-225) -/
def keepCards (okeys : List Str) : List Str := okeys.foldl (fun n k => wcsKeys.foldl (fun n wk => if beginsWith k wk then n ++ [k] else n) n) []

/-- `filter_wcs` (wcs.hpp:209-229) -/
def filterWcs (hdr : Str) : Res Str := do
  let okeys ← cut hdr 80
  .ok (collapse (keepCards okeys))

end Verif.WcsHeader
