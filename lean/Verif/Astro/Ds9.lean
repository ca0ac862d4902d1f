import Verif.Str.Model
import Mathlib.Algebra.Field.Basic
/-!
# DS9 region files (`astro/ds9.hpp`)

The contents of a file are the list of its lines. The conversions between texts and floating point numbers are parameters: `num` is
`from_string`, `fmt` is `operator<<` with 12 digits. `sex` is `sex2deg` (C105), and a WCS is given by its two conversions and its pixel size.
Warnings are not modelled.
-/
namespace Verif.Ds9
open Verif Verif.Str

variable {K : Type}

/-- `region` (ds9.hpp:9-16) -/
structure Region (K : Type) where
  type : Str
  color : Str
  text : Str
  physical : Bool
  params : List K
deriving DecidableEq

/-- the conversions from text -/
structure Env (K : Type) where
  num : Str → Option K
  sex : Str → Str → Option (K × K)

/-- the loop of `read_regions`: current colour and mode, and the regions -/
structure St (K : Type) where
  color : Str
  physical : Bool
  regs : List (Region K)

def sGreen : Str := "green".toList
def sColor : Str := "color=".toList
def sText : Str := "text=".toList
def sGlobal : Str := "global".toList
def sPhysical : Str := "physical".toList
def sCircle : Str := "circle".toList
def sBox : Str := "box".toList

/-- `line.substr(pos, epos - pos)`, to the end of the line if `epos` is `npos` -/
def between (line : Str) (pos : Nat) : Option Nat → Res Str
  | some e => substr line pos (e - pos)
  | none => substrFrom line pos

/-- the value after `key` (ds9.hpp:32-37, 158-170): up to the next blank, or to the end of the line -/
def value (line key : Str) (start : Nat) : Res (Option Str) :=
  match sfind line key start with
  | none => .ok none
  | some p => do
    let pos := p + key.length
    let t ← between line pos (firstOf line [' ', '\t'] pos)
    let t ← trim t blanks
    .ok (some t)

/-- `read_dim` (ds9.hpp:91-115) -/
def readDim (env : Env K) (physical : Bool) (from_ : Str) : Res (Option K) :=
  if physical then .ok (env.num from_)
  else if endsWith from_ ['"'] then do
    let f ← eraseEnd from_ ['"']
    .ok (env.num f)
  else .ok none

/-- the centre (ds9.hpp:64-89) -/
def centre [Ring K] (env : Env K) (physical : Bool) (a b : Str) : Option (K × K) :=
  let c := if (firstOf a [':'] 0).isSome then (if physical then none else env.sex a b)
    else match env.num a, env.num b with
      | some x, some y => some (x, y)
      | _, _ => none
  c.map fun p => if physical then (p.1 - 1, p.2 - 1) else p

/-- the parameters of a region of a given type (ds9.hpp:117-153), `none` if the line is ignored -/
def params [Ring K] (env : Env K) (physical : Bool) (type : Str) (args : List Str) : Res (Option (List K)) :=
  match args with
  | a :: b :: rest =>
    match centre env physical a b with
    | none => .ok none
    | some (x0, y0) =>
      if type = sCircle then match rest with
        | [r] => do
          match ← readDim env physical r with
          | some rad => .ok (some [x0, y0, rad])
          | none => .ok none
        | _ => .ok none
      else if type = sBox then match rest with
        | [w, h, an] => do
          match ← readDim env physical w with
          | none => .ok none
          | some width =>
            match ← readDim env physical h with
            | none => .ok none
            | some height => match env.num an with
              | some angle => .ok (some [x0, y0, width, height, angle])
              | none => .ok none
        | _ => .ok none
      else .ok none
  | _ => .ok none

/-- the display options of a region (ds9.hpp:155-171), searched after the first `#` that follows the parameters -/
def options (line : Str) (epos : Option Nat) (color : Str) : Res (Str × Str) :=
  match epos.bind fun e => firstOf line ['#'] e with
  | none => .ok (color, [])
  | some spos => do
    let c ← value line sColor (spos + 1)
    let t ← value line sText (spos + 1)
    .ok (c.getD color, t.getD [])

/-- one line of `read_regions` (ds9.hpp:28-174) -/
def readLine [Ring K] (env : Env K) (s : St K) (line : Str) : Res (St K) := do
  let t ← trim line blanks
  if line = [] ∨ t = [] ∨ t.head? = some '#' then .ok s
  else if beginsWith line sGlobal then do
    let c ← value line sColor 0
    .ok { s with color := c.getD s.color }
  else match firstOf line ['('] 0 with
    | none => .ok (if t = sPhysical then { s with physical := true } else s)
    | some spos => do
      let ty ← substr line 0 spos
      let type ← trim ty blanks
      let epos := firstOf line [')'] (spos + 1)
      let targs ← between line (spos + 1) epos
      let pieces ← split targs [',']
      let args ← pieces.mapM fun p => trim p blanks
      match ← params env s.physical type args with
      | none => .ok s
      | some ps => do
        let (color, text) ← options line epos s.color
        .ok { s with regs := s.regs ++ [⟨type, color, text, s.physical, ps⟩] }

/-- `read_regions` (ds9.hpp:18-175): the regions are added to `regs` -/
def readRegions [Ring K] (env : Env K) (file : List Str) (regs : List (Region K)) : Res (List (Region K)) := do
  let s ← file.foldlM (readLine env) ⟨sGreen, false, regs⟩
  .ok s.regs

/-- a WCS: `xy2ad`, `ad2xy` and the pixel size -/
structure Wcs (K : Type) where
  xy2ad : K × K → K × K
  ad2xy : K × K → K × K
  aspix : K

/-- `physical_to_wcs` (ds9.hpp:177-200). `params` is checked by the accesses. -/
def physicalToWcs [Field K] (w : Wcs K) (r : Region K) : Res (Region K) :=
  if !r.physical then .ok r
  else match r.params with
    | x :: y :: rest =>
      let (ra, dec) := w.xy2ad (x + 1, y + 1)
      if r.type = sCircle then match rest with
        | rad :: rest => .ok { r with params := ra :: dec :: rad * w.aspix :: rest, physical := false }
        | _ => .abort
      else if r.type = sBox then match rest with
        | wi :: he :: rest => .ok { r with params := ra :: dec :: wi * w.aspix :: he * w.aspix :: rest, physical := false }
        | _ => .abort
      else .abort
    | _ => .abort

/-- `wcs_to_physical` (ds9.hpp:202-225) -/
def wcsToPhysical [Field K] (w : Wcs K) (r : Region K) : Res (Region K) :=
  if r.physical then .ok r
  else match r.params with
    | ra :: dec :: rest =>
      let (x, y) := w.ad2xy (ra, dec)
      if r.type = sCircle then match rest with
        | rad :: rest => .ok { r with params := (x - 1) :: (y - 1) :: rad / w.aspix :: rest, physical := true }
        | _ => .abort
      else if r.type = sBox then match rest with
        | wi :: he :: rest => .ok { r with params := (x - 1) :: (y - 1) :: wi / w.aspix :: he / w.aspix :: rest, physical := true }
        | _ => .abort
      else .abort
    | _ => .abort

/-- `write_region` (ds9.hpp:308-321); `ss` is the suffix of the sizes -/
def writeRegion (fmt : K → Str) (ss : Str) (r : Region K) : Res Str :=
  if r.type = sCircle then match r.params with
    | x :: y :: rad :: _ => .ok (r.type ++ ['('] ++ fmt x ++ [',', ' '] ++ fmt y ++ [',', ' '] ++ fmt rad ++ ss ++ [')'])
    | _ => .abort
  else if r.type = sBox then match r.params with
    | x :: y :: wi :: he :: an :: _ =>
      .ok (r.type ++ ['('] ++ fmt x ++ [',', ' '] ++ fmt y ++ [',', ' '] ++ fmt wi ++ ss ++ [',', ' '] ++ fmt he ++ ss ++ [',', ' '] ++ fmt an ++ [')'])
    | _ => .abort
  else .abort

/-- the two lines of the header (ds9.hpp:332-335) -/
def header : List Str :=
  ["# Region file format: DS9 version 4.1".toList,
    ("global color=green dashlist=8 3 width=1 font=\"helvetica 10 normal " ++
      "roman\" select=1 highlite=1 dash=0 fixed=0 edit=1 move=1 delete=1 include=1 source=1").toList]

/-- `write_regions_wcs` (ds9.hpp:328-360); `spatial` is `w.type[0] == axis_type::spatial` -/
def writeWcs [Field K] (fmt : K → Str) (w : Wcs K) (spatial : Bool) (regs : List (Region K)) : Res (List Str) := do
  let ls ← regs.mapM fun r => do
    let n ← physicalToWcs w r
    writeRegion fmt (if spatial then ['"'] else []) n
  .ok (header ++ [if spatial then "fk5".toList else "wcs;".toList] ++ ls)

/-- `write_regions_physical` with a WCS (ds9.hpp:362-385) -/
def writePhysicalWcs [Field K] (fmt : K → Str) (w : Wcs K) (regs : List (Region K)) : Res (List Str) := do
  let ls ← regs.mapM fun r => do
    let n ← wcsToPhysical w r
    writeRegion fmt [] n
  .ok (header ++ [sPhysical] ++ ls)

/-- `write_regions_physical` (ds9.hpp:387-402) -/
def writePhysical (fmt : K → Str) (regs : List (Region K)) : Res (List Str) := do
  let ls ← regs.mapM fun r => do
    Res.check (r.physical = true)
    writeRegion fmt [] r
  .ok (header ++ [sPhysical] ++ ls)

/-- `read_regions_physical` with a WCS (ds9.hpp:227-238) -/
def readPhysicalWcs [Field K] (env : Env K) (w : Wcs K) (valid : Bool) (file : List Str) (regs : List (Region K)) : Res (List (Region K)) := do
  let rs ← readRegions env file regs
  Res.check (valid = true)
  rs.mapM (wcsToPhysical w)

/-- `read_regions_physical` (ds9.hpp:240-245) -/
def readPhysical [Ring K] (env : Env K) (file : List Str) (regs : List (Region K)) : Res (List (Region K)) := do
  let rs ← readRegions env file regs
  Res.check (∀ r ∈ rs, r.physical = true)
  .ok rs

end Verif.Ds9
