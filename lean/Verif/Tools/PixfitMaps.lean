import Verif.Io.Path
/-!
# Model of the list of maps of `pixfit` (`tools/pixfit/pixfit-common.hpp`)

The file is the list of its lines. `rd` is `from_string` to `float`.
-/
namespace Verif.Pixfit
open Verif Verif.Str

variable {V : Type}

/-- `map_info` (`pixfit-common.hpp:6-17`) -/
structure MapInfo (V : Type) where
  band : Str
  img : Str
  err : Str
  psf : Str
  fconv : V
  gfit : V
  gaper : V
  gaperSize : V
  beamFlux : V
  beamSmear : V
  deriving DecidableEq

/-- the values of the constants of `map_info`: 1, 0.97, 0.8 and NaN -/
structure Defaults (V : Type) where
  one : V
  fit : V
  aper : V
  nan : V

/-- `map_info{}` (`pixfit-common.hpp:6-17`) -/
def MapInfo.empty (d : Defaults V) : MapInfo V := ⟨[], [], [], [], d.one, d.fit, d.aper, d.nan, d.one, d.nan⟩

/-- `fix_path` (`pixfit-common.hpp:53-59`) -/
def fixPath (file path : Str) : Res Str :=
  if path ≠ [] ∧ path.head? ≠ some '/' then do
    let d ← Io.getDirectory file
    .ok (d ++ path)
  else .ok path

/-- a line `key = value` (`pixfit-common.hpp:61-98`); `none` for an error -/
def setKey (file : Str) (rd : Str → Option V) (c : MapInfo V) (key val : Str) : Res (Option (MapInfo V)) :=
  if key = "sci".toList then do
    let p ← fixPath file val
    .ok (some { c with img := p })
  else if key = "err".toList then do
    let p ← fixPath file val
    .ok (some { c with err := p })
  else if key = "psf".toList then do
    let p ← fixPath file val
    .ok (some { c with psf := p })
  else if key = "fconv".toList then .ok ((rd val).map fun v => { c with fconv := v })
  else if key = "smooth_radius".toList then .ok ((rd val).map fun v => { c with beamSmear := v })
  else if key = "beam_flux".toList then .ok ((rd val).map fun v => { c with beamFlux := v })
  else if key = "gfit_threshold".toList then .ok ((rd val).map fun v => { c with gfit := v })
  else if key = "gaper_threshold".toList then .ok ((rd val).map fun v => { c with gaper := v })
  else if key = "gaper_size".toList then .ok ((rd val).map fun v => { c with gaperSize := v })
  else .ok (some c)

/-- a map is added at the end of its part (`pixfit-common.hpp:34-47, 104-117`); `none` for an error -/
def pushMap (c : MapInfo V) (maps : List (MapInfo V)) : Option (List (MapInfo V)) :=
  if c.band ≠ [] then
    if c.img = [] then none
    else if c.err = [] then none
    else if c.psf = [] then none
    else some (maps ++ [c])
  else some maps

/-- one line (`pixfit-common.hpp:29-102`); the variables are `current` and `maps` -/
def mapLine (file : Str) (d : Defaults V) (rd : Str → Option V) (s : MapInfo V × List (MapInfo V)) (line : Str) : Res (Option (MapInfo V × List (MapInfo V))) := do
  let line ← trim line blanks
  if line = [] ∨ line.head? = some '#' then .ok (some s)
  else do
    let pieces ← split line ['=']
    let spl ← pieces.mapM fun p => trim p blanks
    match spl with
    | [_] => .ok ((pushMap s.1 s.2).map fun maps => ({ MapInfo.empty d with band := line }, maps))
    | [k, v] => do
      match ← setKey file rd s.1 k v with
      | none => .ok none
      | some c => .ok (some (c, s.2))
    | _ => .ok none

/-- the loop and the end of `read_maps` (`pixfit-common.hpp:26-120`) -/
def mapLoop (file : Str) (d : Defaults V) (rd : Str → Option V) : MapInfo V × List (MapInfo V) → List Str → Res (Option (List (MapInfo V)))
  | s, [] => .ok (pushMap s.1 s.2)
  | s, line :: lines => do
    match ← mapLine file d rd s line with
    | none => .ok none
    | some s => mapLoop file d rd s lines

/-- `read_maps` (`pixfit-common.hpp:19-121`); `none` for `false` -/
def readMaps (file : Str) (d : Defaults V) (rd : Str → Option V) (lines : List Str) : Res (Option (List (MapInfo V))) :=
  mapLoop file d rd (MapInfo.empty d, []) lines

end Verif.Pixfit
