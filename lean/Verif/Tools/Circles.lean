import Verif.Astro.Ds9
import Verif.Astro.Ds9Mask
/-!
# Model of the masks of `qmask` (`tools/qmask/qmask.cpp`)

`Ds9.Env` has the conversions from text, as for the reader of the library (C115). The same reader of circles is in `qaper.cpp:6-97` and in `pixfit-common.hpp:123-233`.
-/
namespace Verif.Circles
open Verif Verif.Str Verif.Astro Verif.Ds9

variable {K : Type}

/-- a circle: the first coordinate, the second, the radius -/
abbrev Circ (K : Type) := K × K × K

/-- the position and the radius of a circle (`qmask.cpp:45-78`); `none` for an error -/
def readCircle (env : Env K) (physical : Bool) (a b c : Str) : Res (Option (Circ K)) :=
  let pos : Option (K × K) := if (firstOf a [':'] 0).isSome then (if endsWith c ['"'] then env.sex a b else none)
    else match env.num a, env.num b with
      | some x, some y => some (x, y)
      | _, _ => none
  match pos with
  | none => .ok none
  | some (x, y) =>
    if physical then .ok ((env.num c).map fun r => (x, y, r))
    else do
      let c ← eraseEnd c ['"']
      .ok ((env.num c).map fun r => (x, y, r))

/-- the loop of `read_ds9_region_circles`: `physical` and the circles -/
structure St (K : Type) where
  physical : Bool
  regs : List (Circ K)

/-- one line of `read_ds9_region_circles` (`qmask.cpp:13-95`); `none` for an error. `qmask` gives no colour: the colours (`qmask.cpp:17-25, 80-90`) have no effect. -/
def circleLine (env : Env K) (s : St K) (line : Str) : Res (Option (St K)) := do
  let t ← trim line blanks
  if line = [] ∨ t = [] ∨ t.head? = some '#' then .ok (some s)
  else if beginsWith line sGlobal then .ok (some s)
  else match firstOf line ['('] 0 with
    | none => .ok (some (if t = "fk5".toList then { s with physical := false } else if t = sPhysical then { s with physical := true } else s))
    | some spos => do
      let ty ← substr line 0 spos
      let type ← trim ty blanks
      if type ≠ sCircle then .ok (some s)
      else do
        let targs ← between line (spos + 1) (firstOf line [')'] (spos + 1))
        let pieces ← split targs [',']
        let args ← pieces.mapM fun p => trim p blanks
        match args with
        | [a, b, c] => do
          match ← readCircle env s.physical a b c with
          | none => .ok none
          | some circ => .ok (some { s with regs := s.regs ++ [circ] })
        | _ => .ok none

/-- the loop on the lines (`qmask.cpp:13-99`) -/
def circleLoop (env : Env K) : St K → List Str → Res (Option (St K))
  | s, [] => .ok (some s)
  | s, line :: lines => do
    match ← circleLine env s line with
    | none => .ok none
    | some s => circleLoop env s lines

/-- `read_ds9_region_circles` (`qmask.cpp:6-99`): the circles and `physical` -/
def readCircles (env : Env K) (lines : List Str) : Res (Option (List (Circ K) × Bool)) := do
  match ← circleLoop env ⟨false, []⟩ lines with
  | none => .ok none
  | some s => .ok (some (s.regs, s.physical))

/-- what is known of the astrometry of the image: `ad2xy`, and the pixel size if it is known -/
structure Sky (K : Type) where
  ad2xy : K × K → K × K
  aspix : Option K

/-- `read_ds9_region_circles_physical` (`qmask.cpp:101-131`); the image has coordinates if `sky` is given. Without circles, `regs(_,2)` on an empty vector aborts. -/
def pixelCircles [Field K] (env : Env K) (sky : Option (Sky K)) (lines : List Str) : Res (Option (List (Circ K))) := do
  match ← readCircles env lines with
  | none => .ok none
  | some (regs, physical) =>
    if physical then .ok (some regs)
    else match sky with
      | none => .ok none
      | some w => match w.aspix with
        | none => .ok none
        | some aspix =>
          if regs = [] then .abort
          else .ok (some (regs.map fun c => ((w.ad2xy (c.1, c.2.1)).1 - 1, (w.ad2xy (c.1, c.2.1)).2 - 1, c.2.2 / aspix)))

/-- the mask (`qmask.cpp:151-158`): the sum of the circles, between 0 and 1; `nx` is `dims[0]` -/
def maskOf [Field K] [LinearOrder K] [FloorRing K] (nx ny : Nat) (regs : List (Circ K)) : Res (Img K) := do
  let m ← regs.foldlM (fun (m : Img K) c => do
    let d ← circularMask nx ny c.2.2 c.2.1 c.1
    .ok { m with px := List.zipWith (· + ·) m.px d.px }) (Img.fill nx ny 0)
  .ok { m with px := m.px.map fun v => if v < 0 then 0 else if 1 < v then 1 else v }

/-- `qmask` -/
def qmask [Field K] [LinearOrder K] [FloorRing K] (env : Env K) (sky : Option (Sky K)) (nx ny : Nat) (lines : List Str) : Res (Option (Img K)) := do
  match ← pixelCircles env sky lines with
  | none => .ok none
  | some regs => do
    let m ← maskOf nx ny regs
    .ok (some m)

end Verif.Circles
