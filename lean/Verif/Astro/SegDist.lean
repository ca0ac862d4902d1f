import Verif.Astro.Segment
/-!
# Model of `segment_distance` (`astro/image.hpp:1281-1391`)

Positions are `(y,x)` with `y` the first index, as in the source. A pair of stacks `oy`, `ox` is one list whose head is
the back of the vectors. `dmap` holds `none` for `dinf` and otherwise the squared distance, which is a sum of two squares
of integers: the `double`s are exact below `2^53`. The counter `npix` is never read and is left out. The `while` loops
carry a fuel argument; running out of fuel is `diverge`, and the theorems show that the fuel given is always enough.
-/
namespace Verif.Astro
open Verif

/-- `npos` -/
def npos64 : Nat := 2 ^ 64 - 1

/-- `sqr(double(tty) - oy) + sqr(double(ttx) - ox)` (`astro/image.hpp:1358-1360`) -/
def sqd (p q : Nat × Nat) : Nat := ((p.1 : Int) - q.1).natAbs ^ 2 + ((p.2 : Int) - q.2).natAbs ^ 2

/-- variables of the initialisation: the maps, the stack `toy`, `tox`, and `oy`, `ox` of the current `obj_state` -/
structure DInit where
  map : Img Nat
  omap : Img Nat
  dmap : Img (Option Nat)
  imap : Img Nat
  st : List (Nat × Nat)
  o : List (Nat × Nat)
deriving DecidableEq, Repr

/-- `check_add` of the initialisation (`astro/image.hpp:1316-1327`) -/
def dinitAdd (id : Nat) (p : Nat × Nat) (s : DInit) (q : Nat × Nat) : Res DInit := do
  let a ← s.omap.get q.1 q.2
  if a = id then .ok { s with st := q :: s.st }
  else do
    let b ← s.map.get q.1 q.2
    if b = 0 then do
      let map ← s.map.put q.1 q.2 id
      let dmap ← s.dmap.put q.1 q.2 (some 1)
      let imap ← s.imap.put q.1 q.2 (p.1 * s.map.ny + p.2)
      .ok { s with map := map, dmap := dmap, imap := imap, o := q :: s.o }
    else .ok s

/-- `process_point` of the initialisation (`astro/image.hpp:1310-1333`) -/
def dinitPoint (id : Nat) (s : DInit) (p : Nat × Nat) : Res DInit := do
  let omap ← s.omap.put p.1 p.2 0
  let dmap ← s.dmap.put p.1 p.2 (some 0)
  let imap ← s.imap.put p.1 p.2 (p.1 * s.map.ny + p.2)
  (nbrs s.map.nx s.map.ny p.1 p.2).foldlM (dinitAdd id p) { s with omap := omap, dmap := dmap, imap := imap }

/-- the `while` loop of the initialisation (`astro/image.hpp:1337-1341`) -/
def dinitLoop (id : Nat) : Nat → DInit → Res DInit
  | 0, _ => .diverge
  | n + 1, s =>
    match s.st with
    | [] => .ok s
    | p :: st => do
      let s ← dinitPoint id { s with st := st } p
      dinitLoop id n s

/-- state of the scan: the maps and the list `states`, as pairs of an id and the stack `oy`, `ox` -/
structure DScan where
  map : Img Nat
  omap : Img Nat
  dmap : Img (Option Nat)
  imap : Img Nat
  states : List (Nat × List (Nat × Nat))
deriving DecidableEq, Repr

/-- body of the scan (`astro/image.hpp:1297-1342`) -/
def dscanBody (y x : Nat) (s : DScan) : Res DScan := do
  let a ← s.omap.get y x
  if a = 0 then .ok s
  else do
    let id ← s.map.get y x
    let f ← dinitPoint id ⟨s.map, s.omap, s.dmap, s.imap, [], []⟩ (y, x)
    let f ← dinitLoop id (10 * s.map.px.length + 10) f
    .ok ⟨f.map, f.omap, f.dmap, f.imap, s.states ++ [(id, f.o)]⟩

/-- variables of the growth: the maps, and `oy`, `ox` of the current state -/
structure Grow where
  map : Img Nat
  dmap : Img (Option Nat)
  imap : Img Nat
  o : List (Nat × Nat)
deriving DecidableEq, Repr

/-- `dmap.safe(tty,ttx) > nd` -/
def farther (d : Option Nat) (nd : Nat) : Bool :=
  match d with
  | none => true
  | some d => decide (nd < d)

/-- `check_add` of the growth (`astro/image.hpp:1357-1369`) -/
def growAdd (id : Nat) (p : Nat × Nat) (s : Grow) (q : Nat × Nat) : Res Grow := do
  let i ← s.imap.get p.1 p.2
  let nd := sqd q (i / s.imap.ny, i % s.imap.ny)
  let d ← s.dmap.get q.1 q.2
  if farther d nd then do
    let map ← s.map.put q.1 q.2 id
    let imap ← s.imap.put q.1 q.2 i
    let dmap ← s.dmap.put q.1 q.2 (some nd)
    .ok ⟨map, dmap, imap, q :: s.o⟩
  else .ok s

/-- `process_point` of the growth (`astro/image.hpp:1354-1375`) -/
def growPoint (id : Nat) (s : Grow) (p : Nat × Nat) : Res Grow :=
  (nbrs s.map.nx s.map.ny p.1 p.2).foldlM (growAdd id p) s

/-- one round over the states (`astro/image.hpp:1348-1385`): the new states, the maps, and `starved` -/
def growRound : List (Nat × List (Nat × Nat)) → Grow → Res (List (Nat × List (Nat × Nat)) × Grow × Bool)
  | [], s => .ok ([], s, true)
  | (id, o) :: r, s =>
    if o = [] then do
      let (r', s, b) ← growRound r s
      .ok ((id, o) :: r', s, b)
    else do
      let s ← o.foldlM (growPoint id) { s with o := [] }
      let (r', s', _) ← growRound r s
      .ok ((id, s.o) :: r', s', false)

/-- the growth (`astro/image.hpp:1345-1386`) -/
def growLoop : Nat → List (Nat × List (Nat × Nat)) → Grow → Res Grow
  | 0, _, _ => .diverge
  | n + 1, states, s => do
    let (states, s, starved) ← growRound states s
    if starved then .ok s else growLoop n states s

/-- `segment_distance` (`astro/image.hpp:1281-1391`): the new `map`, `dmap` and `imap` -/
def segmentDistance (map : Img Nat) : Res (Img Nat × Img (Option Nat) × Img Nat) := do
  let s ← for2 map.nx map.ny dscanBody
    ⟨map, map, Img.fill map.nx map.ny none, Img.fill map.nx map.ny npos64, []⟩
  let g ← growLoop (map.px.length * (map.nx ^ 2 + map.ny ^ 2) + 3) s.states ⟨s.map, s.dmap, s.imap, []⟩
  .ok (g.map, g.dmap, g.imap)

end Verif.Astro
