import Verif.Str.Model
import Mathlib.Algebra.Field.Defs
/-!
# Axes and conversions of a WCS (`astro/wcs.hpp:300-1130`)

`wcslib` is a parameter: the structure `Prm` is what it reads from a header, with its two conversions of a point (`wcsp2s`, `wcss2p`), which are assumed to
succeed. Its arrays have one element by axis, in the order of the FITS keywords; `vif` numbers the axes in the reverse order. The unsigned integers have
64 bits. Numbers are in a field, without rounding.
-/
namespace Verif.Wcs
open Verif Verif.Str

variable {K : Type}

/-- `2^64` -/
abbrev W : Nat := 2 ^ 64

/-- `npos` -/
abbrev npos : Nat := W - 1

/-- the difference of two `uint_t` -/
def sub64 (a b : Nat) : Nat := (a + (W - b)) % W

/-- `wcsprm` -/
structure Prm (K : Type) where
  naxis : Nat
  ctype : List Str
  cunit : List Str
  crpix : List K
  crval : List K
  p2s : List K → List K
  s2p : List K → List K

/-- `axis_type` (wcs.hpp:321-323) -/
inductive AxisType
  | spatial | wave | freq | unknown
deriving DecidableEq

/-- `axis_unit` (wcs.hpp:300-319) -/
inductive Unit
  | native | wcslib | m | cm | mm | um | nm | angstrom | hz | khz | mhz | ghz | thz | deg | rad
deriving DecidableEq

/-- `wcs` (wcs.hpp:351-361) -/
structure Wcs (K : Type) where
  prm : Option (Prm K)
  dims : List Nat
  hasUnit : List Bool
  type : List AxisType
  ra : Nat
  dec : Nat
  x : Nat
  y : Nat

/-- `axis_count` (wcs.hpp:477-479) -/
def axisCount (w : Wcs K) : Nat := match w.prm with
  | some p => p.naxis
  | none => 0

/-- `split(w->ctype[i], "-")[0]`, with the check of the bounds -/
def kind (p : Prm K) (i : Nat) : Res Str := do
  let c ← Res.rd p.ctype i
  match ← split c ['-'] with
  | [] => .abort
  | a :: _ => .ok a

/-- the loop of `find_axis` (wcs.hpp:481-490); the name is given in upper case -/
def findLoop (p : Prm K) (name : Str) : List Nat → Res Nat
  | [] => .ok npos
  | i :: l => do
    let t ← kind p i
    if t = name then .ok (p.naxis - 1 - i) else findLoop p name l

/-- `find_axis` (wcs.hpp:481-490) -/
def findAxis (p : Prm K) (name : Str) : Res Nat := findLoop p name (List.range p.naxis)

/-- one turn of the loops of the constructor (wcs.hpp:417-446): element `naxis-1-i` is assigned if there is a value -/
def fillStep {α : Type} (n : Nat) (f : Nat → Res (Option α)) (l : List α) (i : Nat) : Res (List α) := do
  match ← f i with
  | some v => .ok (l.set (n - 1 - i) v)
  | none => .ok l

/-- the loops of the constructor (wcs.hpp:417-446) -/
def fillRev {α : Type} (n : Nat) (d : α) (f : Nat → Res (Option α)) : Res (List α) :=
  (List.range n).foldlM (fillStep n f) (List.replicate n d)

/-- the type of an axis (wcs.hpp:436-445) -/
def typeOf (t : Str) : Option AxisType :=
  if t = "RA".toList then some .spatial else if t = "DEC".toList then some .spatial else if t = "WAVE".toList then some .wave
  else if t = "FREQ".toList then some .freq else none

/-- the axes of the sky (wcs.hpp:448-458): the second test is on the same variable as the first -/
def skyAxes (tx ty : Nat) : Nat × Nat × Nat × Nat :=
  if tx ≠ npos ∧ tx ≠ npos then (if tx < ty then (tx, ty, ty, tx) else (tx, ty, tx, ty)) else (1, 0, 1, 0)

/-- the constructor (wcs.hpp:417-458), once the header is read. `size i` is the value of the keyword `NAXISi`. -/
def ofPrm (size : Nat → Option Nat) (p : Prm K) : Res (Wcs K) := do
  let dims ← fillRev p.naxis 0 fun i => .ok (size (i + 1))
  let hasUnit ← fillRev p.naxis false fun i => do
    let u ← Res.rd p.cunit i
    let t ← trim u blanks
    .ok (some (decide (t ≠ [])))
  let type ← fillRev p.naxis .unknown fun i => do
    let t ← kind p i
    .ok (typeOf t)
  let tx ← findAxis p "RA".toList
  let ty ← findAxis p "DEC".toList
  let a := skyAxes tx ty
  .ok ⟨some p, dims, hasUnit, type, a.1, a.2.1, a.2.2.1, a.2.2.2⟩

/-- the type expected for a unit (wcs.hpp:510-530) -/
def unitType : Unit → AxisType
  | .native => .unknown
  | .wcslib => .unknown
  | .m => .wave
  | .cm => .wave
  | .mm => .wave
  | .um => .wave
  | .nm => .wave
  | .angstrom => .wave
  | .hz => .freq
  | .khz => .freq
  | .mhz => .freq
  | .ghz => .freq
  | .thz => .freq
  | .deg => .spatial
  | .rad => .spatial

/-- `valid_unit` (wcs.hpp:492-540) -/
def validUnit (w : Wcs K) (axis : Nat) (u : Unit) : Res Bool :=
  if axisCount w ≤ axis then .ok false else do
  let hu ← Res.rd w.hasUnit axis
  let ty ← Res.rd w.type axis
  if (if hu then u = .native else u ≠ .native) then .ok false
  else if ty ≠ .unknown ∧ unitType u ≠ .unknown ∧ ty ≠ unitType u then .ok false
  else .ok true

/-- `v.safe(i, j) = x` on a matrix of `n` columns, not checked -/
def put (n : Nat) (l : List K) (i j : Nat) (x : K) : Res (List K) :=
  if (i * n + j) % W < l.length then .ok (l.set ((i * n + j) % W) x) else .ub

/-- `v.safe(i, j)` on a matrix of `n` columns, not checked -/
def get (n : Nat) (l : List K) (i j : Nat) : Res K := Res.rd l ((i * n + j) % W)

/-- `world2pix`, `pix2world` (wcs.hpp:653-706): the conversion of each row -/
def convert (f : List K → List K) (npt n : Nat) (l : List K) : List K := (List.range npt).flatMap fun i => f ((l.drop (i * n)).take n)

variable [Field K]

/-- the common part of `ad2xy` and `xy2ad` (wcs.hpp:712-784): columns `a` and `b` are filled, the conversion is done, and columns `c` and `d` are read -/
def through (f : List K → List K) (n a b c d : Nat) (u v : List K) : Res (List K × List K) := do
  let m ← (List.range u.length).foldlM (fun m i => do
    let s ← Res.rd u i
    let t ← Res.rd v i
    let m ← put n m i a s
    put n m i b t) (List.replicate (u.length * n) 0)
  let r := convert f u.length n m
  let xs ← (List.range u.length).mapM fun i => get n r i c
  let ys ← (List.range u.length).mapM fun i => get n r i d
  .ok (xs, ys)

/-- the column of an axis -/
def col (n axis : Nat) : Nat := sub64 (sub64 n 1) axis

/-- `ad2xy` (wcs.hpp:712-747) -/
def ad2xy (w : Wcs K) (ra dec : List K) : Res (List K × List K) :=
  match w.prm with
  | none => .abort
  | some p => do
    Res.check (ra.length = dec.length)
    if ra.length = 0 then .ok ([], []) else through p.s2p p.naxis (col p.naxis w.ra) (col p.naxis w.dec) (col p.naxis w.x) (col p.naxis w.y) ra dec

/-- `xy2ad` (wcs.hpp:749-784) -/
def xy2ad (w : Wcs K) (x y : List K) : Res (List K × List K) :=
  match w.prm with
  | none => .abort
  | some p => do
    Res.check (x.length = y.length)
    if x.length = 0 then .ok ([], []) else through p.p2s p.naxis (col p.naxis w.x) (col p.naxis w.y) (col p.naxis w.ra) (col p.naxis w.dec) x y

/-- `conv_si2unit` (wcs.hpp:943-967); `pi` is `dpi` -/
def conv (pi : K) : Unit → K
  | .native => 1
  | .wcslib => 1
  | .m => 1
  | .cm => 10 ^ 2
  | .mm => 10 ^ 3
  | .um => 10 ^ 6
  | .nm => 10 ^ 9
  | .angstrom => 10 ^ 10
  | .hz => 1
  | .khz => 1 / 10 ^ 3
  | .mhz => 1 / 10 ^ 6
  | .ghz => 1 / 10 ^ 9
  | .thz => 1 / 10 ^ 12
  | .deg => 1
  | .rad => pi / 180

/-- the checks common to `x2w`, `w2x` and `build_axis` (wcs.hpp:997-1005): the structure -/
def checked (w : Wcs K) (axis : Nat) (u : Unit) : Res (Prm K) :=
  match w.prm with
  | none => .abort
  | some p => do
    Res.check (axis < p.naxis)
    let v ← validUnit w axis u
    Res.check (v = true)
    .ok p

/-- `x2w` (wcs.hpp:989-1020): a row is the reference pixel with one element replaced. The test `conv != 1` before the product is left out. -/
def x2w (pi : K) (w : Wcs K) (axis : Nat) (u : Unit) (x : List K) : Res (List K) := do
  let p ← checked w axis u
  let c := p.naxis - 1 - axis
  let world := x.map fun v => p.p2s (p.crpix.set c v)
  let r ← world.mapM fun l => Res.rd l c
  .ok (r.map (· * conv pi u))

/-- `w2x` (wcs.hpp:1022-1056) -/
def w2x (pi : K) (w : Wcs K) (axis : Nat) (u : Unit) (v : List K) : Res (List K) := do
  let p ← checked w axis u
  let c := p.naxis - 1 - axis
  let tw := v.map (· / conv pi u)
  let pix := tw.map fun v => p.s2p (p.crval.set c v)
  pix.mapM fun l => Res.rd l c

/-- `build_axis` (wcs.hpp:1096-1131) -/
def buildAxis (pi : K) (w : Wcs K) (axis : Nat) (u : Unit) : Res (List K) := do
  let p ← checked w axis u
  let n ← Res.rd w.dims axis
  let c := p.naxis - 1 - axis
  let world := (List.range n).map fun i : Nat => p.p2s (p.crpix.set c ((i : K) + 1))
  let r ← world.mapM fun l => Res.rd l c
  .ok (r.map (· * conv pi u))

end Verif.Wcs
