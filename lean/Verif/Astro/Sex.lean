import Verif.Str.SplitProps
import Verif.Io.TimeProps
import Mathlib.Algebra.Order.Floor.Ring
/-!
# Model of the sexagesimal conversions (`astro/astro.hpp:1028-1128`)

The coordinates are numbers of an ordered field (no rounding).  `to_string` of a `double` and `from_string` to
a `double` are arbitrary functions `fd` and `pd` (values NaN and infinity, which `from_string` accepts, are not
modelled); those for integers are modelled.  Conversions to `int_t` are the integer part; beyond the range of
`int_t` they are undefined, which is not modelled.
-/
namespace Verif.Sex
open Verif Verif.Str Verif.Io

variable {K : Type} [Field K] [LinearOrder K] [IsStrictOrderedRing K] [FloorRing K]

/-- the characters skipped by `operator>>` of the classic locale -/
def isSp (c : Char) : Bool := c = ' ' || c = '\t' || c = '\n' || c = '\r' || c = '\x0b' || c = '\x0c'

/-- unsigned digits -/
def parseNat (s : Str) : Option Nat := if s ≠ [] ∧ s.all Char.isDigit then some (Nat.ofDigitChars 10 s 0) else none

/-- a text without surrounding spaces, for an optionally signed integer -/
def parseInt : Str → Option Int
  | '-' :: u => (parseNat u).map fun n : Nat => -(n : Int)
  | '+' :: u => (parseNat u).map fun n : Nat => (n : Int)
  | u => (parseNat u).map fun n : Nat => (n : Int)

/-- `from_string` to a 64 bit integer (core/string_conversion.hpp:193-207): spaces, the number, and nothing but
spaces after it; a number out of range is refused by `operator>>` -/
def fromInt (s : Str) : Option Int :=
  (parseInt ((s.dropWhile isSp).reverse.dropWhile isSp).reverse).filter fun z => decide (-2 ^ 63 ≤ z ∧ z < 2 ^ 63)

/-- `to_string` of an integer -/
def decInt (z : Int) : Str := if z < 0 then '-' :: dec z.natAbs else dec z.natAbs

/-- `sign` (math/base.hpp:94-97) -/
def sgn {R : Type*} [LE R] [Zero R] [DecidableLE R] (x : R) : Int := if 0 ≤ x then 1 else -1

/-- the three components read from the pieces of a text (astro.hpp:1032, 1041-1046) -/
def comps (pd : Str → Option K) : List Str → Option (Int × Int × K)
  | [a, b, c] =>
    match fromInt a, fromInt b, pd c with
    | some h, some m, some s => some (h, m, s)
    | _, _, _ => none
  | _ => none

/-- the value of the three components (astro.hpp:1052-1056) -/
def value (p : Int × Int × K) : K := (p.1 : K) + p.2.1 * (sgn p.1 : Int) / 60 + p.2.2 * (sgn p.1 : Int) / 3600

/-- `sex2deg` (astro.hpp:1028-1059): the returned flag, right ascension and declination (`none` is NaN) -/
def sex2deg (pd : Str → Option K) (sra sdec : Str) : Res (Bool × Option K × Option K) := do
  let a ← split sra [':']
  let b ← split sdec [':']
  match comps pd a, comps pd b with
  | some a, some b => .ok (true, some (value a * 15), some (value b))
  | _, _ => .ok (false, none, none)

/-- `sex2deg` of vectors (astro.hpp:1061-1077) -/
def sex2degVec (pd : Str → Option K) (sra sdec : List Str) : Res (List (Bool × Option K × Option K)) := do
  Res.check (sra.length = sdec.length)
  (List.range sra.length).mapM fun i => do
    let a ← Res.rd sra i
    let b ← Res.rd sdec i
    sex2deg pd a b

/-- `format_sec` in `deg2sex` (astro.hpp:1096-1112), applied to the text of the seconds -/
def formatSec (s : Str) : Str :=
  match s.idxOf? '.' with
  | none => if s.length ≠ 2 then '0' :: s ++ ['.', '0'] else s ++ ['.', '0']
  | some p => if p ≠ 2 then '0' :: s else s

/-- the components computed by `deg2sex` (astro.hpp:1083-1085, 1090-1092), of a non-negative number -/
def parts (x : K) : Int × Int × K :=
  let h := ⌊x⌋
  let m := ⌊(x - h) * 60⌋
  (h, m, ((x - h) * 60 - m) * 60)

/-- one of the two texts of `deg2sex` (astro.hpp:1083-1086, 1114): `x` is the absolute value, `sg` the sign -/
def sexText (fd : K → Str) (sg : Int) (x : K) : Str :=
  let (h, m, s) := parts x
  decInt (h * sg) ++ [':'] ++ alignRight (decInt m) 2 '0' ++ [':'] ++ formatSec (fd s)

/-- `deg2sex` (astro.hpp:1080-1116) -/
def deg2sex (fd : K → Str) (ra dec : K) : Str × Str :=
  (sexText fd (sgn ra) (ra / (15 * (sgn ra : Int))), sexText fd (sgn dec) (dec * (sgn dec : Int)))

end Verif.Sex
