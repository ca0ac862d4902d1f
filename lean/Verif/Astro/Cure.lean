import Mathlib.Computability.RegularExpressions
import Verif.Io.Header
/-!
# Headers given to WCSlib (`astro/wcs.hpp:234-293`)

`regex_match` with an expression between `^` and `$` is the matching of the whole text (`RegularExpression.rmatch`); with the expression `Lookup` it is the
search of this text. The warnings are not modelled.
-/
namespace Verif.Cure
open Verif Verif.Str Verif.Fits

abbrev Rx := RegularExpression Char

/-- `[...]` -/
def cls (cs : Str) : Rx := cs.foldr (fun c r => RegularExpression.char c + r) 0

/-- the characters of a text, in order -/
def lit (s : Str) : Rx := s.foldr (fun c r => RegularExpression.char c * r) 1

/-- `[0-9]+` -/
def digits : Rx := cls "0123456789".toList * (cls "0123456789".toList).star

/-- `^CUNIT[0-9]+$` (wcs.hpp:246) -/
def rxUnit : Rx := lit "CUNIT".toList * digits

/-- `^C[PQ]DIS[0-9]+$` (wcs.hpp:254) -/
def rxDis : Rx := lit "C".toList * (cls "PQ".toList * (lit "DIS".toList * digits))

/-- `^[AB]P?_([0-9]+_[0-9]+|ORDER)$` (wcs.hpp:262 and 287) -/
def rxSip : Rx := cls "AB".toList * ((lit "P".toList + 1) * (lit "_".toList * (digits * (lit "_".toList * digits) + lit "ORDER".toList)))

/-- `^(D[PQ]|D2IM|(C[PQ]|D2IM)(ERR|DIS|EXT))[0-9]+$` (wcs.hpp:277) -/
def rxFam : Rx := (lit "D".toList * cls "PQ".toList + (lit "D2IM".toList +
  (lit "C".toList * cls "PQ".toList + lit "D2IM".toList) * (lit "ERR".toList + (lit "DIS".toList + lit "EXT".toList)))) * digits

/-- `cpdis_err` and `sipdis_err` (wcs.hpp:239-240) -/
structure Flags where
  cpdis : Bool
  sipdis : Bool

/-- the correction of a unit (wcs.hpp:248-253) -/
def cureUnit (k : Keyword) : Res Keyword := do
  let v ← trim k.value "' ".toList
  .ok (if v = "micron".toList ∨ v = "microns".toList then { k with value := "'um'".toList }
    else if v = "degree".toList ∨ v = "degrees".toList then { k with value := "'deg'".toList } else k)

/-- the first loop (wcs.hpp:243-271) -/
def scan : List Keyword → Flags → Res (List Keyword × Flags)
  | [], f => .ok ([], f)
  | k :: l, f =>
    if rxUnit.rmatch k.key then do
      let k ← cureUnit k
      let (l, f) ← scan l f
      .ok (k :: l, f)
    else if rxDis.rmatch k.key ∧ (sfind k.value "Lookup".toList 0).isSome then do
      let (l, f) ← scan l { f with cpdis := true }
      .ok (k :: l, f)
    else if rxSip.rmatch k.key then do
      let (l, f) ← scan l { f with sipdis := true }
      .ok (k :: l, f)
    else do
      let (l, f) ← scan l f
      .ok (k :: l, f)

/-- `keep[i]` after the other loops (wcs.hpp:273-291) -/
def keep (f : Flags) (k : Keyword) : Bool :=
  let b := true
  let b := if f.cpdis then (if rxFam.rmatch k.key then false else b) else b
  if f.sipdis then (if rxSip.rmatch k.key then false else b) else b

/-- `cure_header` (wcs.hpp:236-293) -/
def cureHeader (hdr : Str) : Res Str := do
  let keys ← parseHeader hdr
  let (keys, f) ← scan keys ⟨false, false⟩
  .ok (serializeHeader (keys.filter (keep f)))

end Verif.Cure
