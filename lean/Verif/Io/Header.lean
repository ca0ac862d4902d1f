import Verif.Str.Model
/-!
# Headers of FITS files (`io/fits/base.hpp:778-1020`)

A header is one text of cards of 80 characters. Values are given and read as text (`to_string` and `from_string` are not modelled). Functions that
report a failure with `false` return `none`; the header is then unchanged.
-/
namespace Verif.Fits
open Verif Verif.Str

/-- card `i` (`base.hpp:783`): `hdr.substr(i*80, std::min(80, hdr.size() - i*80))` -/
def entryAt (hdr : Str) (i : Nat) : Res Str := substr hdr (i * 80) (min 80 (hdr.length - i * 80))

/-- the text between the equal sign and the comment (`base.hpp:786-791`) -/
def rawValue (entry : Str) (eqpos : Nat) : Res Str :=
  match firstOf entry ['/'] eqpos with
  | none => substrFrom entry (eqpos + 1)
  | some cpos => substr entry (eqpos + 1) (cpos - eqpos - 1)

/-- the loop of `getkey` (`base.hpp:781-794`): the text given to `from_string` -/
def getLoop (hdr key : Str) : List Nat → Res (Option Str)
  | [] => .ok none
  | i :: l => do
    let entry ← entryAt hdr i
    match firstOf entry ['='] 0 with
    | none => getLoop hdr key l
    | some eqpos => do
      let n ← substr entry 0 eqpos
      let nam ← trim n blanks
      if nam = key then do
        let v ← rawValue entry eqpos
        let value ← trim v blanks
        .ok (some value)
      else getLoop hdr key l

/-- `getkey` (`base.hpp:779-797`) -/
def getkey (hdr key : Str) : Res (Option Str) := getLoop hdr key (List.range (hdr.length / 80 + 1))

/-- `getkey` into a string (`base.hpp:799-820`): the same loop, then the quotes are removed -/
def getkeyStr (hdr key : Str) : Res (Option Str) := do
  match ← getkey hdr key with
  | none => .ok none
  | some value => if firstOf value ['\''] 0 = some 0 then (trim value ['\'']).map some else .ok (some value)

/-- cutting a card that is too long (`base.hpp:871-878`) -/
def cutCard (entry : Str) : Str :=
  if entry.length > 80 then (if entry.getLast? = some '&' then entry.take 79 ++ ['&'] else entry.take 80) else entry

/-- copying the comment of the previous card (`base.hpp:868-879`) -/
def keepComment (tentry : Str) (eqpos : Nat) (comment entry : Str) : Res Str :=
  match firstOf tentry ['/'] eqpos with
  | none => .ok entry
  | some cpos => if comment = [] then (substrFrom tentry (cpos + 1)).map fun cmt => cutCard (entry ++ [' ', '/'] ++ cmt) else .ok entry

/-- the search of the existing card in `setkey` (`base.hpp:850-885`): its index, and the new card with the previous comment -/
def setLoop (hdr key comment entry : Str) : List Nat → Res (Option (Nat × Str))
  | [] => .ok none
  | i :: l => do
    let tentry ← entryAt hdr i
    match firstOf tentry ['='] 0 with
    | none => setLoop hdr key comment entry l
    | some eqpos => do
      let n ← substr tentry 0 eqpos
      let nam ← trim n blanks
      if nam = key then do
        let e ← keepComment tentry eqpos comment entry
        .ok (some (i, e))
      else setLoop hdr key comment entry l

/-- the insertion point of new cards (`base.hpp:843-848`) -/
def endPos (hdr : Str) : Option Nat :=
  if 80 ≤ hdr.length then (sfind (hdr.drop (hdr.length - 80)) ['E', 'N', 'D'] 0).map (· + (hdr.length - 80)) else none

/-- the new card (`base.hpp:828-840`) -/
def newEntry (key value comment : Str) : Str :=
  key ++ List.replicate (8 - key.length) ' ' ++ ['=', ' '] ++ (if comment = [] then value else value ++ [' ', '/', ' '] ++ comment)

/-- `entry += std::string(80-entry.size(), ' ')` (`base.hpp:887`) -/
def padCard (entry : Str) : Str := entry ++ List.replicate (80 - entry.length) ' '

/-- `setkey` (`base.hpp:822-895`) -/
def setkey (hdr key value comment : Str) : Res (Option Str) :=
  if key.length > 8 then .ok none else
  if (newEntry key value comment).length > 80 then .ok none else do
  match ← setLoop hdr key comment (newEntry key value comment) (List.range (hdr.length / 80 + 1)) with
  | some (i, e) =>
    let h := hdr.take (i * 80) ++ hdr.drop (i * 80 + 80)
    .ok (some (h.take (i * 80) ++ padCard e ++ h.drop (i * 80)))
  | none => match endPos hdr with
    | none => .ok (some (hdr ++ padCard (newEntry key value comment)))
    | some p => .ok (some (hdr.take p ++ padCard (newEntry key value comment) ++ hdr.drop p))

/-! ### Parsed headers -/

/-- `header_keyword` (`base.hpp:897-900`) -/
structure Keyword where
  key : Str
  value : Str
  comment : Str
  novalue : Bool
deriving DecidableEq

/-- a quoted value and its comment (`base.hpp:959-967`) -/
def parseQuoted (key right : Str) : Res Keyword :=
  match firstOf right ['\''] 1 with
  | some p2 => do
    let value ← trim (right.take (p2 + 1)) blanks
    let comment ← trim (right.drop (p2 + 1)) blanks
    .ok ⟨key, value, comment, false⟩
  | none => do
    let value ← trim right blanks
    .ok ⟨key, value, [], false⟩

/-- another value and its comment (`base.hpp:969-975`) -/
def parsePlain (key right : Str) : Res Keyword :=
  match firstOf right ['/'] 0 with
  | some p2 => do
    let value ← trim (right.take p2) blanks
    let comment ← trim (right.drop p2) blanks
    .ok ⟨key, value, comment, false⟩
  | none => do
    let value ← trim right blanks
    .ok ⟨key, value, [], false⟩

/-- cards other than `HISTORY` and `CONTINUE` (`base.hpp:943-978`) -/
def parseCard (line : Str) : Res Keyword :=
  match firstOf line ['=', '/'] 0 with
  | none => do
    let key ← trim line blanks
    .ok ⟨key, [], [], true⟩
  | some p =>
    if line[p]? = some '/' then do
      let k ← substr line 0 p
      let key ← trim k blanks
      let c ← substrFrom line p
      let comment ← trim c blanks
      .ok ⟨key, [], comment, true⟩
    else do
      let k ← substr line 0 p
      let key ← trim k blanks
      let r ← substrFrom line (p + 1)
      let right ← trim r blanks
      if right = [] then .ok ⟨key, [], [], false⟩
      else if right.head? = some '\'' then parseQuoted key right
      else parsePlain key right

/-- `s.back() == '&'` then `s.substr(0, s.size()-1)` (`base.hpp:931-936`): `back` of an empty text is undefined -/
def dropAmp (s : Str) : Res Str :=
  match s.getLast? with
  | none => .ub
  | some c => .ok (if c = '&' then s.dropLast else s)

/-- the text and comment of a `CONTINUE` card (`base.hpp:917-924`) -/
def continueText (right comment : Str) : Res (Str × Str) :=
  match firstOf right ['\''] 1 with
  | some p2 => do
    let val ← trim ((right.drop 1).take (p2 - 1)) blanks
    let comment ← trim (right.drop (p2 + 1)) blanks
    .ok (val, comment)
  | none => do
    let val ← trim right blanks
    .ok (val, comment)

/-- `CONTINUE` cards (`base.hpp:913-941`), applied to the last keyword read -/
def parseContinue (line : Str) (k : Keyword) : Res Keyword := do
  let r ← substrFrom line 10
  let right ← trim r blanks
  if right.head? = some '\'' then do
    let (val, comment) ← continueText right k.comment
    let value := if k.value.head? = some '\'' then (k.value.drop 1).take (k.value.length - 2) else k.value
    let value ← dropAmp value
    let val ← dropAmp val
    .ok { k with value := '\'' :: value ++ val ++ ['\''], comment := comment }
  else .ok k

/-- the loop of `parse_header` (`base.hpp:908-980`): `keys.back()` of an empty list is undefined -/
def parseLoop : List Str → List Keyword → Res (List Keyword)
  | [], keys => .ok keys
  | line :: l, keys =>
    if sfind line "HISTORY ".toList 0 = some 0 then do
      let key ← trim line blanks
      parseLoop l (keys ++ [⟨key, [], [], true⟩])
    else if sfind line "CONTINUE ".toList 0 = some 0 then
      match keys.getLast? with
      | none => .ub
      | some k => do
        let k ← parseContinue line k
        parseLoop l (keys.dropLast ++ [k])
    else do
      let k ← parseCard line
      parseLoop l (keys ++ [k])

/-- `parse_header` (`base.hpp:904-983`) -/
def parseHeader (hdr : Str) : Res (List Keyword) := do
  let lines ← cut hdr 80
  parseLoop lines []

/-- the text of a card in `serialize_header` (`base.hpp:989-1008`) -/
def cardText (k : Keyword) : Str :=
  let entry :=
    if k.novalue = false then
      if beginsWith k.key "HIERARCH ".toList then k.key ++ [' ', '=', ' '] ++ k.value
      else alignLeft k.key 8 ' ' ++ ['=', ' '] ++
        (if k.value.head? = some '\'' then alignLeft k.value 20 ' ' else alignRight k.value 20 ' ')
    else alignLeft k.key 30 ' '
  if k.comment = [] then entry else entry ++ [' '] ++ k.comment

/-- cutting or completing a card (`base.hpp:1010-1014`) -/
def fitCard (entry : Str) : Str :=
  if entry.length > 80 then entry.take 80 else if entry.length < 80 then entry ++ List.replicate (80 - entry.length) ' ' else entry

/-- `serialize_header` (`base.hpp:985-1020`) -/
def serializeHeader (keys : List Keyword) : Str := keys.foldl (fun h k => h ++ fitCard (cardText k)) []

end Verif.Fits
