import Verif.Io.Header
import Verif.Io.Ascii
import Verif.Io.Path
/-!
# Headers and keywords of FITS files on disk (`io/fits/base.hpp:487-540`, `:684-757`, `io/fits.hpp:61-122`)

The header of a file is the list of its cards of 80 characters, without the `END` card. What the cfitsio
library does is a contract:
* `fits_write_record` appends one card, completed with blanks to 80 characters; it fails when the name of the
  keyword has a character that is not allowed (parameter `legal`);
* `fits_hdr2str` gives all the cards one after the other, with the `END` card;
* `fits_update_key` replaces the value of the first keyword of that name, or appends a keyword; a string is
  written between quotes, its own quotes doubled, cut at 68 characters and completed with blanks to 8;
* `fits_read_keyword` gives the value of the first keyword of that name, as it is written in the file.
Comments of keywords, the room kept for the header and the state `status_` are not modelled.
-/
namespace Verif.Fits
open Verif Verif.Str

/-- the keywords that `write_header` leaves out (`base.hpp:699-701`) -/
def internal (nam : Str) : Bool :=
  nam = "SIMPLE".toList || nam = "BITPIX".toList || beginsWith nam "NAXIS".toList || nam = "EXTEND".toList ||
    nam = "XTENSION".toList || nam = "EXTNAME".toList || nam = "PCOUNT".toList || nam = "GCOUNT".toList

/-- whether `write_header` leaves out a card (`base.hpp:692-704`) -/
def skipCard (entry : Str) : Res Bool :=
  if beginsWith entry "END ".toList then .ok true else
  match firstOf entry ['='] 0 with
  | none => .ok false
  | some eqpos => do
    let n ← substr entry 0 eqpos
    let nam ← trim n blanks
    .ok (internal nam)

/-- the loop of `write_header` (`base.hpp:690-708`); `cs` are the cards of the file so far -/
def writeLoop (legal : Str → Bool) (hdr : Str) : List Nat → List Str → Res (List Str)
  | [], cs => .ok cs
  | i :: l, cs => do
    let entry ← entryAt hdr i
    let skip ← skipCard entry
    if skip then writeLoop legal hdr l cs else
      if legal entry then writeLoop legal hdr l (cs ++ [padCard entry]) else .abort

/-- `write_header` (`base.hpp:684-709`) into a file with the cards `cs` -/
def writeHeader (legal : Str → Bool) (hdr : Str) (cs : List Str) : Res (List Str) :=
  writeLoop legal hdr (List.range (hdr.length / 80 + 1)) cs

/-- `read_header` (`base.hpp:488-500`) -/
def readHeader (cs : List Str) : Str := (cs ++ [padCard "END".toList]).flatten

/-! ### Keywords -/

/-- contract of cfitsio: how a string is written as the value of a keyword -/
def quoteValue (v : Str) : Str :=
  let q := (v.flatMap fun c => if c = '\'' then ['\'', '\''] else [c]).take 68
  '\'' :: q ++ List.replicate (8 - q.length) ' ' ++ ['\'']

/-- the keywords of a file: names and values as they are written -/
abbrev Keys := List (Str × Str)

/-- contract of `fits_read_keyword` -/
def rawKey (ks : Keys) (name : Str) : Option Str := (ks.find? fun k => k.1 = name).map Prod.snd

/-- contract of `fits_update_key` -/
def updateKey : Keys → Str → Str → Keys
  | [], name, v => [(name, v)]
  | k :: ks, name, v => if k.1 = name then (name, v) :: ks else k :: updateKey ks name v

/-- `has_keyword` (`base.hpp:502-510`) -/
def hasKeyword (ks : Keys) (name : Str) : Bool := (rawKey ks name).isSome

/-- `read_keyword` into a string (`base.hpp:512-522`): whether the keyword exists, and the new value of the
string. When the keyword does not exist the buffer `content` is empty (contract of cfitsio). -/
def readKeyword (ks : Keys) (name : Str) : Res (Bool × Str) := do
  let value ← trim ((rawKey ks name).getD []) [' ', '\'']
  .ok ((rawKey ks name).isSome, value)

/-- `read_keyword` into another type (`base.hpp:524-540`): the text given to `from_string` -/
def readKeywordT (ks : Keys) (name : Str) : Res (Option Str) := do
  let r ← readKeyword ks name
  if r.1 = false then .ok none else
    if r.2 = ['T'] then .ok (some ['1']) else if r.2 = ['F'] then .ok (some ['0']) else .ok (some r.2)

/-- `write_keyword` of a string (`base.hpp:735-748`) -/
def writeKeyword (ks : Keys) (name value : Str) : Keys := updateKey ks name (quoteValue value)

/-- `add_keyword` of a string (`base.hpp:750-758`) -/
def addKeyword (ks : Keys) (name value : Str) : Keys := ks ++ [(name, quoteValue value)]

/-! ### Lists of files -/

/-- `read_sectfits` (`io/fits.hpp:61-84`); `fs` gives the content of a file, if it can be opened -/
def readSectfits (fs : Str → Option Str) (filename : Str) : Res (List Str) :=
  match fs filename with
  | none => .abort
  | some content => do
    let dir ← Io.getDirectory filename
    let files := ((Io.fileLines [] content).filter fun l => l ≠ [] && l.head? ≠ some '#').map fun l => dir ++ l
    if files = [] then .abort else .ok files

/-- the file that `read_header_sectfits` and `read_header_sectfits_hdu` open (`io/fits.hpp:96-122`) -/
def sectFile (fs : Str → Option Str) (filename : Str) (sect : Nat) : Res Str :=
  if endsWith filename ".sectfits".toList then do
    let sects ← readSectfits fs filename
    Res.check (decide (sect < sects.length))
    Res.rd sects sect
  else .ok filename

end Verif.Fits
