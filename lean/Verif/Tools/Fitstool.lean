import Verif.Str.Conv
import Verif.Io.HeaderFile
import Mathlib.Data.Rat.Floor
/-!
# Editing keywords with the program `fitstool` (`tools/fitstool/fitstool.cpp:636-689`, `:751-763`, `:792-804`, `:859-864`, `:928-949`, `:990-1050`)

The header of the file is the list of its keywords with their values as they are written (`Verif.Fits.Keys`). What cfitsio does is the contract of
`Verif.Io.HeaderFile`, with `fits_write_key` (adds a keyword at the end) and `fits_delete_key` (removes the first keyword of that name and fails if there is
none). cfitsio writes names in upper case; names with wildcards (`*`, `?`, `#`), comments and the choice of the HDU are not modelled.
-/
namespace Verif.Fitstool
open Verif Verif.Str Verif.StrConv Verif.Sex Verif.Fits

/-! ### Answers to questions -/

/-- the loop on the answers to a question (`fitstool.cpp:151-162`, `:749-763`, `:1196-1206`, `:1246-1257`) on the lines of the standard input: the answer and
the lines left. Other lines are asked again; at the end of the input `std::getline` gives an empty line, for ever. -/
def confirm : List Str → Res (Bool × List Str)
  | [] => .diverge
  | line :: lines =>
    let line := line.map Char.toLower
    if line = "y".toList ∨ line = "yes".toList then .ok (true, lines)
    else if line = "n".toList ∨ line = "no".toList then .ok (false, lines)
    else confirm lines

/-! ### Writing a value -/

/-- `int di = d`: rounded towards zero, and undefined outside of the range of `int` -/
def toInt32 : Fl ℚ → Res Int
  | .fin q =>
    let z := if 0 ≤ q then ⌊q⌋ else ⌈q⌉
    if -2 ^ 31 ≤ z ∧ z < 2 ^ 31 then .ok z else .ub
  | _ => .ub

/-- `fits_write_key` or `fits_update_key` -/
def putKey (newk : Bool) (ks : Keys) (name v : Str) : Keys := if newk then ks ++ [(name, v)] else updateKey ks name v

/-- `write_keyword_value` (`fitstool.cpp:636-689`): what is returned, and the keywords. `r` reads `double`s, `fmt` is how cfitsio writes them and `d` is the
value of the variable that is not initialized. -/
def writeValue (r : Reader (Fl ℚ)) (fmt : Fl ℚ → Str) (d : Fl ℚ) (newk : Bool) (ks : Keys) (name v : Str) : Res (Bool × Keys) :=
  let (isNumber, d) := fromString r flFallback v d
  if !isNumber then
    if v.head? = some '\'' then
      let w := v.tail
      if '\'' ∈ w then .ok (false, ks) -- the loop over the characters returns at the first quote
      else .ok (true, putKey newk ks name (quoteValue w))
    else .ok (true, putKey newk ks name (quoteValue v))
  else if v.getLast? = some '.' ∨ '.' ∉ v then do
    let di ← toInt32 d
    .ok (true, putKey newk ks name (decInt di))
  else .ok (true, putKey newk ks name (fmt d))

/-- `fitstool file editkwd key=... val=...` (`fitstool.cpp:792-804`) -/
def editKey (r : Reader (Fl ℚ)) (fmt : Fl ℚ → Str) (d : Fl ℚ) (ks : Keys) (key val : Str) : Res (Bool × Keys) :=
  let key := key.map Char.toUpper
  let newk := (rawKey ks key).isNone
  writeValue r fmt d newk ks key val

/-! ### Reading -/

/-- one line printed by `fitstool file readkwd key=...` (`fitstool.cpp:928-949`) -/
def showKey (ks : Keys) (key : Str) : Res Str :=
  match rawKey ks (key.map Char.toUpper) with
  | none => .ok []
  | some val =>
    if val.head? = some '\'' then
      let p0 := (firstOf val ['\''] 0).getD 0
      let p1 := (lastOf val ['\''] none).getD 0
      if p0 = p1 then .ok []
      else do
        let s ← substr val (p0 + 1) (p1 - p0 - 1)
        trim s blanks
    else .ok val

/-! ### Removing -/

/-- contract of `fits_delete_key` -/
def deleteKey : Keys → Str → Option Keys
  | [], _ => none
  | k :: ks, name => if k.1 = name then some ks else (deleteKey ks name).map (k :: ·)

/-- `while (status == 0) fits_delete_key(...)` (`fitstool.cpp:860-862`); the first argument bounds the number of rounds -/
def deleteAll : Nat → Keys → Str → Res Keys
  | 0, _, _ => .diverge
  | n + 1, ks, name =>
    match deleteKey ks name with
    | none => .ok ks
    | some ks' => deleteAll n ks' name

/-- `fitstool file rmkwd key=[...]` (`fitstool.cpp:859-864`) -/
def removeKeys (ks : Keys) (key : List Str) : Res Keys :=
  key.foldlM (fun ks k => deleteAll (ks.length + 1) ks (k.map Char.toUpper)) ks

/-! ### `make2d` -/

/-- `to_string` of a number and `align_right(..., 2, '0')` (`fitstool.cpp:1023-1024`) -/
def two (i : Nat) : Str := List.replicate (2 - (Io.dec i).length) '0' ++ Io.dec i

/-- the keywords that `make2d` deletes, in this order (`fitstool.cpp:1012-1045`) -/
def extraKeys (naxis : Nat) : List Str :=
  (List.range' 3 (naxis - 2)).flatMap fun i =>
    ["NAXIS", "CTYPE", "CUNIT", "CRVAL", "CRPIX", "CROTA", "CDELT"].map (fun k => k.toList ++ Io.dec i) ++
    (List.range' 1 naxis).flatMap fun j =>
      ["PC".toList ++ two i ++ ['_'] ++ two j, "PC".toList ++ two j ++ ['_'] ++ two i,
       "PC".toList ++ Io.dec i ++ ['_'] ++ Io.dec j, "PC".toList ++ Io.dec j ++ ['_'] ++ Io.dec i]

/-- `fitstool file make2d` (`fitstool.cpp:990-1050`) on an image with these sizes: what is returned, and the keywords. The errors of `fits_delete_key` are
ignored. -/
def make2d (ks : Keys) (naxes : List Nat) : Bool × Keys :=
  if naxes.length < 2 then (false, ks)
  else if naxes.length = 2 then (true, ks)
  else if (naxes.drop 2).all (· = 1) then
    let ks := (extraKeys naxes.length).foldl (fun ks k => (deleteKey ks k).getD ks) ks
    (true, updateKey ks "NAXIS".toList (Io.dec 2))
  else (false, ks)

/-! ### A reader of `double` for the examples -/

/-- decimal numbers with a sign, a fraction and an exponent -/
def numReader : Reader (Fl ℚ) := fun s =>
  let (neg, u) := sign s
  let d := u.takeWhile Char.isDigit
  let u := u.dropWhile Char.isDigit
  let (f, u) := match u with
    | '.' :: w => (w.takeWhile Char.isDigit, w.dropWhile Char.isDigit)
    | w => ([], w)
  if d = [] ∧ f = [] then (.fin 0, true, u)
  else
    let (neg', e, bad, u) := match u with
      | 'e' :: w => let x := (sign w).2; ((sign w).1, Nat.ofDigitChars 10 (x.takeWhile Char.isDigit) 0, decide (x.takeWhile Char.isDigit = []), x.dropWhile Char.isDigit)
      | w => (false, 0, false, w)
    let m : ℚ := (Nat.ofDigitChars 10 (d ++ f) 0 : ℚ) / 10 ^ f.length
    let v : ℚ := if neg' then m / 10 ^ e else m * 10 ^ e
    if bad then (.fin 0, true, u) else (.fin (if neg then -v else v), false, u)

end Verif.Fitstool
