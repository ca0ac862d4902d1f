import Verif.Str.Model
import Verif.Io.Ascii
import Verif.Io.Path
import Verif.Math.Interp
import Mathlib.Data.List.Lex
import Mathlib.Data.Char
/-!
# Libraries of filters (`astro/astro.hpp:1502-1733`)

A `std::map` is the list of its elements in the order of their keys. The conversion of text to a number (`from_string`, C143) and the reading of the file of
a filter (C41, C44) are parameters. Numbers are the elements of an ordered field. Messages are left out, except the names that are suggested.
-/
namespace Verif.FilterDb
open Verif Verif.Str Verif.Io Verif.Math

/-- `std::map<std::string,T>` -/
abbrev Map (β : Type) := List (Str × β)

/-- `std::map::insert`, which does nothing if the key exists -/
def insert {β : Type} (k : Str) (v : β) : Map β → Map β
  | [] => [(k, v)]
  | e :: l => if k = e.1 then e :: l else if k < e.1 then (k, v) :: e :: l else e :: insert k v l

/-- `std::map::find` -/
def find {β : Type} (k : Str) (m : Map β) : Option β := (m.find? fun e => decide (e.1 = k)).map Prod.snd

/-- what `read_filter_db` and `read_filter_map` make of a line (`astro.hpp:1517-1526`, `1674-1681`) -/
def parseLine (line : Str) : Res (Option (Str × Str)) := do
  let line ← trim line blanks
  if line.head? = some '#' then .ok none
  else do
    let sl ← split line ['=']
    match sl with
    | [a, b] => .ok (some (a, b))
    | _ => .ok none

/-- the loop of `read_filter_db` (`astro.hpp:1516-1526`) -/
def dbLoop (dir : Str) : List Str → Map Str → Res (Map Str)
  | [], db => .ok db
  | line :: l, db => do
    match ← parseLine line with
    | some (a, b) => dbLoop dir l (insert a (dir ++ b) db)
    | none => dbLoop dir l db

/-- `read_filter_db` (`astro.hpp:1505-1529`) on the content of the file, if it can be opened -/
def readDb (filename : Str) (content : Option Str) : Res (Map Str) :=
  match content with
  | none => .ok []
  | some content => do
    let dir ← getDirectory filename
    dbLoop dir (fileLines [] content) []

/-- the loop of `read_filter_map` (`astro.hpp:1671-1685`); `num` is `from_string` -/
def mapLoop {β : Type} (num : Str → Option β) : List Str → Map β → Res (Map β)
  | [], db => .ok db
  | line :: l, db => do
    match ← parseLine line with
    | some (a, b) => match num b with
      | some id => mapLoop num l (insert a id db)
      | none => mapLoop num l db
    | none => mapLoop num l db

/-- `read_filter_map` (`astro.hpp:1662-1688`) -/
def readMap (num : Str → Option Nat) (content : Option Str) : Res (Map Nat) :=
  match content with
  | none => .ok []
  | some content => mapLoop num (fileLines [] content) []

/-- the names that are suggested (`astro.hpp:1554-1566`, `1697-1708`); `best = none` is the largest integer -/
def candLoop {β : Type} (str : Str) : Map β → Option Nat → List Str → List Str
  | [], _, c => c
  | e :: l, best, c =>
    let d := distance str e.1
    match best with
    | none => candLoop str l (some d) [e.1]
    | some b => if d < b then candLoop str l (some d) [e.1] else if d = b then candLoop str l best (c ++ [e.1]) else candLoop str l best c

/-- `get_filter_id` (`astro.hpp:1690-1719`): the identifier (`none` is `npos`, and `false`), and the suggestions -/
def getId (m : Map Nat) (str : Str) : Option Nat × List Str :=
  match find str m with
  | some id => (some id, [])
  | none => (none, candLoop str m none [])

/-- `get_filter_id` of a vector (`astro.hpp:1721-1732`): the value returned and the identifiers -/
def getIds (m : Map Nat) (l : List Str) : Bool × List (Option Nat) :=
  l.foldl (fun s str => let r := (getId m str).1; (if r.isSome then s.1 else false, s.2 ++ [r])) (true, [])

section
variable {K : Type} [Field K] [LinearOrder K]

/-- `filter_t` (`astro.hpp:1277-1281`) -/
structure Filter (K : Type) where
  rlam : K
  lam : List K
  res : List K
deriving DecidableEq

/-- what `get_filter` returns: a filter, or `false` after suggestions or after another message -/
inductive Outcome (K : Type)
  | found (f : Filter K)
  | unknown (names : List Str)
  | bad
deriving DecidableEq

/-- a filter that is read from a file (`astro.hpp:1576-1581`, `1616-1622`): the product of vectors checks their sizes -/
def ofFile (rd : Str → Res (List K × List K)) (name : Str) : Res (Outcome K) := do
  let f ← rd name
  Res.check (f.2.length = f.1.length)
  let rlam ← integrate f.1 (List.zipWith (· * ·) f.2 f.1)
  .ok (.found ⟨rlam, f.1, f.2⟩)

/-- a 'range' filter (`astro.hpp:1603-1606`) -/
def rangeFilter (lmin lmax : K) : Res (Filter K) := do
  let lam := [lmin * (1 / 2), lmin * (99 / 100), lmin, lmax, lmax * (101 / 100), lmax * 2]
  let res : List K := [0, 0, 1, 1, 0, 0]
  let a ← integrate lam res
  .ok ⟨1 / 2 * (lmin + lmax), lam, res.map (· / a)⟩

/-- `get_filter` (`astro.hpp:1531-1627`); `num` is `from_string`, `rd` reads the file of a filter -/
def getFilter (num : Str → Option K) (rd : Str → Res (List K × List K)) (db : Map Str) (str : Str) : Res (Outcome K) := do
  let spl ← split str [':']
  if spl.length = 1 then
    match find str db with
    | none => .ok (.unknown (candLoop str db none []))
    | some name => ofFile rd name
  else do
    let kind ← Res.rd spl 1
    if kind = "range".toList then
      if spl.length ≠ 4 then .ok .bad
      else do
        let a ← Res.rd spl 2
        let b ← Res.rd spl 3
        match num a, num b with
        | some lmin, some lmax => do
          let f ← rangeFilter lmin lmax
          .ok (.found f)
        | _, _ => .ok .bad
    else if kind = "file".toList then
      if spl.length ≠ 3 then .ok .bad
      else do
        let n ← Res.rd spl 2
        ofFile rd n
    else .ok .bad

/-- `get_filters` (`astro.hpp:1629-1641`): the value returned and the bank -/
def getFilters (num : Str → Option K) (rd : Str → Res (List K × List K)) (db : Map Str) : List Str → List (Filter K) → Res (Bool × List (Filter K))
  | [], fils => .ok (true, fils)
  | s :: l, fils => do
    match ← getFilter num rd db s with
    | .found f => getFilters num rd db l (fils ++ [f])
    | _ => .ok (false, fils)

end
end Verif.FilterDb
