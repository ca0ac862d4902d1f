import Verif.Str.Std
/-!
# Model of `utility/bits/string-regex.hpp`

The POSIX engine (`regcomp`, `regexec`) is an arbitrary function from the subject to the first match.
Embedded NUL characters, which end the subject for `regexec`, are not modelled.
-/
namespace Verif.Str
open Verif

/-- what `regexec` stores: `m[0]` and `m[1..]`; a group that does not take part has offsets -1 (`none`) -/
structure Match where
  so : Nat
  eo : Nat
  groups : List (Option (Nat × Nat))

/-- an engine with a compiled regular expression -/
abbrev Rx := Str → Option Match

/-- the offsets of a match lie in the subject -/
def Match.Valid (m : Match) (t : Str) : Prop :=
  m.so ≤ m.eo ∧ m.eo ≤ t.length ∧ ∀ a b, some (a, b) ∈ m.groups → a ≤ b ∧ b ≤ t.length

/-- `ts.substr(offset+m[i+1].rm_so, m[i+1].rm_eo - m[i+1].rm_so)` (string-regex.hpp:141): with offsets -1 the
position is `offset - 1`, which for `offset = 0` is beyond the end, so `substr` throws; the length is 0. -/
def groupText (ts : Str) (offset : Nat) : Option (Nat × Nat) → Res Str
  | some (a, b) => substr ts (offset + a) (b - a)
  | none => if offset = 0 then .abort else substr ts (offset - 1) 0

/-- the loop of `regex_replace` (string-regex.hpp:135-149) -/
def regexReplaceLoop (rx : Rx) (func : List Str → Str) (ts : Str) (s : Str) (offset : Nat) : Res Str :=
  if ts.length < offset then .ub else
  match rx (ts.drop offset) with
  | none => do
    let t ← substrFrom ts offset
    pure (s ++ t)
  | some m => do
    let pre ← substr ts offset m.so
    let ext ← m.groups.mapM (groupText ts offset)
    if 0 < m.eo then regexReplaceLoop rx func ts (s ++ pre ++ func ext) (offset + m.eo) else .diverge
termination_by ts.length + 1 - offset

/-- `regex_replace` (string-regex.hpp:123-154) -/
def regexReplace (rx : Rx) (func : List Str → Str) (ts : Str) : Res Str := regexReplaceLoop rx func ts [] 0

/-- one row of `regex_extract` (string-regex.hpp:104-111) -/
def extractText (ts : Str) (offset : Nat) : Option (Nat × Nat) → Res Str
  | some (a, b) => if b > a then substr ts (offset + a) (b - a) else .ok []
  | none => .ok []

/-- the loop of `regex_extract` (string-regex.hpp:102-117); the result is the list of rows -/
def regexExtractLoop (rx : Rx) (ts : Str) (ret : List (List Str)) (offset : Nat) : Res (List (List Str)) :=
  if ts.length < offset then .ub else
  match rx (ts.drop offset) with
  | none => .ok ret
  | some m => do
    let row ← m.groups.mapM (extractText ts offset)
    if 0 < m.eo then regexExtractLoop rx ts (ret ++ [row]) (offset + m.eo) else .diverge
termination_by ts.length + 1 - offset

/-- `regex_extract` (string-regex.hpp:90-121), for `nmatch > 0` groups -/
def regexExtract (rx : Rx) (ts : Str) : Res (List (List Str)) := regexExtractLoop rx ts [] 0

/-- the loop of `regex_find_nmatch_` (string-regex.hpp:42-51) -/
def nmatchLoop (re : Str) (p : Option Nat) (n : Nat) : Res Nat :=
  match p with
  | none => .ok n
  | some p =>
    let n' := if p = 0 ∨ re[p - 1]? ≠ some '\\' then n + 1 else n
    match firstOf re ['('] (p + 1) with
    | none => .ok n'
    | some q => if p < q ∧ p ≤ re.length then nmatchLoop re (some q) n' else .diverge
termination_by match p with
  | none => 0
  | some p => re.length + 1 - p

/-- `regex_find_nmatch_` (string-regex.hpp:40-52) -/
def findNmatch (re : Str) : Res Nat := nmatchLoop re (firstOf re ['('] 0) 0

end Verif.Str
