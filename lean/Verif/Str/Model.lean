import Verif.Str.Std
/-!
# Model of `utility/bits/string-{base,format,find-replace,split}.hpp`

Loops that make no progress are `diverge`; the condition under which they make progress is part of the
definition (needed for termination) and is exactly that the loop state changes.
-/
namespace Verif.Str
open Verif

/-! ### string-base.hpp -/

/-- `keep_first` (string-base.hpp:14-20) -/
def keepFirst (s : Str) (n : Nat) : Str := if s.length > n then s.take n else s

/-- `keep_last` (string-base.hpp:22-28) -/
def keepLast (s : Str) (n : Nat) : Str := if s.length > n then s.drop (s.length - n) else s

/-- `distance` (string-base.hpp:30-45); the loop runs over `range(n)` -/
def distance (t u : Str) : Nat :=
  let n := if t.length < u.length then t.length else u.length
  let d := if t.length < u.length then u.length - t.length else t.length - u.length
  (List.range n).foldl (fun d i => if t[i]? ≠ u[i]? then d + 1 else d) d

/-! ### string-format.hpp -/

/-- `align_left` (string-format.hpp:38-44) -/
def alignLeft (s : Str) (width : Nat) (fill : Char) : Str :=
  if s.length < width then s ++ List.replicate (width - s.length) fill else s

/-- `align_right` (string-format.hpp:46-52) -/
def alignRight (s : Str) (width : Nat) (fill : Char) : Str :=
  if s.length < width then List.replicate (width - s.length) fill ++ s else s

/-- `align_center` (string-format.hpp:54-62) -/
def alignCenter (s : Str) (width : Nat) (fill : Char) : Str :=
  if s.length < width then
    let n1 := (width - s.length) / 2
    let n2 := width - s.length - n1
    (List.replicate n1 fill ++ s) ++ List.replicate n2 fill
  else s

/-! ### string-find-replace.hpp -/

/-- `find` (string-find-replace.hpp:6-13) -/
def find (s pat : Str) : Option Nat := sfind s pat 0

/-- the loop of `replace` (string-find-replace.hpp:17-20); `p` is the result of the last search -/
def replaceLoop (pat rep s : Str) : Option Nat → Res Str
  | none => .ok s
  | some p =>
    let s' := s.take p ++ rep ++ s.drop (p + pat.length)
    if s'.length - (p + rep.length) < s.length - p then
      replaceLoop pat rep s' (sfind s' pat (p + rep.length))
    else .diverge
termination_by o => match o with
  | none => 0
  | some p => s.length - p + 1
decreasing_by
  rename_i h
  cases hs : sfind s' pat (p + rep.length) with
  | none => simp
  | some q =>
    have := (sfind_some.1 hs).1
    simp only
    change s'.length - q + 1 < _
    omega

/-- `replace` (string-find-replace.hpp:15-23) -/
def replace (s pat rep : Str) : Res Str := replaceLoop pat rep s (sfind s pat 0)

/-- the first half of `trim` (string-find-replace.hpp:26-31); `none` is the early return of `""` -/
def trimFront (s cs : Str) : Res (Option Str) :=
  if firstOf s cs 0 = some 0 then
    match firstNotOf s cs 0 with
    | none => .ok none
    | some e => (substrFrom s e).map some
  else .ok (some s)

/-- the second half of `trim` (string-find-replace.hpp:33-37).  On an empty string `s.size()-1` is `npos`
and the condition holds too; `epos + 1` is then 0 and `erase(0, 2)` erases nothing.  `erase(epos+1, n)`
with `n = size - epos + 1 > size - (epos + 1)` erases to the end. -/
def trimBack (s cs : Str) : Str :=
  if lastOf s cs none = (if s.length = 0 then none else some (s.length - 1)) then
    match lastNotOf s cs none with
    | none => s.take 0
    | some e => s.take (e + 1)
  else s

/-- `trim` (string-find-replace.hpp:25-40) -/
def trim (s cs : Str) : Res Str := do
  match ← trimFront s cs with
  | none => .ok []
  | some s => .ok (trimBack s cs)

/-- the default characters (string-find-replace.hpp:25) -/
def blanks : Str := [' ', '\t', '\n', '\r']

/-- `begins_with` (string-find-replace.hpp:42-49) -/
def beginsWith (s pat : Str) : Bool :=
  if s.length < pat.length then false else (List.range pat.length).all fun i => s[i]? == pat[i]?

/-- `ends_with` (string-find-replace.hpp:51-58) -/
def endsWith (s pat : Str) : Bool :=
  if s.length < pat.length then false else
    (List.range' 1 pat.length).all fun i => s[s.length - i]? == pat[pat.length - i]?

/-- `erase_begin(s, n)` (string-find-replace.hpp:60-68) -/
def eraseBeginN (s : Str) (n : Nat) : Str := if n ≥ s.length then [] else s.drop n

/-- `erase_end(s, n)` (string-find-replace.hpp:70-78) -/
def eraseEndN (s : Str) (n : Nat) : Str := if n ≥ s.length then [] else s.take (s.length - n)

/-- `erase_begin(s, pattern)` (string-find-replace.hpp:80-85) -/
def eraseBegin (s pat : Str) : Res Str := do
  Res.check (beginsWith s pat)
  pure (s.drop pat.length)

/-- `erase_end(s, pattern)` (string-find-replace.hpp:87-92) -/
def eraseEnd (s pat : Str) : Res Str := do
  Res.check (endsWith s pat)
  pure (s.take (s.length - pat.length))

/-- the forward loop of `get_word` (string-find-replace.hpp:120-130): `n` words still to skip, `p2` where the
search starts.  Returns the begin and end position of the word. -/
def wordFwd (s cs : Str) : Nat → Nat → Res (Nat × Option Nat)
  | n, p2 => match firstNotOf s cs p2 with
    | none => .abort
    | some p1 => match firstOf s cs p1, n with
      | e, 0 => .ok (p1, e)
      | none, _ + 1 => .abort
      | some e, n + 1 => wordFwd s cs n e

/-- the backward loop of `get_word` (string-find-replace.hpp:102-112): `n` words still to skip -/
def wordBwd (s cs : Str) : Nat → Option Nat → Res (Option Nat × Nat)
  | n, p1 => match lastNotOf s cs p1 with
    | none => .abort
    | some p2 => match lastOf s cs (some p2), n with
      | b, 0 => .ok (b, p2)
      | none, _ + 1 => .abort
      | some b, n + 1 => wordBwd s cs n (some b)

/-- `get_word` (string-find-replace.hpp:95-135).  `n` is an `int`; `n = INT_MIN` (overflow of `-n`) is not
modelled. -/
def getWord (s : Str) (n : Int) (cs : Str) : Res Str :=
  if n < 0 then do
    let (b, e) ← wordBwd s cs (n.natAbs - 1) none
    let p1 := match b with | none => 0 | some b => b + 1
    substr s p1 (e - p1 + 1)
  else do
    let (b, e) ← wordFwd s cs n.toNat 0
    match e with
    | none => substrFrom s b
    | some e => substr s b (e - 1 - b + 1)

/-- the loop of `replace_block` (string-find-replace.hpp:145-157); `p` is the result of the search for
`begin`, `p0` the end of what was copied -/
def replaceBlockLoop (os b e : Str) (convert : Str → Str) (s : Str) (p0 : Nat) : Option Nat → Res Str
  | none => do
    let t ← substrFrom os p0
    pure (s ++ t)
  | some p => do
    let t ← substr os p0 (p - p0)
    match sfind os e (p + b.length) with
    | none => .abort
    | some q => do
      let m ← substr os (p + b.length) (q - (p + b.length))
      if h : p0 < q + e.length ∧ p0 ≤ os.length then
        replaceBlockLoop os b e convert (s ++ t ++ convert m) (q + e.length) (sfind os b (q + e.length))
      else .diverge
termination_by os.length + 1 - p0

/-- `replace_block` (string-find-replace.hpp:137-162) -/
def replaceBlock (os b e : Str) (convert : Str → Str) : Res Str :=
  replaceBlockLoop os b e convert [] 0 (sfind os b 0)

/-! ### string-split.hpp -/

/-- the loop of `split` (string-split.hpp:10-15) -/
def splitLoop (s pat : Str) (op : Nat) (ret : List Str) : Res (List Str) :=
  match sfind s pat op with
  | none => do
    let t ← substrFrom s op
    pure (ret ++ [t])
  | some p => do
    let t ← substr s op (p - op)
    if op < p + pat.length ∧ op ≤ s.length then splitLoop s pat (p + pat.length) (ret ++ [t]) else .diverge
termination_by s.length + 1 - op

/-- `split` (string-split.hpp:6-19) -/
def split (s pat : Str) : Res (List Str) := splitLoop s pat 0 []

/-- the loop of `split_any_of` (string-split.hpp:24-33).  The branch `diverge` would be a loop without
progress. -/
def splitAnyLoop (s cs : Str) (op : Option Nat) (ret : List Str) : Res (List Str) :=
  match op with
  | none => .ok ret
  | some op => match firstOf s cs op with
    | none => do
      let t ← substrFrom s op
      pure (ret ++ [t])
    | some p => do
      let t ← substr s op (p - op)
      match hn : firstNotOf s cs p with
      | none => .ok (ret ++ [t])
      | some q => if op < q ∧ op ≤ s.length then splitAnyLoop s cs (some q) (ret ++ [t]) else .diverge
termination_by match op with
  | none => 0
  | some op => s.length + 1 - op

/-- `split_any_of` (string-split.hpp:21-38) -/
def splitAnyOf (s cs : Str) : Res (List Str) := splitAnyLoop s cs (firstNotOf s cs 0) []

/-- `cut` (string-split.hpp:40-48).  `size = 0` divides by zero and converts infinity or NaN to an integer.
The quotient is computed in `float`; the model is exact, which is right for lengths below 2^24. -/
def cut (s : Str) (size : Nat) : Res (List Str) :=
  if size = 0 then .ub else
  (List.range (s.length / size)).mapM fun i => substr s (i * size) (min size (s.length - i * size))

/-- the inner loop of `wrap` (string-split.hpp:57): last space at or before `i`; reading past the end is
undefined (position `size` itself holds the terminator) -/
def lastSpace (s : Str) : Nat → Option Nat
  | 0 => if s[0]? = some ' ' then some 0 else none
  | i + 1 => if s[i + 1]? = some ' ' then some (i + 1) else lastSpace s i

/-- the inner loop of `wrap` (string-split.hpp:62, 67): first space at or after `i`, or the end -/
def nextSpace (s : Str) (i : Nat) : Nat :=
  (firstIn (fun j => decide (s[j]? = some ' ')) i s.length).getD (max i s.length)

/-- the loop of `wrap` (string-split.hpp:55-80).  `width - indent.size()` is `uint_t`: if negative it is
larger than any string, so the loop ends; this is `none` in `twidth`. -/
def wrapLoop (width : Nat) (indent : Str) (ellipse : Bool) (s : Str) (twidth : Option Nat) (header : Str)
    (ret : List Str) : Res (List Str) :=
  let tw' := if indent.length ≤ width then some (width - indent.length) else none
  let fin : Res (List Str) := .ok (if s ≠ [] then ret ++ [header ++ s] else ret)
  match twidth with
  | none => fin
  | some tw => if s.length > tw then
      match lastSpace s tw with
      | none =>
        let i := nextSpace s (tw + 1)
        let line := if ellipse then header ++ s.take (if tw < 3 then s.length else tw - 3) ++ ['.', '.', '.']
          else header ++ s.take i
        match trim (s.drop i) blanks with
        | .ok s' => if s'.length < s.length then wrapLoop width indent ellipse s' tw' indent (ret ++ [line])
            else .diverge
        | .abort => .abort
        | .ub => .ub
        | .diverge => .diverge
      | some i =>
        match trim (s.drop i) blanks with
        | .ok s' => if s'.length < s.length then
              wrapLoop width indent ellipse s' tw' indent (ret ++ [header ++ s.take i])
            else .diverge
        | .abort => .abort
        | .ub => .ub
        | .diverge => .diverge
    else fin
termination_by s.length

/-- `wrap` (string-split.hpp:50-87) -/
def wrap (s : Str) (width : Nat) (indent : Str) (ellipse : Bool) : Res (List Str) :=
  wrapLoop width indent ellipse s (some width) [] []

/-- `collapse(v)` (string-split.hpp:89-98) -/
def collapse (v : List Str) : Str := v.foldl (fun r s => r ++ s) []

/-- `collapse(v, sep)` (string-split.hpp:100-112) -/
def collapseSep (v : List Str) (sep : Str) : Str :=
  (v.foldl (fun (r : Str × Bool) s => ((if r.2 then r.1 else r.1 ++ sep) ++ s, false)) ([], true)).1

end Verif.Str
