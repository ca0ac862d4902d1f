import Verif.Str.Model
/-!
# Model of `io/ascii.hpp`: reading and writing text tables

Strings are lists of characters, `std::string::npos` is `none`.  `ascii::exception` ends in a failed
`vif_check` (`io/ascii.hpp:377-379`, `:701-703`) or escapes to the caller, and is an `abort` either way.
A value conversion (`from_string`, `to_string`) is an arbitrary function.
-/
namespace Verif.Io
open Verif Verif.Str

/-- `line_splitter_t` (`io/ascii.hpp:78-83`); `pos = none` is `npos`. -/
structure Spl where
  line : Str
  pos : Option Nat
  delim : Str
  single : Bool
deriving DecidableEq

/-- `line_splitter_t::next_word` (`io/ascii.hpp:111-142`); the first component is `none` when it returns false. -/
def nextWord (s : Spl) : Res (Option Str × Spl) :=
  match s.pos with
  | none => .ok (none, s)
  | some pos =>
    if s.single then
      let pos := if pos ≠ 0 then pos + s.delim.length else pos
      match sfind s.line s.delim pos with
      | none => do
        let w ← substrFrom s.line pos
        .ok (some w, { s with pos := none })
      | some p1 => do
        let w ← substr s.line pos (p1 - pos)
        .ok (some w, { s with pos := some p1 })
    else
      match firstNotOf s.line s.delim pos with
      | none => .ok (none, s)
      | some p0 =>
        match firstOf s.line s.delim p0 with
        | none => do
          let w ← substrFrom s.line p0
          .ok (some w, { s with pos := none })
        | some p1 => do
          let w ← substr s.line p0 (p1 - p0)
          .ok (some w, { s with pos := some p1 })

/-- `line_splitter_t::skip_word` (`io/ascii.hpp:85-109`). -/
def skipWord (s : Spl) : Res (Bool × Spl) :=
  match s.pos with
  | none => .ok (false, s)
  | some pos =>
    if s.single then
      let pos := if pos ≠ 0 then pos + s.delim.length else pos
      .ok (true, { s with pos := sfind s.line s.delim pos })
    else
      match firstNotOf s.line s.delim pos with
      | none => .ok (false, s)
      | some p0 => .ok (true, { s with pos := firstOf s.line s.delim p0 })

/-- What `read_table` does with the next word of a line: `_` skips it, a column of some type converts it
with `from_string` (`none`: it cannot).  `columns(n, a, b)` stands for `n` repetitions of its actions
(`io/ascii.hpp:254-290`). -/
inductive Act (V : Type) where
  | skip
  | read (conv : Str → Option V)

/-- `read_table_` on one line (`io/ascii.hpp:237-306`, with `read_value_` `:217-235`): the values stored,
in column order. -/
def readRow {V : Type} : List (Act V) → Spl → Res (List V)
  | [], _ => .ok []
  | .skip :: as, s => do
    let (b, s) ← skipWord s
    if b then readRow as s else .abort
  | .read conv :: as, s => do
    let (w, s) ← nextWord s
    match w with
    | none => .abort
    | some w =>
      match conv w with
      | none => .abort
      | some v => do
        let vs ← readRow as s
        .ok (v :: vs)

/-- The strings that `while (!file.eof()) std::getline(file, line)` yields one after the other
(`io/ascii.hpp:335-336`, `:358-360`): when the file ends with a newline (or is empty) the last call fails
and leaves an empty line. -/
def fileLines : Str → Str → List Str
  | cur, [] => [cur]
  | cur, c :: cs => if c = '\n' then cur :: fileLines [] cs else fileLines (cur ++ [c]) cs

/-- the loop of `ascii::getline` removing the line terminators at the end (`io/ascii.hpp:312-320`) -/
def chomp (l : Str) : Str := (l.reverse.dropWhile fun c => c == '\r' || c == '\n').reverse

/-- `input_format` (`io/ascii.hpp:20-38`) -/
structure InFmt where
  autoSkip : Bool := true
  skipPattern : Str := ['#']
  skipFirst : Nat := 0
  delim : Str := [' ', '\t']
  single : Bool := false

/-- `input_format::csv` (`io/ascii.hpp:34-36`) -/
def InFmt.csv : InFmt := { delim := [','], single := true }

/-- the test that decides whether a line is counted and read (`io/ascii.hpp:338-341`, `:362-365`) -/
def isData (o : InFmt) (line : Str) : Bool :=
  match firstNotOf line [' ', '\t'] 0 with
  | none => false
  | some p => !(o.autoSkip && sfind line o.skipPattern 0 == some p)

/-- the second loop of `read_table` (`io/ascii.hpp:352-376`): the vectors have `n` elements and row `i` is
stored through `safe`, `skip` data lines remain to be skipped -/
def readLoop {V : Type} (o : InFmt) (acts : List (Act V)) (n : Nat) : List Str → Nat → Nat → Res (List (List V))
  | [], _, _ => .ok []
  | l :: ls, i, skip =>
    if isData o l then
      if skip > 0 then readLoop o acts n ls i (skip - 1)
      else if i < n then do
        let row ← readRow acts ⟨l, some 0, o.delim, o.single⟩
        let rows ← readLoop o acts n ls (i + 1) skip
        .ok (row :: rows)
      else .ub
    else readLoop o acts n ls i skip

/-- `read_table` (`io/ascii.hpp:322-380`) of a file with the given content into at least one vector: the rows
of the vectors, which `resize` gave `n` elements (an element that is never assigned shows as the row `[]`).  With fewer data lines than `skip_first` the count wraps around and `resize` throws. -/
def readTable {V : Type} (content : Str) (o : InFmt) (acts : List (Act V)) : Res (List (List V)) :=
  let lines := (fileLines [] content).map chomp
  let cnt := lines.countP (isData o)
  if cnt < o.skipFirst then .abort
  else
    let n := cnt - o.skipFirst
    (readLoop o acts n lines 0 o.skipFirst).map fun rows => rows ++ List.replicate (n - rows.length) []

/-! ### writing -/

/-- A column argument of `write_table`: a vector or a 2-D vector (row-major), its elements already formatted
by `to_string` (`io/ascii.hpp:546-560`). -/
inductive Col where
  | v1 (cells : List Str)
  | v2 (rows cols : Nat) (cells : List Str)
deriving DecidableEq

def Col.rows : Col → Nat
  | .v1 cells => cells.length
  | .v2 r _ _ => r

def Col.cols : Col → Nat
  | .v1 _ => 1
  | .v2 _ c _ => c

/-- `write_table_check_size_` (`io/ascii.hpp:455-488`) -/
def checkSize : List Col → Nat → Nat → Res (Nat × Nat)
  | [], r, c => .ok (r, c)
  | v :: vs, r, c =>
    let r := if r = 0 then v.rows else r
    if v.rows ≠ r then .abort else checkSize vs r (c + v.cols)

/-- the cells that one column argument writes on line `i` (`write_table_do_impl_`, `io/ascii.hpp:526-544`): a
vector is read through `safe`, a 2-D vector through the checked `v(i,k)` -/
def colCells (i : Nat) : Col → Res (List Str)
  | .v1 cells => do
    let s ← Res.rd cells i
    .ok [s]
  | .v2 r c cells => (List.range c).mapM fun k => if i < r then Res.rd cells (i * c + k) else .abort

/-- `write_table_do_` for line `i` (`io/ascii.hpp:510-560`): the cells sent to the writer -/
def lineCells (i : Nat) : List Col → Res (List Str)
  | [] => .ok []
  | v :: vs => do
    let a ← colCells i v
    let b ← lineCells i vs
    .ok (a ++ b)

/-- `output_format` (`io/ascii.hpp:41-60`) -/
structure OutFmt where
  autoWidth : Bool := true
  minWidth : Nat := 0
  delim : Str := [' ']
  headerChars : Str := ['#', ' ']
  header : List Str := []

/-- `output_format::csv` (`io/ascii.hpp:57-59`) -/
def OutFmt.csv : OutFmt := { autoWidth := false, delim := [','] }

/-- `cache_writer::write` for the cells of one line (`io/ascii.hpp:448-452`) -/
def cacheRow (cw : List Nat) : Nat → List Str → Res (List Str)
  | _, [] => .ok []
  | j, s :: ss =>
    match cw[j]? with
    | none => .abort
    | some w => do
      let rest ← cacheRow cw (j + 1) ss
      .ok (alignRight s w ' ' :: rest)

/-- `file_writer::write` for the cells of one line (`io/ascii.hpp:406-414`) -/
def writeRow (delim : Str) (cw : List Nat) : Nat → List Str → Res Str
  | _, [] => .ok []
  | j, s :: ss =>
    match cw[j]? with
    | none => .abort
    | some w => do
      let rest ← writeRow delim cw (j + 1) ss
      .ok ((if j ≠ 0 then delim else []) ++ alignRight s w ' ' ++ rest)

/-- `file_writer::write_header` (`io/ascii.hpp:416-434`), the loop -/
def headerCells (o : OutFmt) (cw : List Nat) : Nat → List Str → Res Str
  | _, [] => .ok []
  | i, s :: ss =>
    match cw[i]? with
    | none => .abort
    | some hw => do
      let hw := if i = 0 ∧ hw ≥ o.headerChars.length then hw - o.headerChars.length else hw
      let rest ← headerCells o cw (i + 1) ss
      .ok ((if i ≠ 0 then o.delim else []) ++ alignRight s hw ' ' ++ rest)

/-- `file_writer::write_header` (`io/ascii.hpp:416-434`) -/
def writeHeader (o : OutFmt) (cw : List Nat) : Res Str :=
  if o.header = [] then .ok [] else do
    let l ← headerCells o cw 0 o.header
    .ok (o.headerChars ++ l ++ ['\n'])

/-- the width of column `j` (`io/ascii.hpp:658-675`): the largest cell, then the header name -/
def colWidth (o : OutFmt) (rows : List (List Str)) (j w : Nat) : Nat :=
  let w := rows.foldl (fun w row => max w (row.getD j []).length) w
  if o.header = [] then w
  else max w ((o.header.getD j []).length + if j = 0 then o.headerChars.length else 0)

/-- `write_table` (`io/ascii.hpp:624-704`): the content of the file -/
def writeTable (o : OutFmt) (args : List Col) : Res Str := do
  let (r, c) ← checkSize args 0 0
  if o.header ≠ [] ∧ o.header.length ≠ c then .abort
  else
    let cw := List.replicate c o.minWidth
    if o.autoWidth then do
      let cache ← (List.range r).mapM fun i => do
        let cells ← lineCells i args
        cacheRow cw 0 cells
      let cw := cw.mapIdx fun j w => colWidth o cache j w
      let h ← writeHeader o cw
      let ls ← cache.mapM fun row => do
        let l ← writeRow o.delim cw 0 row
        .ok (l ++ ['\n'])
      .ok (h ++ ls.flatten)
    else do
      let h ← writeHeader o cw
      let ls ← (List.range r).mapM fun i => do
        let cells ← lineCells i args
        let l ← writeRow o.delim cw 0 cells
        .ok (l ++ ['\n'])
      .ok (h ++ ls.flatten)

/-! ### names of the columns given by `ftable(...)` -/

/-- `bake_macroed_name` (`io/ascii.hpp:719-726`) -/
def bakeName (t : Str) : Res Str :=
  match firstOf t ['.'] 0 with
  | none => .ok t
  | some p => substrFrom t (p + 1)

def opening : Str := ['(', '[', '{']
def closing : Str := [')', ']', '}']

/-- one iteration of the inner loop over the kinds of brackets (`io/ascii.hpp:741-750`); the head of the
list is `stack.back()` -/
def scanChar (c : Char) (stack : List Nat) : Res (List Nat) :=
  match opening.idxOf? c with
  | some k => .ok (k :: stack)
  | none =>
    match closing.idxOf? c with
    | none => .ok stack
    | some k =>
      match stack with
      | [] => .ub
      | b :: stack => if b = k then .ok stack else .abort

/-- the loop looking for the comma (`io/ascii.hpp:739-751`), over the characters from `pos` on -/
def scan : Str → List Nat → Nat → Res Nat
  | [], _, pos => .ok pos
  | c :: cs, stack, pos =>
    if stack = [] ∧ c = ',' then .ok pos
    else do
      let stack ← scanChar c stack
      scan cs stack (pos + 1)

/-- `pop_macroed_name` (`io/ascii.hpp:728-769`): the name and what remains of the list.  On a list of blanks
`substr(npos)` throws. -/
def popName (s : Str) : Res (Str × Str) :=
  match firstNotOf s [' ', '\t'] 0 with
  | none => .abort
  | some p0 => do
    let pos ← scan (s.drop p0) [] p0
    let p1 := if pos ≠ s.length then pos + 1 else pos
    -- `--pos` wraps around to `npos` at zero
    let last := lastNotOf s [' ', '\t'] (if pos = 0 then none else some (pos - 1))
    let name ← match last with
      | none => substrFrom s p0      -- `pos+1-p0` is `0-p0`: at least the remaining length, or zero when `p0 = 0`
      | some q => substr s p0 (q + 1 - p0)
    let rest ← substrFrom s p1
    .ok (name, rest)

/-- `split_macroed_names` (`io/ascii.hpp:771-779`) -/
def splitNames (s : Str) : Res (List Str) :=
  match popName s with
  | .ok (n, rest) =>
    if rest = [] then .ok [n]
    else if rest.length < s.length then do
      let ns ← splitNames rest
      .ok (n :: ns)
    else .diverge
  | .abort => .abort
  | .ub => .ub
  | .diverge => .diverge
termination_by s.length

/-- `write_table_hdr_fix_2d_` (`io/ascii.hpp:781-803`) on the names from position `i` on: a 2-D column with
`n` columns turns its name into `name_1 ... name_n`.  With `n = 0`, `ncols.begin()+1` is past the end. -/
def fix2d : List Str → List Col → Res (List Str)
  | ns, [] => .ok ns
  | [], .v1 _ :: vs => fix2d [] vs
  | [], .v2 _ _ _ :: _ => .abort
  | n :: ns, .v1 _ :: vs => do
    let r ← fix2d ns vs
    .ok (n :: r)
  | n :: ns, .v2 _ c _ :: vs =>
    if c = 0 then .ub
    else do
      let r ← fix2d ns vs
      .ok ((List.range c).map (fun k => n ++ '_' :: Nat.toDigits 10 (k + 1)) ++ r)

end Verif.Io
