import Verif.Tools.Fitstool
import Verif.Core.Vec
import Verif.Find.Sort
import Verif.Math.Reduce
/-!
# Operations on columns of the program `fitstool` (`tools/fitstool/fitstool.cpp:118-186`, `:201-293`, `:1076-1228`, `:1230-1267`)

A table is the list of its columns; a column has a name, the dimensions of one cell (first the one that varies fastest, as in `TDIMn`) and its rows. What cfitsio
does: `fits_get_colnum` with `CASESEN` finds the first column with exactly this name (names with wildcards, and names that are there twice, are not modelled);
`fits_delete_col` removes it; `fits_insert_col` inserts a column filled with zeros, at the end if the position is larger than the number of columns;
`fits_copy_col` copies all the rows. The conversion of the values to `double` and back in `transpose_columns` is taken to be exact.
-/
namespace Verif.Fitstool
open Verif Verif.Str Verif.StrConv

variable {α : Type}

/-- a column of a table -/
structure Col (α : Type) where
  name : Str
  naxes : List Nat
  rows : List (List α)
  deriving DecidableEq

/-- contract of `fits_get_colnum`, counted from zero -/
def colNum : List (Col α) → Str → Option Nat
  | [], _ => none
  | c :: t, name => if c.name = name then some 0 else (colNum t name).map (· + 1)

/-- `get_columns` (`fitstool.cpp:1230-1267`): the columns found (`none` if the user does not want to continue), and the lines left -/
def getColumns (t : List (Col α)) (force : Bool) : List Str → List Str → Res (Option (List Str) × List Str)
  | [], lines => .ok (some [], lines)
  | col :: cols, lines =>
    match colNum t col with
    | some _ => do
      let (r, lines) ← getColumns t force cols lines
      .ok (r.map (col :: ·), lines)
    | none =>
      if force then getColumns t force cols lines
      else do
        let (yes, lines) ← confirm lines
        if yes then getColumns t force cols lines else .ok (none, lines)

/-- the body of the loop of `remove_columns` (`fitstool.cpp:166-177`) -/
def deleteCol (t : List (Col α)) (name : Str) : List (Col α) :=
  match colNum t name with
  | none => t
  | some i => t.eraseIdx i

/-- `remove_columns` (`fitstool.cpp:118-186`): the table after it -/
def removeColumns (t : List (Col α)) (cols : List Str) (force : Bool) (lines : List Str) : Res (List (Col α)) :=
  if cols = [] then .ok t
  else do
    let (f, lines) ← getColumns t force (cols.map (·.map Char.toUpper)) lines
    match f with
    | none => .ok t
    | some fcols => do
      let (yes, _) ← if force then .ok (true, lines) else confirm lines
      if yes then .ok (fcols.foldl deleteCol t) else .ok t

/-- the body of the loop of `transpose_columns` (`fitstool.cpp:229-282`): the first row of cells of the column is read, the column is removed and inserted again.
The failed check stops the program. -/
def transposeCol (zero : α) (t : List (Col α)) (col : Str) : Res (List (Col α)) :=
  match colNum t col with
  | none => .abort
  | some i => do
    let c ← Res.rd t i
    match c.naxes with
    | [a, b] =>
      match c.rows with
      | [] => .abort
      | row :: rows => do
        let v ← Core.Vec.transpose ⟨row, [b, a]⟩
        let c' : Col α := ⟨col, [b, a], v.data :: rows.map fun r => List.replicate r.length zero⟩
        .ok ((t.eraseIdx i).insertIdx i c')
    | _ => .abort

/-- `transpose_columns` (`fitstool.cpp:201-293`) -/
def transposeColumns (zero : α) (t : List (Col α)) (cols : List Str) (force : Bool) (lines : List Str) : Res (List (Col α)) :=
  if cols = [] then .ok t
  else do
    let (f, _) ← getColumns t force (cols.map (·.map Char.toUpper)) lines
    match f with
    | none => .ok t
    | some fcols => fcols.foldlM (transposeCol zero) t

/-! ### Meta columns -/

/-- the dimensions in the table, sorted (`fitstool.cpp:1094-1112`) -/
def udims (t : List (Col α)) : Res (List Nat) := do
  let u ← Find.uniqueValues ((t.flatMap Col.naxes).map some)
  .ok (u.filterMap id)

/-- the dimension of the rows that is proposed (`fitstool.cpp:1113-1124`) -/
def rowDim (dims udim : List Nat) : Res Nat :=
  if udim.length = 1 then Res.rd udim 0
  else do
    let count := udim.map fun u => dims.count u
    let weight := List.zipWith (· + ·) (List.range udim.length) (Find.sort (count.map some))
    let (k, _) ← Math.vmax (weight.map some)
    Res.rd udim k

/-- the loop that asks for a dimension (`fitstool.cpp:1137-1151`) -/
def askDim (readDim : Str → Option Nat) (udim : List Nat) : List Str → Res (Nat × List Str)
  | [] => .diverge
  | line :: lines =>
    match readDim line with
    | some d => if d ∈ udim then .ok (d, lines) else askDim readDim udim lines
    | none => askDim readDim udim lines

/-- the choice of the dimension (`fitstool.cpp:1107-1159`) -/
def chooseDim (readDim : Str → Option Nat) (dims udim : List Nat) (force : Bool) (lines : List Str) : Res (Nat × List Str) := do
  let dim ← rowDim dims udim
  if udim.length = 1 ∨ force then .ok (dim, lines)
  else do
    let (yes, lines) ← confirm lines
    if yes then .ok (dim, lines) else askDim readDim udim lines

/-- the columns that do not have this dimension (`fitstool.cpp:1161-1177`), counted from one -/
def metaCols (dim : Nat) : Nat → List (Col α) → List Nat
  | _, [] => []
  | i, c :: t => if c.naxes.any (· == dim) then metaCols dim (i + 1) t else i :: metaCols dim (i + 1) t

/-- moving the columns (`fitstool.cpp:1209-1221`): the table, and the new table -/
def moveCols (t : List (Col α)) (mcols : List Nat) : Res (List (Col α) × List (Col α)) := do
  let nt ← mcols.foldlM (fun nt i => do
    let c ← Res.rd t (i - 1)
    .ok (nt.insertIdx (min (mcols.length - 1) nt.length) c)) []
  .ok (mcols.reverse.foldl (fun t i => t.eraseIdx (i - 1)) t, nt)

/-- `move_meta_columns` (`fitstool.cpp:1076-1228`): the table, and the table that is added to the file if there is one -/
def moveMeta (readDim : Str → Option Nat) (t : List (Col α)) (force : Bool) (lines : List Str) : Res (List (Col α) × Option (List (Col α))) :=
  if t = [] then .ok (t, none)
  else do
    let udim ← udims t
    let (dim, lines) ← chooseDim readDim (t.flatMap Col.naxes) udim force lines
    let mcols := metaCols dim 1 t
    if mcols = [] then .ok (t, none)
    else do
      let (yes, _) ← if force then .ok (true, lines) else confirm lines
      if yes then do
        let (t', nt) ← moveCols t mcols
        .ok (t', some nt)
      else .ok (t, none)

end Verif.Fitstool
