import Verif.Str.Model
import Verif.Core.Vec
/-!
# Columns of FITS tables (`io/fits/table.hpp`, `io/fits/base.hpp:62-330,462-484`)

A table is modelled by its number of rows (`NAXIS2`) and its columns: a name, a type, the dimensions returned by `fits_read_tdim` and the elements of all the
rows. The functions of `cfitsio` are modelled by their contract (section *cfitsio* below). The elements are in an arbitrary type `α`: the conversions between
numeric types done by `cfitsio` are identities. The number of dimensions of a vector, static in C++, is the length of its list of dimensions. Names
are without wildcards. An error returned by `cfitsio` and a `read_sentry` that is not checked by the caller are both `abort`. Members of structures
(reflection) and ASCII tables are not modelled.
-/
namespace Verif.FitsTable
open Verif Verif.Str Verif.Core

variable {α : Type}

/-- `table_format` (base.hpp:56-59) -/
inductive Format
  | column | row
deriving DecidableEq

/-- the types of columns returned by `fits_get_coltype`; `TLONG` and `TINT32BIT` have the same value -/
inductive CT
  | string | logical | bit | byte | short | long | longlong | float | double | other
deriving DecidableEq

/-- the types of elements in C++ (table.hpp:101-103) -/
inductive ET
  | bool | char | short | int | uint | float | double | string
deriving DecidableEq

/-- `traits<T>::is_convertible` (base.hpp:76-300) -/
def convertible : ET → CT → Bool
  | .string, .string => true
  | .bool, .logical => true
  | .bool, .bit => true
  | .bool, .byte => true
  | .char, .byte => true
  | .uint, .short => true
  | .uint, .long => true
  | .uint, .longlong => true
  | .uint, .bit => true
  | .uint, .byte => true
  | .int, .short => true
  | .int, .long => true
  | .int, .longlong => true
  | .int, .bit => true
  | .int, .byte => true
  | .short, .short => true
  | .short, .bit => true
  | .short, .byte => true
  | .float, .short => true
  | .float, .long => true
  | .float, .longlong => true
  | .float, .float => true
  | .float, .bit => true
  | .float, .byte => true
  | .double, .short => true
  | .double, .long => true
  | .double, .longlong => true
  | .double, .float => true
  | .double, .double => true
  | .double, .bit => true
  | .double, .byte => true
  | _, _ => false

/-- `traits<T>::is_convertible_narrow` (base.hpp:76-300) -/
def convertibleNarrow : ET → CT → Bool
  | .string, .string => true
  | .bool, .logical => true
  | .bool, .bit => true
  | .bool, .byte => true
  | .bool, .short => true
  | .bool, .long => true
  | .bool, .longlong => true
  | .char, .byte => true
  | .char, .short => true
  | .char, .long => true
  | .char, .longlong => true
  | .uint, .short => true
  | .uint, .long => true
  | .uint, .longlong => true
  | .uint, .bit => true
  | .uint, .byte => true
  | .int, .short => true
  | .int, .long => true
  | .int, .longlong => true
  | .int, .bit => true
  | .int, .byte => true
  | .short, .short => true
  | .short, .long => true
  | .short, .longlong => true
  | .short, .bit => true
  | .short, .byte => true
  | .float, .short => true
  | .float, .long => true
  | .float, .longlong => true
  | .float, .float => true
  | .float, .double => true
  | .float, .bit => true
  | .float, .byte => true
  | .double, .short => true
  | .double, .long => true
  | .double, .longlong => true
  | .double, .float => true
  | .double, .double => true
  | .double, .bit => true
  | .double, .byte => true
  | _, _ => false

/-- `traits<T>::tform` (base.hpp:70-275), as the type returned by `fits_get_coltype`: `B` and `S` are both `TBYTE` -/
def writtenAs : ET → CT
  | .bool => .byte
  | .char => .byte
  | .short => .short
  | .int => .longlong
  | .uint => .longlong
  | .float => .float
  | .double => .double
  | .string => .string

/-- `table_read_options` (table.hpp:13-28) -/
structure Opts where
  narrow : Bool := false
  missing : Bool := false
  promote : Bool := false
  flatten : Bool := false

structure Col (α : Type) where
  name : Str
  type : CT
  tdim : List Nat
  data : List α

structure Tbl (α : Type) where
  nrow : Nat
  cols : List (Col α)

/-- the number of elements of a row: for texts, the first dimension is that of the characters -/
def Col.count (c : Col α) : Nat := if c.type = .string then c.tdim.tail.prod else c.tdim.prod

/-- `to_upper` -/
def upper (s : Str) : Str := s.map Char.toUpper

/-! ### cfitsio -/

/-- `fits_get_colnum`: an error if there is no column, or more than one, of that name -/
def colnum (t : Tbl α) (name : Str) : Option Nat :=
  match (List.range t.cols.length).filter (fun i => (t.cols[i]?).map (fun c => upper c.name) = some (upper name)) with
  | [i] => some i
  | _ => none

/-- `fits_insert_col` after the last column; the new elements are zero -/
def insertCol (z : α) (t : Tbl α) (name : Str) (type : CT) (tdim : List Nat) : Tbl α :=
  let c : Col α := ⟨name, type, tdim, []⟩
  { t with cols := t.cols ++ [{ c with data := List.replicate (t.nrow * c.count) z }] }

/-- add rows of zeros -/
def extend (z : α) (t : Tbl α) (nrow : Nat) : Tbl α :=
  ⟨max t.nrow nrow, t.cols.map fun c => { c with data := c.data ++ List.replicate ((max t.nrow nrow - t.nrow) * c.count) z }⟩

/-- elements `start`, `start+1`, … replaced -/
def overwrite (l : List α) (start : Nat) (v : List α) : List α := l.take start ++ v ++ l.drop (start + v.length)

/-- `fits_write_col`: rows and elements are numbered from 1; elements after the last of the row are written in the next rows, which are added if needed -/
def writeCol (z : α) (t : Tbl α) (i firstrow firstelem : Nat) (v : List α) : Res (Tbl α) :=
  match t.cols[i]? with
  | none => .abort
  | some c =>
    if firstrow = 0 ∨ firstelem = 0 ∨ c.count < firstelem then .abort
    else
      let start := (firstrow - 1) * c.count + (firstelem - 1)
      let t := extend z t ((start + v.length + c.count - 1) / c.count)
      .ok { t with cols := t.cols.modify i fun c => { c with data := overwrite c.data start v } }

/-- `fits_read_col`: an error beyond the last row -/
def readCol (t : Tbl α) (i firstrow firstelem n : Nat) : Res (List α) :=
  match t.cols[i]? with
  | none => .abort
  | some c =>
    if firstrow = 0 ∨ firstelem = 0 ∨ c.count < firstelem then .abort
    else
      let start := (firstrow - 1) * c.count + (firstelem - 1)
      if start + n ≤ c.data.length then .ok ((c.data.drop start).take n) else .abort

/-! ### vif -/

/-- `get_table_format_` (base.hpp:462-484), called when a file is opened -/
def formatOf (t : Tbl α) : Format := if t.cols ≠ [] ∧ (1 < t.nrow ∨ t.nrow = 0) then .row else .column

/-- the format of a file object after its move constructor (base.hpp:384-387): it is the default one -/
def movedFormat (_ : Format) : Format := .column

/-- `create_table_` for a new file (table.hpp:1047-1089): the number of rows -/
def newTable (f : Format) : Tbl α := ⟨if f = .column then 1 else 0, []⟩

/-- `write_column_get_dims_` (table.hpp:1165-1183): the dimensions of a row, and the number of rows -/
def getDims (f : Format) (dims : List Nat) : List Nat × Nat := match f with
  | .column => (dims.reverse, 1)
  | .row => (dims.tail.reverse, dims.headD 0)

/-- the dimensions returned by `fits_read_tdim`: those written by `write_column_write_tdim_` (table.hpp:1258-1267), or the number of elements -/
def tdimOf (dims : List Nat) : List Nat := if dims = [] then [1] else dims

/-- `write_column_create_` (table.hpp:1279-1309) -/
def createCol (z : α) (f : Format) (t : Tbl α) (name : Str) (type : CT) (dims : List Nat) (ndrow : Nat) : Res (Tbl α) := do
  Res.check (t.cols ≠ [] ∧ f = .row → ndrow = t.nrow)
  .ok (insertCol z t (upper name) type (tdimOf dims))

/-- `write_column` of a vector of numbers (table.hpp:1092-1104,1311-1328) -/
def writeColumn (z : α) (f : Format) (t : Tbl α) (name : Str) (e : ET) (v : Vec α) : Res (Tbl α) := do
  let d := getDims f v.dims
  let t' ← createCol z f t name (writtenAs e) d.1 d.2
  if v.data = [] then .ok t' else writeCol z t' t.cols.length 1 1 v.data

/-- `write_column` of a number (table.hpp:1106-1114,1185-1189) -/
def writeScalar (z : α) (f : Format) (t : Tbl α) (name : Str) (e : ET) (x : α) : Res (Tbl α) := do
  let t' ← createCol z f t name (writtenAs e) [] 1
  writeCol z t' t.cols.length 1 1 [x]

/-- `allocate_column` (table.hpp:1449-1482): the data is not written; for the first column of a row-oriented table, rows are inserted before the others -/
def allocateColumn (z : α) (f : Format) (t : Tbl α) (name : Str) (e : ET) (dims : List Nat) : Res (Tbl α) := do
  let d := getDims f dims
  let t' ← createCol z f t name (writtenAs e) d.1 d.2
  if f = .row ∧ t.cols = [] then .ok (extend z t' (t.nrow + dims.headD 0)) else .ok t'

/-- `read_column_check_type_` (table.hpp:518-525) -/
def checkType (o : Opts) (e : ET) (c : CT) : Bool := if o.narrow then convertibleNarrow e c else convertible e c

/-- `read_column_check_dim_impl_` (table.hpp:527-537) -/
def checkDim (o : Opts) (naxis vdim : Nat) : Bool :=
  if naxis < vdim then o.promote else if vdim < naxis then decide (vdim = 1) && o.flatten else true

/-- the axes, with the rows (table.hpp:620-645): the rows replace the only axis of the column if its size is one -/
def axesOf (f : Format) (t : Tbl α) (c : Col α) : List Nat := match f with
  | .column => c.tdim
  | .row => if c.tdim = [1] ∧ c.type ≠ .string then [t.nrow] else c.tdim ++ [t.nrow]

/-- the number of rows used to know if there is something to read (table.hpp:635-637,656) -/
def rowsOf (f : Format) (t : Tbl α) : Nat := match f with
  | .column => 1
  | .row => t.nrow

/-- `read_column_resize_` of numbers (table.hpp:471-493); `dim` is the number of dimensions of the vector -/
def resizeDims (axes : List Nat) (dim : Nat) : List Nat :=
  if dim = 1 ∧ 1 < axes.length then [axes.prod]
  else (List.range dim).map fun i => if i < dim - axes.length then 1 else axes.getD (dim - 1 - i) 0

/-- `read_column` in a vector of numbers of `dim` dimensions (table.hpp:375-391,585-661); `none` if the column is missing and this is allowed: the vector
is unchanged -/
def readColumn (f : Format) (o : Opts) (t : Tbl α) (name : Str) (e : ET) (dim : Nat) (z : α) : Res (Option (Vec α)) :=
  match colnum t name with
  | none => if o.missing then .ok none else .abort
  | some i => match t.cols[i]? with
    | none => .ub
    | some c => do
      Res.check (checkType o e c.type = true)
      let axes := axesOf f t c
      Res.check (checkDim o axes.length dim = true)
      let dims := resizeDims axes dim
      let n := dims.prod
      if n = 0 then .ok (some ⟨[], dims⟩)
      else if rowsOf f t = 0 then .ok (some ⟨List.replicate n z, dims⟩)
      else do
        let l ← readCol t i 1 1 n
        .ok (some ⟨l, dims⟩)

/-- `read_column` in a number (table.hpp:393-404,547-556,585-661) -/
def readScalar (f : Format) (o : Opts) (t : Tbl α) (name : Str) (e : ET) (z : α) : Res (Option α) :=
  match colnum t name with
  | none => if o.missing then .ok none else .abort
  | some i => match t.cols[i]? with
    | none => .ub
    | some c => do
      Res.check (checkType o e c.type = true)
      let axes := axesOf f t c
      Res.check (¬ (axes.length = 1 ∧ 1 < c.tdim.prod))
      Res.check (checkDim o axes.length 1 = true)
      if rowsOf f t = 0 then .ok (some z)
      else do
        let l ← readCol t i 1 1 1
        match l with
        | [x] => .ok (some x)
        | _ => .ub

/-- the size of the texts (table.hpp:1195-1200) -/
def maxSize (l : List Str) : Nat := l.foldl (fun m s => max m s.length) 1

/-- `write_column` of a vector of texts (table.hpp:1116-1141,1191-1224): the characters after a null one are lost -/
def writeStrings (f : Format) (t : Tbl Str) (name : Str) (v : Vec Str) : Res (Tbl Str) := do
  let d := getDims f v.dims
  let t' ← createCol [] f t name .string (maxSize v.data :: d.1) d.2
  if v.data = [] then .ok t' else writeCol [] t' t.cols.length 1 1 (v.data.map fun s => s.takeWhile (· ≠ '\x00'))

/-- `read_column_resize_` of texts (table.hpp:500-513) -/
def resizeStrings (axes : List Nat) (dim : Nat) : List Nat :=
  (List.range dim).map fun i => if i < dim + 1 - axes.length then 1 else axes.getD (dim - i) 0

/-- `read_column` in a vector of texts (table.hpp:406-439,558-566,585-661) -/
def readStrings (f : Format) (o : Opts) (t : Tbl Str) (name : Str) (dim : Nat) : Res (Option (Vec Str)) :=
  match colnum t name with
  | none => if o.missing then .ok none else .abort
  | some i => match t.cols[i]? with
    | none => .ub
    | some c => do
      Res.check (checkType o .string c.type = true)
      let axes := axesOf f t c
      Res.check ((dim = 1 ∧ axes.length = 1) ∨ checkDim o axes.length (dim + 1) = true)
      let dims := resizeStrings axes dim
      let n := dims.prod
      if n = 0 then .ok (some ⟨[], dims⟩)
      else if rowsOf f t = 0 ∨ axes.headD 0 = 0 then .ok (some ⟨List.replicate n [], dims⟩)
      else do
        let l ← readCol t i 1 1 n
        let l ← l.mapM fun s => trim s blanks
        .ok (some ⟨l, dims⟩)

/-- `remove_column` (table.hpp:1503-1514): errors are ignored. The number of rows does not change. -/
def removeColumn (t : Tbl α) (name : Str) : Tbl α := match colnum t name with
  | some i => { t with cols := t.cols.eraseIdx i }
  | none => t

/-- `update_column` (table.hpp:1529-1535) -/
def updateColumn (z : α) (f : Format) (t : Tbl α) (name : Str) (e : ET) (v : Vec α) : Res (Tbl α) :=
  writeColumn z f (removeColumn t name) name e v

/-- `read_column_info` (table.hpp:243-269): the dimensions -/
def infoDims (f : Format) (t : Tbl α) (c : Col α) : List Nat :=
  let d := if c.type = .string then (if c.tdim.length = 1 then [1] else c.tdim.tail) else c.tdim
  (if f = .row then d ++ [t.nrow] else d).reverse

/-- `read_column_info` (table.hpp:173-241): the type. A column of bytes is one of booleans if the elements of its first row are zeros and ones, with
at least one zero (`min(v) == 0 && max(v) <= 1`); `min` of no element is an error (reduce.hpp). `one` is the value one. -/
def infoType [DecidableEq α] (z one : α) (t : Tbl α) (i : Nat) (c : Col α) : Res CT :=
  if c.type = .byte then do
    Res.check (c.count ≠ 0)
    let l ← readCol t i 1 1 c.count
    .ok (if z ∈ l ∧ ∀ x ∈ l, x = z ∨ x = one then .logical else .byte)
  else .ok c.type

/-- the pitches (table.hpp:885-889) -/
def pitches : List Nat → List Nat
  | [] => []
  | _ :: ds => ds.prod :: pitches ds

/-- the effect of one index (table.hpp:860-868) -/
def addIndex (f : Format) (i id p : Nat) (s : Nat × Nat) : Nat × Nat := match f with
  | .column => (s.1, s.2 + id * p)
  | .row => if i = 0 then (id, s.2) else (s.1, s.2 + id * p)

/-- `read_elements_first_element__` (table.hpp:844-879): `ids` are the indices before the ranges; the state is the row and the element, before one is added -/
def firstElement (f : Format) (dims pitch : List Nat) : Nat → List Nat → Nat × Nat → Res (Nat × Nat)
  | _, [], s => .ok (s.1 + 1, s.2 + 1)
  | i, id :: ids, s => do
    let d ← Res.rd dims i
    let p ← Res.rd pitch i
    Res.check (id < d)
    firstElement f dims pitch (i + 1) ids (addIndex f i id p s)

/-- `read_elements` (table.hpp:940-980) with `ids` indices followed by `nrange` ranges, in a vector of `dim` dimensions (a number if `dim = 0`) -/
def readElements [DecidableEq α] (z one : α) (f : Format) (o : Opts) (t : Tbl α) (name : Str) (e : ET) (dim : Nat) (ids : List Nat) (nrange : Nat) : Res (Vec α) :=
  match colnum t name with
  | none => .abort
  | some i => match t.cols[i]? with
    | none => .ub
    | some c => do
      let dims := infoDims f t c
      let ty ← infoType z one t i c
      Res.check (ids.length + nrange = dims.length)
      Res.check (checkType o e ty = true)
      Res.check (dim ≤ dims.length)
      let vdims := dims.drop (dims.length - dim)
      let (r, el) ← firstElement f dims (pitches dims) 0 ids (0, 0)
      if dim ≠ 0 ∧ vdims.prod = 0 then .ok ⟨[], vdims⟩
      else do
        let l ← readCol t i r el (if dim = 0 then 1 else vdims.prod)
        .ok ⟨l, vdims⟩

/-- `update_elements` (table.hpp:1681-1712) -/
def updateElements [DecidableEq α] (z one : α) (f : Format) (t : Tbl α) (name : Str) (e : ET) (v : Vec α) (ids : List Nat) (nrange : Nat) : Res (Tbl α) :=
  match colnum t name with
  | none => .abort
  | some i => match t.cols[i]? with
    | none => .ub
    | some c => do
      let dims := infoDims f t c
      let ty ← infoType z one t i c
      Res.check (ids.length + nrange = dims.length)
      Res.check (v.dims.length ≤ dims.length)
      Res.check (v.dims = dims.drop (dims.length - v.dims.length))
      Res.check (convertibleNarrow e ty = true)
      let (r, el) ← firstElement f dims (pitches dims) 0 ids (0, 0)
      if v.data = [] then .ok t else writeCol z t i r el v.data

end Verif.FitsTable
