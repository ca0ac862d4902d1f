import Verif.Io.FitsTable
import Verif.Io.Ascii
/-!
# Several columns of FITS tables at once (`io/fits/table.hpp:574-583,659-837,1269-1277,1330-1445,1538-1620`)

The columns given as `ftable(a, b, ...)`: the text of the arguments, and the arguments; `named` is `vif::impl::named_t` (`ftable(_named(a, "name"))`).
Structures of vectors are those known to the reflection of the library. Only vectors of numbers are considered: the column functions for numbers and texts are
in `FitsTable`. The checks that the file is open, and the creation of the table, are those of the columns.
-/
namespace Verif.FitsCols
open Verif Verif.Str Verif.Core Verif.FitsTable Verif.Io
variable {α : Type}

/-- an argument of `ftable` -/
inductive Arg (α : Type)
  | plain (e : ET) (v : Vec α)
  | named (name : Str) (e : ET) (v : Vec α)

def Arg.type : Arg α → ET
  | .plain e _ => e
  | .named _ e _ => e

def Arg.vec : Arg α → Vec α
  | .plain _ v => v
  | .named _ _ v => v

/-- `write_columns_impl_` with the names of a macro (`table.hpp:1382-1400`) -/
def writeMacro (z : α) (f : Format) : Str → List (Arg α) → Tbl α → Res (Tbl α)
  | _, [], t => .ok t
  | names, .plain e v :: as, t => do
    let p ← popName names
    let n ← bakeName p.1
    let t ← writeColumn z f t n e v
    writeMacro z f p.2 as t
  | names, .named n e v :: as, t => do
    let p ← popName names
    let t ← writeColumn z f t n e v
    writeMacro z f p.2 as t

/-- `update_columns_impl_` with the names of a macro (`table.hpp:1547-1568`) -/
def updateMacro (z : α) (f : Format) : Str → List (Arg α) → Tbl α → Res (Tbl α)
  | _, [], t => .ok t
  | names, .plain e v :: as, t => do
    let p ← popName names
    let n ← bakeName p.1
    let t ← updateColumn z f t n e v
    updateMacro z f p.2 as t
  | names, .named n e v :: as, t => do
    let p ← popName names
    let t ← updateColumn z f t n e v
    updateMacro z f p.2 as t

/-- `read_column` in a vector that contains `v`: it keeps its value if the column is missing and this is allowed -/
def readInto (f : Format) (o : Opts) (z : α) (t : Tbl α) (name : Str) (e : ET) (v : Vec α) : Res (Vec α) := do
  let r ← readColumn f o t name e v.dims.length z
  .ok (r.getD v)

/-- `read_columns_impl_` with the names of a macro (`table.hpp:771-791`): the new values of the arguments -/
def readMacro (f : Format) (o : Opts) (z : α) (t : Tbl α) : Str → List (Arg α) → Res (List (Vec α))
  | _, [] => .ok []
  | names, .plain e v :: as => do
    let p ← popName names
    let n ← bakeName p.1
    let v ← readInto f o z t n e v
    let vs ← readMacro f o z t p.2 as
    .ok (v :: vs)
  | names, .named n e v :: as => do
    let p ← popName names
    let v ← readInto f o z t n e v
    let vs ← readMacro f o z t p.2 as
    .ok (v :: vs)

/-- `write_columns(name, value, ...)` (`table.hpp:1372-1380,1404-1423`) -/
def writeList (z : α) (f : Format) : List (Str × ET × Vec α) → Tbl α → Res (Tbl α)
  | [], t => .ok t
  | (n, e, v) :: l, t => do
    let t ← writeColumn z f t n e v
    writeList z f l t

/-- `update_columns(name, value, ...)` (`table.hpp:1539-1545,1572-1590`) -/
def updateList (z : α) (f : Format) : List (Str × ET × Vec α) → Tbl α → Res (Tbl α)
  | [], t => .ok t
  | (n, e, v) :: l, t => do
    let t ← updateColumn z f t n e v
    updateList z f l t

/-- `read_columns(name, value, ...)` (`table.hpp:713-766`) -/
def readList (f : Format) (o : Opts) (z : α) (t : Tbl α) : List (Str × ET × Vec α) → Res (List (Vec α))
  | [] => .ok []
  | (n, e, v) :: l => do
    let v ← readInto f o z t n e v
    let vs ← readList f o z t l
    .ok (v :: vs)

/-- the members of a structure, in order: vectors and structures -/
inductive S (α : Type)
  | nil
  | leaf (n : Str) (e : ET) (v : Vec α) (rest : S α)
  | sub (n : Str) (ms rest : S α)

/-- `do_write_struct_` (`table.hpp:1269-1277,1330-1352`); `base` is empty for `write_columns(struct)` (`table.hpp:1441-1447`) -/
def S.write (z : α) (f : Format) : Str → S α → Tbl α → Res (Tbl α)
  | _, .nil, t => .ok t
  | base, .leaf n e v rest, t => do
    let t ← writeColumn z f t (base ++ upper n) e v
    rest.write z f base t
  | base, .sub n ms rest, t => do
    let t ← ms.write z f (upper (base ++ upper n) ++ ['.']) t
    rest.write z f base t

/-- `do_read_struct_` (`table.hpp:574-583,663-691,828-837`) -/
def S.read (f : Format) (o : Opts) (z : α) (t : Tbl α) : Str → S α → Res (S α)
  | _, .nil => .ok .nil
  | base, .leaf n e v rest => do
    let v ← readInto f o z t (base ++ upper n) e v
    let rest ← rest.read f o z t base
    .ok (.leaf n e v rest)
  | base, .sub n ms rest => do
    let ms ← ms.read f o z t (upper (base ++ upper n) ++ ['.'])
    let rest ← rest.read f o z t base
    .ok (.sub n ms rest)

/-- `update_columns(struct)` (`table.hpp:1608-1626`): `update_column` of each member; that of a structure removes the column of its name (`table.hpp:1529-1535`) -/
def S.update (z : α) (f : Format) : S α → Tbl α → Res (Tbl α)
  | .nil, t => .ok t
  | .leaf n e v rest, t => do
    let t ← updateColumn z f t (upper n) e v
    rest.update z f t
  | .sub n ms rest, t => do
    let t ← ms.write z f (upper (upper n) ++ ['.']) (removeColumn t (upper n))
    rest.update z f t

end Verif.FitsCols
