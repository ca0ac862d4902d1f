import Verif.Basic
/-!
# Errors of FITS files (`io/fits/base.hpp:378-462`, `io/fits/table.hpp:585-600`)

What a file object keeps after an exception was caught by the caller: the pointer to the file, and the status of `cfitsio`, which is not reset. The contract of
`cfitsio` is that a function called with a status that is not zero does nothing and returns this status.
-/
namespace Verif.FitsStatus
open Verif

/-- `fptr_` (the file opened, if any) and whether `status_` is not zero (base.hpp:653-655) -/
structure Obj (N : Type) where
  fptr : Option N := none
  bad : Bool := false
deriving DecidableEq

/-- what can be done with an object. `call` is any function that uses `status_` and throws if it is not zero; `ok` tells if `cfitsio` succeeds. `reset` is
`read_header`, which first sets `status_` to zero (base.hpp:488-500). `forgive` is `remove_keyword` or `remove_column`, which ignore errors (base.hpp:758-763,
table.hpp:1503-1514). `column` is the search of a column by `read_column` (table.hpp:591-604). -/
inductive Op (N : Type)
  | opn (name : N)
  | close
  | call (ok : Bool)
  | reset (ok : Bool)
  | forgive
  | column (found : Bool)

/-- the outcome seen by the caller: no exception, an exception, or the column is reported as missing -/
inductive Out
  | done | thrown | missing
deriving DecidableEq

variable {N : Type}

/-- `close` (base.hpp:422-428) -/
def close (s : Obj N) : Obj N := match s.fptr with
  | none => s
  | some _ => ⟨none, false⟩

/-- a function of `cfitsio` -/
def cfitsio (s : Obj N) (ok : Bool) : Obj N := if s.bad then s else { s with bad := !ok }

/-- `open` (base.hpp:393-420); `exist` are the files that can be opened. The end of the function, which reads the format of tables, resets the status. -/
def opn (exist : N → Bool) (s : Obj N) (name : N) : Obj N × Out :=
  let s := close s
  let s := cfitsio s (exist name)
  if s.bad then (s, .thrown) else (⟨some name, false⟩, .done)

def step (exist : N → Bool) (s : Obj N) : Op N → Obj N × Out
  | .opn name => opn exist s name
  | .close => (close s, .done)
  | .call ok => match s.fptr with
    | none => (s, .thrown)
    | some _ => let s := cfitsio s ok
                (s, if s.bad then .thrown else .done)
  | .reset ok => match s.fptr with
    | none => (s, .thrown)
    | some _ => let s := cfitsio { s with bad := false } ok
                (s, if s.bad then .thrown else .done)
  | .forgive => match s.fptr with
    | none => (s, .thrown)
    | some _ => ({ s with bad := false }, .done)
  | .column found => match s.fptr with
    | none => (s, .thrown)
    | some _ => if (cfitsio s found).bad then ({ s with bad := false }, .missing) else (s, .done)

/-- a sequence of operations, the exceptions being caught -/
def steps (exist : N → Bool) : List (Op N) → Obj N → Obj N × List Out
  | [], s => (s, [])
  | o :: l, s =>
    let r := step exist s o
    let q := steps exist l r.1
    (q.1, r.2 :: q.2)

end Verif.FitsStatus
