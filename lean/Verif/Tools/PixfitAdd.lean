import Verif.Str.Model
/-!
# Adding measurements to a catalogue: the programs `pixfit-addflx` and `pixfit-addtdcst` (`tools/pixfit/pixfit-addflx.cpp`, `tools/pixfit/pixfit-addtdcst.cpp`)

The matrices of fluxes are lists of rows, one row per source and one value per band. Reading and writing of the table are those of C124; `rdId` and `rdV` are
`from_string` for the type of identifiers and of fluxes (C143), `nan` is the value of `fnan`. A program that reports an error leaves the file as it was
(`none`).
-/
namespace Verif.Pixfit
open Verif Verif.Str

variable {V : Type}

/-- the columns of the catalogue -/
structure Fluxes (V : Type) where
  ids : List Nat
  bands : List Str
  flux : List (List V)
  err : List (List V)
  deriving DecidableEq

/-- the variables of the loop (`pixfit-addflx.cpp:19-22`): the column, the identifier, the flux and the state -/
structure AddState (V : Type) where
  tab : Fluxes V
  b : Option Nat
  id : Nat
  flx : V
  state : Nat

/-- `flux(p,b) = v`; stops the program when the indices are outside -/
def setCell (m : List (List V)) (p : Nat) (b : Option Nat) (v : V) : Res (List (List V)) :=
  match b with
  | none => .abort
  | some b => do
    let row ← (match m[p]? with | some r => .ok r | none => .abort)
    if b < row.length then .ok (m.set p (row.set b v)) else .abort

/-- adding a band (`pixfit-addflx.cpp:29-32`) -/
def addBand (nan : V) (t : Fluxes V) (name : Str) : Fluxes V :=
  { t with bands := t.bands ++ [name], flux := t.flux.map (· ++ [nan]), err := t.err.map (· ++ [nan]) }

/-- the position of a value, if it is there: `where_first(v == x)` -/
def position {β : Type} [DecidableEq β] : List β → β → Option Nat
  | [], _ => none
  | y :: l, x => if y = x then some 0 else (position l x).map (· + 1)

/-- one argument (`pixfit-addflx.cpp:23-73`): `none` for an error -/
def addArg (rdId : Str → Option Nat) (rdV : Str → Option V) (nan : V) (s : AddState V) (arg : Str) : Res (Option (AddState V)) := do
  let spl ← split arg ['=']
  match spl with
  | [key, val] =>
    if key = "band".toList then
      match position s.tab.bands val with
      | some b => .ok (some { s with b := some b, state := 0 })
      | none => .ok (some { s with tab := addBand nan s.tab val, b := some s.tab.bands.length, state := 0 })
    else .ok none
  | [_] =>
    if s.state = 0 then
      match rdId arg with
      | some id => .ok (some { s with id := id, state := 1 })
      | none => .ok none
    else if s.state = 1 then
      match rdV arg with
      | some v => .ok (some { s with flx := v, state := 2 })
      | none => .ok none
    else
      match rdV arg with
      | none => .ok none
      | some e =>
        match position s.tab.ids s.id with
        | none => .ok none
        | some p => do
          let flux ← setCell s.tab.flux p s.b s.flx
          let err ← setCell s.tab.err p s.b e
          .ok (some { s with tab := { s.tab with flux := flux, err := err }, state := 0 })
  | _ => .ok none

/-- the loop over the arguments -/
def addLoop (rdId : Str → Option Nat) (rdV : Str → Option V) (nan : V) : AddState V → List Str → Res (Option (AddState V))
  | s, [] => .ok (some s)
  | s, arg :: args => do
    match ← addArg rdId rdV nan s arg with
    | none => .ok none
    | some s => addLoop rdId rdV nan s args

/-- `pixfit-addflx`: the columns of the catalogue after it, `none` if there was an error -/
def addFluxes (rdId : Str → Option Nat) (rdV : Str → Option V) (nan : V) (t : Fluxes V) (args : List Str) : Res (Option (Fluxes V)) := do
  let r ← addLoop rdId rdV nan ⟨t, none, 0, nan, 0⟩ args
  .ok (r.map AddState.tab)

/-! ### Limits on the temperature -/

/-- the columns of the catalogue (`pixfit-addtdcst.cpp:9-22`) -/
structure Limits (V : Type) where
  ids : List Nat
  tmin : List V
  tmax : List V
  deriving DecidableEq

/-- the variables of the loop (`pixfit-addtdcst.cpp:24-25`) -/
structure LimState (V : Type) where
  tab : Limits V
  id : Option Nat
  mi : V
  ma : V

/-- `add_cst` (`pixfit-addtdcst.cpp:27-47`); `none` for an error. `isFin` is `is_finite`. The identifier is `npos` at first. -/
def addCst (isFin : V → Bool) (nan : V) (s : LimState V) : Option (LimState V) :=
  if isFin s.mi || isFin s.ma then
    match s.id with
    | none => none
    | some id =>
      match position s.tab.ids id with
      | none => none
      | some p => some { s with tab := { s.tab with tmin := s.tab.tmin.set p s.mi, tmax := s.tab.tmax.set p s.ma }, mi := nan, ma := nan }
  else some s

/-- one argument (`pixfit-addtdcst.cpp:49-79`) -/
def limArg (rdId : Str → Option Nat) (rdV : Str → Option V) (isFin : V → Bool) (nan : V) (s : LimState V) (arg : Str) : Res (Option (LimState V)) := do
  let spl ← split arg ['=']
  match spl with
  | [key, val] =>
    if key = "min".toList then .ok ((rdV val).map fun v => { s with mi := v })
    else if key = "max".toList then .ok ((rdV val).map fun v => { s with ma := v })
    else .ok none
  | [_] =>
    match addCst isFin nan s with
    | none => .ok none
    | some s => .ok ((rdId arg).map fun i => { s with id := some i })
  | _ => .ok none

/-- the loop over the arguments and the end of `pixfit-addtdcst` -/
def limLoop (rdId : Str → Option Nat) (rdV : Str → Option V) (isFin : V → Bool) (nan : V) : LimState V → List Str → Res (Option (Limits V))
  | s, [] => .ok ((addCst isFin nan s).map LimState.tab)
  | s, arg :: args => do
    match ← limArg rdId rdV isFin nan s arg with
    | none => .ok none
    | some s => limLoop rdId rdV isFin nan s args

/-- `pixfit-addtdcst` -/
def addLimits (rdId : Str → Option Nat) (rdV : Str → Option V) (isFin : V → Bool) (nan : V) (t : Limits V) (args : List Str) : Res (Option (Limits V)) :=
  limLoop rdId rdV isFin nan ⟨t, none, nan, nan⟩ args

end Verif.Pixfit
