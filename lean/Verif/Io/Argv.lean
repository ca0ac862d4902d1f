import Verif.Str.Model
/-!
# Model of `utility/argv.hpp`: program arguments

`from_string` and `to_string` are arbitrary functions.  For a scalar, `from_string(s, t)` writes into the
variable itself, so the conversion takes the old value and returns the success flag and the new value.
-/
namespace Verif.Io
open Verif Verif.Str

/-- one program argument: its text and its `read` and `valid` flags (`utility/argv.hpp:321-324`) -/
structure ArgVar where
  arg : Str
  read : Bool
  valid : Bool
deriving DecidableEq

def quotes : Str := ['\'', '"']

/-- `trim(trim(s), "'\"")` -/
def unquote (s : Str) : Res Str := do
  let s ← trim s blanks
  trim s quotes

/-- The common part of the two `read_args_impl_` (`utility/argv.hpp:56-74`, `:86-104`): `none` when the argument
is not for this variable, `some none` for a bare name, `some (some v)` for `name=v`. -/
def matchArg (arg name : Str) : Res (Option (Option Str)) :=
  match firstOf arg ['='] 0 with
  | none => do
    let n ← (if arg.head? = some '-' then substrFrom arg 1 else .ok arg)
    .ok (if n = name then some none else none)
  | some p => do
    let p0 := if arg.head? = some '-' then 1 else 0
    let n ← substr arg p0 (p - p0)
    let n ← trim n blanks
    if n = name then do
      let v ← substrFrom arg (p + 1)
      .ok (some (some v))
    else .ok none

/-- the conversions a scalar variable needs: from the number 1 (a bare name) and from text -/
structure Conv (T : Type) where
  one : T
  conv : Str → T → Bool × T

/-- `read_args_impl_` for a scalar (`utility/argv.hpp:55-82`): the result of the call, the new value and the
new flags of the argument -/
def readScalar {T : Type} (c : Conv T) (name : Str) (e : ArgVar) (t : T) : Res (Bool × T × ArgVar) := do
  match ← matchArg e.arg name with
  | none => .ok (false, t, e)
  | some none => .ok (true, c.one, { e with read := true, valid := true })
  | some (some v) => do
    let v ← unquote v
    let (b, t) := c.conv v t
    .ok (true, t, { e with read := true, valid := b })

/-- the conversions of the elements of a vector: the temporary they are read into is discarded on failure -/
structure VConv (T : Type) where
  one : T
  conv : Str → Option T

/-- the loop over the elements of `[a,b,...]` (`utility/argv.hpp:118-127`) -/
def readElems {T : Type} (c : VConv T) : List Str → Res (Option (List T))
  | [] => .ok (some [])
  | s :: ss => do
    let s ← unquote s
    match c.conv s with
    | none => .ok none
    | some t => do
      let r ← readElems c ss
      .ok (r.map (t :: ·))

/-- `read_args_impl_` for a vector (`utility/argv.hpp:84-141`) -/
def readVector {T : Type} (c : VConv T) (name : Str) (e : ArgVar) (t : List T) : Res (Bool × List T × ArgVar) := do
  match ← matchArg e.arg name with
  | none => .ok (false, t, e)
  | some none => .ok (true, [c.one], { e with read := true, valid := true })
  | some (some v) => do
    let value ← trim v blanks
    if value ≠ [] ∧ value.head? = some '[' ∧ value.getLast? = some ']' then do
      let value := value.tail.dropLast
      if value = [] then .ok (true, [], { e with read := true, valid := true })
      else do
        let vals ← split value [',']
        match ← readElems c vals with
        | none => .ok (false, t, { e with read := true, valid := false })
        | some ts => .ok (true, ts, { e with read := true, valid := true })
    else do
      let s ← unquote value
      match c.conv s with
      | none => .ok (true, t, { e with read := true, valid := false })
      | some x => .ok (true, [x], { e with read := true, valid := true })

/-- the loop of `read_args_` over the arguments that contain the name (`utility/argv.hpp:172-182`); `impl` is
one of the two functions above -/
def readLoopArgs {T : Type} (impl : ArgVar → T → Res (Bool × T × ArgVar)) (name : Str) :
    List ArgVar → T → Bool → Res (List ArgVar × T × Bool)
  | [], t, found => .ok ([], t, found)
  | e :: es, t, found =>
    if (find e.arg name).isSome then do
      let (b, t, e) ← impl e t
      if e.valid then do
        let (es, t, found) ← readLoopArgs impl name es t (found || b)
        .ok (e :: es, t, found)
      else .ok (e :: es, t, found || b)
    else do
      let (es, t, found) ← readLoopArgs impl name es t found
      .ok (e :: es, t, found)

/-- `write_arg_` for a vector (`utility/argv.hpp:148-157`) -/
def writeArg {T : Type} (toStr : T → Str) (ts : List T) : Str :=
  '[' :: (ts.zipIdx.foldl (fun s (x, i) => s ++ (if i ≠ 0 then [','] else []) ++ toStr x) []) ++ [']']

/-- `read_args_` for one variable (`utility/argv.hpp:171-188`) -/
def readVar {T : Type} (impl : ArgVar → T → Res (Bool × T × ArgVar)) (write : T → Str) (name : Str) (es : List ArgVar)
    (t : T) : Res (List ArgVar × T) := do
  let (es, t, found) ← readLoopArgs impl name es t false
  if found then .ok (es, t)
  else .ok (es ++ [⟨name ++ '=' :: write t, true, true⟩], t)

/-- the name of the first variable of the list and the rest of the list (`utility/argv.hpp:165-170`, `:190-192`) -/
def varName (names : Str) : Res (Str × Option Str) := do
  let pos := firstOf names [','] 0
  let head ← match pos with
    | none => .ok names
    | some p => substr names 0 p
  let tname ← trim head blanks
  let tname ← match lastOf tname ['.'] none with
    | none => .ok tname
    | some p => do
      let s ← substrFrom tname (p + 1)
      trim s blanks
  match pos with
  | none => .ok (tname, none)
  | some p => do
    let r ← substrFrom names (p + 1)
    .ok (tname, some r)

end Verif.Io
