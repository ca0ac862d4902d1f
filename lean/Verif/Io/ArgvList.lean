import Verif.Io.Argv
/-!
# Model of `utility/argv.hpp`: lists of variables, `program_arguments`, `make_cmd`, `save_args`

The variables passed to one call of `read` or `write` share the type `V` of values; each brings its own
conversion.  Reading one variable is `readVar` of `Verif/Io/Argv.lean`.
-/
namespace Verif.Io
open Verif Verif.Str

/-- A variable passed to `program_arguments::read` or `write`: its value, the label if it was given as
`name(variable, "label")` (`impl::named_t`, `core/string_conversion.hpp:33-43`), how it reads one argument
(`read_args_impl_`) and how it is written (`write_arg_`). -/
structure Slot (V : Type) where
  label : Option Str
  val : V
  impl : Str → ArgVar → V → Res (Bool × V × ArgVar)
  write : V → Str

/-- What follows the first `)` of the list of names and the character after it
(`utility/argv.hpp:204-205,225-227` and `:262-263,269-271`); `none` if the recursion stops there. -/
def afterParen (names : Str) : Res (Option Str) :=
  match firstOf names [')'] 0 with
  | none => .ok none
  | some p =>
    if p + 1 = names.length then .ok none
    else do
      let r ← substrFrom names (p + 1 + 1)
      .ok (some r)

/-- `read_args_` (`utility/argv.hpp:159-228`): the arguments and the values of the variables afterwards.
The exception for missing names is `abort`.  A variable with a label that closes the list of names leaves the
variables after it alone. -/
def readArgs {V : Type} : List (Slot V) → Str → List ArgVar → Res (List ArgVar × List V)
  | [], _, es => .ok (es, [])
  | s :: ss, names, es =>
    match s.label with
    | none => do
      let (n, rest) ← varName names
      let (es, v) ← readVar (s.impl n) s.write n es s.val
      match rest with
      | some r => do
        let (es, vs) ← readArgs ss r es
        .ok (es, v :: vs)
      | none => if ss = [] then .ok (es, [v]) else .abort
    | some n => do
      let (es, v) ← readVar (s.impl n) s.write n es s.val
      let rest ← afterParen names
      match rest with
      | some r => do
        let (es, vs) ← readArgs ss r es
        .ok (es, v :: vs)
      | none => .ok (es, v :: ss.map (·.val))

/-- the argument that `write_args_` and `read_args_` append (`utility/argv.hpp:184-188,242-244`) -/
def written {V : Type} (n : Str) (s : Slot V) : ArgVar := ⟨n ++ '=' :: s.write s.val, true, true⟩

/-- `write_args_` (`utility/argv.hpp:231-272`).  After a variable with a label the code continues with
`read_args_`, so that the values of the variables are part of the result. -/
def writeArgs {V : Type} : List (Slot V) → Str → List ArgVar → Res (List ArgVar × List V)
  | [], _, es => .ok (es, [])
  | s :: ss, names, es =>
    match s.label with
    | none => do
      let (n, rest) ← varName names
      match rest with
      | some r => do
        let (es, vs) ← writeArgs ss r (es ++ [written n s])
        .ok (es, s.val :: vs)
      | none => if ss = [] then .ok (es ++ [written n s], [s.val]) else .abort
    | some n => do
      let rest ← afterParen names
      match rest with
      | some r => do
        let (es, vs) ← readArgs ss r (es ++ [written n s])
        .ok (es, s.val :: vs)
      | none => .ok (es ++ [written n s], s.val :: ss.map (·.val))

/-- `program_arguments(argc, argv)` (`utility/argv.hpp:276-287`); the list is `argv` with the program name -/
def programArgs (argv : List Str) : Res (List ArgVar) :=
  if argv.length ≤ 1 then .ok []
  else argv.tail.mapM fun a => do
    let a ← trim a blanks
    .ok ⟨a, false, true⟩

/-- the arguments for which `~program_arguments` prints a warning (`utility/argv.hpp:295-300`) -/
def unrecognized (es : List ArgVar) : List Str := (es.filter (fun e => !e.read)).map (·.arg)

/-- `program_arguments::serialize` (`utility/argv.hpp:318-320`) -/
def serialize (es : List ArgVar) : Str := collapseSep (es.map (·.arg)) [' ']

/-- the body of the loop of `make_cmd` (`utility/argv.hpp:346-355`) -/
def quoteArg (t : Str) : Res Str :=
  match firstOf t [' ', '\t'] 0 with
  | none => .ok t
  | some _ =>
    match firstOf t ['='] 0 with
    | none => .ok ('"' :: t ++ ['"'])
    | some p => do
      let a ← substr t 0 (p + 1)
      let b ← substrFrom t (p + 1)
      .ok (a ++ '"' :: b ++ ['"'])

/-- the loop of `make_cmd` -/
def cmdLoop : List Str → Str → Res Str
  | [], cmd => .ok cmd
  | t :: ts, cmd => do
    let q ← quoteArg t
    cmdLoop ts (cmd ++ ' ' :: q)

/-- `make_cmd(argc, argv)` (`utility/argv.hpp:343-361`); without a program name a string is built from a null
pointer -/
def makeCmd : List Str → Res Str
  | [] => .ub
  | a :: ts => cmdLoop ts a

/-- the text that `save_args` writes (`utility/argv.hpp:335-341`); `args` without the program name -/
def saveArgs (pname : Str) (args : List Str) : Str := args.foldl (fun s a => s ++ ' ' :: a) pname

end Verif.Io
