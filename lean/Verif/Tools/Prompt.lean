import Verif.Str.Conv
/-!
# Asking the user and reading the environment (`core/print.hpp:36-68`, `utility/os.hpp:9-27`)

The standard input is the list of its lines; at the end of the input `std::getline` gives an empty text, for ever.
-/
namespace Verif.Prompt
open Verif Verif.Str Verif.StrConv Verif.Sex

/-- one round of `prompt` (`print.hpp:41-57`): whether the answer is accepted, and the new value of the variable -/
def answer {T : Type} (r : Reader T) (line : Str) (value : T) : Bool × T :=
  let (v, fail, rest) := extract r line value
  if !fail then
    if rest = [] then (true, v)
    else
      let rem := (extract wordReader rest ([] : Str)).1
      (decide (firstNotOf rem [' ', '\t'] 0 = none), v)
  else (false, v)

/-- what is printed after a wrong answer (`print.hpp:59-63`) -/
def complaint (err : Str) : Str := if err = [] then [] else "error: ".toList ++ err ++ ['\n']

/-- `prompt(msg, value, err_msg)` (`print.hpp:36-68`) on the lines of the standard input: the value, what is printed, and the lines left. At the end of the
input each round reads an empty answer, fails and leaves the variable as it is (`answer_eof`), so the loop does not end. -/
def prompt {T : Type} (r : Reader T) (msg err : Str) : List Str → T → Res (T × Str × List Str)
  | [], _ => .diverge
  | line :: lines, value =>
    let (ok, v) := answer r line value
    if ok then .ok (v, msg, lines)
    else do
      let (w, out, rest) ← prompt r msg err lines v
      .ok (w, msg ++ complaint err ++ out, rest)

/-- `system_var<T>(name, def)` (`os.hpp:9-17`); `env` is `getenv`, and `t` the arbitrary value of the variable that is not initialized -/
def systemVar {T : Type} (r : Reader T) (fb : Str → Option T) (env : Str → Option Str) (name : Str) (dflt t : T) : T :=
  match env name with
  | none => dflt
  | some v =>
    let (ok, ret) := fromString r fb v t
    if ok then ret else dflt

/-- `system_var(name, def)` with a text (`os.hpp:19-27`) -/
def systemText (env : Str → Option Str) (name dflt : Str) : Str :=
  match env name with
  | none => dflt
  | some v => v

end Verif.Prompt
