import Verif.Str.Model
import Mathlib.Data.Nat.Log
/-!
# Progress bars (`utility/time.hpp:100-203`)

The text of the timings (`time.hpp:140-141`) is given for each call. `dashes` is the length of the bar (`progress_ndash`, 32 if not changed by the user). The
products do not exceed the range of `uint_t`. The quotients of `double` numbers followed by `floor` are exact integer quotients.
-/
namespace Verif.Progress
open Verif Verif.Str

/-- `progress_t` (`time.hpp:100-108`): the fields that are not timings -/
structure P where
  lastTick : Nat
  i : Nat
  n : Nat
  maxLength : Nat
  ended : Bool
deriving DecidableEq

/-- what is written: a line over the previous one, or the end of the line -/
inductive Ev
  | line (s : Str)
  | newline
deriving DecidableEq

/-- `progress_start` (`time.hpp:111-116`) -/
def start (n : Nat) : P := ⟨0, 0, n, 0, false⟩

/-- `to_string` of an integer -/
def natText (n : Nat) : Str := Nat.toDigits 10 n

/-- `progress_` (`time.hpp:121-147`): with `n = 0` an infinite number is converted to an integer, and so is a negative one if the bar is too long -/
def show_ (dashes : Nat) (timing : Str) (p : P) : Res (P × Str) :=
  if p.n = 0 then .ub else
  if dashes < dashes * (p.i + 1) / p.n then .ub else
  let msg := ['['] ++ List.replicate (dashes * (p.i + 1) / p.n) '-' ++ List.replicate (dashes - dashes * (p.i + 1) / p.n) ' ' ++ [']', ' ']
  let msg := msg ++ alignRight (natText (p.i + 1)) (Nat.log 10 p.n + 1) ' ' ++ [' ']
  let msg := msg ++ alignRight (natText (100 * (p.i + 1) / p.n)) 3 ' ' ++ ['%', ',', ' ']
  let msg := msg ++ timing
  let m := max p.maxLength msg.length
  .ok ({ p with maxLength := m }, msg ++ List.replicate (m - msg.length) ' ')

/-- `progress` (`time.hpp:151-165`) -/
def progress (dashes mod : Nat) (timing : Str) (p : P) : Res (P × List Ev) :=
  if p.ended then .ok (p, []) else
  if mod = 0 then .ub else do
    let (p, out) ← if p.i % mod = 0 ∨ p.i + 1 = p.n then (show_ dashes timing p).map fun r => (r.1, [Ev.line r.2]) else .ok (p, [])
    let p := { p with i := p.i + 1 }
    if p.i ≥ p.n then .ok ({ p with ended := true }, out ++ [.newline]) else .ok (p, out)

/-- `progress_tick` (`time.hpp:168-184`); `slow` is the comparison with the number of iterations done in `ticklen` seconds -/
def progressTick (dashes : Nat) (slow : Bool) (timing timing' : Str) (p : P) : Res (P × List Ev) :=
  if p.ended then .ok (p, []) else do
    let (p, out) ← if p.i < 10 ∨ slow then (show_ dashes timing { p with lastTick := p.i }).map fun r => (r.1, [Ev.line r.2]) else .ok (p, [])
    let p := { p with i := p.i + 1 }
    if p.i ≥ p.n then do
      let (p, l) ← show_ dashes timing' p
      .ok ({ p with ended := true }, out ++ [.line l, .newline])
    else .ok (p, out)

/-- `print_progress` (`time.hpp:188-201`); with `n = 0` the number `n-1` is the largest one -/
def printProgress (dashes mod ti : Nat) (timing : Str) (p : P) : Res (P × List Ev) :=
  if p.ended then .ok (p, []) else
  if p.n ≠ 0 ∧ ti ≥ p.n - 1 then do
    let (p, l) ← show_ dashes timing { p with i := p.n - 1 }
    .ok ({ p with ended := true }, [.line l, .newline])
  else if mod = 0 then .ub
  else if ti % mod = 0 then (show_ dashes timing { p with i := ti }).map fun r => (r.1, [Ev.line r.2])
  else .ok ({ p with i := ti }, [])

/-- the calls of a loop, one after the other -/
def calls (f : Nat → P → Res (P × List Ev)) : List Nat → P → Res (P × List Ev)
  | [], p => .ok (p, [])
  | k :: l, p => do
    let (p, e) ← f k p
    let (p, e') ← calls f l p
    .ok (p, e ++ e')

end Verif.Progress
