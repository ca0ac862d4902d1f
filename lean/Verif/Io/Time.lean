import Verif.Str.Model
import Mathlib.Analysis.SpecialFunctions.Log.Base
import Mathlib.Algebra.Order.Floor.Semiring
/-!
# Model of `time_str` and `seconds_str` (`utility/time.hpp`)

The durations are real numbers (no rounding).  `to_string` of an integer, or of a floating point number with
an integer value below 10^6, is its decimal representation.  The conversion of a non-negative number to
`std::size_t` is the integer part; overflow of `std::size_t` (beyond 2^64 seconds) is not modelled.
-/
namespace Verif.Io
open Verif Verif.Str

/-- decimal representation -/
def dec (n : Nat) : Str := Nat.toDigits 10 n

noncomputable section

/-- the branch `t >= 1` of `time_str` (time.hpp:40-57) -/
def timeStrLong (t : ℝ) : Str :=
  let day : Nat := ⌊(⌊t / (24 * 60 * 60)⌋ : ℝ)⌋₊
  let hour : Nat := ⌊(⌊t / (60 * 60)⌋ : ℝ) - (day * 24 : Nat)⌋₊
  let min : Nat := ⌊(⌊t / 60⌋ : ℝ) - (day * 24 * 60 : Nat) - (hour * 60 : Nat)⌋₊
  let sec : Nat := ⌊(⌊t⌋ : ℝ) - (day * 24 * 60 * 60 : Nat) - (hour * 60 * 60 : Nat) - (min * 60 : Nat)⌋₊
  let date : Str := []
  let date := if day ≠ 0 then date ++ dec day ++ ['d'] else date
  let date := if hour ≠ 0 then date ++ alignRight (dec hour) 2 '0' ++ ['h'] else date
  let date := if min ≠ 0 then date ++ alignRight (dec min) 2 '0' ++ ['m'] else date
  let date := date ++ alignRight (dec sec) 2 '0' ++ ['s']
  if date.head? = some '0' ∧ date.length ≠ 2 then date.drop 1 else date

/-- `round` of a non-negative number: halves go up -/
def roundHalf (x : ℝ) : Nat := ⌊x + 1 / 2⌋₊

/-- the branch `t < 1` of `time_str` (time.hpp:31-39), for `0 < t`; for `t <= 0` the conversion of
`floor(log10(t))` to `int` is undefined -/
def timeStrShort (t : ℝ) : Str :=
  let mag := ⌊Real.logb 10 t⌋
  if mag ≥ -3 then dec (roundHalf (t * 1e3)) ++ "ms".toList
  else if mag ≥ -6 then dec (roundHalf (t * 1e6)) ++ "us".toList
  else dec (roundHalf (t * 1e9)) ++ "ns".toList

/-- `time_str` (time.hpp:28-58) -/
def timeStr (t : ℝ) : Res Str :=
  if t < 1 then (if t ≤ 0 then .ub else .ok (timeStrShort t)) else .ok (timeStrLong t)

/-- the loop `while (date[0] == '0' && date.size() != 3) date.erase(0,1)` (time.hpp:75-77) -/
def eraseZeros : Str → Str
  | [] => []
  | c :: s => if c = '0' ∧ (c :: s).length ≠ 3 then eraseZeros s else c :: s

/-- `seconds_str` (time.hpp:61-80); undefined for negative durations (conversion to `size_t`) -/
def secondsStr (t : ℝ) : Res Str :=
  if t < 0 then .ub else
  let sec : Nat := ⌊t⌋₊
  let ms : Nat := ⌊(t - sec) * 1000⌋₊
  let us : Nat := ⌊((t - sec) * 1000 - ms) * 1000⌋₊
  let ns : Nat := ⌊(((t - sec) * 1000 - ms) * 1000 - us) * 1000⌋₊
  let date : Str := []
  let date := if sec ≠ 0 then date ++ dec sec ++ ['s'] else date
  let date := if ms ≠ 0 ∨ date ≠ [] then date ++ alignRight (dec ms) 3 '0' ++ ['m', 's'] else date
  let date := if us ≠ 0 ∨ date ≠ [] then date ++ alignRight (dec us) 3 '0' ++ ['u', 's'] else date
  let date := date ++ alignRight (dec ns) 3 '0' ++ ['n', 's']
  .ok (eraseZeros date)

end

end Verif.Io
