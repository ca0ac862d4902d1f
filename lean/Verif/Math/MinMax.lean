import Verif.Core.Vectorize
import Mathlib.Data.Rat.Floor
/-!
# Smaller and larger of two values, element by element

Models `math/reduce.hpp:381-450`: `min(a, b)` and `max(a, b)` for scalars and vectors. `lt` is the
operator `<` of the common type `γ` (`decltype(v1[0]*v2[0])`), `c1` and `c2` are the conversions to
it and `back` the conversion from it to the type of the first argument, the element type of the
result.
-/
namespace Verif.Math
open Verif Verif.Core
variable {α β γ : Type}

/-- `min(t1, t2)`, `reduce.hpp:381-384` -/
def scalarMin (lt : γ → γ → Bool) (a b : γ) : γ := if lt a b then a else b
/-- `max(t1, t2)`, `reduce.hpp:386-389`; `a > b` is `b < a` -/
def scalarMax (lt : γ → γ → Bool) (a b : γ) : γ := if lt b a then a else b
/-- `std::min(a, b)`: the second if it is smaller, else the first -/
def stdMin (lt : γ → γ → Bool) (a b : γ) : γ := if lt b a then b else a
/-- `std::max(a, b)`: the second if the first is smaller, else the first -/
def stdMax (lt : γ → γ → Bool) (a b : γ) : γ := if lt a b then b else a

/-- the loop `for (i = 0; i < n; ++i) r.safe[i] = e(i)` -/
def fillLoop (e : Nat → Res α) : List Nat → List α → Res (List α)
  | [], r => .ok r
  | i :: is, r => do
    let y ← e i
    let r ← Vectorize.wr r i y
    fillLoop e is r

/-- `min(vec, vec)` and `max(vec, vec)`, `reduce.hpp:391-413`; `op` is `std::min` or `std::max` -/
def pickVV [Inhabited α] (op : γ → γ → γ) (c1 : α → γ) (c2 : β → γ) (back : γ → Res α)
    (v1 : Vec α) (v2 : Vec β) : Res (Vec α) := do
  Res.check (v1.dims = v2.dims)
  let data ← fillLoop (fun i => do
    let a ← Res.rd v1.data i
    let b ← Res.rd v2.data i
    back (op (c1 a) (c2 b))) (List.range v1.data.length) (List.replicate v1.dims.prod default)
  .ok ⟨data, v1.dims⟩

/-- `min(vec, scalar)` and `max(vec, scalar)`, `reduce.hpp:415-431` -/
def pickVS [Inhabited α] (op : γ → γ → γ) (c1 : α → γ) (c2 : β → γ) (back : γ → Res α)
    (v1 : Vec α) (b : β) : Res (Vec α) := do
  let data ← fillLoop (fun i => do
    let a ← Res.rd v1.data i
    back (op (c1 a) (c2 b))) (List.range v1.data.length) (List.replicate v1.dims.prod default)
  .ok ⟨data, v1.dims⟩

/-- `min(scalar, vec)` and `max(scalar, vec)`, `reduce.hpp:433-449`: the elements of the result
have the type of the scalar. -/
def pickSV [Inhabited α] (op : γ → γ → γ) (c1 : α → γ) (c2 : β → γ) (back : γ → Res α)
    (a : α) (v2 : Vec β) : Res (Vec α) := do
  let data ← fillLoop (fun i => do
    let b ← Res.rd v2.data i
    back (op (c1 a) (c2 b))) (List.range v2.data.length) (List.replicate v2.dims.prod default)
  .ok ⟨data, v2.dims⟩

/-- `<` of floating point numbers; `none` is NaN -/
def fltLt [LT γ] [DecidableLT γ] : Option γ → Option γ → Bool
  | some a, some b => decide (a < b)
  | _, _ => false

/-- conversion of a floating point number to a signed integer of 64 bits: cut towards zero,
undefined for NaN and outside the range -/
def toInt64 : Option ℚ → Res Int
  | none => .ub
  | some q =>
    let z := if 0 ≤ q then ⌊q⌋ else ⌈q⌉
    if -2 ^ 63 ≤ z ∧ z < 2 ^ 63 then .ok z else .ub

/-- conversion of a signed integer to an unsigned one of 64 bits -/
def toUInt64 (z : Int) : Nat := (z % 2 ^ 64).toNat

end Verif.Math
