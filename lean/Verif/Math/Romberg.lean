import Verif.Basic
import Mathlib.Algebra.Order.Field.Basic
import Mathlib.Data.Nat.Cast.Order.Field
/-!
# Model of `integrate_func` (`math/reduce.hpp:881-916`)

Exact arithmetic of an ordered field.  The loop counts `n` up; from `n = 16` on the shift `1 << (2*m)` of an `int`
with `m = n` is undefined.
-/
namespace Verif.Romberg
open Verif

variable {K : Type} [Field K] [LinearOrder K]

/-- the sum over the new points (reduce.hpp:898-903) -/
def newPoints (f : K → K) (x0 : K) (d : K) (half : Nat) : K :=
  (List.range half).foldl (fun tr k => tr + f (x0 + ((2 * (k + 1) - 1 : Nat) : K) * d)) 0

/-- the extrapolation loop (reduce.hpp:906-909) for `m`, `m+1`, ... (`cnt` turns) -/
def extrapolate (oid : Nat) : Nat → Nat → List K → Res (List K)
  | 0, _, buf => .ok buf
  | cnt + 1, m, buf =>
    if 16 ≤ m then .ub else do
    let last ← Res.rd buf (buf.length - 1)
    let prev ← Res.rd buf (oid + m - 1)
    extrapolate oid cnt (m + 1) (buf ++ [((4 : K) ^ m * last - prev) / ((4 : K) ^ m - 1)])

/-- the condition of the loop (reduce.hpp:912): `abs((a - b)/a) > e`; `0/0` is NaN and ends the loop, other
quotients by zero are infinite -/
def goOn (e a b : K) : Bool := if a = 0 then decide (b ≠ 0) else decide (e < |(a - b) / a|)

/-- the loop of `integrate_func` (reduce.hpp:895-912) for `n`, `n+1`, ... -/
def loop (f : K → K) (x0 x1 e : K) (n : Nat) (oid : Nat) (buf : List K) : Res K :=
  if h : 16 < n then .ub else do
  let d := (x1 - x0) / (2 : K) ^ n
  let b ← Res.rd buf oid
  let buf ← extrapolate oid n 1 (buf ++ [1 / 2 * b + d * newPoints f x0 d (2 ^ n / 2)])
  let a ← Res.rd buf (buf.length - 1)
  let b ← Res.rd buf (buf.length - 2)
  if goOn e a b then loop f x0 x1 e (n + 1) (oid + n) buf else .ok a
termination_by 17 - n

/-- `integrate_func` (reduce.hpp:881-916) -/
def integrateFunc (f : K → K) (x0 x1 e : K) : Res K := loop f x0 x1 e 1 0 [1 / 2 * (x1 - x0) * (f x0 + f x1)]

end Verif.Romberg
