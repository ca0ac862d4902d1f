import Verif.Math.Interp
import Mathlib.Algebra.Order.Floor.Defs
import Mathlib.Algebra.Order.Floor.Ring
/-!
# Cubic splines (`math/interpolate.hpp:271-458`)

Values are elements of a field (no rounding). The arrays of the code are functions of the index; all the `.safe` accesses of the coefficient
functions are at indices `0 … n` with `n = y.size()-1 ≥ 1`, which the callers check.
-/
namespace Verif.Spline
open Verif Verif.Math

variable {K : Type} [Field K] [LinearOrder K]

/-- the coefficients `b`, `c`, `d` -/
structure Coefs (K : Type) where
  b : Nat → K
  c : Nat → K
  d : Nat → K

/-- `(mu[i], z[i])` of the forward loop (`interpolate.hpp:284-297`); line 286 divides both terms of `al[i]` by `h[i]` -/
def sweep (y x : Nat → K) : Nat → K × K
  | 0 => (0, 0)
  | i + 1 =>
    let h := fun i => x (i + 1) - x i
    let al := 3 * (y (i + 2) - y (i + 1)) / h (i + 1) - 3 * (y (i + 1) - y i) / h (i + 1)
    let (mu, z) := sweep y x i
    let l := 2 * (x (i + 2) - x i) - h i * mu
    (h (i + 1) / l, (al - h i * z) / l)

/-- `c[n-k]` of the backward loop (`interpolate.hpp:299-304`, `337-341`); `c[n]` is 0 -/
def cDown (n : Nat) (mz : Nat → K × K) : Nat → K
  | 0 => 0
  | k + 1 => (mz (n - (k + 1))).2 - (mz (n - (k + 1))).1 * cDown n mz k

/-- `interpolate_3spline_make_coefs(y, x, b, c, d)` (`interpolate.hpp:271-311`); `n` is `y.size()-1` -/
def coefs (n : Nat) (y x : Nat → K) : Coefs K :=
  let h := fun i => x (i + 1) - x i
  let c := fun i => cDown n (sweep y x) (n - i)
  let b := fun i => (y (i + 1) - y i) / h i - 1 / 3 * h i * (c (i + 1) + 2 * c i)
  let d := fun i => 1 / 3 * (c (i + 1) - c i) / h i
  { b := fun i => if i < n then b i else b (n - 1) + 2 * c (n - 1) * (x n - x (n - 1)) + 3 * d (n - 1) * ((x n - x (n - 1)) * (x n - x (n - 1)))
    c := c
    d := fun i => if i < n then d i else 0 }

/-- the forward loop for a regular grid (`interpolate.hpp:322-333`) -/
def sweepReg (y : Nat → K) : Nat → K × K
  | 0 => (0, 0)
  | i + 1 =>
    let al := 3 * (y (i + 2) - y (i + 1)) - 3 * (y (i + 1) - y i)
    let (mu, z) := sweepReg y i
    let l := 4 - mu
    (1 / l, (al - z) / l)

/-- `interpolate_3spline_make_coefs(y, b, c, d)` (`interpolate.hpp:313-346`) -/
def coefsReg (n : Nat) (y : Nat → K) : Coefs K :=
  let c := fun i => cDown n (sweepReg y) (n - i)
  let b := fun i => (y (i + 1) - y i) - 1 / 3 * (c (i + 1) + 2 * c i)
  let d := fun i => 1 / 3 * (c (i + 1) - c i)
  { b := fun i => if i < n then b i else b (n - 1) + 2 * c (n - 1) + 3 * d (n - 1)
    c := c
    d := fun i => if i < n then d i else 0 }

/-- the polynomial of interval `k` at distance `th` from its start (`interpolate.hpp:376`) -/
def poly (y : Nat → K) (q : Coefs K) (k : Nat) (th : K) : K := y k + q.b k * th + q.c k * th * th + q.d k * th * th * th

/-- elements of a vector -/
def fn (v : List K) (i : Nat) : K := v.getD i 0

/-- `interpolate_3spline(y, x, xn)` (`interpolate.hpp:384-406`) -/
def spline (y x : List K) (xn : K) : Res K := do
  Res.check (y.length = x.length)
  Res.check (2 ≤ y.length)
  let q := coefs (y.length - 1) (fn y) (fn x)
  let k ← lowerB x xn
  match k with
  | none => .ok (fn y 0 + q.b 0 * (xn - fn x 0))
  | some k => .ok (poly (fn y) q k (xn - fn x k))

/-- `interpolate_3spline(y, x, xn)` for a vector of positions (`interpolate.hpp:353-379`) -/
def splineV (y x xn : List K) : Res (List K) := do
  Res.check (y.length = x.length)
  Res.check (2 ≤ y.length)
  let q := coefs (y.length - 1) (fn y) (fn x)
  xn.mapM fun t => do
    let k ← lowerB x t
    match k with
    | none => .ok (fn y 0 + q.b 0 * (t - fn x 0))
    | some k => .ok (poly (fn y) q k (t - fn x k))

/-- `interpolate_3spline(y, xn)` on a regular grid (`interpolate.hpp:439-458`); the position is in the range of the signed integers -/
def splineReg [FloorRing K] (y : List K) (xn : K) : Res K := do
  Res.check (2 ≤ y.length)
  let n := y.length - 1
  let q := coefsReg n (fn y)
  let k := ⌊xn⌋
  if k < 0 then .ok (fn y 0 + q.b 0 * xn)
  else
    let k := if (n : Int) < k then n else k.toNat
    .ok (poly (fn y) q k (xn - k))

end Verif.Spline
