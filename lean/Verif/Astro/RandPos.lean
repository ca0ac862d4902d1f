import Verif.Basic
import Mathlib.Algebra.Order.Floor.Ring
import Mathlib.Algebra.Order.Field.Basic
/-!
# Random positions (`astro/astro.hpp:703-1026`)

The generator is the sequence `u` of the values that `randomu` returns (in `[0,1)` by contract); its state is the number of values drawn. Coordinates are
the elements of an ordered field; `cos`, `sin`, `sqrt` and pi are parameters, which the theorems take to be those of the real numbers. The regions are
functions without side effects. The text of the failures is left out.
-/
namespace Verif.RandPos
open Verif

/-- a computation that draws numbers: state before, result and state after -/
abbrev Gen (α : Type) := Nat → α × Nat

/-- the functions of `<cmath>` -/
structure Trig (K : Type) where
  cos : K → K
  sin : K → K
  sqrt : K → K
  pi : K

section
variable {K : Type} [Field K]

/-- `genpos` of `randpos_uniform_box` (`astro.hpp:772-775`) -/
def boxPos (u : Nat → K) (rx ry : K × K) : Gen (K × K) := fun k =>
  ((u k * (rx.2 - rx.1) + rx.1, u (k + 1) * (ry.2 - ry.1) + ry.1), k + 2)

/-- `genpos` of `randpos_uniform_circle` (`astro.hpp:820-826`) -/
def circlePos (T : Trig K) (u : Nat → K) (x0 y0 r0 : K) : Gen (K × K) := fun k =>
  let theta := u k * 2 * T.pi
  let r := r0 * T.sqrt (u (k + 1))
  ((x0 + r * T.cos theta, y0 + r * T.sin theta), k + 2)

/-- `randpos_uniform_circle` without a region (`astro.hpp:794-803`): all the angles are drawn before the radii -/
def circles (T : Trig K) (u : Nat → K) (n : Nat) (x0 y0 r0 : K) : Gen (List K × List K) := fun k =>
  let theta := (List.range n).map fun i => u (k + i) * 2 * T.pi
  let r := (List.range n).map fun i => r0 * T.sqrt (u (k + n + i))
  ((List.zipWith (fun r t => x0 + r * T.cos t) r theta, List.zipWith (fun r t => y0 + r * T.sin t) r theta), k + 2 * n)

/-- `randpos_uniform_box` without a region (`astro.hpp:743-757`). (As it stands it has a template parameter that cannot be deduced.) -/
def box (u : Nat → K) (n : Nat) (rx ry : K × K) : Gen (List K × List K) := fun k =>
  if n = 0 then (([], []), k)
  else (((List.range n).map fun i => u (k + i) * (rx.2 - rx.1) + rx.1, (List.range n).map fun i => u (k + n + i) * (ry.2 - ry.1) + ry.1), k + 2 * n)

/-- the loop `while (!in_region(tx, ty))` (`astro.hpp:726-733`); `n` more positions can be drawn before `iter` is `max_iter`, and `none` is the `return false` -/
def retry (gen : Gen (K × K)) (inR : K → K → Bool) : Nat → (K × K) × Nat → Option (K × K) × Nat
  | 0, s => (none, s.2)
  | n + 1, s =>
    if inR s.1.1 s.1.2 then (some s.1, s.2)
    else if n = 0 then (none, (gen s.2).2)
    else retry gen inR n (gen s.2)

/-- number of turns after which `++iter` gives `max_iter`: `iter` is an unsigned integer of 64 bits -/
def turns (maxIter : Nat) : Nat := if maxIter = 0 then 2 ^ 64 else maxIter

/-- the loop on the objects (`astro.hpp:723-737`): `n` of them are left, the next one is `i` -/
def rejLoop (gen : Gen (K × K)) (inR : K → K → Bool) (maxIter : Nat) : Nat → Nat → List K → List K → Gen (Bool × List K × List K)
  | 0, _, x, y => fun k => ((true, x, y), k)
  | n + 1, i, x, y => fun k =>
    let s := retry gen inR (turns maxIter) (gen k)
    match s.1 with
    | none => ((false, x, y), s.2)
    | some p => rejLoop gen inR maxIter n (i + 1) (x.set i p.1) (y.set i p.2) s.2

/-- `resize` of a vector of numbers -/
def resize (x : List K) (n : Nat) : List K := x.take n ++ List.replicate (n - x.length) 0

/-- `rejection_sampling` (`astro.hpp:713-741`); `x` and `y` are the vectors given by the caller -/
def rejectionSampling (gen : Gen (K × K)) (inR : K → K → Bool) (x y : List K) (nsrc maxIter : Nat) : Gen (Bool × List K × List K) :=
  rejLoop gen inR maxIter nsrc 0 (resize x nsrc) (resize y nsrc)

/-- `randpos_uniform_box` in a region (`astro.hpp:758-791`): `status.success` and the new values of `x` and `y` -/
def uniformBox (u : Nat → K) (nsrc : Nat) (rx ry : K × K) (x y : List K) (inR : K → K → Bool) (maxIter : Nat) : Gen (Bool × List K × List K) :=
  if nsrc = 0 then fun k => ((true, [], []), k) else rejectionSampling (boxPos u rx ry) inR x y nsrc maxIter

/-- `randpos_uniform_circle` in a region (`astro.hpp:805-842`) -/
def uniformCircle (T : Trig K) (u : Nat → K) (nsrc : Nat) (x0 y0 r0 : K) (x y : List K) (inR : K → K → Bool) (maxIter : Nat) : Gen (Bool × List K × List K) :=
  if nsrc = 0 then fun k => ((true, [], []), k) else rejectionSampling (circlePos T u x0 y0 r0) inR x y nsrc maxIter

/-- `randpos_uniform_options` (`astro.hpp:708-710`) -/
def defaultMaxIter : Nat := 1000

/-- `randpos_power_options` (`astro.hpp:844-853`); `etaEnd = none` is `npos` -/
structure Opt (K : Type) where
  lambda : K
  eta : Nat
  etaEnd : Option Nat
  levels : Nat
  maxIter : Nat

/-- the loop of `randpos_power_base` on the positions of a level (`astro.hpp:873-878`) -/
def baseRow (T : Trig K) (u : Nat → K) (eta : Nat) (r : K) : List (K × K) → List K → List K → Gen (List K × List K)
  | [], nx, ny => fun k => ((nx, ny), k)
  | p :: l, nx, ny => fun k =>
    let s := circles T u eta p.1 p.2 r k
    baseRow T u eta r l (nx ++ s.1.1) (ny ++ s.1.2) s.2

/-- the loop of `randpos_power_base` on the levels (`astro.hpp:866-887`) -/
def baseLoop (T : Trig K) (u : Nat → K) (o : Opt K) : Nat → K → List K → List K → Gen (List K × List K)
  | 0, _, x, y => fun k => ((x, y), k)
  | n + 1, r, x, y => fun k =>
    let s := baseRow T u o.eta r (x.zip y) [] [] k
    baseLoop T u o n (r / o.lambda) s.1.1 s.1.2 s.2

/-- `randpos_power_base` (`astro.hpp:855-888`) -/
def powerBase (T : Trig K) (u : Nat → K) (x0 y0 r0 : K) (o : Opt K) : Gen (List K × List K) := baseLoop T u o o.levels r0 [x0] [y0]

/-- `get_fill` of `randpos_power_circle` (`astro.hpp:902-914`) for a given threshold, `fraction_of` being the mean -/
def getFill (T : Trig K) (u : Nat → K) (inR : K → K → Bool) (nfil : Nat) (x1 y1 r1 : K) : Gen K := fun k =>
  let s := circles T u nfil x1 y1 r1 k
  (((List.zipWith inR s.1.1 s.1.2).filter id).length / ((List.zipWith inR s.1.1 s.1.2).length : K), s.2)

/-- the filling factors of the cells (`astro.hpp:955-958`) -/
def fills (T : Trig K) (u : Nat → K) (inR : K → K → Bool) (r1 : K) : List (K × K) → Gen (List K)
  | [] => fun k => ([], k)
  | p :: l => fun k =>
    let s := getFill T u inR 200 p.1 p.2 r1 k
    let t := fills T u inR r1 l s.2
    (s.1 :: t.1, t.2)
end

section
variable {K : Type} [Field K] [LinearOrder K] [FloorRing K]

/-- the inner loop of the assignment of the fractional numbers (`astro.hpp:979-988`) on the pairs `(ngal, dngal)`; also gives `miss` -/
def pass (u : Nat → K) : List (Nat × K) → Nat → Gen (List (Nat × K) × Nat)
  | [], miss => fun k => (([], miss), k)
  | (g, d) :: l, miss => fun k =>
    if d ≠ 0 then
      if u k < d then
        if miss - 1 = 0 then (((g + 1, 0) :: l, 0), k + 1)
        else
          let s := pass u l (miss - 1) (k + 1)
          (((g + 1, 0) :: s.1.1, s.1.2), s.2)
      else
        let s := pass u l miss (k + 1)
        (((g, d) :: s.1.1, s.1.2), s.2)
    else
      let s := pass u l miss k
      (((g, d) :: s.1.1, s.1.2), s.2)

/-- the outer loop (`astro.hpp:978-991`); `n` turns are left -/
def passes (u : Nat → K) : Nat → List (Nat × K) → Nat → Gen (List (Nat × K) × Nat)
  | 0, l, miss => fun k => ((l, miss), k)
  | n + 1, l, miss => fun k =>
    if miss = 0 then ((l, miss), k)
    else
      let s := pass u l miss k
      passes u n s.1.1 s.1.2 s.2

/-- `genpos` of `randpos_power_circle` (`astro.hpp:921-929`), in new vectors: `options` is captured, but the call has the default options -/
def genPos (T : Trig K) (u : Nat → K) (inR : K → K → Bool) (x1 y1 r1 : K) (num : Nat) (x y : List K) : Gen (Bool × List K × List K) :=
  uniformCircle T u num x1 y1 r1 x y inR defaultMaxIter

/-- the new positions of a level (`astro.hpp:1001-1018`) -/
def place (T : Trig K) (u : Nat → K) (inR : K → K → Bool) (r1 : K) : List ((K × K) × Nat) → List K → List K → Gen (Bool × List K × List K)
  | [], x1, y1 => fun k => ((true, x1, y1), k)
  | (p, n) :: l, x1, y1 => fun k =>
    if n = 0 then place T u inR r1 l x1 y1 k
    else
      let s := genPos T u inR p.1 p.2 r1 n [] [] k
      if s.1.1 then place T u inR r1 l (x1 ++ s.1.2.1) (y1 ++ s.1.2.2) s.2
      else ((false, x1, y1), s.2)

/-- the integer part of the number of objects of each cell and what is left (`astro.hpp:970-971`) -/
def assign (eta : Nat) (fill : List K) : List (Nat × K) := fill.map fun f => (⌊(eta : K) * f⌋₊, (eta : K) * f - (⌊(eta : K) * f⌋₊ : K))

/-- one level of `randpos_power_circle` (`astro.hpp:947-1022`); `inR` has the threshold of the level. The mean of no number is NaN, which is not zero. -/
def level (T : Trig K) (u : Nat → K) (inR : K → K → Bool) (maxIter eta : Nat) (r1 : K) (x y : List K) : Nat → Res ((Bool × List K × List K) × Nat) := fun k =>
  let f := fills T u inR r1 (x.zip y) k
  let mfill := f.1.sum / (f.1.length : K)
  do
    Res.check (f.1 = [] ∨ mfill ≠ 0)
    let g := assign eta (f.1.map (· / mfill))
    let miss0 := eta * x.length - (g.map Prod.fst).sum
    let s := passes u maxIter g miss0 f.2
    if s.1.2 ≠ 0 then .ok ((false, x, y), s.2)
    else
      let t := place T u inR r1 ((x.zip y).zip (s.1.1.map Prod.fst)) [] [] s.2
      if t.1.1 then .ok t else .ok ((false, x, y), t.2)

/-- the loop on the levels (`astro.hpp:946-1023`): `n` are left, so that the level is the last one (`l+2 == options.levels`) when `n = 1` -/
def levelLoop (T : Trig K) (u : Nat → K) (inR : K → K → K → Bool) (o : Opt K) (etaEnd : Nat) : Nat → K → List K → List K → Nat → Res ((Bool × List K × List K) × Nat)
  | 0, _, x, y, k => .ok ((true, x, y), k)
  | n + 1, r, x, y, k =>
    let r1 := r / o.lambda
    let rth := if n = 0 then 0 else 8 / 10 * r1 / o.lambda
    let eta := if n = 0 then etaEnd else o.eta
    level T u (fun a b => inR a b rth) o.maxIter eta r1 x y k >>= fun s =>
      if s.1.1 then levelLoop T u inR o etaEnd n r1 s.1.2.1 s.1.2.2 s.2 else .ok s

/-- `randpos_power_circle` (`astro.hpp:893-1026`): the number of levels minus one is computed modulo 2^64 -/
def powerCircle (T : Trig K) (u : Nat → K) (x0 y0 r0 : K) (x y : List K) (inR : K → K → K → Bool) (o : Opt K) (k : Nat) : Res ((Bool × List K × List K) × Nat) :=
  let etaEnd := o.etaEnd.getD o.eta
  let rth := if o.levels ≤ 1 then 0 else 8 / 10 * r0 / o.lambda
  let eta := if o.levels ≤ 1 then etaEnd else o.eta
  let s := genPos T u (fun a b => inR a b rth) x0 y0 r0 eta x y k
  if s.1.1 then levelLoop T u inR o etaEnd (if o.levels = 0 then 2 ^ 64 - 1 else o.levels - 1) r0 s.1.2.1 s.1.2.2 s.2
  else .ok s

end
end Verif.RandPos
