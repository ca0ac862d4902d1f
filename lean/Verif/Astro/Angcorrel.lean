import Verif.Math.Hist
/-!
# Angular correlation function (`astro/astro.hpp:663-701`)

The distance is a parameter; it is `angdist` (C21) in the code. Counts and results are the elements of an ordered field.
-/
namespace Verif.Angcorrel
open Verif Verif.Core Verif.Math
variable {K : Type} [Field K] [LinearOrder K]

/-- `d = angdist(cat, p); acc += histogram(d, bins)` (`astro.hpp:686-690`) -/
def addHist (part : Part (Option K)) (dist : K × K → K × K → K) (bins : Vec (Option K)) (cat : List (K × K)) (p : K × K) (acc : List Nat) : Res (List Nat) := do
  let h ← histogram part (cat.map fun q => some (dist q p)) bins
  Res.check (acc.length = h.length)
  .ok (List.zipWith (· + ·) acc h)

/-- the first loop (`astro.hpp:685-691`): `dd` and `dr` -/
def loopData (part : Part (Option K)) (dist : K × K → K × K → K) (bins : Vec (Option K)) (cat rnd : List (K × K)) : List (K × K) → List Nat → List Nat → Res (List Nat × List Nat)
  | [], dd, dr => .ok (dd, dr)
  | p :: l, dd, dr => do
    let dd ← addHist part dist bins cat p dd
    let dr ← addHist part dist bins rnd p dr
    loopData part dist bins cat rnd l dd dr

/-- the second loop (`astro.hpp:693-696`): `rr` -/
def loopRandom (part : Part (Option K)) (dist : K × K → K × K → K) (bins : Vec (Option K)) (rnd : List (K × K)) : List (K × K) → List Nat → Res (List Nat)
  | [], rr => .ok rr
  | p :: l, rr => do
    let rr ← addHist part dist bins rnd p rr
    loopRandom part dist bins rnd l rr

/-- the expression of the result for one bin (`astro.hpp:698-700`), `none` if it is not finite: without random pairs, or with less than two objects (`norm2`, or `norm1`, is then infinite or NaN) -/
def estimate (n m : Nat) (dd dr rr : Nat) : Option K :=
  if rr = 0 ∨ n ≤ 1 then none
  else
    let norm1 : K := m / n
    let norm2 : K := norm1 * ((m - 1) / (n - 1))
    some (((dd * norm2 - dr * norm1) + (rr - dr * norm1)) / rr)

/-- `angcorrel` (`astro.hpp:670-701`) -/
def angcorrel (part : Part (Option K)) (dist : K × K → K × K → K) (ra dec rra rdec : List K) (bins : Vec (Option K)) : Res (List (Option K)) := do
  Res.check (ra.length = dec.length)
  Res.check (rra.length = rdec.length)
  let z := List.replicate (bins.dims.getD 1 0) 0
  let s ← loopData part dist bins (ra.zip dec) (rra.zip rdec) (ra.zip dec) z z
  let rr ← loopRandom part dist bins (rra.zip rdec) (rra.zip rdec) z
  .ok ((List.zip s.1 (List.zip s.2 rr)).map fun t => estimate ra.length rra.length t.1 t.2.1 t.2.2)

end Verif.Angcorrel
