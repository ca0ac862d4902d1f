import Verif.Astro.Coord
import Verif.Astro.Img
import Verif.Math.Stats
import Verif.Math.Reduce
import Verif.Core.Vec
/-!
# `qdist` (`astro/qxmatch.hpp:681-715`) and means of stacked cutouts (`astro/qstack.hpp:358-457`)

The progress bar is not modelled. The indices drawn by `randomi` (C59) are given; numbers are those of an ordered
field, and `none` is a value that is not finite (division by 0).
-/
namespace Verif.Astro
open Verif Verif.Core

/-! ### Distances between all the sources -/

/-- the pairs of `for (i : range(n)) for (j : range(i+1, n))` (`qxmatch.hpp:704-705`) -/
def pairs (n : Nat) : List (Nat × Nat) := (List.range n).flatMap fun i => (List.range' (i + 1) (n - (i + 1))).map fun j => (i, j)

/-- `distance(i, j)` (`qxmatch.hpp:695-700`) -/
noncomputable def pairDist (dra ddec dcdec : List ℝ) (i j : Nat) : Res ℝ := do
  let rj ← Res.rd dra j
  let ri ← Res.rd dra i
  let dj ← Res.rd ddec j
  let di ← Res.rd ddec i
  let cj ← Res.rd dcdec j
  let ci ← Res.rd dcdec i
  let sra := Real.sin (0.5 * (rj - ri))
  let sde := Real.sin (0.5 * (dj - di))
  let d := sde * sde + sra * sra * cj * ci
  .ok (3600 * (180 / Real.pi) * 2 * Real.arcsin (Real.sqrt d))

/-- `qdist` (`qxmatch.hpp:681-715`) -/
noncomputable def qdist (ra dec : List ℝ) : Res (Img ℝ) := do
  let ret := Img.fill ra.length ra.length (0 : ℝ)
  Res.check (ra.length = dec.length)
  let dra := ra.map (· * (Real.pi / 180))
  let ddec := dec.map (· * (Real.pi / 180))
  let dcdec := ddec.map Real.cos
  (pairs ra.length).foldlM (fun r p => do
    let d ← pairDist dra ddec dcdec p.1 p.2
    r.put p.2 p.1 d) ret

/-! ### Means of cutouts -/

variable {K : Type} [Field K] [LinearOrder K] [IsStrictOrderedRing K]

/-- `qstack_mean` (`qstack.hpp:358-361`) -/
def qstackMean (cube : Vec K) : Res (Vec (Option K)) := Math.runIndex (fun s => .ok (Stats.mean s)) 0 cube

/-- quotient of two numbers -/
def quot (a b : K) : Option K := if b = 0 then none else some (a / b)

/-- `qstack_mean` with weights (`qstack.hpp:363-366`) -/
def qstackMeanW (f w : Vec K) : Res (Vec (Option K)) := do
  Res.check (f.dims = w.dims)
  let t ← Math.runIndex (fun s => .ok (Stats.total s)) 0 ⟨List.zipWith (· * ·) f.data w.data, f.dims⟩
  let tw ← Math.runIndex (fun s => .ok (Stats.total s)) 0 w
  Res.check (t.dims = tw.dims)
  .ok ⟨List.zipWith quot t.data tw.data, t.dims⟩

/-- `qstack_median` (`qstack.hpp:368-371`) -/
def qstackMedian {α : Type} [LinearOrder α] (cube : Vec (Option α)) : Res (Vec (Option α)) := Math.runIndex Math.median 0 cube

/-- `cube(ids,_,_)` (C06): the cutouts of these sources -/
def select (cube : Vec K) (ids : List Nat) : Res (Vec K) := do
  let n := cube.dims.getD 0 0
  let sz := (cube.dims.drop 1).prod
  let rows ← ids.mapM fun i => if i < n then .ok ((cube.data.drop (i * sz)).take sz) else .abort
  .ok ⟨rows.flatten, ids.length :: cube.dims.drop 1⟩

/-- the loop of `qstack_mean_bootstrap` (`qstack.hpp:413-424`) for the drawn indices -/
def meanBootstrap (cube : Vec K) : List (List Nat) → Vec (Option K) → Res (Vec (Option K))
  | [], bs => .ok bs
  | ids :: l, bs => do
    let sub ← select cube ids
    let img ← qstackMean sub
    let bs ← bs.pushSlice img
    meanBootstrap cube l bs

/-- the loop of `qstack_mean_bootstrap` with weights (`qstack.hpp:426-438`) for the drawn indices -/
def meanBootstrapW (f w : Vec K) : List (List Nat) → Vec (Option K) → Res (Vec (Option K))
  | [], bs => .ok bs
  | ids :: l, bs => do
    let sf ← select f ids
    let sw ← select w ids
    let img ← qstackMeanW sf sw
    let bs ← bs.pushSlice img
    meanBootstrapW f w l bs

end Verif.Astro
