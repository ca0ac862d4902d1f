import Verif.Astro.Coord
import Verif.Math.Hull
/-!
# Area of a field from its convex hull

Models `field_area_hull` (`astro/astro.hpp:523-543`): a fan of triangles from the first vertex, each
with the area given by the formula of Heron for its three angular distances. Real arithmetic; the
root of a negative number is NaN (`none`).
-/
namespace Verif.Astro
open Verif Verif.Coord Real

/-- `sqrt`, NaN for negative numbers -/
noncomputable def sqrtF (x : ℝ) : Option ℝ := if 0 ≤ x then some (sqrt x) else none

/-- the body of the loop, `astro.hpp:533-538`: what is added for the triangle of the vertices `o`, `a`, `b`
(in radian) -/
noncomputable def heron (o a b : ℝ × ℝ) : Option ℝ :=
  let e1 := angdistr o.1 o.2 a.1 a.2
  let e2 := angdistr a.1 a.2 b.1 b.2
  let e3 := angdistr b.1 b.2 o.1 o.2
  let p := 0.5 * (e1 + e2 + e3)
  sqrtF (p * (p - e1) * (p - e2) * (p - e3))

/-- `a += b` for floating point numbers with NaN -/
noncomputable def addF (a b : Option ℝ) : Option ℝ := do
  let a ← a
  let b ← b
  some (a + b)

/-- `field_area_hull(hull)`, `astro.hpp:523-543`, in deg^2; `h` are the vertices in degrees and `eps`
the machine epsilon of `validate`. -/
noncomputable def fieldAreaHull (eps : ℝ) (h : List (ℝ × ℝ)) : Res (Option ℝ) := do
  let v ← Hull.validate eps h
  Res.check (v.1 = true)
  let hr := h.map fun q => (q.1 * d2r, q.2 * d2r)
  let area ← (List.range' 2 (h.length - 2)).foldlM (fun area i => do
    let o ← Res.rd hr 0
    let a ← Res.rd hr (i - 1)
    let b ← Res.rd hr i
    pure (addF area (heron o a b))) (some 0)
  .ok (area.map fun a => a / (d2r * d2r))

end Verif.Astro
