import Verif.Astro.FieldArea
import Verif.Astro.Filter
import Verif.Math.Hist
import Verif.Math.Reduce
import Verif.Math.Stats
/-!
# Area of a field from a two-dimensional histogram

Models `field_area_h2d` and `field_area` (`astro/astro.hpp:545-662`). Real arithmetic. `std::partition` is a parameter (`Part`), as in
`Verif.Math.Hist`; the sorted indices that `build_convex_hull` works on are a parameter too. The memory taken by the grid is not limited.
-/
namespace Verif.Astro
open Verif Verif.Core Verif.Coord Verif.Math Real

/-- `ceil(x)` converted to `uint_t`: undefined outside of the range of the type -/
noncomputable def ceilU (x : ℝ) : Res Nat := if 0 ≤ ⌈x⌉ ∧ ⌈x⌉ < 2 ^ 64 then .ok ⌈x⌉.toNat else .ub

/-- `distance_proxy`, `astro.hpp:607-611`, of two positions in degrees (`:600-603`) -/
noncomputable def proxy (p q : ℝ × ℝ) : ℝ := hav (p.1 * d2r) (p.2 * d2r) (q.1 * d2r) (q.2 * d2r)

/-- `if (td < dmin.safe[i]) dmin.safe[i] = td`, `astro.hpp:622-623`; `none` is the initial infinity -/
noncomputable def lower (td : ℝ) : Option ℝ → Option ℝ
  | none => some td
  | some d => if td < d then some td else some d

/-- the inner loop, `astro.hpp:620-624` -/
noncomputable def nearestInner (p : List (ℝ × ℝ)) (dm : List (Option ℝ)) (i : Nat) : List (Option ℝ) :=
  (List.range' (i + 1) (p.length - (i + 1))).foldl (fun dm j =>
    (dm.modify i (lower (proxy (p.getD i (0, 0)) (p.getD j (0, 0))))).modify j
      (lower (proxy (p.getD i (0, 0)) (p.getD j (0, 0))))) dm

/-- `dmin`, `astro.hpp:617-624` -/
noncomputable def nearestLoop (p : List (ℝ × ℝ)) : List (Option ℝ) :=
  (List.range p.length).foldl (nearestInner p) (List.replicate p.length none)

/-- `mean` of numbers that may be infinite -/
noncomputable def meanInf (v : List (Option ℝ)) : Option ℝ := (v.mapM id).bind Stats.mean

/-- `distance`, `astro.hpp:613-615` -/
noncomputable def unproxy (td : ℝ) : ℝ := (180 / π) * 2 * arcsin (sqrt td)

/-- width times height, `astro.hpp:573-574,596-597` -/
noncomputable def boxArea (r0 d0 r1 d1 : ℝ) : ℝ := (angdist r0 d0 r1 d0 / 3600) * (angdist r0 d0 r0 d1 / 3600)

/-- a vector of bins compared with floating point numbers -/
noncomputable def someBins (b : Vec ℝ) : Vec (Option ℝ) := ⟨b.data.map some, b.dims⟩

/-- the function called for a cell that has at least two sources, `astro.hpp:595-643`: area and filling factor. `p` are the sources
`(ra[ids], dec[ids])`. A cell of area zero gives an infinity or a NaN converted to an integer. -/
noncomputable def cellOf (part : Math.Part Nat) (r0 r1 d0 d1 : ℝ) (p : List (ℝ × ℝ)) : Res (ℝ × ℝ) := do
  let area := boxArea r0 d0 r1 d1
  let h ← histogram2d part ⟨p.map fun q => some q.1, [p.length]⟩ ⟨p.map fun q => some q.2, [p.length]⟩
    (someBins (makeBins r0 r1 20)) (someBins (makeBins d0 d1 20))
  let mask : Img Bool := ⟨20, 20, h.data.map fun c => decide (1 ≤ c)⟩
  match meanInf (nearestLoop p) with
  | none => .ub
  | some m =>
    if area = 0 then .ub else do
      let n ← ceilU (unproxy m / (sqrt area / 20))
      let mask ← maskInflate mask n
      match Stats.fractionOf (K := ℝ) mask.px with
      | none => .ub
      | some f => .ok (area, f)

/-- one call made by `histogram2d`, `astro.hpp:592-644`: `(carea, cfill)` before and after -/
noncomputable def cellStep (part : Math.Part Nat) (ra dec : List ℝ) (rb db : Vec ℝ) (nra ndec : Nat) (s : Img ℝ × Img ℝ)
    (c : Nat × Nat × List Nat) : Res (Img ℝ × Img ℝ) :=
  if c.2.2.length < 2 then .ok s else do
    let r0 ← Res.rd rb.data c.1
    let r1 ← Res.rd rb.data (nra + c.1)
    let d0 ← Res.rd db.data c.2.1
    let d1 ← Res.rd db.data (ndec + c.2.1)
    let v ← cellOf part r0 r1 d0 d1 (c.2.2.map fun i => (ra.getD i 0, dec.getD i 0))
    let a ← s.1.put c.1 c.2.1 v.1
    let f ← s.2.put c.1 c.2.1 v.2
    .ok (a, f)

/-- `!mask` -/
def notMask (m : Img Bool) : Img Bool := { m with px := m.px.map fun b => !b }

/-- the end of the function, `astro.hpp:647-654` -/
noncomputable def closeTotal (carea cfill : Img ℝ) : Res ℝ := do
  let m ← maskInflate ⟨cfill.nx, cfill.ny, cfill.px.map fun f => decide (0.5 < f)⟩ 1
  let m ← maskInflate (notMask m) 1
  let fill := List.zipWith (fun b f => if b then 1 else f) (notMask m).px cfill.px
  .ok (Stats.total (List.zipWith (fun f a => f * a) fill carea.px))

/-- the grid and what is done with it, `astro.hpp:573-654` -/
noncomputable def gridArea (part : Math.Part Nat) (ra dec : List ℝ) (minRa maxRa minDec maxDec : ℝ) : Res ℝ :=
  let dr := sqrt 10 * sqrt (boxArea minRa minDec maxRa maxDec / ra.length)
  if dr = 0 then .ub else do
    let nra ← ceilU ((maxRa - minRa) / dr + 4)
    let ndec ← ceilU ((maxDec - minDec) / dr + 4)
    let rb := makeBins (minRa - 2 * dr) (maxRa + 2 * dr) nra
    let db := makeBins (minDec - 2 * dr) (maxDec + 2 * dr) ndec
    let calls ← fhistogram2d part ⟨ra.map some, [ra.length]⟩ ⟨dec.map some, [dec.length]⟩ (someBins rb) (someBins db)
    let s ← calls.foldlM (cellStep part ra dec rb db nra ndec) (Img.fill nra ndec 0, Img.fill nra ndec 0)
    closeTotal s.1 s.2

/-- `field_area_hull(ra, dec)`, `astro.hpp:549-552`; `ids` are the sorted indices of `build_convex_hull` -/
noncomputable def fieldAreaHullOf (eps : ℝ) (ids : List Nat) (ra dec : List ℝ) : Res (Option ℝ) := do
  let h ← Hull.build (ra.zip dec) ids
  fieldAreaHull eps (h.map fun i => (ra.zip dec).getD i (0, 0))

/-- `field_area_h2d(ra, dec)` and `field_area(ra, dec)`, `astro.hpp:557-662` -/
noncomputable def fieldAreaH2d (part : Math.Part Nat) (eps : ℝ) (ids : List Nat) (ra dec : List ℝ) : Res (Option ℝ) := do
  Res.check (ra.length = dec.length)
  if ra.length < 20 then fieldAreaHullOf eps ids ra dec
  else do
    let a ← vmin (ra.map some)
    let b ← vmax (ra.map some)
    let c ← vmin (dec.map some)
    let d ← vmax (dec.map some)
    let r ← gridArea part ra dec (a.2.getD 0) (b.2.getD 0) (c.2.getD 0) (d.2.getD 0)
    .ok (some r)

end Verif.Astro
