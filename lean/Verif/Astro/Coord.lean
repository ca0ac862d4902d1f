import Mathlib.Analysis.SpecialFunctions.Trigonometric.Inverse
import Mathlib.Analysis.SpecialFunctions.Complex.Arg
import Verif.Basic

/-!
# Positions on the sky (`astro/astro.hpp:22-227`)

The numbers are real numbers: no rounding, except in `normalize`, whose rounding is a parameter. `asin` is `Real.arcsin` and
`atan2(y, x)` is the argument of the complex number `x + iy`. The division by zero of `vernal_angle` at the celestial origin (a NaN in the
code) is not modelled: the theorems exclude it.
-/
namespace Verif.Coord

open Real

/-- degrees to radian, `dpi/180.0` (`astro.hpp:34`) -/
noncomputable def d2r : ℝ := π / 180

/-- the quantity under the root in `angdistr` (`astro.hpp:26-28`) -/
noncomputable def hav (ra1 dec1 ra2 dec2 : ℝ) : ℝ :=
  let sra := sin (0.5 * (ra2 - ra1))
  let sde := sin (0.5 * (dec2 - dec1))
  sde * sde + sra * sra * cos dec2 * cos dec1

/-- `angdistr` (`astro.hpp:25-29`): angles in radian -/
noncomputable def angdistr (ra1 dec1 ra2 dec2 : ℝ) : ℝ :=
  2 * arcsin (sqrt (hav ra1 dec1 ra2 dec2))

/-- `angdist` of two positions (`astro.hpp:33-39`): in degrees, result in arcsec -/
noncomputable def angdist (tra1 tdec1 tra2 tdec2 : ℝ) : ℝ :=
  3600 * 2 * arcsin (sqrt (hav (d2r * tra1) (d2r * tdec1) (d2r * tra2) (d2r * tdec2))) / d2r

/-- `angdist` of two vectors of positions (`astro.hpp:43-59`); the dimensions of a vector are represented by its length -/
noncomputable def angdistVec (tra1 tdec1 tra2 tdec2 : List ℝ) : Res (List ℝ) := do
  Res.check (tra1.length = tdec1.length)
  Res.check (tra2.length = tdec2.length)
  Res.check (tra1.length = tra2.length)
  (List.range tra1.length).mapM fun i => do
    .ok (angdist (← Res.rd tra1 i) (← Res.rd tdec1 i) (← Res.rd tra2 i) (← Res.rd tdec2 i))

/-- `angdist` of a vector of positions and one position (`astro.hpp:63-75`) -/
noncomputable def angdistTo (tra1 tdec1 : List ℝ) (tra2 tdec2 : ℝ) : Res (List ℝ) := do
  Res.check (tra1.length = tdec1.length)
  (List.range tra1.length).mapM fun i => do
    .ok (angdist (← Res.rd tra1 i) (← Res.rd tdec1 i) tra2 tdec2)

/-- the test of `angdist_less` for one position (`astro.hpp:85-98`) -/
noncomputable def lessOne (tra1 tdec1 tra2 tdec2 radius : ℝ) : Bool :=
  let rrad := d2r * radius / 3600
  let crad := sin (rrad / 2) ^ 2
  let ra1 := d2r * tra1
  let ra2 := d2r * tra2
  let dec1 := d2r * tdec1
  let dec2 := d2r * tdec2
  let sra := sin (0.5 * (ra2 - ra1))
  let sde := sin (0.5 * (dec2 - dec1))
  decide (sde ^ 2 + sra ^ 2 * cos dec2 * cos dec1 < crad)

/-- `angdist_less` (`astro.hpp:79-102`) -/
noncomputable def angdistLess (tra1 tdec1 : List ℝ) (tra2 tdec2 radius : ℝ) : Res (List Bool) := do
  Res.check (tra1.length = tdec1.length)
  (List.range tra1.length).mapM fun i => do
    .ok (lessOne (← Res.rd tra1 i) (← Res.rd tdec1 i) tra2 tdec2 radius)

/-- `move_ra_dec` of one position (`astro.hpp:106-118`) -/
noncomputable def moveOne (p : ℝ × ℝ) (dra ddec : ℝ) : ℝ × ℝ :=
  (p.1 + dra / cos (p.2 * π / 180) / 3600, p.2 + ddec / 3600)

/-- `move_ra_dec` of vectors (`astro.hpp:120-134`) -/
noncomputable def moveVec (ra dec : List ℝ) (dra ddec : ℝ) : Res (List (ℝ × ℝ)) := do
  Res.check (ra.length = dec.length)
  let dra := dra / 3600
  let ddec := ddec / 3600
  (List.range ra.length).mapM fun i => do
    let r ← Res.rd ra i
    let d ← Res.rd dec i
    .ok (r + dra / cos (d2r * d), d + ddec)

/-- a `while` loop run for at most `n` turns of the test -/
def whileN {σ : Type} (c : σ → Bool) (f : σ → σ) : Nat → σ → Res σ
  | 0, _ => .diverge
  | n + 1, s => if c s then whileN c f n (f s) else .ok s

/-- `normalize_coordinates` (`astro.hpp:142-159`) of `(ra, dec)`; `rnd` is the rounding of the sums, and each loop is cut after `n` tests -/
noncomputable def normalize (rnd : ℝ → ℝ) (n : Nat) (p : ℝ × ℝ) : Res (ℝ × ℝ) := do
  let p ← whileN (fun q : ℝ × ℝ => decide (90 < q.2)) (fun q => (rnd (q.1 + 180), rnd (180 - q.2))) n p
  let p ← whileN (fun q : ℝ × ℝ => decide (q.2 < -90)) (fun q => (rnd (q.1 + 180), rnd (-180 - q.2))) n p
  let p ← whileN (fun q : ℝ × ℝ => decide (360 < q.1)) (fun q => (rnd (q.1 - 360), q.2)) n p
  whileN (fun q : ℝ × ℝ => decide (q.1 < 0)) (fun q => (rnd (q.1 + 360), q.2)) n p

/-- `vernal_angle` (`astro.hpp:173-184`) -/
noncomputable def vernalAngle (ra dec : ℝ) : ℝ :=
  let ra := ra * (π / 180)
  let dec := dec * (π / 180)
  let p := sin (dec / 2) ^ 2 + cos dec * sin (ra / 2) ^ 2
  let e := 180 / π * arcsin (sin dec / (2 * sqrt (p - p * p)))
  if 180 < ra then -e else e

/-- `atan2(y, x)` -/
noncomputable def atan2 (y x : ℝ) : ℝ := Complex.arg ⟨x, y⟩

/-- `angrot_vernal` of one position (`astro.hpp:195-226`) -/
noncomputable def angrot (p : ℝ × ℝ) (e : ℝ) : ℝ × ℝ :=
  let e := e * (π / 180)
  let ce := cos e
  let se := sin e
  let r1 := p.1 * π / 180
  let d1 := p.2 * π / 180
  let x1 := cos d1 * cos r1
  let y1 := cos d1 * sin r1
  let z1 := sin d1
  let y2 := ce * y1 - se * z1
  let z2 := ce * z1 + se * y1
  let d2 := arcsin z2 * (180 / π)
  let r2 := atan2 y2 x1 * (180 / π)
  (if r2 < 0 then r2 + 360 else r2, d2)

/-- `angrot_vernal` (`astro.hpp:190-227`) -/
noncomputable def angrotVec (tr1 td1 : List ℝ) (e : ℝ) : Res (List (ℝ × ℝ)) := do
  Res.check (tr1.length = td1.length)
  (List.range tr1.length).mapM fun i => do
    .ok (angrot (← Res.rd tr1 i, ← Res.rd td1 i) e)

end Verif.Coord
