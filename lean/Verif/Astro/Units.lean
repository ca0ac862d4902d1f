import Mathlib.Analysis.SpecialFunctions.Log.Base
import Mathlib.Analysis.Real.Pi.Bounds

/-!
# Flux, luminosity and magnitude conversions (`astro/astro.hpp:430-517`)

Real numbers without rounding. `log10` is `Real.logb 10`.
-/
namespace Verif.Units

open Real

/-- `e10` (`math/base.hpp:83-86`) -/
noncomputable def e10 (t : ℝ) : ℝ := exp (log 10 * t)

/-- `lsun2uJy` (`astro.hpp:431-442`) -/
noncomputable def lsun2uJy (z d lam lum : ℝ) : ℝ :=
  let Mpc : ℝ := 3.0856e22
  let Lsol : ℝ := 3.839e26
  let uJy : ℝ := 1.0e32
  let c : ℝ := 2.9979e14
  let factor := uJy * Lsol / (c * 4 * π * Mpc * Mpc)
  factor * (1 + z) * lam * lum / (d * d)

/-- `uJy2lsun` (`astro.hpp:446-457`); the redshift is not used -/
noncomputable def uJy2lsun (_z d lam flx : ℝ) : ℝ :=
  let Mpc : ℝ := 3.0856e22
  let Lsol : ℝ := 3.839e26
  let uJy : ℝ := 1.0e32
  let c : ℝ := 2.9979e14
  let factor := c * 4 * π * Mpc * Mpc / (uJy * Lsol)
  factor * flx * d * d / lam

/-- `lsun2mag` (`astro.hpp:461-470`) -/
noncomputable def lsun2mag (lam lum zp : ℝ) : ℝ :=
  let Mpc : ℝ := 3.0856e22
  let Lsol : ℝ := 3.839e26
  let uJy : ℝ := 1.0e32
  let c : ℝ := 2.9979e14
  let d : ℝ := 10 / 1e6
  let factor := uJy * Lsol / (c * 4 * π * Mpc * Mpc * d * d);
  -2.5 * logb 10 (factor * lam * lum) + zp

/-- `mag2lsun` (`astro.hpp:474-483`). Its second template parameter cannot be deduced: a call must name it. -/
noncomputable def mag2lsun (lam mag zp : ℝ) : ℝ :=
  let Mpc : ℝ := 3.0856e22
  let Lsol : ℝ := 3.839e26
  let uJy : ℝ := 1.0e32
  let c : ℝ := 2.9979e14
  let d : ℝ := 10 / 1e6
  let factor := uJy * Lsol / (c * 4 * π * Mpc * Mpc * d * d)
  e10 (0.4 * (zp - mag)) / factor / lam

/-- `uJy2mag` (`astro.hpp:486-489`) -/
noncomputable def uJy2mag (x zp : ℝ) : ℝ := -2.5 * logb 10 x + zp

/-- `mag2uJy` (`astro.hpp:492-495`) -/
noncomputable def mag2uJy (x zp : ℝ) : ℝ := e10 (0.4 * (zp - x))

/-- `uJy2cgs` (`astro.hpp:498-506`) -/
noncomputable def uJy2cgs (lam flx : ℝ) : ℝ :=
  let toerg : ℝ := 1.0e-29
  let c : ℝ := 2.9979e8
  let tometer : ℝ := 1e-6
  let toangstrom : ℝ := 1e10
  let factor := toerg * c / tometer ^ 2 / toangstrom
  factor * flx / lam / lam

/-- `cgs2uJy` (`astro.hpp:509-516`) -/
noncomputable def cgs2uJy (lam flx : ℝ) : ℝ :=
  let toerg : ℝ := 1.0e-29
  let c : ℝ := 2.9979e8
  let tometer : ℝ := 1e-10
  let factor := tometer / (toerg * c)
  factor * flx * lam * lam

end Verif.Units
