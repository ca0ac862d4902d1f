import Verif.Astro.Units
import Mathlib.Tactic.FieldSimp
import Mathlib.Tactic.Linarith
import Mathlib.Tactic.Positivity
import Mathlib.Tactic.NormNum
import Mathlib.Tactic.Ring

/-!
# Flux, luminosity and magnitude conversions: C102
-/
namespace Verif.Units

open Real

/-- ten to the power -/
theorem e10_eq (t : ℝ) : e10 t = 10 ^ t := by
  rw [e10, rpow_def_of_pos (by norm_num)]

theorem logb_e10 (t : ℝ) : logb 10 (e10 t) = t := by
  rw [e10_eq, logb_rpow (by norm_num) (by norm_num)]

theorem e10_logb {x : ℝ} (h : 0 < x) : e10 (logb 10 x) = x := by
  rw [e10_eq, rpow_logb (by norm_num) (by norm_num) h]

/-- **C102**: from flux to magnitude and back, for positive fluxes -/
theorem C102_mag_flux {x : ℝ} (zp : ℝ) (h : 0 < x) : mag2uJy (uJy2mag x zp) zp = x := by
  unfold mag2uJy uJy2mag
  rw [show 0.4 * (zp - (-2.5 * logb 10 x + zp)) = logb 10 x by ring, e10_logb h]

/-- **C102**: from magnitude to flux and back -/
theorem C102_flux_mag (m zp : ℝ) : uJy2mag (mag2uJy m zp) zp = m := by
  unfold mag2uJy uJy2mag
  rw [logb_e10]; ring

/-- **C102**: five magnitudes are a factor of one hundred, and brighter is smaller -/
theorem C102_pogson (m zp : ℝ) : mag2uJy (m - 5) zp = 100 * mag2uJy m zp := by
  unfold mag2uJy
  rw [e10_eq, e10_eq, show 0.4 * (zp - (m - 5)) = 2 + 0.4 * (zp - m) by ring, rpow_add (by norm_num)]
  norm_num

theorem C102_order {x y : ℝ} (zp : ℝ) (hx : 0 < x) (h : x < y) : uJy2mag y zp < uJy2mag x zp := by
  unfold uJy2mag
  have := logb_lt_logb (by norm_num : (1 : ℝ) < 10) hx h
  linarith

/-- **C102**: the flux at the zero point is one microjansky -/
theorem C102_zero_point (zp : ℝ) : uJy2mag 1 zp = zp ∧ mag2uJy zp zp = 1 := by
  unfold uJy2mag mag2uJy e10
  simp

/-- **C102**: the observed flux of a luminosity, converted back with the observed wavelength -/
theorem C102_lsun {z d lam : ℝ} (hz : 1 + z ≠ 0) (hd : d ≠ 0) (hl : lam ≠ 0) (lum : ℝ) :
    uJy2lsun z d (lam * (1 + z)) (lsun2uJy z d lam lum) = lum := by
  unfold uJy2lsun lsun2uJy
  have := pi_ne_zero
  field_simp

theorem C102_lsun_back {z d lam : ℝ} (hz : 1 + z ≠ 0) (hd : d ≠ 0) (hl : lam ≠ 0) (flx : ℝ) :
    lsun2uJy z d lam (uJy2lsun z d (lam * (1 + z)) flx) = flx := by
  unfold uJy2lsun lsun2uJy
  have := pi_ne_zero
  field_simp

/-- **C102**: the flux is the power per unit frequency at the rest-frame wavelength spread over a sphere, with the shift of the frequencies: in SI units
`nu L_nu (1+z) / nu / (4 pi d^2)`, where `nu = c / lam` -/
theorem C102_lsun_physics (z d lam lum : ℝ) (hl : lam ≠ 0) :
    lsun2uJy z d lam lum * 1e-32 =
      (1 + z) * ((lum * 3.839e26) / (2.9979e8 / (lam * 1e-6))) / (4 * π * (d * 3.0856e22) ^ 2) := by
  unfold lsun2uJy
  have := pi_ne_zero
  by_cases hd : d = 0
  · subst hd; simp
  · field_simp
    ring

/-- **C102**: the absolute magnitude is the magnitude of the flux received at ten parsecs -/
theorem C102_absolute (lam lum zp : ℝ) : lsun2mag lam lum zp = uJy2mag (lsun2uJy 0 (10 / 1e6) lam lum) zp := by
  unfold lsun2mag uJy2mag lsun2uJy
  have := pi_ne_zero
  simp only
  congr 3
  field_simp
  norm_num

/-- **C102**: from luminosity to absolute magnitude and back -/
theorem C102_lsun_mag {lam lum : ℝ} (zp : ℝ) (hl : 0 < lam) (hL : 0 < lum) : mag2lsun lam (lsun2mag lam lum zp) zp = lum := by
  have hp := pi_pos
  unfold mag2lsun lsun2mag
  simp only
  rw [show ∀ t : ℝ, 0.4 * (zp - (-2.5 * t + zp)) = t from fun t => by ring, e10_logb (by positivity)]
  field_simp

/-- **C102**: from absolute magnitude to luminosity and back -/
theorem C102_mag_lsun {lam : ℝ} (mag zp : ℝ) (hl : 0 < lam) : lsun2mag lam (mag2lsun lam mag zp) zp = mag := by
  have hp := pi_pos
  unfold mag2lsun lsun2mag
  simp only
  generalize hf : (1.0e32 * 3.839e26 / (2.9979e14 * 4 * π * 3.0856e22 * 3.0856e22 * (10 / 1e6) * (10 / 1e6)) : ℝ) = f
  have hfp : 0 < f := by rw [← hf]; positivity
  rw [show f * lam * (e10 (0.4 * (zp - mag)) / f / lam) = e10 (0.4 * (zp - mag)) by field_simp, logb_e10]
  ring

/-- **C102**: per unit frequency to per unit wavelength and back, one with the wavelength in micron and the other in angstrom -/
theorem C102_cgs {lam : ℝ} (hl : lam ≠ 0) (flx : ℝ) : cgs2uJy (lam * 1e4) (uJy2cgs lam flx) = flx := by
  unfold cgs2uJy uJy2cgs
  field_simp
  ring

theorem C102_cgs_back {lam : ℝ} (hl : lam ≠ 0) (flx : ℝ) : uJy2cgs lam (cgs2uJy (lam * 1e4) flx) = flx := by
  unfold cgs2uJy uJy2cgs
  field_simp
  ring

/-- **C102**: `F_lambda = F_nu c / lambda^2`, with `F_nu` in erg/s/cm2/Hz, `c` in angstrom/s and `lambda` in angstrom -/
theorem C102_cgs_physics (lam flx : ℝ) : uJy2cgs lam flx = (flx * 1e-29) * (2.9979e8 * 1e10) / (lam * 1e4) ^ 2 := by
  unfold uJy2cgs
  by_cases hl : lam = 0
  · subst hl; simp
  · field_simp
    ring

/-- a flux of 100 microjansky is 5 magnitudes brighter than the zero point -/
example : uJy2mag 100 23.9 = 18.9 := by
  have h : mag2uJy 18.9 23.9 = 100 := by
    have := C102_pogson 23.9 23.9
    rw [(C102_zero_point 23.9).2] at this
    rw [show (18.9 : ℝ) = 23.9 - 5 by norm_num, this]; norm_num
  rw [← h, C102_flux_mag]

/-- the other conversions at a redshift of one -/
example : uJy2lsun 1 100 3 (lsun2uJy 1 100 1.5 7) = 7 := by
  have := C102_lsun (z := 1) (d := 100) (lam := 1.5) (by norm_num) (by norm_num) (by norm_num) 7
  rwa [show (1.5 : ℝ) * (1 + 1) = 3 by norm_num] at this

end Verif.Units
