import Verif.Math.Gauss
import Mathlib.Analysis.SpecialFunctions.Integrals.Basic
import Mathlib.Tactic.FieldSimp
import Mathlib.Tactic.Ring
/-!
# C110: integrals of Gaussian profiles
-/
namespace Verif.Gauss
open MeasureTheory

/-- Spec: the normalised Gaussian profile -/
noncomputable def profile (xc xw t : ℝ) : ℝ := Real.exp (-(t - xc) ^ 2 / (2 * xw ^ 2)) / (√(2 * Real.pi) * xw)

theorem erf_sub (a b : ℝ) : erf b - erf a = 2 / √Real.pi * ∫ t in a..b, Real.exp (-t ^ 2) := by
  have hi : ∀ u v : ℝ, IntervalIntegrable (fun t : ℝ => Real.exp (-t ^ 2)) volume u v := fun u v =>
    (Continuous.intervalIntegrable (by fun_prop) u v)
  unfold erf
  rw [← mul_sub, intervalIntegral.integral_interval_sub_left (hi 0 b) (hi 0 a)]

theorem integral_profile {xw : ℝ} (hw : 0 < xw) (x0 x1 xc : ℝ) :
    ∫ t in x0..x1, profile xc xw t = 1 / 2 * (erf ((x1 - xc) / (√2 * xw)) - erf ((x0 - xc) / (√2 * xw))) := by
  have h2 : (0 : ℝ) < √2 := by positivity
  have hpi : (0 : ℝ) < √Real.pi := Real.sqrt_pos.2 Real.pi_pos
  have hc : √2 * xw ≠ 0 := by positivity
  have key := intervalIntegral.integral_comp_div_sub (a := x0) (b := x1) (fun t : ℝ => Real.exp (-t ^ 2)) hc (xc / (√2 * xw))
  have e1 : ∀ t : ℝ, Real.exp (-(t / (√2 * xw) - xc / (√2 * xw)) ^ 2) = profile xc xw t * (√(2 * Real.pi) * xw) := by
    intro t
    unfold profile
    have hs : √(2 * Real.pi) * xw ≠ 0 := by positivity
    rw [div_mul_cancel₀ _ hs]
    congr 1
    rw [← sub_div, div_pow, mul_pow, Real.sq_sqrt (by norm_num)]
    ring
  simp only [e1] at key
  rw [intervalIntegral.integral_mul_const, smul_eq_mul, ← sub_div, ← sub_div] at key
  rw [erf_sub]
  have hs : √(2 * Real.pi) = √2 * √Real.pi := Real.sqrt_mul (by norm_num) _
  rw [hs] at key
  have : (∫ t in x0..x1, profile xc xw t) * √Real.pi = ∫ t in (x0 - xc) / (√2 * xw)..(x1 - xc) / (√2 * xw), Real.exp (-t ^ 2) := by
    have h : ((∫ t in x0..x1, profile xc xw t) * √Real.pi) * (√2 * xw) = (√2 * xw) * ∫ t in (x0 - xc) / (√2 * xw)..(x1 - xc) / (√2 * xw), Real.exp (-t ^ 2) := by
      rw [← key]; ring
    have := mul_right_cancel₀ hc (h.trans (mul_comm _ _))
    exact this
  rw [← this]
  field_simp

/-- C110 (partial): `integrate_gauss` is the integral of the profile divided by the width of the interval, that is its average;
it is the integral when the interval has width 1. -/
theorem C110_average_partial {xw : ℝ} (hw : 0 < xw) (x0 x1 xc amp : ℝ) :
    integrateGauss x0 x1 xc xw amp = amp * (∫ t in x0..x1, profile xc xw t) / (x1 - x0) ∧
    integrateGauss x0 (x0 + 1) xc xw amp = amp * ∫ t in x0..(x0 + 1), profile xc xw t := by
  have h : ∀ x0 x1, integrateGauss x0 x1 xc xw amp = amp * (∫ t in x0..x1, profile xc xw t) / (x1 - x0) := by
    intro x0 x1
    rw [integral_profile hw]
    unfold integrateGauss
    norm_num
    ring
  refine ⟨h x0 x1, ?_⟩
  rw [h]
  simp

theorem profile_pos {xw : ℝ} (hw : 0 < xw) (xc t : ℝ) : 0 < profile xc xw t := by
  unfold profile
  have := Real.pi_pos
  positivity

/-- the integral over an interval is positive -/
theorem integral_pos {xw : ℝ} (hw : 0 < xw) {x0 x1 : ℝ} (h : x0 < x1) (xc : ℝ) : 0 < ∫ t in x0..x1, profile xc xw t := by
  refine intervalIntegral.intervalIntegral_pos_of_pos ?_ (profile_pos hw xc) h
  refine Continuous.intervalIntegrable ?_ _ _
  unfold profile
  fun_prop

/-- C110 refuted: over any interval of another width the result is not the integral, as the comment claims. -/
theorem C110_integral_refuted {xw amp : ℝ} (hw : 0 < xw) (ha : amp ≠ 0) {x0 x1 : ℝ} (h : x0 < x1) (h1 : x1 - x0 ≠ 1) (xc : ℝ) :
    integrateGauss x0 x1 xc xw amp ≠ amp * ∫ t in x0..x1, profile xc xw t := by
  rw [(C110_average_partial hw x0 x1 xc amp).1]
  have hI := (integral_pos hw h xc).ne'
  have hd : x1 - x0 ≠ 0 := by linarith
  intro he
  rw [div_eq_iff hd] at he
  refine h1 ?_
  have := mul_left_cancel₀ (mul_ne_zero ha hI) ((mul_one _).trans he)
  linarith

example : (0 : ℝ) < 3 - 1 ∧ (3 : ℝ) - 1 ≠ 1 := by norm_num

/-- C110 (partial): the two-dimensional form is the average over a rectangle of the product of two profiles. -/
theorem C110_plane_partial {w : ℝ} (hw : 0 < w) (x0 x1 y0 y1 xc yc amp : ℝ) :
    integrateGauss2d x0 x1 y0 y1 xc yc w amp =
      amp * (∫ x in x0..x1, ∫ y in y0..y1, profile xc w x * profile yc w y) / ((x1 - x0) * (y1 - y0)) := by
  unfold integrateGauss2d
  rw [(C110_average_partial hw x0 x1 xc 1).1, (C110_average_partial hw y0 y1 yc 1).1]
  simp only [intervalIntegral.integral_const_mul, intervalIntegral.integral_mul_const]
  rw [one_mul, one_mul, mul_div_assoc, mul_div_mul_comm, mul_assoc]

/-- C110: the averages over adjacent intervals, weighted by their widths, add up. -/
theorem C110_additive {xw : ℝ} (hw : 0 < xw) {x0 x1 x2 : ℝ} (h1 : x0 < x1) (h2 : x1 < x2) (xc amp : ℝ) :
    (x2 - x0) * integrateGauss x0 x2 xc xw amp = (x1 - x0) * integrateGauss x0 x1 xc xw amp + (x2 - x1) * integrateGauss x1 x2 xc xw amp := by
  unfold integrateGauss
  have a1 : x2 - x0 ≠ 0 := by linarith
  have a2 : x1 - x0 ≠ 0 := by linarith
  have a3 : x2 - x1 ≠ 0 := by linarith
  field_simp
  ring

end Verif.Gauss
