import Verif.Astro.Limweight
import Mathlib.Analysis.SpecialFunctions.Gaussian.GaussianIntegral
import Mathlib.MeasureTheory.Integral.IntervalIntegral.FundThmCalculus
import Mathlib.MeasureTheory.Integral.IntegralEqImproper
import Mathlib.Analysis.Calculus.Deriv.MeanValue
import Mathlib.Analysis.SpecialFunctions.Log.Deriv
import Mathlib.Analysis.SpecialFunctions.Exp
import Mathlib.Analysis.SpecialFunctions.ExpDeriv
import Mathlib.Analysis.Complex.ExponentialBounds
import Mathlib.Analysis.Real.Pi.Bounds
import Mathlib.Tactic.FieldSimp
import Mathlib.Tactic.Ring
/-!
# C113: the weight of an upper limit

Specification (the comment of template_fit.hpp:66-72): the probability that a Gaussian deviate is below `d` is `0.5 + 0.5*erf(d/sqrt(2))` and
its contribution to the chi-square is `-2` times its logarithm.
-/
namespace Verif.Limweight
open MeasureTheory Set Filter Topology

noncomputable section

/-- the probability that a Gaussian deviate is below `d` -/
def Phi (d : ℝ) : ℝ := 1 / 2 + 1 / 2 * Gauss.erf (d / √2)

/-- the contribution to the chi-square -/
def exact (d : ℝ) : ℝ := -2 * Real.log (Phi d)

theorem erf_deriv (x : ℝ) : HasDerivAt Gauss.erf (2 / √Real.pi * Real.exp (-x ^ 2)) x := by
  have hc : Continuous fun t : ℝ => Real.exp (-t ^ 2) := by fun_prop
  have := intervalIntegral.integral_hasDerivAt_right (hc.intervalIntegrable 0 x)
    (hc.stronglyMeasurableAtFilter _ _) hc.continuousAt
  exact this.const_mul _

theorem erf_neg (x : ℝ) : Gauss.erf (-x) = -Gauss.erf x := by
  unfold Gauss.erf
  have h := intervalIntegral.integral_comp_neg (a := 0) (b := x) fun t : ℝ => Real.exp (-t ^ 2)
  simp only [neg_sq, neg_zero] at h
  rw [h, intervalIntegral.integral_symm]
  ring

theorem erf_atTop : Tendsto Gauss.erf atTop (𝓝 1) := by
  have hi : Integrable fun t : ℝ => Real.exp (-1 * t ^ 2) := integrable_exp_neg_mul_sq one_pos
  have h := intervalIntegral_tendsto_integral_Ioi (μ := volume) 0 hi.integrableOn (tendsto_id (α := ℝ) (x := atTop))
  rw [integral_gaussian_Ioi] at h
  have h2 := h.const_mul (2 / √Real.pi)
  have hpi : √Real.pi ≠ 0 := (Real.sqrt_pos.2 Real.pi_pos).ne'
  have e : 2 / √Real.pi * (√(Real.pi / 1) / 2) = 1 := by rw [div_one]; field_simp
  rw [e] at h2
  refine h2.congr fun x => ?_
  unfold Gauss.erf
  simp

/-- the density -/
def dens (x : ℝ) : ℝ := Real.exp (-x ^ 2 / 2) / √(2 * Real.pi)

theorem dens_pos (x : ℝ) : 0 < dens x := div_pos (Real.exp_pos _) (Real.sqrt_pos.2 (by positivity))

theorem dens_deriv (x : ℝ) : HasDerivAt dens (-x * dens x) x := by
  have h : HasDerivAt (fun x : ℝ => -x ^ 2 / 2) (-x) x := by
    have := ((hasDerivAt_id x).pow 2).neg.div_const 2
    refine this.congr_deriv ?_
    simp; ring
  have h2 := h.exp.div_const √(2 * Real.pi)
  refine h2.congr_deriv ?_
  unfold dens; ring

theorem Phi_deriv (x : ℝ) : HasDerivAt Phi (dens x) x := by
  have h1 : HasDerivAt (fun x : ℝ => x / √2) (1 / √2) x := (hasDerivAt_id x).div_const _
  have h2 := ((erf_deriv (x / √2)).comp x h1).const_mul (1 / 2 : ℝ)
  have h3 := h2.const_add (1 / 2 : ℝ)
  refine h3.congr_deriv ?_
  unfold dens
  have e : -(x / √2) ^ 2 = -x ^ 2 / 2 := by rw [div_pow, Real.sq_sqrt (by norm_num)]; ring
  rw [e, Real.sqrt_mul (by norm_num)]
  have hp : √Real.pi ≠ 0 := (Real.sqrt_pos.2 Real.pi_pos).ne'
  have h2 : √(2 : ℝ) ≠ 0 := by positivity
  field_simp

/-- the tail -/
def Q (x : ℝ) : ℝ := Phi (-x)

theorem Q_deriv (x : ℝ) : HasDerivAt Q (-dens x) x := by
  have := (Phi_deriv (-x)).comp x (hasDerivAt_neg x)
  refine this.congr_deriv ?_
  unfold dens; simp

theorem Q_atTop : Tendsto Q atTop (𝓝 0) := by
  have h : Tendsto (fun x : ℝ => x / √2) atTop atTop := tendsto_id.atTop_div_const (by positivity)
  have h2 := ((erf_atTop.comp h).const_mul (1 / 2 : ℝ)).const_sub (1 / 2 : ℝ)
  have e : (1 / 2 - 1 / 2 * 1 : ℝ) = 0 := by norm_num
  rw [e] at h2
  refine h2.congr fun x => ?_
  simp only [Q, Phi, Function.comp, neg_div, erf_neg]
  ring

theorem dens_le (x : ℝ) : dens x ≤ 1 := by
  unfold dens
  rw [div_le_one (Real.sqrt_pos.2 (by positivity))]
  have h1 : Real.exp (-x ^ 2 / 2) ≤ 1 := by
    rw [Real.exp_le_one_iff]; nlinarith [sq_nonneg x]
  have h2 : (1 : ℝ) ≤ √(2 * Real.pi) := by
    rw [Real.one_le_sqrt]; nlinarith [Real.pi_gt_three]
  linarith

/-- a product with a function of limit zero -/
theorem dens_mul_tendsto {r : ℝ → ℝ} (hr : Tendsto r atTop (𝓝 0)) : Tendsto (fun x => dens x * r x) atTop (𝓝 0) := by
  refine squeeze_zero_norm (fun x => ?_) (tendsto_norm_zero.comp hr)
  rw [norm_mul, Function.comp]
  have h : ‖dens x‖ ≤ 1 := by rw [Real.norm_eq_abs, abs_of_pos (dens_pos x)]; exact dens_le x
  exact mul_le_of_le_one_left (norm_nonneg _) h

/-- a lower bound of the tail -/
theorem Q_lower (x : ℝ) (hx : 0 < x) : dens x * (x / (1 + x ^ 2)) ≤ Q x := by
  have hd : ∀ y, HasDerivAt (fun y => Q y - dens y * (y / (1 + y ^ 2)))
      (-dens y - (-y * dens y * (y / (1 + y ^ 2)) + dens y * ((1 * (1 + y ^ 2) - y * (2 * y)) / (1 + y ^ 2) ^ 2))) y := by
    intro y
    have h0 : (1 : ℝ) + y ^ 2 ≠ 0 := by positivity
    have h1 : HasDerivAt (fun y : ℝ => 1 + y ^ 2) (2 * y) y := by
      have := ((hasDerivAt_id y).pow 2).const_add 1
      simpa using this
    exact (Q_deriv y).sub ((dens_deriv y).mul ((hasDerivAt_id y).div h1 h0))
  have hanti : Antitone fun y => Q y - dens y * (y / (1 + y ^ 2)) := by
    refine antitone_of_hasDerivAt_nonpos hd fun y => ?_
    have h0 : (1 : ℝ) + y ^ 2 ≠ 0 := by positivity
    have e : -dens y - (-y * dens y * (y / (1 + y ^ 2)) + dens y * ((1 * (1 + y ^ 2) - y * (2 * y)) / (1 + y ^ 2) ^ 2)) =
        -(dens y * (2 / (1 + y ^ 2) ^ 2)) := by
      field_simp; ring
    rw [e]
    exact neg_nonpos.2 (mul_nonneg (dens_pos y).le (by positivity))
  have ht : Tendsto (fun y : ℝ => y / (1 + y ^ 2)) atTop (𝓝 0) := by
    refine squeeze_zero' (g := fun y : ℝ => y⁻¹) ?_ ?_ tendsto_inv_atTop_zero
    · filter_upwards [eventually_gt_atTop 0] with y hy
      positivity
    · filter_upwards [eventually_gt_atTop 0] with y hy
      rw [div_le_iff₀ (by positivity)]
      field_simp
      nlinarith
  have hl := Q_atTop.sub (dens_mul_tendsto ht)
  rw [sub_zero] at hl
  have := hanti.le_of_tendsto hl x
  linarith

/-- an upper bound of the tail -/
theorem Q_upper (x : ℝ) (hx : 0 < x) : Q x ≤ dens x * (1 / x - 1 / x ^ 3 + 3 / x ^ 5) := by
  have hd : ∀ y ∈ Ioi (0 : ℝ), HasDerivAt (fun y => Q y - dens y * (y⁻¹ - (y ^ 3)⁻¹ + 3 * (y ^ 5)⁻¹))
      (-dens y - (-y * dens y * (y⁻¹ - (y ^ 3)⁻¹ + 3 * (y ^ 5)⁻¹) +
        dens y * (-(y ^ 2)⁻¹ - -(3 * y ^ 2) / (y ^ 3) ^ 2 + 3 * (-(5 * y ^ 4) / (y ^ 5) ^ 2)))) y := by
    intro y hy
    have hy0 : y ≠ 0 := ne_of_gt hy
    have h3 : HasDerivAt (fun y : ℝ => (y ^ 3)⁻¹) (-(3 * y ^ 2) / (y ^ 3) ^ 2) y := by
      have := ((hasDerivAt_pow 3 y)).inv (pow_ne_zero 3 hy0)
      refine this.congr_deriv ?_
      norm_num
    have h5 : HasDerivAt (fun y : ℝ => (y ^ 5)⁻¹) (-(5 * y ^ 4) / (y ^ 5) ^ 2) y := by
      have := ((hasDerivAt_pow 5 y)).inv (pow_ne_zero 5 hy0)
      refine this.congr_deriv ?_
      norm_num
    exact (Q_deriv y).sub ((dens_deriv y).mul (((hasDerivAt_inv hy0).sub h3).add (h5.const_mul 3)))
  have hmono : MonotoneOn (fun y => Q y - dens y * (y⁻¹ - (y ^ 3)⁻¹ + 3 * (y ^ 5)⁻¹)) (Ioi 0) := by
    refine monotoneOn_of_hasDerivWithinAt_nonneg (convex_Ioi 0) (fun y hy => (hd y hy).continuousAt.continuousWithinAt)
      (fun y hy => (hd y (by simpa using hy)).hasDerivWithinAt) fun y hy => ?_
    have hy' : 0 < y := by simpa using hy
    have e : -dens y - (-y * dens y * (y⁻¹ - (y ^ 3)⁻¹ + 3 * (y ^ 5)⁻¹) +
        dens y * (-(y ^ 2)⁻¹ - -(3 * y ^ 2) / (y ^ 3) ^ 2 + 3 * (-(5 * y ^ 4) / (y ^ 5) ^ 2))) = dens y * (15 / y ^ 6) := by
      field_simp; ring
    rw [e]
    exact mul_nonneg (dens_pos y).le (by positivity)
  have hp : ∀ n : ℕ, n ≠ 0 → Tendsto (fun y : ℝ => (y ^ n)⁻¹) atTop (𝓝 0) := fun n hn =>
    (tendsto_pow_atTop hn).inv_tendsto_atTop
  have ht : Tendsto (fun y : ℝ => y⁻¹ - (y ^ 3)⁻¹ + 3 * (y ^ 5)⁻¹) atTop (𝓝 0) := by
    have := (tendsto_inv_atTop_zero.sub (hp 3 (by norm_num))).add ((hp 5 (by norm_num)).const_mul 3)
    simpa using this
  have hl := Q_atTop.sub (dens_mul_tendsto ht)
  rw [sub_zero] at hl
  have hle : Q x - dens x * (x⁻¹ - (x ^ 3)⁻¹ + 3 * (x ^ 5)⁻¹) ≤ 0 := by
    refine ge_of_tendsto hl ?_
    filter_upwards [eventually_ge_atTop x] with y hy
    exact hmono hx (lt_of_lt_of_le hx hy) hy
  rw [one_div, one_div, div_eq_mul_inv 3]
  linarith

/-- the asymptotic expression -/
def asym (x : ℝ) : ℝ := x ^ 2 + 2 * Real.log (√(2 * Real.pi) * x)

theorem log_dens (x y : ℝ) (hx : 0 < x) (hy : 0 < y) : -2 * Real.log (dens x * (1 / x * y)) = asym x - 2 * Real.log y := by
  have hs : (0 : ℝ) < √(2 * Real.pi) := Real.sqrt_pos.2 (by positivity)
  unfold dens asym
  have e : Real.exp (-x ^ 2 / 2) / √(2 * Real.pi) * (1 / x * y) = Real.exp (-x ^ 2 / 2) * (y / (√(2 * Real.pi) * x)) := by
    field_simp
  rw [e, Real.log_mul (Real.exp_pos _).ne' (by positivity), Real.log_exp, Real.log_div hy.ne' (by positivity)]
  ring

theorem exact_bounds (x : ℝ) (hx : 3 ≤ x) :
    asym x - 2 * Real.log (1 - 1 / x ^ 2 + 3 / x ^ 4) ≤ exact (-x) ∧ exact (-x) ≤ asym x + 2 * Real.log (1 + 1 / x ^ 2) := by
  have hx0 : 0 < x := by linarith
  have hlow := Q_lower x hx0
  have hup := Q_upper x hx0
  have e1 : x / (1 + x ^ 2) = 1 / x * (1 + 1 / x ^ 2)⁻¹ := by field_simp; ring
  have e2 : 1 / x - 1 / x ^ 3 + 3 / x ^ 5 = 1 / x * (1 - 1 / x ^ 2 + 3 / x ^ 4) := by field_simp
  have hy : 0 < 1 - 1 / x ^ 2 + 3 / x ^ 4 := by
    have h1 : 1 / x ^ 2 < 1 := by
      rw [div_lt_one (by positivity)]; nlinarith
    have : 0 < 3 / x ^ 4 := by positivity
    linarith
  have hQ : 0 < Q x := lt_of_lt_of_le (mul_pos (dens_pos x) (by positivity)) hlow
  rw [e1] at hlow
  rw [e2] at hup
  have hz : (0 : ℝ) < (1 + 1 / x ^ 2)⁻¹ := by positivity
  have l1 := Real.log_le_log (mul_pos (dens_pos x) (by positivity)) hlow
  have l2 := Real.log_le_log hQ hup
  have k1 := log_dens x _ hx0 hz
  have k2 := log_dens x _ hx0 hy
  rw [Real.log_inv] at k1
  unfold exact
  change _ ≤ -2 * Real.log (Q x) ∧ -2 * Real.log (Q x) ≤ _
  constructor <;> linarith

theorem limweight_asym (x : ℝ) (hx : 3 < x) : limweight (-x) = asym x := by
  unfold limweight asym
  rw [if_pos (by norm_num; linarith)]
  have e : -2.0 * √(Real.pi / 2.0) * -x = √(2 * Real.pi) * x := by
    have : √(2 * Real.pi) = 2 * √(Real.pi / 2) := by
      rw [show 2 * Real.pi = 2 ^ 2 * (Real.pi / 2) by ring, Real.sqrt_mul (by norm_num), Real.sqrt_sq (by norm_num)]
    rw [this]; norm_num
  rw [e]; norm_num; ring

theorem limweight_exact (d : ℝ) (hd : -3 ≤ d) : limweight d = exact d := by
  unfold limweight exact Phi
  rw [if_neg (by norm_num; linarith)]
  norm_num
  congr 1
  ring_nf

/-- **C113** above `-3` the weight is the exact one -/
theorem C113_exact (d : ℝ) (hd : -3 ≤ d) : limweight d = -2 * Real.log (1 / 2 + 1 / 2 * Gauss.erf (d / √2)) := limweight_exact d hd

theorem asym_ge (x : ℝ) (hx : 3 ≤ x) : 9 + 2 * Real.log 7 ≤ asym x := by
  unfold asym
  have h7 : (7 : ℝ) ≤ √(2 * Real.pi) * x := by
    have : (7 / 3 : ℝ) ≤ √(2 * Real.pi) := by
      rw [Real.le_sqrt' (by norm_num)]; nlinarith [Real.pi_gt_three]
    nlinarith
  have := Real.log_le_log (by norm_num) h7
  nlinarith

/-- **C113** (partial: the comment announces 0.3%, see `C113_error_refuted`) below `-3` the weight is smaller than the exact one, by at most 2% -/
theorem C113_error_partial (d : ℝ) (hd : d < -3) :
    limweight d ≤ exact d ∧ exact d - limweight d ≤ 2 / d ^ 2 ∧ exact d - limweight d ≤ 0.02 * exact d := by
  obtain ⟨x, rfl⟩ : ∃ x, d = -x := ⟨-d, by ring⟩
  have hx : 3 < x := by linarith
  obtain ⟨h1, h2⟩ := exact_bounds x hx.le
  rw [limweight_asym x hx]
  have hx9 : (9 : ℝ) < x ^ 2 := by nlinarith
  have hle : Real.log (1 - 1 / x ^ 2 + 3 / x ^ 4) ≤ 0 := by
    refine Real.log_nonpos ?_ ?_
    · have : 1 / x ^ 2 < 1 := by rw [div_lt_one (by positivity)]; linarith
      have : 0 < 3 / x ^ 4 := by positivity
      linarith
    · have : 3 / x ^ 4 ≤ 1 / x ^ 2 := by
        rw [div_le_div_iff₀ (by positivity) (by positivity)]; nlinarith [sq_nonneg x]
      linarith
  have hlog : Real.log (1 + 1 / x ^ 2) ≤ 1 / x ^ 2 := by
    have := Real.log_le_sub_one_of_pos (show 0 < 1 + 1 / x ^ 2 by positivity)
    linarith
  have hinv : 1 / x ^ 2 < 1 / 9 := by
    rw [div_lt_div_iff₀ (by positivity) (by norm_num)]; linarith
  have h7 : (1 : ℝ) ≤ Real.log 7 := by
    rw [Real.le_log_iff_exp_le (by norm_num)]
    have := Real.exp_one_lt_d9; linarith
  have hge := asym_ge x hx.le
  have e : (2 : ℝ) / (-x) ^ 2 = 2 * (1 / x ^ 2) := by rw [neg_sq]; ring
  refine ⟨by linarith, by rw [e]; linarith, ?_⟩
  nlinarith

/-- **C113** at `-3.1` the error is larger than 1% -/
theorem C113_error_refuted : exact (-3.1) - limweight (-3.1) > 0.01 * exact (-3.1) := by
  obtain ⟨h1, h2⟩ := exact_bounds 3.1 (by norm_num)
  rw [limweight_asym 3.1 (by norm_num)]
  have hl1 : Real.log (1 - 1 / 3.1 ^ 2 + 3 / 3.1 ^ 4) ≤ -0.0715 := by
    have := Real.log_le_sub_one_of_pos (show (0 : ℝ) < 1 - 1 / 3.1 ^ 2 + 3 / 3.1 ^ 4 by norm_num)
    refine this.trans (by norm_num)
  have hl2 : Real.log (1 + 1 / 3.1 ^ 2) ≤ 0.105 := by
    have := Real.log_le_sub_one_of_pos (show (0 : ℝ) < 1 + 1 / 3.1 ^ 2 by norm_num)
    refine this.trans (by norm_num)
  have hs : √(2 * Real.pi) * 3.1 ≤ 8 := by
    have : √(2 * Real.pi) ≤ 2.52 := by
      rw [Real.sqrt_le_left (by norm_num)]; nlinarith [Real.pi_lt_d2]
    linarith
  have hs0 : (0 : ℝ) < √(2 * Real.pi) * 3.1 := mul_pos (Real.sqrt_pos.2 (by positivity)) (by norm_num)
  have h8 : Real.log (√(2 * Real.pi) * 3.1) ≤ 2.0796 := by
    refine (Real.log_le_log hs0 hs).trans ?_
    rw [show (8 : ℝ) = 2 ^ 3 by norm_num, Real.log_pow]
    have := Real.log_two_lt_d9
    push_cast; linarith
  have ha : asym 3.1 ≤ 13.77 := by unfold asym; norm_num at h8 ⊢; linarith
  norm_num at *
  linarith

/-- **C113** a model that exceeds the limit more can have a smaller weight: the weight jumps down at `-3` -/
theorem C113_monotone_refuted : limweight (-3.01) < limweight (-3) := by
  rw [limweight_exact (-3) le_rfl, limweight_asym 3.01 (by norm_num)]
  obtain ⟨h1, -⟩ := exact_bounds 3 le_rfl
  have hl1 : Real.log (1 - 1 / 3 ^ 2 + 3 / 3 ^ 4) ≤ -0.074 := by
    have := Real.log_le_sub_one_of_pos (show (0 : ℝ) < 1 - 1 / 3 ^ 2 + 3 / 3 ^ 4 by norm_num)
    refine this.trans (by norm_num)
  have hs0 : (0 : ℝ) < √(2 * Real.pi) := Real.sqrt_pos.2 (by positivity)
  have hd : asym 3.01 ≤ asym 3 + 0.0601 + 0.007 := by
    unfold asym
    rw [Real.log_mul hs0.ne' (by norm_num), Real.log_mul hs0.ne' (by norm_num)]
    have : Real.log 3.01 - Real.log 3 ≤ 0.0035 := by
      rw [← Real.log_div (by norm_num) (by norm_num)]
      have := Real.log_le_sub_one_of_pos (show (0 : ℝ) < 3.01 / 3 by norm_num)
      refine this.trans (by norm_num)
    norm_num at this ⊢
    linarith
  norm_num at *
  linarith

theorem Phi_strictMono : StrictMono Phi := strictMono_of_hasDerivAt_pos Phi_deriv fun x => dens_pos x

theorem Phi_pos (d : ℝ) : 0 < Phi d := by
  have h : ∀ x, 0 < x → 0 < Phi (-x) := fun x hx => lt_of_lt_of_le (mul_pos (dens_pos x) (by positivity)) (Q_lower x hx)
  have := h (|d| + 1) (by positivity)
  exact this.trans_le (Phi_strictMono.monotone (by have := neg_abs_le d; linarith))

theorem Phi_lt_one (d : ℝ) : Phi d < 1 := by
  have h := Phi_pos (-d)
  unfold Phi at h ⊢
  rw [neg_div, erf_neg] at h
  linarith

/-- **C113** on either side of `-3` the weight decreases when the distance of the model below the limit increases -/
theorem C113_monotone_partial (d e : ℝ) (h : d < e) (hs : e < -3 ∨ -3 ≤ d) : limweight e < limweight d := by
  rcases hs with hs | hs
  · rw [show d = -(-d) by ring, show e = -(-e) by ring, limweight_asym (-d) (by linarith), limweight_asym (-e) (by linarith)]
    unfold asym
    have hs0 : (0 : ℝ) < √(2 * Real.pi) := Real.sqrt_pos.2 (by positivity)
    have hl := Real.log_lt_log (mul_pos hs0 (by linarith : (0 : ℝ) < -e)) (mul_lt_mul_of_pos_left (by linarith : -e < -d) hs0)
    nlinarith
  · rw [limweight_exact d hs, limweight_exact e (by linarith)]
    unfold exact
    have := Real.log_lt_log (Phi_pos d) (Phi_strictMono h)
    linarith

/-- **C113** the weight is positive: its square root in `template_fit` is a number -/
theorem C113_positive (d : ℝ) : 0 < limweight d := by
  rcases lt_or_ge d (-3) with h | h
  · rw [show d = -(-d) by ring, limweight_asym (-d) (by linarith)]
    have := asym_ge (-d) (by linarith)
    have : 0 < Real.log 7 := Real.log_pos (by norm_num)
    linarith
  · rw [limweight_exact d h]
    unfold exact
    have := Real.log_neg (Phi_pos d) (Phi_lt_one d)
    linarith

/-- **C113** the weight vanishes far below the limit -/
theorem C113_vanishes : Tendsto limweight atTop (𝓝 0) := by
  have h : Tendsto Phi atTop (𝓝 1) := by
    have h : Tendsto (fun x : ℝ => x / √2) atTop atTop := tendsto_id.atTop_div_const (by positivity)
    have h2 := ((erf_atTop.comp h).const_mul (1 / 2 : ℝ)).const_add (1 / 2 : ℝ)
    have e : (1 / 2 + 1 / 2 * 1 : ℝ) = 1 := by norm_num
    rw [e] at h2
    exact h2
  have h2 := (h.log one_ne_zero).const_mul (-2)
  rw [Real.log_one, mul_zero] at h2
  refine h2.congr' ?_
  filter_upwards [eventually_ge_atTop 0] with x hx
  rw [limweight_exact x (by linarith)]
  rfl

/-- a model at the limit -/
example : limweight 0 = 2 * Real.log 2 := by
  rw [C113_exact 0 (by norm_num)]
  simp [Gauss.erf]

end
end Verif.Limweight
