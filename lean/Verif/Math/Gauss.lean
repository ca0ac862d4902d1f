import Mathlib.MeasureTheory.Integral.IntervalIntegral.Basic
import Mathlib.Analysis.SpecialFunctions.Exp
import Mathlib.Analysis.SpecialFunctions.Sqrt
/-!
# Model of `integrate_gauss`, `integrate_gauss_2d` (`math/reduce.hpp:918-936`)

Over the real numbers.
-/
namespace Verif.Gauss
noncomputable section

/-- the error function of the C library, by its definition -/
def erf (x : ℝ) : ℝ := 2 / √Real.pi * ∫ t in (0 : ℝ)..x, Real.exp (-t ^ 2)

/-- `integrate_gauss` (reduce.hpp:919-928) -/
def integrateGauss (x0 x1 xc xw amp : ℝ) : ℝ :=
  0.5 * (amp / (x1 - x0)) * (erf ((x1 - xc) / (√2.0 * xw)) - erf ((x0 - xc) / (√2.0 * xw)))

/-- `integrate_gauss_2d` (reduce.hpp:931-934) -/
def integrateGauss2d (x0 x1 y0 y1 xc yc w amp : ℝ) : ℝ :=
  amp * integrateGauss x0 x1 xc w 1 * integrateGauss y0 y1 yc w 1

end
end Verif.Gauss
