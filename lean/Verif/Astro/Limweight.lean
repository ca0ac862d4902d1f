import Verif.Math.Gauss
import Mathlib.Analysis.SpecialFunctions.Log.Basic
/-!
# The weight of an upper limit (`astro/template_fit.hpp:59-85`)

Over the real numbers; `dpi` is `π`.
-/
namespace Verif.Limweight
noncomputable section

/-- `limweight` (template_fit.hpp:73-75) -/
def limweight (d : ℝ) : ℝ :=
  if d < -3.0 then d * d + 2.0 * Real.log (-2.0 * √(Real.pi / 2.0) * d)
  else -2.0 * Real.log (0.5 * (1.0 + Gauss.erf (d / √2.0)))

end
end Verif.Limweight
