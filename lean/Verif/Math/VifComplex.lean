import Mathlib.Analysis.Complex.Basic
import Mathlib.Analysis.Complex.Norm
/-!
# The complex numbers of vif (`math/complex.hpp:20-158`, with `USE_VIF_COMPLEX`) (C214)

The components are real numbers. The default is `std::complex`, for which we take the complex numbers of Mathlib (multiplication, division, ... of C++ are those of complex numbers, and `std::norm` is the
square of the modulus).
-/
namespace Verif.VifComplex

/-! ### Model -/

/-- `complex<T>` (`math/complex.hpp:27-28`) -/
structure Cx where
  re : ℝ
  im : ℝ

/-- `norm_sqr` (`math/complex.hpp:67-70`) -/
def normSqr (c : Cx) : ℝ := c.re * c.re + c.im * c.im
/-- `norm` (`math/complex.hpp:72-75`) -/
noncomputable def norm (c : Cx) : ℝ := Real.sqrt (normSqr c)
/-- `c1 * c2` (`math/complex.hpp:77-80`) -/
def mul (c1 c2 : Cx) : Cx := ⟨c1.re * c2.re - c1.im * c2.im, c1.re * c2.im + c1.im * c2.re⟩
/-- `c * a` (`math/complex.hpp:82-86`) -/
def mulR (c : Cx) (a : ℝ) : Cx := ⟨c.re * a, c.im * a⟩
/-- `a * c` (`math/complex.hpp:88-92`) -/
def rMul (a : ℝ) (c : Cx) : Cx := ⟨a * c.re, a * c.im⟩
/-- `c1 / c2` (`math/complex.hpp:94-98`) -/
noncomputable def div (c1 c2 : Cx) : Cx :=
  let tmp := 1 / normSqr c2
  ⟨c1.re * (c2.re * tmp) + c1.im * (c2.im * tmp), -c1.re * (c2.im * tmp) + c1.im * (c2.re * tmp)⟩
/-- `c / a` (`math/complex.hpp:100-104`) -/
noncomputable def divR (c : Cx) (a : ℝ) : Cx := ⟨c.re / a, c.im / a⟩
/-- `a / c` (`math/complex.hpp:106-111`) -/
noncomputable def rDiv (a : ℝ) (c : Cx) : Cx :=
  let tmp := 1 / normSqr c
  ⟨a * (c.re * tmp), -a * (c.im * tmp)⟩
/-- `c1 + c2` (`math/complex.hpp:113-116`) -/
def add (c1 c2 : Cx) : Cx := ⟨c1.re + c2.re, c1.im + c2.im⟩
/-- `c + a` (`math/complex.hpp:118-122`) -/
def addR (c : Cx) (a : ℝ) : Cx := ⟨c.re + a, c.im⟩
/-- `a + c` (`math/complex.hpp:124-128`) -/
def rAdd (a : ℝ) (c : Cx) : Cx := ⟨c.re + a, c.im⟩
/-- `c1 - c2` (`math/complex.hpp:130-133`) -/
def sub (c1 c2 : Cx) : Cx := ⟨c1.re - c2.re, c1.im - c2.im⟩
/-- `c - a` (`math/complex.hpp:135-139`) -/
def subR (c : Cx) (a : ℝ) : Cx := ⟨c.re - a, c.im⟩
/-- `a - c` (`math/complex.hpp:141-145`) -/
def rSub (a : ℝ) (c : Cx) : Cx := ⟨a - c.re, -c.im⟩
/-- `-c` (`math/complex.hpp:152-155`) -/
def neg (c : Cx) : Cx := ⟨-c.re, -c.im⟩

/-! ### C214 -/

/-- the complex number -/
def val (c : Cx) : ℂ := ⟨c.re, c.im⟩

/-- The operators between two complex numbers are those of the complex numbers. -/
theorem C214_arith (c d : Cx) : val (add c d) = val c + val d ∧ val (sub c d) = val c - val d ∧ val (mul c d) = val c * val d ∧ val (neg c) = -val c ∧ (val d ≠ 0 → val (div c d) = val c / val d) := by
  refine ⟨rfl, rfl, ?_, rfl, fun _ => ?_⟩
  · apply Complex.ext <;> simp [val, mul]
  · apply Complex.ext
    · simp only [val, div, Complex.div_re, Complex.normSq_mk, normSqr]; ring
    · simp only [val, div, Complex.div_im, Complex.normSq_mk, normSqr]; ring

/-- The operators between a complex number and a real number are those of the complex numbers. -/
theorem C214_scalar (c : Cx) (a : ℝ) : val (addR c a) = val c + a ∧ val (rAdd a c) = a + val c ∧ val (subR c a) = val c - a ∧ val (rSub a c) = a - val c ∧ val (mulR c a) = val c * a ∧
    val (rMul a c) = a * val c ∧ (a ≠ 0 → val (divR c a) = val c / a) ∧ (val c ≠ 0 → val (rDiv a c) = a / val c) := by
  refine ⟨?_, ?_, ?_, ?_, ?_, ?_, fun _ => ?_, fun _ => ?_⟩
  · apply Complex.ext <;> simp [val, addR]
  · apply Complex.ext <;> simp [val, rAdd, add_comm]
  · apply Complex.ext <;> simp [val, subR]
  · apply Complex.ext <;> simp [val, rSub]
  · apply Complex.ext <;> simp [val, mulR]
  · apply Complex.ext <;> simp [val, rMul]
  · apply Complex.ext
    · rw [Complex.div_ofReal_re]; rfl
    · rw [Complex.div_ofReal_im]; rfl
  · apply Complex.ext
    · simp only [val, rDiv, Complex.div_re, Complex.normSq_mk, normSqr, Complex.ofReal_re, Complex.ofReal_im]; ring
    · simp only [val, rDiv, Complex.div_im, Complex.normSq_mk, normSqr, Complex.ofReal_re, Complex.ofReal_im]; ring

example : val (div ⟨1, 2⟩ ⟨0, 1⟩) = ⟨2, -1⟩ := by
  apply Complex.ext <;> norm_num [val, div, normSqr]

/-- `norm_sqr` is the square of the modulus and `norm` is the modulus. -/
theorem C214_norm (c : Cx) : normSqr c = ‖val c‖ ^ 2 ∧ norm c = ‖val c‖ := by
  have h : normSqr c = Complex.normSq (val c) := by simp [val, normSqr, Complex.normSq_mk]
  constructor
  · rw [h, Complex.normSq_eq_norm_sq]
  · unfold norm
    rw [h, Complex.normSq_eq_norm_sq, Real.sqrt_sq (norm_nonneg _)]

/-- `norm` does not have the same value as with the default implementation, where it is the square of the modulus: choosing the other one changes the results of programs that use it. -/
theorem C214_norm_refuted : norm ⟨3, 4⟩ = 5 ∧ Complex.normSq (val ⟨3, 4⟩) = 25 := by
  constructor
  · unfold norm normSqr
    rw [Real.sqrt_eq_iff_mul_self_eq (by norm_num) (by norm_num)]
    norm_num
  · norm_num [val, Complex.normSq_mk]

end Verif.VifComplex
