import Mathlib.LinearAlgebra.Matrix.NonsingularInverse
import Mathlib.Algebra.Order.Field.Basic
import Mathlib.Algebra.Order.BigOperators.Ring.Finset
import Mathlib.Algebra.BigOperators.Field
import Mathlib.Tactic.Linarith
import Mathlib.Tactic.Ring
import Mathlib.Tactic.FieldSimp
import Mathlib.Tactic.NormNum
import Mathlib.Tactic.FinCases
/-!
# The fit of `pixfit-gfit` at given temperatures (C196)

`m` sources, `nb` bands and `q` measurements. The parameters of a source are its dust mass (0) and its PAH mass (1), at the positions `2*i` and `2*i+1` in the code. The
inversion of a symmetric matrix is exact (C54, C90).
-/
namespace Verif.GfitFit
open Finset

variable {K : Type} [Field K] [LinearOrder K] [IsStrictOrderedRing K] {m nb q : Nat}

/-- the data of a fit: the measurement of each source in each band (`measure_id`), the fluxes per unit of mass of dust and PAHs at the temperature (`tconvd`, `tconvp`), the
sources with a fixed f_PAH, the measurements and their uncertainties -/
structure Data (m nb q : Nat) (K : Type) where
  mid : Fin m → Fin nb → Option (Fin q)
  dust : Fin m → Fin nb → K
  pah : Fin m → Fin nb → K
  fixed : Fin m → Bool
  y : Fin q → K
  e : Fin q → K

/-- the flux per unit of mass of a component (`pixfit-gfit.cpp:498-504`): no PAH component for a fixed source -/
def Data.flux (d : Data m nb q K) (x : Fin m × Fin 2) (b : Fin nb) : K := if x.2 = 0 then d.dust x.1 b else if d.fixed x.1 then 0 else d.pah x.1 b

/-- the entries that are set (`pixfit-gfit.cpp:512-551`): only for `j ≥ i` -/
def Data.raw (d : Data m nb q K) (x y : Fin m × Fin 2) : K :=
  if x.1 ≤ y.1 then
    (if x = y ∧ x.2 = 1 ∧ d.fixed x.1 then (if ∃ b, d.mid x.1 b ≠ none then 1 else 0)
    else ∑ b, match d.mid x.1 b with
      | none => 0
      | some k => if d.mid y.1 b = some k then d.flux x b * d.flux y b * (1 / d.e k) ^ 2 else 0)
  else 0

/-- `inplace_symmetrize(alpha)` (`pixfit-gfit.cpp:553`, `matrix-functions.hpp:105-113`): the upper triangle is replaced by the lower triangle -/
def Data.alpha (d : Data m nb q K) : Matrix (Fin m × Fin 2) (Fin m × Fin 2) K :=
  Matrix.of fun x y => if x.1 < y.1 ∨ (x.1 = y.1 ∧ x.2 < y.2) then d.raw y x else d.raw x y

/-- `beta` (`pixfit-gfit.cpp:537-541`) -/
def Data.beta (d : Data m nb q K) (x : Fin m × Fin 2) : K :=
  if x.2 = 1 ∧ d.fixed x.1 then 0
  else ∑ b, match d.mid x.1 b with
    | none => 0
    | some k => d.flux x b * (d.y k / d.e k) * (1 / d.e k)

/-- the fit succeeds -/
def Data.ok (d : Data m nb q K) : Prop := IsUnit d.alpha.det

/-- `alpha*beta` (`pixfit-gfit.cpp:556-563`) -/
noncomputable def Data.params (d : Data m nb q K) : Fin m × Fin 2 → K := d.alpha⁻¹.mulVec d.beta

/-- the model of a measurement (`pixfit-gfit.cpp:575-587`) -/
def Data.model (d : Data m nb q K) (p : Fin m × Fin 2 → K) (k : Fin q) : K :=
  ∑ i, ∑ b, if d.mid i b = some k then p (i, 0) * d.flux (i, 0) b + p (i, 1) * d.flux (i, 1) b else 0

/-- the chi2 (`pixfit-gfit.cpp:589-594`) -/
def Data.chi2 (d : Data m nb q K) (p : Fin m × Fin 2 → K) : K := ∑ k, (d.model p k / d.e k - d.y k / d.e k) ^ 2

/-- the response of a measurement to a parameter -/
def Data.resp (d : Data m nb q K) (x : Fin m × Fin 2) (k : Fin q) : K := ∑ b, if d.mid x.1 b = some k then d.flux x b else 0

/-! ### Helpers -/

theorem model_eq (d : Data m nb q K) (p : Fin m × Fin 2 → K) (k : Fin q) : d.model p k = ∑ x, p x * d.resp x k := by
  unfold Data.model Data.resp
  rw [Fintype.sum_prod_type]
  apply sum_congr rfl
  intro i _
  rw [Fin.sum_univ_two, mul_sum, mul_sum, ← sum_add_distrib]
  apply sum_congr rfl
  intro b _
  dsimp only
  split <;> ring

/-- no measurement is for two sources or two bands -/
def Data.Alone (d : Data m nb q K) : Prop := ∀ i j b c k, d.mid i b = some k → d.mid j c = some k → i = j ∧ b = c

theorem beta_eq (d : Data m nb q K) (x : Fin m × Fin 2) : d.beta x = ∑ k, d.resp x k / d.e k * (d.y k / d.e k) := by
  unfold Data.beta Data.resp
  split
  · next h =>
    symm
    apply sum_eq_zero
    intro k _
    have : (∑ b, if d.mid x.1 b = some k then d.flux x b else 0) = 0 := by
      apply sum_eq_zero
      intro b _
      have : d.flux x b = 0 := by
        unfold Data.flux
        rw [if_neg (by rw [h.1]; decide), if_pos h.2]
      rw [this, ite_self]
    rw [this]
    simp
  · have : ∀ k, (∑ b, if d.mid x.1 b = some k then d.flux x b else 0) / d.e k * (d.y k / d.e k) =
        ∑ b, if d.mid x.1 b = some k then d.flux x b * (d.y k / d.e k) * (1 / d.e k) else 0 := by
      intro k
      rw [sum_div, sum_mul]
      apply sum_congr rfl
      intro b _
      split <;> ring
    simp only [this]
    rw [sum_comm]
    apply sum_congr rfl
    intro b _
    cases d.mid x.1 b with
    | none => simp
    | some k => simp

/-- the matrix is that of the least squares when each measurement is for one source -/
theorem alpha_eq (d : Data m nb q K) (ha : d.Alone) (x y : Fin m × Fin 2) (hx : ¬ (x.2 = 1 ∧ d.fixed x.1)) :
    d.alpha x y = ∑ k, d.resp x k / d.e k * (d.resp y k / d.e k) := by
  -- the sum on the measurements is a sum on the bands
  have hsum : ∀ x y : Fin m × Fin 2, ∑ k, d.resp x k / d.e k * (d.resp y k / d.e k) = if x.1 = y.1 then ∑ b, (match d.mid x.1 b with
      | none => 0
      | some k => d.flux x b * d.flux y b * (1 / d.e k) ^ 2) else 0 := by
    intro x y
    split
    · next hxy =>
      have : ∀ k, d.resp x k / d.e k * (d.resp y k / d.e k) = ∑ b, if d.mid x.1 b = some k then d.flux x b * d.flux y b * (1 / d.e k) ^ 2 else 0 := by
        intro k
        unfold Data.resp
        rw [sum_div, sum_mul]
        apply sum_congr rfl
        intro b _
        split
        · next hb =>
          have : (∑ c, if d.mid y.1 c = some k then d.flux y c else 0) = d.flux y b := by
            rw [sum_eq_single b]
            · rw [← hxy, if_pos hb]
            · intro c _ hcb
              rw [if_neg]
              intro hc
              exact hcb (ha _ _ _ _ _ hc hb).2
            · intro h; exact absurd (mem_univ b) h
          rw [this]
          ring
        · simp
      simp only [this]
      rw [sum_comm]
      apply sum_congr rfl
      intro b _
      cases d.mid x.1 b with
      | none => simp
      | some k => simp
    · next hxy =>
      apply sum_eq_zero
      intro k _
      by_cases h1 : ∃ b, d.mid x.1 b = some k
      · obtain ⟨b, hb⟩ := h1
        have : d.resp y k = 0 := by
          unfold Data.resp
          apply sum_eq_zero
          intro c _
          rw [if_neg]
          intro hc
          exact hxy (ha _ _ _ _ _ hb hc).1
        rw [this]; simp
      · have : d.resp x k = 0 := by
          unfold Data.resp
          apply sum_eq_zero
          intro c _
          rw [if_neg]
          intro hc
          exact h1 ⟨c, hc⟩
        rw [this]; simp
  have hraw : ∀ x y : Fin m × Fin 2, x.1 = y.1 → ¬ (x = y ∧ x.2 = 1 ∧ d.fixed x.1) → d.raw x y = ∑ b, (match d.mid x.1 b with
      | none => 0
      | some k => d.flux x b * d.flux y b * (1 / d.e k) ^ 2) := by
    intro x y hxy hn
    unfold Data.raw
    rw [if_pos hxy.le, if_neg hn]
    apply sum_congr rfl
    intro b _
    rw [← hxy]
    cases d.mid x.1 b with
    | none => rfl
    | some k => simp
  rw [hsum]
  unfold Data.alpha
  rw [Matrix.of_apply]
  by_cases hxy : x.1 = y.1
  · rw [if_pos hxy]
    split
    · next hlt =>
      have h2 : x.2 < y.2 := by
        rcases hlt with h | h
        · exact absurd hxy h.ne
        · exact h.2
      rw [hraw y x hxy.symm (by rintro ⟨e, -⟩; rw [e] at h2; exact lt_irrefl _ h2), ← hxy]
      apply sum_congr rfl
      intro b _
      cases d.mid x.1 b with
      | none => rfl
      | some k => simp only []; ring
    · exact hraw x y hxy (fun h => hx h.2)
  · rw [if_neg hxy]
    have off : ∀ x y : Fin m × Fin 2, y.1 < x.1 → d.raw x y = 0 := by
      intro x y h
      unfold Data.raw
      rw [if_neg (not_le.2 h)]
    split
    · next hlt =>
      have h : x.1 < y.1 := by
        rcases hlt with h | h
        · exact h
        · exact absurd h.1 hxy
      exact off y x h
    · next hlt =>
      push Not at hlt
      exact off x y (lt_of_le_of_ne hlt.1 (Ne.symm hxy))

theorem resp_dummy (d : Data m nb q K) (x : Fin m × Fin 2) (hx : x.2 = 1 ∧ d.fixed x.1) (k : Fin q) : d.resp x k = 0 := by
  unfold Data.resp
  apply sum_eq_zero
  intro b _
  have : d.flux x b = 0 := by
    unfold Data.flux
    rw [if_neg (by rw [hx.1]; decide), if_pos hx.2]
  rw [this, ite_self]

/-! ### C196 -/

/-- When each measurement is for one source, the masses give the lowest chi2. -/
theorem C196_alone (d : Data m nb q K) (ha : d.Alone) (hok : d.ok) (p : Fin m × Fin 2 → K) : d.chi2 d.params ≤ d.chi2 p := by
  have hsol : d.alpha.mulVec d.params = d.beta := by
    unfold Data.params
    rw [Matrix.mulVec_mulVec, Matrix.mul_nonsing_inv _ hok, Matrix.one_mulVec]
  have grad : ∀ x, ∑ k, d.resp x k / d.e k * (d.model d.params k / d.e k - d.y k / d.e k) = 0 := by
    intro x
    by_cases hx : x.2 = 1 ∧ d.fixed x.1
    · apply sum_eq_zero
      intro k _
      rw [resp_dummy d x hx]
      simp
    · have h := congrFun hsol x
      rw [beta_eq] at h
      unfold Matrix.mulVec dotProduct at h
      simp only [alpha_eq d ha x _ hx, sum_mul] at h
      rw [sum_comm] at h
      have : ∀ k, d.resp x k / d.e k * (d.model d.params k / d.e k - d.y k / d.e k) =
          (∑ y, d.resp x k / d.e k * (d.resp y k / d.e k) * d.params y) - d.resp x k / d.e k * (d.y k / d.e k) := by
        intro k
        rw [mul_sub, model_eq, sum_div, mul_sum]
        congr 1
        apply sum_congr rfl
        intro y _
        ring
      simp only [this, sum_sub_distrib]
      rw [h]
      exact sub_self _
  have split : d.chi2 p = d.chi2 d.params + ∑ k, ((d.model p k - d.model d.params k) / d.e k) ^ 2 := by
    have cross : ∑ k, (d.model p k - d.model d.params k) / d.e k * (d.model d.params k / d.e k - d.y k / d.e k) = 0 := by
      have : ∀ k, (d.model p k - d.model d.params k) / d.e k * (d.model d.params k / d.e k - d.y k / d.e k) =
          ∑ x, (p x - d.params x) * (d.resp x k / d.e k * (d.model d.params k / d.e k - d.y k / d.e k)) := by
        intro k
        have e : d.model p k - d.model d.params k = ∑ x, (p x - d.params x) * d.resp x k := by
          rw [model_eq, model_eq, ← sum_sub_distrib]
          apply sum_congr rfl
          intro x _
          ring
        rw [e, sum_div, sum_mul]
        apply sum_congr rfl
        intro x _
        ring
      simp only [this]
      rw [sum_comm]
      apply sum_eq_zero
      intro x _
      rw [← mul_sum, grad x, mul_zero]
    unfold Data.chi2
    have : ∀ k, (d.model p k / d.e k - d.y k / d.e k) ^ 2 = (d.model d.params k / d.e k - d.y k / d.e k) ^ 2 + ((d.model p k - d.model d.params k) / d.e k) ^ 2 +
        2 * ((d.model p k - d.model d.params k) / d.e k * (d.model d.params k / d.e k - d.y k / d.e k)) := by
      intro k
      ring
    simp only [this, sum_add_distrib]
    rw [← mul_sum, cross]
    ring
  rw [split]
  have : 0 ≤ ∑ k, ((d.model p k - d.model d.params k) / d.e k) ^ 2 := sum_nonneg fun k _ => sq_nonneg _
  linarith

/-- The terms between two different sources are always zero, even if they share measurements. -/
theorem C196_cross_refuted (d : Data m nb q K) (x y : Fin m × Fin 2) (h : x.1 ≠ y.1) : d.alpha x y = 0 := by
  have off : ∀ x y : Fin m × Fin 2, y.1 < x.1 → d.raw x y = 0 := by
    intro x y h
    unfold Data.raw
    rw [if_neg (not_le.2 h)]
  unfold Data.alpha
  rw [Matrix.of_apply]
  split
  · next hlt =>
    rcases hlt with h' | h'
    · exact off y x h'
    · exact absurd h'.1 h
  · next hlt =>
    push Not at hlt
    exact off x y (lt_of_le_of_ne hlt.1 (Ne.symm h))

/-- two sources with one measurement together (first band) and one each (second band), f_PAH fixed -/
def pair : Data 2 2 3 ℚ where
  mid := fun i b => if b = 0 then some 0 else if i = 0 then some 1 else some 2
  dust := fun _ _ => 1
  pah := fun _ _ => 0
  fixed := fun _ => true
  y := fun k => if k = 0 then 2 else 1
  e := fun _ => 1

/-- Two sources of mass 1 that share a measurement are found with masses 3/2: the chi2 is 3/2, and 0 for the true masses. -/
theorem C196_shared_refuted : pair.ok ∧ pair.params = (fun x => if x.2 = 0 then 3 / 2 else 0) ∧ pair.chi2 pair.params = 3 / 2 ∧ pair.chi2 (fun x => if x.2 = 0 then 1 else 0) = 0 := by
  have hA : pair.alpha = Matrix.diagonal fun x => if x.2 = 0 then 2 else 1 := by
    ext ⟨i, s⟩ ⟨j, t⟩
    fin_cases i <;> fin_cases s <;> fin_cases j <;> fin_cases t <;> decide +kernel
  have hdet : IsUnit pair.alpha.det := by
    rw [hA, Matrix.det_diagonal, isUnit_iff_ne_zero, prod_ne_zero_iff]
    intro x _
    split <;> norm_num
  have hp : pair.params = (fun x => if x.2 = 0 then 3 / 2 else 0) := by
    have : pair.beta = pair.alpha.mulVec (fun x => if x.2 = 0 then 3 / 2 else 0) := by
      rw [hA]
      funext ⟨i, s⟩
      rw [Matrix.mulVec_diagonal]
      fin_cases i <;> fin_cases s <;> decide +kernel
    unfold Data.params
    rw [this, Matrix.mulVec_mulVec, Matrix.nonsing_inv_mul _ hdet, Matrix.one_mulVec]
  refine ⟨hdet, hp, ?_, by decide +kernel⟩
  rw [hp]
  decide +kernel

/-- one source with two measurements: the hypotheses of `C196_alone` -/
def one : Data 1 2 2 ℚ where
  mid := fun _ b => some b
  dust := fun _ b => if b = 0 then 1 else 2
  pah := fun _ b => if b = 0 then 1 else 0
  fixed := fun _ => false
  y := fun k => if k = 0 then 2 else 1
  e := fun _ => 1

example : one.Alone ∧ one.ok := by
  constructor
  · intro i j b c k h1 h2
    have h1 : b = k := Option.some.inj h1
    have h2 : c = k := Option.some.inj h2
    exact ⟨Subsingleton.elim _ _, h1.trans h2.symm⟩
  · unfold Data.ok
    rw [isUnit_iff_ne_zero]
    decide +kernel

end Verif.GfitFit
