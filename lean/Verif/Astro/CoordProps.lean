import Verif.Astro.Coord
import Mathlib.Geometry.Euclidean.Angle.Unoriented.TriangleInequality
import Mathlib.Analysis.InnerProductSpace.PiL2
import Mathlib.Tactic.Linarith
import Mathlib.Tactic.LinearCombination
import Mathlib.Tactic.FieldSimp
import Mathlib.Tactic.Positivity
import Mathlib.Tactic.Ring
import Mathlib.Tactic.NormNum

/-!
# Distances on the sky: C97, C98
-/
namespace Verif.Coord

open Real InnerProductGeometry

/-- the point of the unit sphere at right ascension `ra` and declination `dec`, in degrees -/
noncomputable def sky (ra dec : ℝ) : EuclideanSpace ℝ (Fin 3) :=
  !₂[cos (dec * (π / 180)) * cos (ra * (π / 180)), cos (dec * (π / 180)) * sin (ra * (π / 180)), sin (dec * (π / 180))]

theorem sky_inner (a d b e : ℝ) : inner ℝ (sky a d) (sky b e) =
    cos (d * (π / 180)) * cos (a * (π / 180)) * (cos (e * (π / 180)) * cos (b * (π / 180))) +
    cos (d * (π / 180)) * sin (a * (π / 180)) * (cos (e * (π / 180)) * sin (b * (π / 180))) +
    sin (d * (π / 180)) * sin (e * (π / 180)) := by
  simp [sky, PiLp.inner_apply, Fin.sum_univ_three]
  ring

theorem sky_norm (a d : ℝ) : ‖sky a d‖ = 1 := by
  have h : ‖sky a d‖ ^ 2 = 1 := by
    rw [← real_inner_self_eq_norm_sq, sky_inner]
    have h1 := sin_sq_add_cos_sq (d * (π / 180))
    have h2 := sin_sq_add_cos_sq (a * (π / 180))
    linear_combination h1 + cos (d * (π / 180)) ^ 2 * h2
  have h0 := norm_nonneg (sky a d)
  nlinarith

/-- the quantity under the root is half of one minus the cosine of the angle -/
theorem hav_eq (a d b e : ℝ) : hav a d b e = (1 - (cos d * cos a * (cos e * cos b) + cos d * sin a * (cos e * sin b) + sin d * sin e)) / 2 := by
  have h1 : sin (0.5 * (b - a)) ^ 2 = (1 - cos (b - a)) / 2 := by
    rw [sin_sq_eq_half_sub, show 2 * (0.5 * (b - a)) = b - a by ring]; ring
  have h2 : sin (0.5 * (e - d)) ^ 2 = (1 - cos (e - d)) / 2 := by
    rw [sin_sq_eq_half_sub, show 2 * (0.5 * (e - d)) = e - d by ring]; ring
  rw [cos_sub] at h1 h2
  unfold hav
  simp only
  linear_combination h2 + cos e * cos d * h1

theorem hav_sky (a d b e : ℝ) : hav (d2r * a) (d2r * d) (d2r * b) (d2r * e) = (1 - inner ℝ (sky a d) (sky b e)) / 2 := by
  rw [hav_eq, sky_inner]
  unfold d2r
  simp only [mul_comm (π / 180)]

theorem hav_sin (a d b e : ℝ) : hav (d2r * a) (d2r * d) (d2r * b) (d2r * e) = sin (angle (sky a d) (sky b e) / 2) ^ 2 := by
  rw [hav_sky, sin_sq_eq_half_sub, show 2 * (angle (sky a d) (sky b e) / 2) = angle (sky a d) (sky b e) by ring, cos_angle, sky_norm, sky_norm]
  ring

theorem d2r_pos : 0 < d2r := by unfold d2r; positivity

/-- the argument of `asin` is always legal -/
theorem C97_defined (a d b e : ℝ) : 0 ≤ hav (d2r * a) (d2r * d) (d2r * b) (d2r * e) ∧ hav (d2r * a) (d2r * d) (d2r * b) (d2r * e) ≤ 1 := by
  rw [hav_sin]
  exact ⟨sq_nonneg _, sin_sq_le_one _⟩

theorem arcsin_hav (a d b e : ℝ) : arcsin (sqrt (hav (d2r * a) (d2r * d) (d2r * b) (d2r * e))) = angle (sky a d) (sky b e) / 2 := by
  have h0 := angle_nonneg (sky a d) (sky b e)
  have h1 := angle_le_pi (sky a d) (sky b e)
  rw [hav_sin, sqrt_sq (sin_nonneg_of_nonneg_of_le_pi (by linarith) (by linarith [pi_pos])), arcsin_sin (by linarith [pi_pos]) (by linarith)]

/-- **C97**: `angdist` is the angle between the two directions, in arcsec -/
theorem C97_great_circle (a d b e : ℝ) : angdist a d b e = angle (sky a d) (sky b e) * (180 / π) * 3600 := by
  unfold angdist
  rw [arcsin_hav]
  unfold d2r
  have := pi_ne_zero
  field_simp

/-- **C97**: `angdistr` is the same angle in radian -/
theorem C97_radian (a d b e : ℝ) : angdistr (d2r * a) (d2r * d) (d2r * b) (d2r * e) = angle (sky a d) (sky b e) := by
  unfold angdistr
  rw [arcsin_hav]; ring

/-- **C97**: the distance does not depend on the order of the positions -/
theorem C97_symm (a d b e : ℝ) : angdist a d b e = angdist b e a d := by
  rw [C97_great_circle, C97_great_circle, angle_comm]

/-- **C97**: the triangle inequality -/
theorem C97_triangle (a d b e c f : ℝ) : angdist a d c f ≤ angdist a d b e + angdist b e c f := by
  simp only [C97_great_circle]
  have h := angle_le_angle_add_angle (sky a d) (sky b e) (sky c f)
  have : 0 < 180 / π * 3600 := by positivity
  nlinarith

/-- **C97**: between 0 and 180 degrees -/
theorem C97_range (a d b e : ℝ) : 0 ≤ angdist a d b e ∧ angdist a d b e ≤ 180 * 3600 := by
  rw [C97_great_circle]
  have h0 := angle_nonneg (sky a d) (sky b e)
  have h1 := angle_le_pi (sky a d) (sky b e)
  have hp := pi_pos
  constructor
  · positivity
  · have : angle (sky a d) (sky b e) * (180 / π) ≤ π * (180 / π) := mul_le_mul_of_nonneg_right h1 (by positivity)
    have h2 : π * (180 / π) = 180 := by field_simp
    linarith

/-- **C97**: zero exactly for two positions at the same place -/
theorem C97_zero (a d b e : ℝ) : angdist a d b e = 0 ↔ sky a d = sky b e := by
  have hp := pi_pos
  have hk : (180 / π * 3600) ≠ 0 := by positivity
  rw [C97_great_circle, mul_assoc, mul_eq_zero, or_iff_left hk, angle_eq_zero_iff]
  constructor
  · rintro ⟨_, r, hr, h⟩
    have h1 := sky_norm b e
    rw [h, norm_smul, sky_norm, mul_one, Real.norm_eq_abs, abs_of_pos hr] at h1
    rw [h, h1, one_smul]
  · intro h
    exact ⟨by rw [← norm_ne_zero_iff, sky_norm]; exact one_ne_zero, 1, one_pos, by rw [one_smul, h]⟩

/-- with declinations in range, the same place means the same declination and, away from the poles, right ascensions that differ by
whole turns -/
theorem sky_eq_iff {a d b e : ℝ} (hd : -90 ≤ d ∧ d ≤ 90) (he : -90 ≤ e ∧ e ≤ 90) :
    sky a d = sky b e ↔ d = e ∧ (d = 90 ∨ d = -90 ∨ ∃ k : ℤ, a = b + k * 360) := by
  have hp := pi_pos
  have hin : ∀ x : ℝ, -90 ≤ x ∧ x ≤ 90 → x * (π / 180) ∈ Set.Icc (-(π / 2)) (π / 2) := fun x hx =>
    ⟨by nlinarith [hx.1], by nlinarith [hx.2]⟩
  constructor
  · intro h
    have h0 := congrFun (congrArg (fun v : EuclideanSpace ℝ (Fin 3) => v.ofLp) h) 0
    have h1 := congrFun (congrArg (fun v : EuclideanSpace ℝ (Fin 3) => v.ofLp) h) 1
    have h2 := congrFun (congrArg (fun v : EuclideanSpace ℝ (Fin 3) => v.ofLp) h) 2
    simp [sky, -mul_eq_mul_left_iff] at h0 h1 h2
    have hde : d = e := by
      have := injOn_sin (hin d hd) (hin e he) h2
      have h3 : (π / 180) ≠ 0 := by positivity
      exact mul_right_cancel₀ h3 this
    subst hde
    refine ⟨rfl, ?_⟩
    by_cases hc : cos (d * (π / 180)) = 0
    · by_contra hne
      simp only [not_or] at hne
      have : 0 < cos (d * (π / 180)) := cos_pos_of_mem_Ioo ⟨by
        have : -90 < d := lt_of_le_of_ne hd.1 (Ne.symm hne.2.1)
        nlinarith, by
        have : d < 90 := lt_of_le_of_ne hd.2 hne.1
        nlinarith⟩
      exact this.ne' hc
    · right; right
      have ha := Real.Angle.cos_sin_inj (mul_left_cancel₀ hc h0) (mul_left_cancel₀ hc h1)
      obtain ⟨k, hk⟩ := Real.Angle.angle_eq_iff_two_pi_dvd_sub.1 ha
      refine ⟨k, ?_⟩
      have : (a - b - k * 360) * (π / 180) = 0 := by linear_combination hk
      rcases mul_eq_zero.1 this with h | h
      · linarith
      · have : (π / 180) ≠ 0 := by positivity
        exact absurd h this
  · rintro ⟨rfl, h | h | ⟨k, rfl⟩⟩
    · subst h
      have : (90 : ℝ) * (π / 180) = π / 2 := by ring
      simp [sky, this]
    · subst h
      have : (-90 : ℝ) * (π / 180) = -(π / 2) := by ring
      simp [sky, this]
    · have : (b + k * 360) * (π / 180) = b * (π / 180) + k * (2 * π) := by ring
      simp [sky, this]

/-- **C97**: along a meridian the distance is the difference of the declinations -/
theorem C97_meridian {d e : ℝ} (a : ℝ) (h : |e - d| ≤ 180) : angdist a d a e = |e - d| * 3600 := by
  have hp := pi_pos
  have hi : inner ℝ (sky a d) (sky a e) = cos (|e - d| * (π / 180)) := by
    have e1 : cos (|e - d| * (π / 180)) = cos ((e - d) * (π / 180)) := by
      rcases abs_cases (e - d) with h | h
      · rw [h.1]
      · rw [h.1, neg_mul, cos_neg]
    rw [e1, sub_mul, cos_sub, sky_inner]
    have h2 := sin_sq_add_cos_sq (a * (π / 180))
    linear_combination cos (d * (π / 180)) * cos (e * (π / 180)) * h2
  rw [C97_great_circle, angle, hi, sky_norm, sky_norm]
  rw [mul_one, div_one, arccos_cos (by positivity) (by
    have := abs_nonneg (e - d)
    nlinarith)]
  field_simp

/-- **C97**: along the equator the distance is the difference of the right ascensions -/
theorem C97_equator {a b : ℝ} (h : |b - a| ≤ 180) : angdist a 0 b 0 = |b - a| * 3600 := by
  have hp := pi_pos
  have hi : inner ℝ (sky a 0) (sky b 0) = cos (|b - a| * (π / 180)) := by
    have e1 : cos (|b - a| * (π / 180)) = cos ((b - a) * (π / 180)) := by
      rcases abs_cases (b - a) with h | h
      · rw [h.1]
      · rw [h.1, neg_mul, cos_neg]
    rw [e1, sub_mul, cos_sub, sky_inner]
    simp
    ring
  rw [C97_great_circle, angle, hi, sky_norm, sky_norm]
  rw [mul_one, div_one, arccos_cos (by positivity) (by
    have := abs_nonneg (b - a)
    nlinarith)]
  field_simp

/-- **C97**: the vector form gives the distance of the two positions at each place, and refuses vectors of different lengths -/
theorem C97_vector (a d b e : List ℝ) : angdistVec a d b e =
    if a.length = d.length ∧ b.length = e.length ∧ a.length = b.length then
      .ok (List.ofFn fun i : Fin a.length => angdist a[i] (d.getD i 0) (b.getD i 0) (e.getD i 0)) else .abort := by
  unfold angdistVec
  by_cases h1 : a.length = d.length
  · by_cases h2 : b.length = e.length
    · by_cases h3 : a.length = b.length
      · rw [Res.check_pos h1, Res.check_pos h2, Res.check_pos h3, if_pos ⟨h1, h2, h3⟩]
        simp only [Res.ok_bind]
        refine Res.mapM_getElem (by simp) fun i hi hr => ?_
        simp only [List.length_range] at hi
        simp [Res.rd_lt hi, Res.rd_lt (h1 ▸ hi), Res.rd_lt (h3 ▸ hi), Res.rd_lt (h2 ▸ h3 ▸ hi),
          List.getElem?_eq_getElem (h1 ▸ hi), List.getElem?_eq_getElem (h3 ▸ hi), List.getElem?_eq_getElem (h2 ▸ h3 ▸ hi)]
      · rw [Res.check_neg h3, Res.check_pos h1, Res.check_pos h2, if_neg fun h => h3 h.2.2]; rfl
    · rw [Res.check_neg h2, Res.check_pos h1, if_neg fun h => h2 h.2.1]; rfl
  · rw [Res.check_neg h1, if_neg fun h => h1 h.1]; rfl

/-- **C97**: the form with one reference position -/
theorem C97_to (a d : List ℝ) (b e : ℝ) : angdistTo a d b e =
    if a.length = d.length then .ok (List.ofFn fun i : Fin a.length => angdist a[i] (d.getD i 0) b e) else .abort := by
  unfold angdistTo
  by_cases h1 : a.length = d.length
  · rw [Res.check_pos h1, if_pos h1]
    simp only [Res.ok_bind]
    refine Res.mapM_getElem (by simp) fun i hi hr => ?_
    simp only [List.length_range] at hi
    simp [Res.rd_lt hi, Res.rd_lt (h1 ▸ hi), List.getElem?_eq_getElem (h1 ▸ hi)]
  · rw [Res.check_neg h1, if_neg h1]; rfl

/-- from the equator to the pole: 90 degrees -/
example : angdist 12 0 12 90 = 90 * 3600 ∧ angdist 350 0 170 0 = 180 * 3600 := by
  constructor
  · rw [C97_meridian 12 (by norm_num)]; norm_num
  · rw [C97_equator (by norm_num)]; norm_num

/-! ### C98: `angdist_less` -/

theorem lessOne_eq (a d b e radius : ℝ) : lessOne a d b e radius =
    decide (sin (angle (sky a d) (sky b e) / 2) ^ 2 < sin (radius / 3600 * (π / 180) / 2) ^ 2) := by
  rw [← hav_sin]
  unfold lessOne
  rw [decide_eq_decide]
  have h1 : radius / 3600 * (π / 180) / 2 = d2r * radius / 3600 / 2 := by unfold d2r; ring
  have h2 : hav (d2r * a) (d2r * d) (d2r * b) (d2r * e) = sin (0.5 * (d2r * e - d2r * d)) ^ 2 +
      sin (0.5 * (d2r * b - d2r * a)) ^ 2 * cos (d2r * e) * cos (d2r * d) := by unfold hav; ring
  rw [h1, h2]

/-- **C98**: for a radius between 0 and 180 degrees the answer is whether the distance is smaller than the radius -/
theorem C98_less_partial {radius : ℝ} (h0 : 0 ≤ radius) (h1 : radius ≤ 180 * 3600) (a d b e : ℝ) :
    lessOne a d b e radius = decide (angdist a d b e < radius) := by
  have hp := pi_pos
  have ha := angle_nonneg (sky a d) (sky b e)
  have hb := angle_le_pi (sky a d) (sky b e)
  have hr0 : 0 ≤ radius / 3600 * (π / 180) := by positivity
  have hr1 : radius / 3600 * (π / 180) ≤ π := by
    have : radius / 3600 ≤ 180 := by linarith
    nlinarith
  rw [lessOne_eq, decide_eq_decide, C97_great_circle]
  rw [sq_lt_sq₀ (sin_nonneg_of_nonneg_of_le_pi (by linarith) (by linarith)) (sin_nonneg_of_nonneg_of_le_pi (by linarith) (by linarith))]
  rw [strictMonoOn_sin.lt_iff_lt ⟨by linarith, by linarith⟩ ⟨by linarith, by linarith⟩]
  have hs : ∀ t : ℝ, t * (180 / π) * 3600 < radius ↔ t < radius / 3600 * (π / 180) := fun t => by
    rw [← div_lt_div_iff_of_pos_right (show (0 : ℝ) < 180 / π * 3600 by positivity)]
    rw [show t * (180 / π) * 3600 / (180 / π * 3600) = t by field_simp, show radius / (180 / π * 3600) = radius / 3600 * (π / 180) by field_simp]
  rw [hs]
  constructor <;> intro h <;> linarith

/-- **C98**: the vector form tests each position, and refuses vectors of different lengths -/
theorem C98_vector_partial {radius : ℝ} (h0 : 0 ≤ radius) (h1 : radius ≤ 180 * 3600) (a d : List ℝ) (b e : ℝ) :
    angdistLess a d b e radius = (angdistTo a d b e).map fun l => l.map fun x => decide (x < radius) := by
  rw [C97_to]
  unfold angdistLess
  by_cases h : a.length = d.length
  · rw [Res.check_pos h, if_pos h]
    simp only [Res.ok_bind, Res.map_ok]
    refine Res.mapM_getElem (by simp) fun i hi hr => ?_
    simp only [List.length_range] at hi
    simp [Res.rd_lt hi, Res.rd_lt (h ▸ hi), List.getElem?_eq_getElem (h ▸ hi), C98_less_partial h0 h1]
  · rw [Res.check_neg h, if_neg h]; rfl

/-- one degree accepts a position at half a degree and refuses one at two degrees -/
example : lessOne 10 0 10 0.5 3600 = true ∧ lessOne 10 0 10 2 3600 = false := by
  rw [C98_less_partial (by norm_num) (by norm_num), C98_less_partial (by norm_num) (by norm_num),
    C97_meridian 10 (by norm_num), C97_meridian 10 (by norm_num)]
  norm_num

/-- **C98** refuted for radii above 180 degrees: a radius of a full turn accepts nothing, although all distances are smaller -/
theorem C98_large_refuted (a d b e : ℝ) : angdist a d b e < 360 * 3600 ∧ lessOne a d b e (360 * 3600) = false := by
  refine ⟨by linarith [(C97_range a d b e).2], ?_⟩
  rw [lessOne_eq, decide_eq_false_iff_not, show (360 * 3600 / 3600 * (π / 180) / 2 : ℝ) = π by ring, sin_pi]
  nlinarith [sq_nonneg (sin (angle (sky a d) (sky b e) / 2))]

/-- **C98** refuted for negative radii: the answer is that of the opposite radius, and no distance is negative -/
theorem C98_negative_refuted (a d b e radius : ℝ) : lessOne a d b e (-radius) = lessOne a d b e radius ∧
    lessOne a d a d (-3600) = true ∧ ¬ angdist a d a d < -3600 := by
  have hn : ∀ r, lessOne a d b e (-r) = lessOne a d b e r := fun r => by
    rw [lessOne_eq, lessOne_eq, show -r / 3600 * (π / 180) / 2 = -(r / 3600 * (π / 180) / 2) by ring, sin_neg, neg_sq]
  refine ⟨hn _, ?_, ?_⟩
  · have h : lessOne a d a d (-3600) = lessOne a d a d 3600 := by
      rw [lessOne_eq, lessOne_eq, show (-3600 : ℝ) / 3600 * (π / 180) / 2 = -(3600 / 3600 * (π / 180) / 2) by ring, sin_neg, neg_sq]
    rw [h, C98_less_partial (by norm_num) (by norm_num), (C97_zero a d a d).2 rfl]
    norm_num
  · rw [(C97_zero a d a d).2 rfl]; norm_num

end Verif.Coord
