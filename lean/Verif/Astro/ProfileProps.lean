import Verif.Astro.Profile
import Verif.Astro.FilterProps
import Verif.Astro.Ds9MaskProps
import Verif.Math.GaussProps
import Mathlib.Analysis.SpecialFunctions.Gaussian.GaussianIntegral
/-!
# C117: radial and Gaussian profiles
-/
namespace Verif.Profile
open Verif Verif.Astro Verif.Ds9 Verif.Gauss MeasureTheory

/-! ### Gaussian profile -/

/-- the whole line has weight 1 -/
theorem integral_line {w : ℝ} (hw : 0 < w) (c : ℝ) : Integrable (profile c w) ∧ ∫ t, profile c w t = 1 := by
  have hb : (0 : ℝ) < 1 / (2 * w ^ 2) := by positivity
  have e : ∀ t, profile c w t = (fun s : ℝ => Real.exp (-(1 / (2 * w ^ 2)) * s ^ 2) / (√(2 * Real.pi) * w)) (t - c) := by
    intro t
    unfold profile
    simp only
    congr 2
    ring
  have h1 := integral_gaussian (1 / (2 * w ^ 2))
  have h2 := integrable_exp_neg_mul_sq hb
  have e' : profile c w = fun t => (fun s : ℝ => Real.exp (-(1 / (2 * w ^ 2)) * s ^ 2) / (√(2 * Real.pi) * w)) (t - c) := funext e
  rw [e']
  refine ⟨(h2.div_const _).comp_sub_right c, ?_⟩
  rw [integral_sub_right_eq_self (fun s : ℝ => Real.exp (-(1 / (2 * w ^ 2)) * s ^ 2) / (√(2 * Real.pi) * w)) c, integral_div, h1]
  have : Real.pi / (1 / (2 * w ^ 2)) = 2 * Real.pi * w ^ 2 := by field_simp
  rw [this, Real.sqrt_mul (by positivity), Real.sqrt_sq hw.le]
  have : √(2 * Real.pi) * w ≠ 0 := by have := Real.pi_pos; positivity
  exact div_self this

theorem integral_le_one {w : ℝ} (hw : 0 < w) (c a b : ℝ) (hab : a ≤ b) : ∫ t in a..b, profile c w t ≤ 1 := by
  obtain ⟨h1, h2⟩ := integral_line hw c
  rw [intervalIntegral.integral_of_le hab, ← h2]
  exact setIntegral_le_integral h1 (Filter.Eventually.of_forall fun t => (profile_pos hw c t).le)

theorem interval (c w a b : ℝ) : IntervalIntegrable (profile c w) volume a b := by
  refine Continuous.intervalIntegrable ?_ _ _
  unfold profile
  fun_prop

/-- the value of a pixel: the integral over a square of side 1 -/
theorem pixel {w : ℝ} (hw : 0 < w) (x y : Nat) (x0 y0 : ℝ) :
    integrateGauss2d ((x : ℝ) - 0.5) (x + 0.5) ((y : ℝ) - 0.5) (y + 0.5) x0 y0 w 1 =
      (∫ s in ((x : ℝ) - 1 / 2)..(x + 1 / 2), profile x0 w s) * ∫ t in ((y : ℝ) - 1 / 2)..(y + 1 / 2), profile y0 w t := by
  have e : ∀ (n : Nat) (c : ℝ), integrateGauss ((n : ℝ) - 0.5) (n + 0.5) c w 1 = ∫ s in ((n : ℝ) - 1 / 2)..(n + 1 / 2), profile c w s := by
    intro n c
    have h := (C110_average_partial hw ((n : ℝ) - 0.5) (n + 0.5) c 1).2
    have e1 : (n : ℝ) - 0.5 + 1 = n + 0.5 := by norm_num; ring
    rw [e1] at h
    rw [h, one_mul]
    norm_num
  unfold integrateGauss2d
  rw [e, e, one_mul]

/-- **C117** each pixel of a Gaussian profile holds the integral of the normalised Gaussian over the square of the pixel -/
theorem C117_gauss_pixel {w : ℝ} (hw : 0 < w) (nx ny : Nat) (x0 y0 : ℝ) : ∃ m, gaussianProfile nx ny w x0 y0 = .ok m ∧ m.WF ∧ m.nx = nx ∧ m.ny = ny ∧
    ∀ x y, x < nx → y < ny → m.at x y = some (∫ s in ((x : ℝ) - 1 / 2)..(x + 1 / 2), ∫ t in ((y : ℝ) - 1 / 2)..(y + 1 / 2), profile x0 w s * profile y0 w t) := by
  obtain ⟨m, h1, h2, h3, h4, h5⟩ := C88_generate nx ny (fun x y => integrateGauss2d ((x : ℝ) - 0.5) (x + 0.5) ((y : ℝ) - 0.5) (y + 0.5) x0 y0 w 1) 0
  refine ⟨m, h1, h2, h3, h4, fun x y hx hy => ?_⟩
  rw [h5 x y hx hy, pixel hw]
  simp only [intervalIntegral.integral_const_mul, intervalIntegral.integral_mul_const]

theorem sum_pixels (c w : ℝ) (n : Nat) : (∑ x ∈ Finset.range n, ∫ s in ((x : ℝ) - 1 / 2)..(x + 1 / 2), profile c w s) = ∫ s in (-(1 / 2 : ℝ))..(n - 1 / 2), profile c w s := by
  induction n with
  | zero => simp
  | succ n ih =>
    rw [Finset.sum_range_succ, ih]
    push_cast
    have : (n : ℝ) + 1 - 1 / 2 = n + 1 / 2 := by ring
    rw [this]
    exact intervalIntegral.integral_add_adjacent_intervals (interval ..) (interval ..)

/-- **C117** the pixels of a Gaussian profile are positive and their sum is the part of the Gaussian that falls in the image, at most 1 -/
theorem C117_gauss_total {w : ℝ} (hw : 0 < w) (nx ny : Nat) (x0 y0 : ℝ) (m : Img ℝ) (hm : gaussianProfile nx ny w x0 y0 = .ok m) :
    (∀ x y v, m.at x y = some v → 0 < v) ∧
    (∑ x ∈ Finset.range nx, ∑ y ∈ Finset.range ny, (m.at x y).getD 0) =
      (∫ s in (-(1 / 2 : ℝ))..(nx - 1 / 2), profile x0 w s) * (∫ t in (-(1 / 2 : ℝ))..(ny - 1 / 2), profile y0 w t) ∧
    (∑ x ∈ Finset.range nx, ∑ y ∈ Finset.range ny, (m.at x y).getD 0) ≤ 1 := by
  obtain ⟨m', h1, h2, h3, h4, h5⟩ := C117_gauss_pixel hw nx ny x0 y0
  rw [hm] at h1; cases h1
  have hv : ∀ x y, x < nx → y < ny → m.at x y = some ((∫ s in ((x : ℝ) - 1 / 2)..(x + 1 / 2), profile x0 w s) * ∫ t in ((y : ℝ) - 1 / 2)..(y + 1 / 2), profile y0 w t) := by
    intro x y hx hy
    rw [h5 x y hx hy]
    simp only [intervalIntegral.integral_const_mul, intervalIntegral.integral_mul_const]
  have ht : (∑ x ∈ Finset.range nx, ∑ y ∈ Finset.range ny, (m.at x y).getD 0) =
      (∫ s in (-(1 / 2 : ℝ))..(nx - 1 / 2), profile x0 w s) * (∫ t in (-(1 / 2 : ℝ))..(ny - 1 / 2), profile y0 w t) := by
    rw [← sum_pixels, ← sum_pixels, Finset.sum_mul_sum]
    refine Finset.sum_congr rfl fun x hx => Finset.sum_congr rfl fun y hy => ?_
    rw [hv x y (Finset.mem_range.1 hx) (Finset.mem_range.1 hy), Option.getD_some]
  refine ⟨fun x y v hxy => ?_, ht, ?_⟩
  · obtain ⟨a, b⟩ := at_lt hxy
    rw [hv x y (by omega) (by omega)] at hxy
    cases hxy
    exact mul_pos (integral_pos hw (by linarith) _) (integral_pos hw (by linarith) _)
  · rw [ht]
    rcases Nat.eq_zero_or_pos nx with rfl | hnx
    · simp [← sum_pixels]
    rcases Nat.eq_zero_or_pos ny with rfl | hny
    · rw [← sum_pixels y0 w 0]; simp
    have hx1 : (1 : ℝ) ≤ nx := by exact_mod_cast hnx
    have hy1 : (1 : ℝ) ≤ ny := by exact_mod_cast hny
    have a1 := integral_le_one hw x0 (-(1 / 2)) (nx - 1 / 2) (by linarith)
    have a2 := integral_le_one hw y0 (-(1 / 2)) (ny - 1 / 2) (by linarith)
    have a3 := integral_pos hw (x0 := -(1 / 2)) (x1 := nx - 1 / 2) (by linarith) x0
    have a4 := integral_pos hw (x0 := -(1 / 2)) (x1 := ny - 1 / 2) (by linarith) y0
    exact mul_le_one₀ a1 a4.le a2

theorem reflect (c w : ℝ) (a b : ℝ) : ∫ s in a..b, profile c w s = ∫ s in (2 * c - b)..(2 * c - a), profile c w s := by
  have := intervalIntegral.integral_comp_sub_left (a := a) (b := b) (profile c w) (2 * c)
  rw [← this]
  refine intervalIntegral.integral_congr fun t _ => ?_
  unfold profile
  congr 3
  ring

/-- **C117** with odd dimensions the default Gaussian profile is symmetric with respect to the central pixel, in both directions -/
theorem C117_gauss_symmetric {w : ℝ} (hw : 0 < w) (hx hy : Nat) : ∃ m, gaussianProfileC (2 * hx + 1) (2 * hy + 1) w = .ok m ∧
    ∀ x y, x ≤ 2 * hx → y ≤ 2 * hy → (m.at x y).isSome ∧ m.at (2 * hx - x) y = m.at x y ∧ m.at x (2 * hy - y) = m.at x y := by
  have e1 : (2 * hx + 1) / 2 = hx := by omega
  have e2 : (2 * hy + 1) / 2 = hy := by omega
  obtain ⟨m, h1, h2, h3, h4, h5⟩ := C117_gauss_pixel hw (2 * hx + 1) (2 * hy + 1) hx hy
  refine ⟨m, by unfold gaussianProfileC; rw [e1, e2]; exact h1, fun x y hxx hyy => ?_⟩
  have key : ∀ (c n : Nat), n ≤ 2 * c → ∫ s in (((2 * c - n : Nat) : ℝ) - 1 / 2)..((2 * c - n : Nat) + 1 / 2), profile c w s = ∫ s in ((n : ℝ) - 1 / 2)..(n + 1 / 2), profile c w s := by
    intro c n hn
    rw [reflect (c : ℝ) w]
    push_cast [Nat.cast_sub hn]
    congr 1 <;> ring
  rw [h5 x y (by omega) (by omega), h5 (2 * hx - x) y (by omega) (by omega), h5 x (2 * hy - y) (by omega) (by omega)]
  simp only [intervalIntegral.integral_const_mul, intervalIntegral.integral_mul_const]
  rw [key hx x hxx, key hy y hyy]
  exact ⟨rfl, rfl, rfl⟩

/-! ### Default centre of a circular mask -/

/-- **C117** the default circular mask is not centred: with the same dimensions a Gaussian profile is centred on the pixel (1, 1), the mask is not
symmetric with respect to it -/
theorem C117_centre_refuted : ((circularMaskC 3 3 (1 : ℚ)).map fun m => m.px) = .ok [0, 1 / 4, 1 / 4, 1 / 4, 3 / 4, 3 / 4, 1 / 4, 3 / 4, 3 / 4] := by decide +kernel

/-! ### Radial profile -/

/-- **C117** the radial profile is not one: the image with its only source in one corner and the image with its only source in the opposite corner, at the same
distance of the centre, have different profiles; and far rings have no pixel although the image has pixels there -/
theorem C117_radial_refuted : radialProfile (K := ℚ) ⟨3, 3, [1, 0, 0, 0, 0, 0, 0, 0, 0]⟩ 2 = .ok [some 0, some (1 / 20)] ∧
    radialProfile (K := ℚ) ⟨3, 3, [0, 0, 0, 0, 0, 0, 0, 0, 1]⟩ 2 = .ok [some 0, some (1 / 10)] := by
  constructor <;> decide +kernel

/-- **C117** the ring of index 1 in an image of 5 by 5 pixels has no weight on one side of the centre -/
theorem C117_ring_refuted : ((annulus (K := ℚ) 5 5 1).map fun m => (m.at 2 0, m.at 2 1, m.at 2 3, m.at 2 4)) = .ok (some 0, some 0, some (1 / 2), some 0) ∧
    ((annulus (K := ℚ) 5 5 1).map fun m => (m.at 0 0, m.at 4 0, m.at 0 4, m.at 4 4)) = .ok (some (1 / 8), some (1 / 8), some 0, some 0) := by
  constructor <;> decide +kernel

variable {K : Type} [Field K] [LinearOrder K] [IsStrictOrderedRing K] [FloorRing K]

theorem mapM_ok_mem {f : Nat → Res β} : ∀ {l : List Nat} {r : List β}, l.mapM f = .ok r → ∀ v ∈ r, ∃ i ∈ l, f i = .ok v
  | [], r, h, v, hv => by
    rw [List.mapM_nil] at h; cases h; simp at hv
  | a :: l, r, h, v, hv => by
    rw [List.mapM_cons] at h
    obtain ⟨b, h1, h2⟩ := Res.bind_eq_ok.1 h
    obtain ⟨bs, h3, h4⟩ := Res.bind_eq_ok.1 h2
    cases h4
    rcases List.mem_cons.1 hv with rfl | hv
    · exact ⟨a, List.mem_cons_self .., h1⟩
    · obtain ⟨i, hi, e⟩ := mapM_ok_mem h3 v hv
      exact ⟨i, List.mem_cons_of_mem _ hi, e⟩

omit [IsStrictOrderedRing K] [FloorRing K] in
theorem zip_const (c : K) : ∀ (a : List K) (n : Nat), a.length = n → (List.zipWith (· * ·) a (List.replicate n c)).sum = a.sum * c
  | [], n, h => by simp
  | x :: a, 0, h => by simp at h
  | x :: a, n + 1, h => by
    rw [List.replicate_succ, List.zipWith_cons_cons, List.sum_cons, List.sum_cons, zip_const c a n (by simpa using h), add_mul]

/-- **C117** (partial) what remains true: the profile of a uniform image is uniform where it is a number -/
theorem C117_radial_uniform_partial (nx ny npix : Nat) (hwx : nx < W64) (hwy : ny < W64) (hnx : 0 < nx) (hny : 0 < ny) (c : K) (l : List (Option K))
    (h : radialProfile (Img.fill nx ny c) npix = .ok l) : l.length = npix ∧ ∀ v, some v ∈ l → v = c := by
  unfold radialProfile at h
  obtain ⟨_, h0, h⟩ := Res.bind_eq_ok.1 h
  obtain ⟨c', hc, h⟩ := Res.bind_eq_ok.1 h
  obtain ⟨r, hr, h⟩ := Res.bind_eq_ok.1 h
  cases h
  have hp : 0 < npix := by
    by_contra hn
    rw [Res.check_neg hn] at h0; cases h0
  have hlen : r.length = npix - 1 := by
    have : ∀ {f : Nat → Res (Option K)} {l : List Nat} {r : List (Option K)}, l.mapM f = .ok r → r.length = l.length := by
      intro f l
      induction l with
      | nil => intro r h; rw [List.mapM_nil] at h; cases h; rfl
      | cons a l ih =>
        intro r h
        rw [List.mapM_cons] at h
        obtain ⟨b, h1, h2⟩ := Res.bind_eq_ok.1 h
        obtain ⟨bs, h3, h4⟩ := Res.bind_eq_ok.1 h2
        cases h4
        simp [ih h3]
    rw [this hr]; simp
  refine ⟨by simp [hlen]; omega, fun v hv => ?_⟩
  rcases List.mem_cons.1 hv with e | hv
  · cases e
    have := Res.rd_eq_ok.1 hc
    simp only [Img.fill] at this
    rw [List.getElem?_replicate] at this
    split at this
    · exact (Option.some.inj this).symm
    · cases this
  · obtain ⟨i, -, hi⟩ := mapM_ok_mem hr _ hv
    obtain ⟨mask, h1, h2⟩ := Res.bind_eq_ok.1 hi
    have h2 : average mask (Img.fill nx ny c) = some v := by injection h2
    unfold annulus at h1
    obtain ⟨a, a1, h1⟩ := Res.bind_eq_ok.1 h1
    obtain ⟨b, b1, h1⟩ := Res.bind_eq_ok.1 h1
    cases h1
    simp only [Img.fill] at a1 b1
    have hl : ∀ (i : Nat) (a : Img K), circularMask nx ny ((nx / 2 : Nat) : K) ((ny / 2 : Nat) : K) (i : K) = .ok a → a.px.length = nx * ny := by
      intro i a ha
      obtain ⟨a', q1, q2, q3, q4, -⟩ := C116_circle_partial nx ny hnx hny hwx hwy ((nx / 2 : Nat) : K) ((ny / 2 : Nat) : K) (i : K) (Nat.cast_nonneg _)
      rw [ha] at q1; cases q1
      unfold Img.WF at q2
      rw [q2, q3, q4]
    unfold average at h2
    simp only [Img.fill] at h2
    split at h2
    · cases h2
    · rename_i hne
      rw [zip_const c _ (nx * ny) (by simp [hl _ _ a1, hl _ _ b1]), mul_comm, mul_div_cancel_right₀ _ hne] at h2
      exact (Option.some.inj h2).symm

example : radialProfile (K := ℚ) (Img.fill 3 3 1) 6 = .ok [some 1, some 1, some 1, some 1, none, none] := by decide +kernel
/-- a Gaussian profile exists -/
example : ∃ m, gaussianProfile 3 5 1 1 2 = .ok m := let ⟨m, h, _⟩ := C117_gauss_pixel one_pos 3 5 1 2; ⟨m, h⟩

end Verif.Profile
