import Verif.Astro.CoordProps
import Mathlib.Algebra.Order.Archimedean.Basic
import Mathlib.Analysis.Convex.SpecificFunctions.Deriv
import Mathlib.Analysis.SpecialFunctions.Trigonometric.Bounds

/-!
# Normalized coordinates, rotations, displacements: C99, C100, C101
-/
namespace Verif.Coord

open Real InnerProductGeometry

/-! ### C99: `normalize_coordinates` -/

theorem whileN_stop {σ : Type} {c : σ → Bool} {f : σ → σ} {s : σ} (n : Nat) (h : c s = false) : whileN c f (n + 1) s = .ok s := by
  simp [whileN, h]

theorem whileN_step {σ : Type} {c : σ → Bool} {f : σ → σ} {s : σ} (n : Nat) (h : c s = true) : whileN c f (n + 1) s = whileN c f n (f s) := by
  simp [whileN, h]

/-- the coordinates of a pole do not depend on the turns -/
theorem sky_turn (a d : ℝ) : sky (a + 360) d = sky a d := by
  have : (a + 360) * (π / 180) = a * (π / 180) + 2 * π := by ring
  simp [sky, this]

theorem sky_turn_neg (a d : ℝ) : sky (a - 360) d = sky a d := by
  rw [← sky_turn (a - 360) d]; congr 1; ring

/-- going over the pole -/
theorem sky_north (a d : ℝ) : sky (a + 180) (180 - d) = sky a d := by
  have h1 : (a + 180) * (π / 180) = a * (π / 180) + π := by ring
  have h2 : (180 - d) * (π / 180) = π - d * (π / 180) := by ring
  simp only [sky, h1, h2, cos_pi_sub, sin_pi_sub, cos_add_pi, sin_add_pi, neg_mul_neg]

theorem sky_south (a d : ℝ) : sky (a + 180) (-180 - d) = sky a d := by
  have h1 : (a + 180) * (π / 180) = a * (π / 180) + π := by ring
  have h2 : (-180 - d) * (π / 180) = (π - d * (π / 180)) - 2 * π := by ring
  simp only [sky, h1, h2, cos_sub_two_pi, sin_sub_two_pi, cos_pi_sub, sin_pi_sub, cos_add_pi, sin_add_pi, neg_mul_neg]

/-- the loop that brings the right ascension down -/
theorem ra_down (d : ℝ) : ∀ (m : Nat) (a : ℝ), a ≤ 360 * m → ∀ n, m < n → ∃ a', whileN (fun q : ℝ × ℝ => decide (360 < q.1))
    (fun q => (id (q.1 - 360), q.2)) n (a, d) = .ok (a', d) ∧ sky a' d = sky a d ∧ a' ≤ 360 ∧ (0 ≤ a → 0 ≤ a') ∧ (a ≤ 360 → a' = a)
  | 0, a, h, n, hn => by
    obtain ⟨n, rfl⟩ : ∃ k, n = k + 1 := ⟨n - 1, by omega⟩
    simp only [Nat.cast_zero, mul_zero] at h
    exact ⟨a, whileN_stop n (by simp; linarith), rfl, by linarith, id, fun _ => rfl⟩
  | m + 1, a, h, n, hn => by
    obtain ⟨n, rfl⟩ : ∃ k, n = k + 1 := ⟨n - 1, by omega⟩
    by_cases hc : 360 < a
    · obtain ⟨a', h1, h2, h3, h4, -⟩ := ra_down d m (a - 360) (by push_cast at h; linarith) n (by omega)
      refine ⟨a', ?_, by rw [h2, sky_turn_neg], h3, fun _ => h4 (by linarith), fun h => absurd hc (not_lt.2 h)⟩
      rw [whileN_step n (by simpa using hc)]
      exact h1
    · exact ⟨a, whileN_stop n (by simpa using hc), rfl, by linarith, id, fun _ => rfl⟩

/-- the loop that brings the right ascension up -/
theorem ra_up (d : ℝ) : ∀ (m : Nat) (a : ℝ), -(360 * (m : ℝ)) ≤ a → a ≤ 360 → ∀ n, m < n → ∃ a', whileN (fun q : ℝ × ℝ => decide (q.1 < 0))
    (fun q => (id (q.1 + 360), q.2)) n (a, d) = .ok (a', d) ∧ sky a' d = sky a d ∧ a' ≤ 360 ∧ 0 ≤ a' ∧ (0 ≤ a → a' = a)
  | 0, a, h, ha, n, hn => by
    obtain ⟨n, rfl⟩ : ∃ k, n = k + 1 := ⟨n - 1, by omega⟩
    simp only [Nat.cast_zero, mul_zero, neg_zero] at h
    exact ⟨a, whileN_stop n (by simpa using h), rfl, ha, h, fun _ => rfl⟩
  | m + 1, a, h, ha, n, hn => by
    obtain ⟨n, rfl⟩ : ∃ k, n = k + 1 := ⟨n - 1, by omega⟩
    by_cases hc : a < 0
    · obtain ⟨a', h1, h2, h3, h4, -⟩ := ra_up d m (a + 360) (by push_cast at h; linarith) (by linarith) n (by omega)
      refine ⟨a', ?_, by rw [h2, sky_turn], h3, h4, fun h => absurd hc (not_lt.2 h)⟩
      rw [whileN_step n (by simpa using hc)]
      exact h1
    · exact ⟨a, whileN_stop n (by simpa using hc), rfl, ha, not_lt.1 hc, fun _ => rfl⟩

/-- what the two loops on the declination leave -/
noncomputable def decLoops (p : ℝ × ℝ) : ℝ × ℝ :=
  let p := if 90 < p.2 then (p.1 + 180, 180 - p.2) else p
  if p.2 < -90 then (p.1 + 180, -180 - p.2) else p

theorem normalize_dec (n : Nat) (p : ℝ × ℝ) : normalize id (n + 2) p = (do
    let p ← whileN (fun q : ℝ × ℝ => decide (360 < q.1)) (fun q => (id (q.1 - 360), q.2)) (n + 2) (decLoops p)
    whileN (fun q : ℝ × ℝ => decide (q.1 < 0)) (fun q => (id (q.1 + 360), q.2)) (n + 2) p) := by
  have h1 : whileN (fun q : ℝ × ℝ => decide (90 < q.2)) (fun q => (id (q.1 + 180), id (180 - q.2))) (n + 2) p =
      .ok (if 90 < p.2 then (p.1 + 180, 180 - p.2) else p) := by
    by_cases h : 90 < p.2
    · rw [whileN_step _ (by simpa using h), whileN_stop _ (by simp; linarith), if_pos h]; rfl
    · rw [whileN_stop _ (by simpa using h), if_neg h]
  have h2 : ∀ p : ℝ × ℝ, whileN (fun q : ℝ × ℝ => decide (q.2 < -90)) (fun q => (id (q.1 + 180), id (-180 - q.2))) (n + 2) p =
      .ok (if p.2 < -90 then (p.1 + 180, -180 - p.2) else p) := by
    intro p
    by_cases h : p.2 < -90
    · rw [whileN_step _ (by simpa using h), whileN_stop _ (by simp; linarith), if_pos h]; rfl
    · rw [whileN_stop _ (by simpa using h), if_neg h]
  unfold normalize
  rw [h1]
  simp only [Res.ok_bind]
  rw [h2]
  rfl

theorem decLoops_sky (p : ℝ × ℝ) : sky (decLoops p).1 (decLoops p).2 = sky p.1 p.2 := by
  unfold decLoops
  simp only
  split <;> split <;> simp only [sky_south, sky_north]

/-- the range of the declination -/
theorem decLoops_range (p : ℝ × ℝ) : (-90 ≤ (decLoops p).2 ∧ (decLoops p).2 ≤ 90) ↔ (-270 ≤ p.2 ∧ p.2 ≤ 450) := by
  unfold decLoops
  simp only
  split <;> split <;> rename_i h1 h2 <;> (try simp only at h1 h2) <;> constructor <;> rintro ⟨h3, h4⟩ <;> constructor <;> linarith

/-- **C99**: in exact arithmetic the call returns, the position is the same point of the sky, the right ascension is in [0,360], and the
declination in [-90,90] exactly when it was between -270 and 450 -/
theorem C99_normalize_partial (p : ℝ × ℝ) : ∃ q : ℝ × ℝ, (∃ N, ∀ n, N ≤ n → normalize id n p = .ok q) ∧
    sky q.1 q.2 = sky p.1 p.2 ∧ 0 ≤ q.1 ∧ q.1 ≤ 360 ∧ ((-90 ≤ q.2 ∧ q.2 ≤ 90) ↔ (-270 ≤ p.2 ∧ p.2 ≤ 450)) := by
  obtain ⟨m, hm⟩ := exists_nat_gt ((decLoops p).1 / 360)
  have hm' : (decLoops p).1 ≤ 360 * m := by
    have := (div_lt_iff₀ (by norm_num : (0 : ℝ) < 360)).1 hm
    linarith
  obtain ⟨a, h1, h2, h3, h4, -⟩ := ra_down (decLoops p).2 m (decLoops p).1 hm' (m + 2) (by omega)
  obtain ⟨k, hk⟩ := exists_nat_gt (-a / 360)
  have hk' : -(360 * (k : ℝ)) ≤ a := by
    have := (div_lt_iff₀ (by norm_num : (0 : ℝ) < 360)).1 hk
    linarith
  obtain ⟨b, g1, g2, g3, g4, -⟩ := ra_up (decLoops p).2 k a hk' h3 (k + 2) (by omega)
  refine ⟨(b, (decLoops p).2), ⟨m + k + 2, fun n hn => ?_⟩, ?_, g4, g3, decLoops_range p⟩
  · obtain ⟨n, rfl⟩ : ∃ j, n = j + 2 := ⟨n - 2, by omega⟩
    rw [normalize_dec]
    -- the bound on the number of turns does not change the result
    have mono : ∀ (c : ℝ × ℝ → Bool) f s r, ∀ i j, i ≤ j → whileN c f i s = .ok r → whileN c f j s = .ok r := by
      intro c f s r i
      induction i generalizing s with
      | zero => intro j _ h; cases h
      | succ i ih =>
        intro j hj h
        obtain ⟨j, rfl⟩ : ∃ l, j = l + 1 := ⟨j - 1, by omega⟩
        rw [whileN] at h ⊢
        split at h
        · rename_i hc; rw [if_pos hc]; exact ih _ j (by omega) h
        · rename_i hc; rw [if_neg hc]; exact h
    rw [mono _ _ _ _ (m + 2) (n + 2) (by omega) h1]
    simp only [Res.ok_bind]
    exact mono _ _ _ _ (k + 2) (n + 2) (by omega) g1
  · show sky b (decLoops p).2 = _
    rw [g2, h2, decLoops_sky]

/-- **C99**: coordinates already in range are left alone -/
theorem C99_same {p : ℝ × ℝ} (h1 : 0 ≤ p.1 ∧ p.1 ≤ 360) (h2 : -90 ≤ p.2 ∧ p.2 ≤ 90) (n : Nat) : normalize id (n + 2) p = .ok p := by
  have hd : decLoops p = p := by
    unfold decLoops
    simp only
    rw [if_neg (show ¬ 90 < p.2 by linarith), if_neg (by linarith)]
  rw [normalize_dec, hd, whileN_stop _ (by simpa using h1.2)]
  simp only [Res.ok_bind]
  rw [whileN_stop _ (by simpa using h1.1)]

/-- **C99** refuted for declinations outside of [-270,450]: the loop of the north pole is not run again after that of the south pole -/
theorem C99_range_refuted : normalize id 2 (10, -300) = .ok (190, 120) ∧ normalize id 3 (10, 460) = .ok (10, 100) := by
  constructor
  · rw [normalize_dec 0]
    norm_num [decLoops, whileN]
  · rw [normalize_dec 1]
    norm_num [decLoops, whileN]

/-- **C99** refuted for large right ascensions: when the subtraction of a turn is lost in the rounding the call never returns -/
theorem C99_stuck_refuted {rnd : ℝ → ℝ} {p : ℝ × ℝ} (h1 : 360 < p.1) (h2 : -90 ≤ p.2 ∧ p.2 ≤ 90) (hr : rnd (p.1 - 360) = p.1) (n : Nat) :
    normalize rnd n p = .diverge := by
  cases n with
  | zero => rfl
  | succ n =>
    unfold normalize
    rw [whileN_stop _ (by simpa using h2.2)]
    simp only [Res.ok_bind]
    rw [whileN_stop _ (by simpa using h2.1)]
    simp only [Res.ok_bind]
    have : ∀ n, whileN (fun q : ℝ × ℝ => decide (360 < q.1)) (fun q => (rnd (q.1 - 360), q.2)) n p = .diverge := by
      intro n
      induction n with
      | zero => rfl
      | succ n ih =>
        rw [whileN_step _ (by simpa using h1)]
        simp only [hr]
        exact ih
    rw [this]
    rfl

/-- the double precision numbers around 2^64 are multiples of 2048 below it, and the nearest one to 2^64 - 360 is 2^64 -/
example : (fun x : ℝ => 2048 * (round (x / 2048) : ℝ)) ((2 : ℝ) ^ 64 - 360) = 2 ^ 64 := by
  have : round (((2 : ℝ) ^ 64 - 360) / 2048) = 2 ^ 53 := by
    rw [round_eq, Int.floor_eq_iff]
    norm_num
  simp only [this]
  norm_num

/-- past the south pole -/
example : normalize id 2 (10, -100) = .ok (190, -80) ∧ normalize id 3 (-10, 100) = .ok (170, 80) := by
  constructor
  · rw [normalize_dec 0]
    norm_num [decLoops, whileN]
  · rw [normalize_dec 1]
    norm_num [decLoops, whileN]

/-! ### C100: `angrot_vernal` and `vernal_angle` -/

/-- rotation about the axis of the celestial origin, by an angle in degrees -/
noncomputable def rotX (e : ℝ) (v : EuclideanSpace ℝ (Fin 3)) : EuclideanSpace ℝ (Fin 3) :=
  !₂[v 0, cos (e * (π / 180)) * v 1 - sin (e * (π / 180)) * v 2, cos (e * (π / 180)) * v 2 + sin (e * (π / 180)) * v 1]

theorem rotX_inner (e : ℝ) (u v : EuclideanSpace ℝ (Fin 3)) : inner ℝ (rotX e u) (rotX e v) = inner ℝ u v := by
  simp [rotX, PiLp.inner_apply, Fin.sum_univ_three]
  have h := sin_sq_add_cos_sq (e * (π / 180))
  linear_combination (u 1 * v 1 + u 2 * v 2) * h

theorem rotX_add (e f : ℝ) (v : EuclideanSpace ℝ (Fin 3)) : rotX e (rotX f v) = rotX (e + f) v := by
  unfold rotX
  rw [add_mul, cos_add, sin_add]
  ext i
  fin_cases i
  · simp
  · simp; ring
  · simp; ring

theorem rotX_zero (v : EuclideanSpace ℝ (Fin 3)) : rotX 0 v = v := by
  ext i
  fin_cases i <;> simp [rotX]

/-- a point of the unit sphere from its angles -/
theorem sky_of_unit {x y z : ℝ} (h : x ^ 2 + y ^ 2 + z ^ 2 = 1) :
    sky (if atan2 y x * (180 / π) < 0 then atan2 y x * (180 / π) + 360 else atan2 y x * (180 / π)) (arcsin z * (180 / π)) = !₂[x, y, z] := by
  have hp := pi_ne_zero
  have e0 : sky (if atan2 y x * (180 / π) < 0 then atan2 y x * (180 / π) + 360 else atan2 y x * (180 / π)) (arcsin z * (180 / π)) =
      sky (atan2 y x * (180 / π)) (arcsin z * (180 / π)) := by
    split
    · exact sky_turn _ _
    · rfl
  rw [e0]
  have hz : -1 ≤ z ∧ z ≤ 1 := abs_le.1 ((sq_le_one_iff_abs_le_one z).1 (by nlinarith [sq_nonneg x, sq_nonneg y]))
  have e1 : ∀ t : ℝ, t * (180 / π) * (π / 180) = t := fun t => by field_simp
  have hn : ‖(⟨x, y⟩ : ℂ)‖ = sqrt (1 - z ^ 2) := by
    rw [Complex.norm_eq_sqrt_sq_add_sq]
    congr 1
    simp only
    linarith
  have h1 := Complex.norm_mul_cos_arg (⟨x, y⟩ : ℂ)
  have h2 := Complex.norm_mul_sin_arg (⟨x, y⟩ : ℂ)
  rw [hn] at h1 h2
  unfold sky
  rw [e1, e1, cos_arcsin, sin_arcsin hz.1 hz.2]
  unfold atan2
  rw [h1, h2]

/-- **C100**: the new coordinates are those of the rotated point, with the right ascension in [0,360) and the declination in [-90,90] -/
theorem C100_rotation (p : ℝ × ℝ) (e : ℝ) : sky (angrot p e).1 (angrot p e).2 = rotX e (sky p.1 p.2) ∧
    0 ≤ (angrot p e).1 ∧ (angrot p e).1 < 360 ∧ -90 ≤ (angrot p e).2 ∧ (angrot p e).2 ≤ 90 := by
  have hp := pi_pos
  refine ⟨?_, ?_, ?_, ?_, ?_⟩
  · unfold angrot
    simp only
    rw [sky_of_unit]
    · simp only [rotX, sky, mul_div_assoc]
      simp
    · have h1 := sin_sq_add_cos_sq (e * (π / 180))
      have h2 := sin_sq_add_cos_sq (p.1 * π / 180)
      have h3 := sin_sq_add_cos_sq (p.2 * π / 180)
      linear_combination cos (p.2 * π / 180) ^ 2 * h2 + h3 + (cos (p.2 * π / 180) ^ 2 * sin (p.1 * π / 180) ^ 2 + sin (p.2 * π / 180) ^ 2) * h1
  · unfold angrot
    simp only
    split
    · rename_i h
      have h1 := Complex.neg_pi_lt_arg (⟨cos (p.2 * π / 180) * cos (p.1 * π / 180), cos (e * (π / 180)) * (cos (p.2 * π / 180) * sin (p.1 * π / 180)) - sin (e * (π / 180)) * sin (p.2 * π / 180)⟩ : ℂ)
      unfold atan2 at h ⊢
      have h2 := mul_lt_mul_of_pos_right h1 (show 0 < 180 / π by positivity)
      have h3 : -π * (180 / π) = -180 := by field_simp
      linarith
    · rename_i h; exact not_lt.1 h
  · unfold angrot
    simp only
    split
    · linarith
    · have h1 := Complex.arg_le_pi (⟨cos (p.2 * π / 180) * cos (p.1 * π / 180), cos (e * (π / 180)) * (cos (p.2 * π / 180) * sin (p.1 * π / 180)) - sin (e * (π / 180)) * sin (p.2 * π / 180)⟩ : ℂ)
      unfold atan2
      have h2 := mul_le_mul_of_nonneg_right h1 (show 0 ≤ 180 / π by positivity)
      have h3 : π * (180 / π) = 180 := by field_simp
      linarith
  · unfold angrot
    simp only
    have h1 := neg_pi_div_two_le_arcsin (cos (e * (π / 180)) * sin (p.2 * π / 180) + sin (e * (π / 180)) * (cos (p.2 * π / 180) * sin (p.1 * π / 180)))
    have h2 := mul_le_mul_of_nonneg_right h1 (show 0 ≤ 180 / π by positivity)
    have h3 : -(π / 2) * (180 / π) = -90 := by field_simp; norm_num
    linarith
  · unfold angrot
    simp only
    have h1 := arcsin_le_pi_div_two (cos (e * (π / 180)) * sin (p.2 * π / 180) + sin (e * (π / 180)) * (cos (p.2 * π / 180) * sin (p.1 * π / 180)))
    have h2 := mul_le_mul_of_nonneg_right h1 (show 0 ≤ 180 / π by positivity)
    have h3 : (π / 2) * (180 / π) = 90 := by field_simp; norm_num
    linarith

/-- **C100**: distances on the sky are preserved -/
theorem C100_isometry (p q : ℝ × ℝ) (e : ℝ) :
    angdist (angrot p e).1 (angrot p e).2 (angrot q e).1 (angrot q e).2 = angdist p.1 p.2 q.1 q.2 := by
  rw [C97_great_circle, C97_great_circle, (C100_rotation p e).1, (C100_rotation q e).1]
  have hn : ∀ v, ‖rotX e v‖ = ‖v‖ := fun v => by
    have h : ‖rotX e v‖ ^ 2 = ‖v‖ ^ 2 := by rw [← real_inner_self_eq_norm_sq, ← real_inner_self_eq_norm_sq, rotX_inner]
    exact (sq_eq_sq₀ (norm_nonneg _) (norm_nonneg _)).1 h
  rw [angle, angle, rotX_inner, hn, hn]

/-- **C100**: two rotations in a row are the rotation by the sum; the opposite rotation brings back the same point, and for coordinates in range
away from the poles the same coordinates -/
theorem C100_compose (p : ℝ × ℝ) (e f : ℝ) : angrot (angrot p f) e = angrot p (e + f) := by
  have h : rotX e (sky (angrot p f).1 (angrot p f).2) = rotX (e + f) (sky p.1 p.2) := by
    rw [(C100_rotation p f).1, rotX_add]
  have key : ∀ (p q : ℝ × ℝ) (e f : ℝ), rotX e (sky p.1 p.2) = rotX f (sky q.1 q.2) → angrot p e = angrot q f := by
    intro p q e f h
    have h0 := congrFun (congrArg (fun v : EuclideanSpace ℝ (Fin 3) => v.ofLp) h) 0
    have h1 := congrFun (congrArg (fun v : EuclideanSpace ℝ (Fin 3) => v.ofLp) h) 1
    have h2 := congrFun (congrArg (fun v : EuclideanSpace ℝ (Fin 3) => v.ofLp) h) 2
    simp [rotX, sky, -mul_eq_mul_left_iff] at h0 h1 h2
    unfold angrot
    simp only [mul_div_assoc]
    rw [h0, h1, h2]
  exact key _ _ _ _ h

theorem C100_inverse {p : ℝ × ℝ} (e : ℝ) (h1 : 0 ≤ p.1 ∧ p.1 < 360) (h2 : -90 < p.2 ∧ p.2 < 90) : angrot (angrot p e) (-e) = p := by
  rw [C100_compose, neg_add_cancel]
  have hr := C100_rotation p 0
  rw [rotX_zero] at hr
  obtain ⟨hs, r1, r2, r3, r4⟩ := hr
  obtain ⟨hd, h⟩ := (sky_eq_iff ⟨r3, r4⟩ ⟨h2.1.le, h2.2.le⟩).1 hs
  rcases h with h | h | ⟨k, hk⟩
  · rw [hd] at h; exact absurd h h2.2.ne
  · rw [hd] at h; exact absurd h h2.1.ne'
  · have hk0 : k = 0 := by
      have a1 : (k : ℝ) < 1 := by nlinarith [h1.1]
      have a2 : (-1 : ℝ) < k := by nlinarith [h1.2]
      have b1 : k < 1 := by exact_mod_cast a1
      have b2 : -1 < k := by exact_mod_cast a2
      omega
    rw [hk0] at hk
    exact Prod.ext (by rw [hk]; simp) hd

/-- **C100**: the vector form rotates each position -/
theorem C100_vector (a d : List ℝ) (e : ℝ) : angrotVec a d e =
    if a.length = d.length then .ok (List.ofFn fun i : Fin a.length => angrot (a[i], d.getD i 0) e) else .abort := by
  unfold angrotVec
  by_cases h1 : a.length = d.length
  · rw [Res.check_pos h1, if_pos h1]
    simp only [Res.ok_bind]
    refine Res.mapM_getElem (by simp) fun i hi hr => ?_
    simp only [List.length_range] at hi
    simp [Res.rd_lt hi, Res.rd_lt (h1 ▸ hi), List.getElem?_eq_getElem (h1 ▸ hi)]
  · rw [Res.check_neg h1, if_neg h1]; rfl

/-- the ratio of which `vernal_angle` takes the arcsine: height over distance to the axis -/
theorem vernal_root (ra dec : ℝ) : 2 * sqrt ((sin (dec / 2) ^ 2 + cos dec * sin (ra / 2) ^ 2) - (sin (dec / 2) ^ 2 + cos dec * sin (ra / 2) ^ 2) *
    (sin (dec / 2) ^ 2 + cos dec * sin (ra / 2) ^ 2)) = sqrt ((cos dec * sin ra) ^ 2 + sin dec ^ 2) := by
  have h1 : sin (dec / 2) ^ 2 = (1 - cos dec) / 2 := by rw [sin_sq_eq_half_sub, mul_div_cancel₀ _ two_ne_zero]; ring
  have h2 : sin (ra / 2) ^ 2 = (1 - cos ra) / 2 := by rw [sin_sq_eq_half_sub, mul_div_cancel₀ _ two_ne_zero]; ring
  rw [h1, h2]
  have h3 := sin_sq_add_cos_sq ra
  have h4 := sin_sq_add_cos_sq dec
  have h5 : (cos dec * sin ra) ^ 2 + sin dec ^ 2 = 4 * ((1 - cos dec) / 2 + cos dec * ((1 - cos ra) / 2) -
      ((1 - cos dec) / 2 + cos dec * ((1 - cos ra) / 2)) * ((1 - cos dec) / 2 + cos dec * ((1 - cos ra) / 2))) := by
    linear_combination cos dec ^ 2 * h3 + h4
  rw [h5, sqrt_mul (by norm_num), show (4 : ℝ) = 2 ^ 2 by norm_num, sqrt_sq (by norm_num)]

theorem ra_small {ra : ℝ} (h : ra ≤ 360) : ¬ 180 < ra * (π / 180) := by
  have h4 := pi_le_four
  have hp := pi_pos
  have : ra * (π / 180) ≤ 360 * (π / 180) := mul_le_mul_of_nonneg_right h (by positivity)
  linarith

theorem vernal_sin {ra dec : ℝ} (h : ra ≤ 360) :
    sin (vernalAngle ra dec * (π / 180)) = sin (dec * (π / 180)) / sqrt ((cos (dec * (π / 180)) * sin (ra * (π / 180))) ^ 2 + sin (dec * (π / 180)) ^ 2) ∧
    0 ≤ cos (vernalAngle ra dec * (π / 180)) := by
  have hp := pi_pos
  unfold vernalAngle
  simp only
  rw [if_neg (ra_small h), vernal_root]
  rw [show ∀ t : ℝ, 180 / π * t * (π / 180) = t from fun t => by field_simp]
  generalize cos (dec * (π / 180)) * sin (ra * (π / 180)) = y
  generalize sin (dec * (π / 180)) = z
  refine ⟨sin_arcsin ?_ ?_, cos_arcsin_nonneg _⟩
  · have : |z| ≤ sqrt (y ^ 2 + z ^ 2) := abs_le_sqrt (by nlinarith [sq_nonneg y])
    have h1 := (abs_le.1 this).1
    rcases eq_or_lt_of_le (sqrt_nonneg (y ^ 2 + z ^ 2)) with h | h
    · rw [← h]; norm_num
    · rw [le_div_iff₀ h]; linarith
  · have : |z| ≤ sqrt (y ^ 2 + z ^ 2) := abs_le_sqrt (by nlinarith [sq_nonneg y])
    have h1 := (abs_le.1 this).2
    rcases eq_or_lt_of_le (sqrt_nonneg (y ^ 2 + z ^ 2)) with h | h
    · rw [← h]; norm_num
    · rw [div_le_one h]; linarith

theorem vernal_cos {ra dec : ℝ} (h : ra ≤ 360) (hy : cos (dec * (π / 180)) * sin (ra * (π / 180)) ≠ 0) :
    cos (vernalAngle ra dec * (π / 180)) = |cos (dec * (π / 180)) * sin (ra * (π / 180))| /
      sqrt ((cos (dec * (π / 180)) * sin (ra * (π / 180))) ^ 2 + sin (dec * (π / 180)) ^ 2) := by
  obtain ⟨h1, h2⟩ := vernal_sin (dec := dec) h
  generalize cos (dec * (π / 180)) * sin (ra * (π / 180)) = y at *
  generalize sin (dec * (π / 180)) = z at *
  have hpos : 0 < y ^ 2 + z ^ 2 := by positivity
  have hs := sin_sq_add_cos_sq (vernalAngle ra dec * (π / 180))
  rw [h1, div_pow, sq_sqrt hpos.le] at hs
  have hc : cos (vernalAngle ra dec * (π / 180)) ^ 2 = (|y| / sqrt (y ^ 2 + z ^ 2)) ^ 2 := by
    rw [div_pow, sq_sqrt hpos.le, sq_abs]
    field_simp
    field_simp at hs
    linarith
  exact (sq_eq_sq₀ h2 (by positivity)).1 hc

/-- the height of the point rotated back by `vernal_angle` -/
theorem vernal_height {ra dec : ℝ} (h : ra ≤ 360) (hy : cos (dec * (π / 180)) * sin (ra * (π / 180)) ≠ 0) :
    rotX (-vernalAngle ra dec) (sky ra dec) 2 * sqrt ((cos (dec * (π / 180)) * sin (ra * (π / 180))) ^ 2 + sin (dec * (π / 180)) ^ 2) =
      sin (dec * (π / 180)) * (|cos (dec * (π / 180)) * sin (ra * (π / 180))| - cos (dec * (π / 180)) * sin (ra * (π / 180))) := by
  have hc := vernal_cos h hy
  have hs := (vernal_sin (dec := dec) h).1
  simp [rotX, sky, -abs_mul]
  rw [hc, hs]
  generalize cos (dec * (π / 180)) * sin (ra * (π / 180)) = y at *
  generalize sin (dec * (π / 180)) = z at *
  have hpos : 0 < sqrt (y ^ 2 + z ^ 2) := sqrt_pos.2 (by positivity)
  field_simp
  ring

theorem angrot_dec (p : ℝ × ℝ) (e : ℝ) : (angrot p e).2 = 0 ↔ rotX e (sky p.1 p.2) 2 = 0 := by
  have hp := pi_pos
  obtain ⟨h1, -, -, h3, h4⟩ := C100_rotation p e
  rw [← h1]
  simp only [sky]
  show _ ↔ sin _ = 0
  constructor
  · intro h; rw [h]; simp
  · intro h
    rcases lt_trichotomy ((angrot p e).2) 0 with hl | hl | hl
    · have : sin ((angrot p e).2 * (π / 180)) < 0 := sin_neg_of_neg_of_neg_pi_lt (by nlinarith [pi_pos, show 0 < π / 180 by positivity]) (by nlinarith)
      exact absurd h this.ne
    · exact hl
    · have : 0 < sin ((angrot p e).2 * (π / 180)) := sin_pos_of_pos_of_lt_pi (by positivity) (by nlinarith)
      exact absurd h this.ne'

/-- **C100**: for right ascensions between 0 and 180 degrees, turning a position back by its `vernal_angle` brings it to the equator -/
theorem C100_vernal_partial {ra dec : ℝ} (h1 : 0 < ra ∧ ra < 180) (h2 : -90 < dec ∧ dec < 90) : (angrot (ra, dec) (-vernalAngle ra dec)).2 = 0 := by
  have hp := pi_pos
  have hc : 0 < cos (dec * (π / 180)) := cos_pos_of_mem_Ioo ⟨by nlinarith, by nlinarith⟩
  have hs : 0 < sin (ra * (π / 180)) := sin_pos_of_pos_of_lt_pi (mul_pos h1.1 (by positivity)) (by nlinarith)
  rw [angrot_dec]
  have h := vernal_height (dec := dec) (by linarith : ra ≤ 360) (mul_pos hc hs).ne'
  rw [abs_of_pos (mul_pos hc hs), sub_self, mul_zero, mul_eq_zero] at h
  rcases h with h | h
  · exact h
  · exact absurd h (sqrt_pos.2 (by have := mul_pos hc hs; positivity)).ne'

/-- **C100** refuted for all positions with a right ascension between 180 and 360 degrees that are not on the equator: the change of sign is never
made, because it compares an angle in radian with 180 -/
theorem C100_vernal_refuted {ra dec : ℝ} (h1 : 180 < ra ∧ ra < 360) (h2 : -90 < dec ∧ dec < 90) (h0 : dec ≠ 0) :
    (angrot (ra, dec) (-vernalAngle ra dec)).2 ≠ 0 ∧ (angrot (ra, dec) (vernalAngle ra dec)).2 = 0 := by
  have hp := pi_pos
  have hc : 0 < cos (dec * (π / 180)) := cos_pos_of_mem_Ioo ⟨by nlinarith, by nlinarith⟩
  have hs : sin (ra * (π / 180)) < 0 := by
    have e : sin (ra * (π / 180)) = - sin (ra * (π / 180) - π) := by rw [sin_sub_pi, neg_neg]
    rw [e]
    have : 0 < sin (ra * (π / 180) - π) := sin_pos_of_pos_of_lt_pi (by nlinarith [show 0 < π / 180 by positivity]) (by nlinarith)
    linarith
  have hy := mul_neg_of_pos_of_neg hc hs
  have hz : sin (dec * (π / 180)) ≠ 0 := by
    rcases lt_or_gt_of_ne h0 with hl | hl
    · exact (sin_neg_of_neg_of_neg_pi_lt (mul_neg_of_neg_of_pos hl (by positivity)) (by nlinarith)).ne
    · exact (sin_pos_of_pos_of_lt_pi (mul_pos hl (by positivity)) (by nlinarith)).ne'
  constructor
  · intro h
    rw [angrot_dec] at h
    have hh := vernal_height (dec := dec) h1.2.le hy.ne
    simp only at h
    rw [h, zero_mul, abs_of_neg hy] at hh
    have := mul_ne_zero hz (show -(cos (dec * (π / 180)) * sin (ra * (π / 180))) - cos (dec * (π / 180)) * sin (ra * (π / 180)) ≠ 0 by linarith)
    exact this hh.symm
  · rw [angrot_dec]
    have hcc := vernal_cos h1.2.le hy.ne
    have hss := (vernal_sin (dec := dec) h1.2.le).1
    simp [rotX, sky]
    rw [hcc, hss, abs_of_neg hy]
    ring

/-- a position in the north-east, and one in the north-west -/
example : (angrot (90, 45) (-vernalAngle 90 45)).2 = 0 ∧ (angrot (270, 45) (-vernalAngle 270 45)).2 ≠ 0 :=
  ⟨C100_vernal_partial (by norm_num) (by norm_num), (C100_vernal_refuted (by norm_num) (by norm_num) (by norm_num)).1⟩

/-! ### C101: `move_ra_dec` -/

/-- the sine is above its chords from zero -/
theorem sin_chord {c s : ℝ} (hc : 0 < c) (hc1 : c ≤ 1) (hs : 0 ≤ s) (hs1 : s ≤ π / 2) : c * |sin (s / c)| ≤ sin s := by
  have hp := pi_pos
  by_cases h : s / c ≤ π
  · have h0 : 0 ≤ s / c := by positivity
    rw [abs_of_nonneg (sin_nonneg_of_nonneg_of_le_pi h0 h)]
    have := strictConcaveOn_sin_Icc.concaveOn.2 (show (0 : ℝ) ∈ Set.Icc 0 π from ⟨le_refl _, hp.le⟩) (show s / c ∈ Set.Icc 0 π from ⟨h0, h⟩)
      (show 0 ≤ 1 - c by linarith) hc.le (by ring)
    simp only [smul_eq_mul, mul_zero, sin_zero, zero_add] at this
    rwa [mul_div_cancel₀ _ hc.ne'] at this
  · rw [not_le, lt_div_iff₀ hc] at h
    have h1 := mul_le_sin hs hs1
    have h2 : c * |sin (s / c)| ≤ c * 1 := mul_le_mul_of_nonneg_left (abs_sin_le_one _) hc.le
    have h3 : c ≤ 2 / π * s := by
      rw [div_mul_eq_mul_div, le_div_iff₀ hp]
      nlinarith
    linarith

/-- **C101**: a displacement in declination moves the position by exactly that angle -/
theorem C101_dec (p : ℝ × ℝ) {ddec : ℝ} (h : |ddec| ≤ 180 * 3600) :
    angdist p.1 p.2 (moveOne p 0 ddec).1 (moveOne p 0 ddec).2 = |ddec| := by
  unfold moveOne
  simp only [zero_div, add_zero]
  rw [C97_meridian]
  · rw [add_sub_cancel_left, abs_div, abs_of_pos (by norm_num : (0 : ℝ) < 3600)]
    field_simp
  · rw [add_sub_cancel_left, abs_div, abs_of_pos (by norm_num : (0 : ℝ) < 3600)]
    linarith

/-- **C101**: on the equator a displacement in right ascension moves the position by exactly that angle -/
theorem C101_equator (a : ℝ) {dra : ℝ} (h : |dra| ≤ 180 * 3600) :
    angdist a 0 (moveOne (a, 0) dra 0).1 (moveOne (a, 0) dra 0).2 = |dra| := by
  unfold moveOne
  simp only [zero_div, add_zero, zero_mul, cos_zero, div_one]
  rw [C97_equator]
  · rw [add_sub_cancel_left, abs_div, abs_of_pos (by norm_num : (0 : ℝ) < 3600)]
    field_simp
  · rw [add_sub_cancel_left, abs_div, abs_of_pos (by norm_num : (0 : ℝ) < 3600)]
    linarith

/-- **C101**: elsewhere it never moves the position by more -/
theorem C101_ra {p : ℝ × ℝ} (h : -90 < p.2 ∧ p.2 < 90) (dra : ℝ) :
    angdist p.1 p.2 (moveOne p dra 0).1 (moveOne p dra 0).2 ≤ |dra| := by
  have hp := pi_pos
  by_cases hbig : 180 * 3600 < |dra|
  · linarith [(C97_range p.1 p.2 (moveOne p dra 0).1 (moveOne p dra 0).2).2]
  rw [not_lt] at hbig
  have hc : 0 < cos (p.2 * (π / 180)) := cos_pos_of_mem_Ioo ⟨by nlinarith, by nlinarith⟩
  unfold moveOne
  simp only [zero_div, add_zero]
  have hs0 : 0 ≤ |dra| / 3600 * (π / 180) / 2 := by positivity
  have hs1 : |dra| / 3600 * (π / 180) / 2 ≤ π / 2 := by
    have : |dra| / 3600 ≤ 180 := by linarith
    nlinarith
  have hkey := sin_chord hc (cos_le_one _) hs0 hs1
  have hhav : hav (d2r * p.1) (d2r * p.2) (d2r * (p.1 + dra / cos (p.2 * π / 180) / 3600)) (d2r * p.2) =
      (cos (p.2 * (π / 180)) * |sin (|dra| / 3600 * (π / 180) / 2 / cos (p.2 * (π / 180)))|) ^ 2 := by
    have habs : |sin (|dra| / 3600 * (π / 180) / 2 / cos (p.2 * (π / 180)))| = |sin (dra / 3600 * (π / 180) / 2 / cos (p.2 * (π / 180)))| := by
      rcases abs_cases dra with h | h
      · rw [h.1]
      · rw [h.1, show -dra / 3600 * (π / 180) / 2 / cos (p.2 * (π / 180)) = -(dra / 3600 * (π / 180) / 2 / cos (p.2 * (π / 180))) by ring, sin_neg, abs_neg]
    rw [habs, mul_pow, sq_abs]
    unfold hav d2r
    simp only [sub_self, mul_zero, sin_zero, zero_add]
    rw [mul_div_assoc p.2, mul_comm (π / 180) p.2]
    rw [show 0.5 * (π / 180 * (p.1 + dra / cos (p.2 * (π / 180)) / 3600) - π / 180 * p.1) = dra / 3600 * (π / 180) / 2 / cos (p.2 * (π / 180)) by
      field_simp; ring]
    ring
  unfold angdist
  rw [hhav, sqrt_sq (by positivity)]
  have h1 : arcsin (cos (p.2 * (π / 180)) * |sin (|dra| / 3600 * (π / 180) / 2 / cos (p.2 * (π / 180)))|) ≤ |dra| / 3600 * (π / 180) / 2 := by
    calc _ ≤ arcsin (sin (|dra| / 3600 * (π / 180) / 2)) := monotone_arcsin hkey
      _ = _ := arcsin_sin (by linarith) hs1
  have h2 : 3600 * 2 * (|dra| / 3600 * (π / 180) / 2) / d2r = |dra| := by unfold d2r; field_simp
  refine le_trans ?_ h2.le
  have := d2r_pos
  gcongr

/-- **C101**: the distance to the start is at most the sum of the two displacements -/
theorem C101_both {p : ℝ × ℝ} (h : -90 < p.2 ∧ p.2 < 90) (dra : ℝ) {ddec : ℝ} (hd : |ddec| ≤ 180 * 3600) :
    angdist p.1 p.2 (moveOne p dra ddec).1 (moveOne p dra ddec).2 ≤ |dra| + |ddec| := by
  have h1 := C101_ra h dra
  have h2 := C101_dec (moveOne p dra 0) hd
  have e : moveOne (moveOne p dra 0) 0 ddec = moveOne p dra ddec := by simp [moveOne]
  rw [e] at h2
  have := C97_triangle p.1 p.2 (moveOne p dra 0).1 (moveOne p dra 0).2 (moveOne p dra ddec).1 (moveOne p dra ddec).2
  linarith

/-- **C101**: the vector form moves each position as the scalar form -/
theorem C101_vector (a d : List ℝ) (dra ddec : ℝ) : moveVec a d dra ddec =
    if a.length = d.length then .ok (List.ofFn fun i : Fin a.length => moveOne (a[i], d.getD i 0) dra ddec) else .abort := by
  unfold moveVec
  by_cases h1 : a.length = d.length
  · rw [Res.check_pos h1, if_pos h1]
    simp only [Res.ok_bind]
    refine Res.mapM_getElem (by simp) fun i hi hr => ?_
    simp only [List.length_range] at hi
    simp [Res.rd_lt hi, Res.rd_lt (h1 ▸ hi), List.getElem?_eq_getElem (h1 ▸ hi), moveOne, d2r]
    rw [show π / 180 * d[i] = d[i] * π / 180 by ring]
    ring
  · rw [Res.check_neg h1, if_neg h1]; rfl

/-- one arcsec north -/
example : angdist 150 2 (moveOne (150, 2) 0 1).1 (moveOne (150, 2) 0 1).2 = 1 := by
  have := C101_dec (150, 2) (ddec := 1) (by norm_num)
  rw [this]; norm_num

end Verif.Coord
