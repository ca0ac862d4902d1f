import Verif.Astro.FieldAreaH2dProps
import Mathlib.Analysis.SpecialFunctions.Trigonometric.Bounds
import Mathlib.Tactic.IntervalCases
/-!
# Property C179: fields for which the area is computed, and a field of area zero
-/
namespace Verif.Astro
open Verif Verif.Core Verif.Coord Verif.Math Real

/-- the cells are not larger than intended -/
theorem width_le {a b s : ℝ} (hab : a ≤ b) (hs : 0 < s) :
    ((b + 2 * s) - (a - 2 * s)) / ((⌈(b - a) / s + 4⌉.toNat : Nat) : ℝ) ≤ s := by
  have h1 : 0 ≤ (b - a) / s := div_nonneg (by linarith) hs.le
  have h2 : (b - a) / s + 4 ≤ ((⌈(b - a) / s + 4⌉.toNat : Nat) : ℝ) := by
    have h3 : (0 : ℤ) ≤ ⌈(b - a) / s + 4⌉ := Int.ceil_nonneg (by linarith)
    have h4 : ((⌈(b - a) / s + 4⌉.toNat : Nat) : ℝ) = (⌈(b - a) / s + 4⌉ : ℝ) := by
      exact_mod_cast Int.toNat_of_nonneg h3
    rw [h4]
    exact Int.le_ceil _
  rw [div_le_iff₀ (by linarith)]
  have h5 : (b - a) = (b - a) / s * s := by field_simp
  nlinarith

/-- nor much smaller -/
theorem width_ge {a b s : ℝ} (hab : a ≤ b) (hs : 0 < s) :
    4 / 5 * s ≤ ((b + 2 * s) - (a - 2 * s)) / ((⌈(b - a) / s + 4⌉.toNat : Nat) : ℝ) := by
  have h1 : 0 ≤ (b - a) / s := div_nonneg (by linarith) hs.le
  have h3 : (0 : ℤ) ≤ ⌈(b - a) / s + 4⌉ := Int.ceil_nonneg (by linarith)
  have h4 : ((⌈(b - a) / s + 4⌉.toNat : Nat) : ℝ) = (⌈(b - a) / s + 4⌉ : ℝ) := by
    exact_mod_cast Int.toNat_of_nonneg h3
  have h2 := Int.ceil_lt_add_one ((b - a) / s + 4)
  have h6 := Int.le_ceil ((b - a) / s + 4)
  rw [h4, le_div_iff₀ (by linarith)]
  have h5 : (b - a) = (b - a) / s * s := by field_simp
  nlinarith

theorem edge_step (lo hi : ℝ) (n k : Nat) : edge lo hi n (k + 1) - edge lo hi n k = (hi - lo) / n := by
  unfold edge; push_cast; ring

theorem spacing_le (P : List (ℝ × ℝ)) : spacing P ≤ 180 := by
  unfold spacing
  have := pi_pos
  have h := arcsin_le_pi_div_two (sqrt ((P.map (nearestOther P)).sum / P.length))
  have h1 : 360 / π * arcsin (sqrt ((P.map (nearestOther P)).sum / P.length)) ≤ 360 / π * (π / 2) :=
    mul_le_mul_of_nonneg_left h (by positivity)
  have h2 : 360 / π * (π / 2) = 180 := by field_simp; norm_num
  linarith

/-- the width of a cell on the sky -/
theorem parallel_ge {a b c : ℝ} (h0 : 0 ≤ b - a) (h1 : b - a ≤ 180) (hc : -60 ≤ c ∧ c ≤ 60) :
    (b - a) / π ≤ degDist (a, c) (b, c) := by
  have hp := pi_pos
  have h2 := proxy_eq (a, c) (b, c)
  set D := degDist (a, c) (b, c) with hD
  have hD0 : 0 ≤ D := degDist_nonneg _ _
  have hcos : 1 / 2 ≤ cos (c * d2r) := by
    rw [← cos_pi_div_three]
    rw [← cos_abs (c * d2r)]
    apply cos_le_cos_of_nonneg_of_le_pi (abs_nonneg _) (by linarith)
    rw [abs_le, d2r]
    constructor <;> nlinarith [hc.1, hc.2]
  have h3 : proxy (a, c) (b, c) = (sin ((b - a) * (π / 360)) * cos (c * d2r)) ^ 2 := by
    unfold proxy hav
    simp only [sub_self, mul_zero, sin_zero]
    rw [show (0.5 : ℝ) * (b * d2r - a * d2r) = (b - a) * (π / 360) by rw [d2r]; ring]
    ring
  have hs0 : 0 ≤ sin ((b - a) * (π / 360)) := sin_nonneg_of_nonneg_of_le_pi (by positivity) (by nlinarith)
  have hs1 : 2 / π * ((b - a) * (π / 360)) ≤ sin ((b - a) * (π / 360)) :=
    mul_le_sin (by positivity) (by nlinarith)
  have h4 : sin ((b - a) * (π / 360)) * cos (c * d2r) ≤ D * (π / 360) := by
    have h5 : |sin ((b - a) * (π / 360)) * cos (c * d2r)| = |sin (D * (π / 360))| := by
      rw [← sq_eq_sq_iff_abs_eq_abs, ← h3, h2]
    have h6 : |sin (D * (π / 360))| ≤ |D * (π / 360)| := abs_sin_le_abs
    rw [abs_of_nonneg (by positivity : 0 ≤ D * (π / 360))] at h6
    exact (le_abs_self _).trans (h5.le.trans h6)
  have h7 : 2 / π * ((b - a) * (π / 360)) * (1 / 2) ≤ D * (π / 360) :=
    (mul_le_mul hs1 hcos (by norm_num) hs0).trans h4
  have h8 : 2 / π * ((b - a) * (π / 360)) * (1 / 2) = (b - a) / π * (π / 360) := by ring
  rw [h8] at h7
  exact le_of_mul_le_mul_right h7 (by positivity)

/-- **C179**: for a field of cells neither tiny nor huge, away from the poles, the hypotheses of `C179_value` hold. -/
theorem C179_field {part : Math.Part Nat} (hp : PartOk part) (eps : ℝ) (ids : List Nat) (ra dec : List ℝ) (hl : ra.length = dec.length)
    (h20 : 20 ≤ ra.length) (a b c d : ℝ) (hE : Extent (ra.zip dec) a b c d) (ha : 0 ≤ a) (hb : b ≤ 360) (hc : -50 ≤ c) (hd : d ≤ 50)
    (h1 : 1 / 10 ^ 9 ≤ cellSide ra.length a b c d) (h5 : cellSide ra.length a b c d ≤ 5) :
    fieldAreaH2d part eps ids ra dec = .ok (some ((gridOf ra.length a b c d).covered (ra.zip dec))) := by
  have hab : a ≤ b := hE.ra1.2 hE.ra0.1
  have hcd : c ≤ d := hE.dec1.2 hE.dec0.1
  apply C179_value hp eps ids ra dec hl h20 a b c d hE
  have hn : (ra.zip dec).length = ra.length := by simp [hl]
  have hs : 0 < cellSide ra.length a b c d := lt_of_lt_of_le (by positivity) h1
  have hdiv : ∀ x : ℝ, x ≤ 360 → x / cellSide ra.length a b c d + 4 ≤ 2 ^ 63 := by
    intro x hx
    have : x / cellSide ra.length a b c d ≤ 360 * 10 ^ 9 := by
      rw [div_le_iff₀ hs]
      have := mul_le_mul_of_nonneg_left h1 (by norm_num : (0 : ℝ) ≤ 360 * 10 ^ 9)
      linarith
    have h63 : (360 * 10 ^ 9 + 4 : ℝ) ≤ 2 ^ 63 := by norm_num
    linarith
  refine ⟨by rw [hn]; exact hs.ne', by rw [hn]; exact hdiv _ (by linarith), by rw [hn]; exact hdiv _ (by linarith), ?_⟩
  rw [hn]
  set s := cellSide ra.length a b c d with hsdef
  set G := gridOf ra.length a b c d with hG
  intro x hx _
  obtain ⟨hx1, hx2⟩ := mem_cells.1 hx
  have wr : edge G.ra0 G.ra1 G.nr (x.1 + 1) - edge G.ra0 G.ra1 G.nr x.1 = ((b + 2 * s) - (a - 2 * s)) / ((⌈(b - a) / s + 4⌉.toNat : Nat) : ℝ) :=
    edge_step _ _ _ _
  have wd : edge G.dec0 G.dec1 G.nd (x.2 + 1) - edge G.dec0 G.dec1 G.nd x.2 = ((d + 2 * s) - (c - 2 * s)) / ((⌈(d - c) / s + 4⌉.toNat : Nat) : ℝ) :=
    edge_step _ _ _ _
  have r1 := width_ge hab hs
  have r2 := width_le hab hs
  have d1 := width_ge hcd hs
  have d2 := width_le hcd hs
  rw [← wr] at r1 r2
  rw [← wd] at d1 d2
  have d01 : G.dec0 ≤ G.dec1 := by
    change c - 2 * s ≤ d + 2 * s
    linarith
  have c1 : G.dec0 ≤ edge G.dec0 G.dec1 G.nd x.2 := by
    have := edge_mono d01 G.nd (Nat.zero_le x.2)
    rwa [edge_zero] at this
  have c2 : edge G.dec0 G.dec1 G.nd x.2 ≤ G.dec1 := by
    have := edge_mono d01 G.nd hx2.le
    rwa [edge_last _ _ (by omega)] at this
  have c1' : c - 2 * s ≤ edge G.dec0 G.dec1 G.nd x.2 := c1
  have c2' : edge G.dec0 G.dec1 G.nd x.2 ≤ d + 2 * s := c2
  have p1 := parallel_ge (a := edge G.ra0 G.ra1 G.nr x.1) (b := edge G.ra0 G.ra1 G.nr (x.1 + 1)) (c := edge G.dec0 G.dec1 G.nd x.2)
    (by linarith) (by linarith) ⟨by linarith, by linarith⟩
  have p2 := degDist_meridian (edge G.ra0 G.ra1 G.nr x.1) (d := edge G.dec0 G.dec1 G.nd x.2) (e := edge G.dec0 G.dec1 G.nd (x.2 + 1))
    (by rw [abs_of_nonneg (by linarith)]; linarith)
  rw [abs_of_nonneg (by linarith)] at p2
  have hpi := pi_pos
  have hA : 4 / 25 * s ^ 2 ≤ G.area x := by
    unfold Grid.area cellArea
    rw [p2]
    have h3 : 1 / 5 * s ≤ degDist (edge G.ra0 G.ra1 G.nr x.1, edge G.dec0 G.dec1 G.nd x.2)
        (edge G.ra0 G.ra1 G.nr (x.1 + 1), edge G.dec0 G.dec1 G.nd x.2) := by
      refine le_trans ?_ p1
      rw [le_div_iff₀ hpi]
      have := mul_le_mul_of_nonneg_left pi_le_four (by positivity : (0 : ℝ) ≤ 1 / 5 * s)
      linarith
    have := mul_le_mul h3 d1 (by positivity) (degDist_nonneg _ _)
    nlinarith
  have hsA : 2 / 5 * s ≤ sqrt (G.area x) := by
    apply le_sqrt_of_sq_le
    nlinarith
  refine ⟨by have : 0 < 4 / 25 * s ^ 2 := by positivity
             linarith, ?_⟩
  have hq := spacing_le (G.sources (ra.zip dec) x)
  rw [div_le_iff₀ (by linarith)]
  have h4 : (2 : ℝ) ^ 63 * (2 / 5 * s / 20) ≤ 2 ^ 63 * (sqrt (G.area x) / 20) := by
    apply mul_le_mul_of_nonneg_left _ (by positivity)
    linarith
  have h6 : (180 : ℝ) ≤ 2 ^ 63 * (2 / 5 * (1 / 10 ^ 9) / 20) := by norm_num
  have h7 : (2 : ℝ) ^ 63 * (2 / 5 * (1 / 10 ^ 9) / 20) ≤ 2 ^ 63 * (2 / 5 * s / 20) := by
    apply mul_le_mul_of_nonneg_left _ (by positivity)
    linarith
  linarith

/-- the extent of sources on a diagonal -/
theorem diag_extent (u v : ℝ) (hu : 0 ≤ u) (hv : 0 ≤ v) :
    Extent (((List.range 20).map fun i : Nat => u * i).zip ((List.range 20).map fun i : Nat => v * i)) 0 (u * 19) 0 (v * 19) := by
  have hl : ((List.range 20).map fun i : Nat => u * i).length = ((List.range 20).map fun i : Nat => v * i).length := by simp
  have key : ∀ w : ℝ, 0 ≤ w → IsLeast {x | x ∈ (List.range 20).map fun i : Nat => w * i} 0 ∧
      IsGreatest {x | x ∈ (List.range 20).map fun i : Nat => w * i} (w * 19) := by
    intro w hw
    refine ⟨⟨List.mem_map.2 ⟨0, by simp, by simp⟩, ?_⟩, ⟨List.mem_map.2 ⟨19, by simp, by simp⟩, ?_⟩⟩
    · rintro x hx
      obtain ⟨i, -, rfl⟩ := List.mem_map.1 hx
      positivity
    · rintro x hx
      obtain ⟨i, hi, rfl⟩ := List.mem_map.1 hx
      have : (i : ℝ) ≤ 19 := by
        have := List.mem_range.1 hi
        exact_mod_cast (by omega : i ≤ 19)
      exact mul_le_mul_of_nonneg_left this hw
  constructor
  · rw [zip_fst _ _ hl]; exact (key u hu).1
  · rw [zip_fst _ _ hl]; exact (key u hu).2
  · rw [zip_snd _ _ hl]; exact (key v hv).1
  · rw [zip_snd _ _ hl]; exact (key v hv).2

/-- 20 sources on a diagonal of two degrees -/
example (eps : ℝ) (ids : List Nat) : ∃ r, fieldAreaH2d stablePart eps ids ((List.range 20).map fun i : Nat => (1 / 10 : ℝ) * i)
    ((List.range 20).map fun i : Nat => (1 / 10 : ℝ) * i) = .ok (some r) := by
  have hside : cellSide 20 0 (1 / 10 * 19) 0 (1 / 10 * 19) = sqrt 10 * sqrt ((1.9 * 1.9) / 20) := by
    unfold cellSide cellArea
    rw [degDist_equator (by norm_num [abs_of_pos]), degDist_meridian 0 (by norm_num [abs_of_pos])]
    norm_num [abs_of_pos]
  rw [← sqrt_mul (by norm_num)] at hside
  refine ⟨_, C179_field stablePart_ok eps ids _ _ (by simp) (by simp) 0 (1 / 10 * 19) 0 (1 / 10 * 19)
    (diag_extent _ _ (by norm_num) (by norm_num)) le_rfl (by norm_num) (by norm_num) (by norm_num) ?_ ?_⟩
  · rw [List.length_map, List.length_range, hside]
    exact le_sqrt_of_sq_le (by norm_num)
  · rw [List.length_map, List.length_range, hside]
    exact sqrt_le_iff.2 (by norm_num)

/-- 20 sources along a meridian -/
example (eps : ℝ) (ids : List Nat) : fieldAreaH2d stablePart eps ids ((List.range 20).map fun i : Nat => (0 : ℝ) * i)
    ((List.range 20).map fun i : Nat => (1 : ℝ) * i) = .ub :=
  C179_flat_refuted eps ids _ _ (by simp) (by simp) 0 (0 * 19) 0 (1 * 19) (diag_extent 0 1 le_rfl (by norm_num)) (Or.inl (by norm_num))

/-- **C179**, refuted for fields of more than half a turn: the extent in right ascension is taken the short way round, so the cells are
smaller than the distance between the sources. These 20 sources spread over 342 degrees in right ascension and 19 degrees in declination
have an area of zero. -/
theorem C179_sky_refuted {part : Math.Part Nat} (hp : PartOk part) (eps : ℝ) (ids : List Nat) :
    fieldAreaH2d part eps ids ((List.range 20).map fun i : Nat => (18 : ℝ) * i) ((List.range 20).map fun i : Nat => (1 : ℝ) * i) =
      .ok (some 0) := by
  have hE := diag_extent 18 1 (by norm_num) (by norm_num)
  set ra := (List.range 20).map fun i : Nat => (18 : ℝ) * i with hra
  set dec := (List.range 20).map fun i : Nat => (1 : ℝ) * i with hdec
  have hl : ra.length = dec.length := by simp [hra, hdec]
  have hl20 : ra.length = 20 := by simp [hra]
  have hsky : degDist (0, 0) (18 * 19, 0) = 18 := by
    have h1 : degDist (0, 0) (18 * 19, 0) = degDist (0, 0) (-18, 0) := by
      rw [degDist_angle, degDist_angle]
      congr 2
      exact (sky_eq_iff (by norm_num) (by norm_num)).2 ⟨rfl, Or.inr (Or.inr ⟨1, by norm_num⟩)⟩
    rw [h1, degDist_equator (by norm_num [abs_of_pos])]
    norm_num [abs_of_pos]
  have hside : cellSide 20 0 (18 * 19) 0 (1 * 19) = sqrt 171 := by
    unfold cellSide cellArea
    rw [hsky, degDist_meridian 0 (by norm_num [abs_of_pos]), ← sqrt_mul (by norm_num)]
    norm_num [abs_of_pos]
  have hs0 : 0 < sqrt 171 := sqrt_pos.2 (by norm_num)
  have hs14 : sqrt 171 < 14 := (sqrt_lt' (by norm_num)).2 (by norm_num)
  have hs1 : 1 ≤ sqrt 171 := le_sqrt_of_sq_le (by norm_num)
  have hzip : ra.zip dec = (List.range 20).map fun i : Nat => ((18 : ℝ) * i, (1 : ℝ) * i) := by
    rw [hra, hdec, List.zip_map']
  have hnone : ∀ x : Nat × Nat, ((gridOf 20 0 (18 * 19) 0 (1 * 19)).sources (ra.zip dec) x).length < 2 := by
    intro x
    set G := gridOf 20 0 (18 * 19) 0 (1 * 19) with hG
    have wr : edge G.ra0 G.ra1 G.nr (x.1 + 1) - edge G.ra0 G.ra1 G.nr x.1 ≤ sqrt 171 := by
      rw [edge_step]
      have := width_le (a := 0) (b := 18 * 19) (by norm_num) (side_pos (hside.trans_ne hs0.ne'))
      rw [hside] at this
      change ((18 * 19 + 2 * cellSide 20 0 (18 * 19) 0 (1 * 19)) - (0 - 2 * cellSide 20 0 (18 * 19) 0 (1 * 19))) /
        ((⌈(18 * 19 - 0) / cellSide 20 0 (18 * 19) 0 (1 * 19) + 4⌉.toNat : Nat) : ℝ) ≤ _
      rw [hside]
      exact this
    by_contra hc
    have hsub : (G.sources (ra.zip dec) x).Nodup := by
      unfold Grid.sources inBox
      apply List.Nodup.filter
      rw [hzip]
      apply List.Nodup.map _ List.nodup_range
      intro i j hij
      simp only [Prod.mk.injEq] at hij
      have := hij.2
      simpa using this
    have hmem : ∀ p ∈ G.sources (ra.zip dec) x, ∃ i : Nat, p = ((18 : ℝ) * i, (1 : ℝ) * i) ∧
        edge G.ra0 G.ra1 G.nr x.1 ≤ 18 * i ∧ (18 : ℝ) * i < edge G.ra0 G.ra1 G.nr (x.1 + 1) := by
      intro p hp
      unfold Grid.sources inBox at hp
      rw [List.mem_filter, hzip] at hp
      obtain ⟨hp1, hp2⟩ := hp
      obtain ⟨i, -, rfl⟩ := List.mem_map.1 hp1
      have hp2 := of_decide_eq_true hp2
      exact ⟨i, rfl, hp2.1, hp2.2.1⟩
    have h0 : 0 < (G.sources (ra.zip dec) x).length := by omega
    have h1 : 1 < (G.sources (ra.zip dec) x).length := by omega
    obtain ⟨i, hi, i1, i2⟩ := hmem _ (List.getElem_mem h0)
    obtain ⟨j, hj, j1, j2⟩ := hmem _ (List.getElem_mem h1)
    have hij : i ≠ j := by
      intro h
      have := (List.Nodup.getElem_inj_iff hsub (hi := h0) (hj := h1)).1 (by rw [hi, hj, h])
      omega
    rcases Nat.lt_or_gt_of_ne hij with h | h
    · have h' : (i : ℝ) + 1 ≤ j := by exact_mod_cast h
      linarith
    · have h' : (j : ℝ) + 1 ≤ i := by exact_mod_cast h
      linarith
  have hzl : (ra.zip dec).length = 20 := by simp [hzip]
  rw [C179_value hp eps ids ra dec hl (by omega) _ _ _ _ hE (by
    refine ⟨by rw [hzl, hside]; exact hs0.ne', ?_, ?_, ?_⟩
    · rw [hzl, hside]
      have : (18 * 19 - 0) / sqrt 171 ≤ 18 * 19 := by rw [sub_zero]; exact div_le_self (by norm_num) hs1
      have h63 : (18 * 19 + 4 : ℝ) ≤ 2 ^ 63 := by norm_num
      linarith
    · rw [hzl, hside]
      have : (1 * 19 - 0) / sqrt 171 ≤ 1 * 19 := by rw [sub_zero]; exact div_le_self (by norm_num) hs1
      have h63 : (1 * 19 + 4 : ℝ) ≤ 2 ^ 63 := by norm_num
      linarith
    · rw [hzl]
      intro x _ h
      have := hnone x
      omega), hl20]
  congr 2
  unfold Grid.covered
  apply Finset.sum_eq_zero
  intro x _
  rw [if_neg (by have := hnone x; omega)]

end Verif.Astro
