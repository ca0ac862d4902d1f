import Mathlib.Algebra.Order.Floor.Ring
import Mathlib.Algebra.Order.Field.Basic
import Mathlib.Tactic.Linarith
import Mathlib.Tactic.Ring
import Mathlib.Tactic.FieldSimp
import Mathlib.Tactic.Positivity
import Mathlib.Tactic.NormNum
import Mathlib.Data.Rat.Floor
/-!
# The output grid of `qregrid` (C191)

The sky is flat and both images have the same orientation, as in the images that `make_wcs_header` describes (C122): the pixels of the two images are then related by a
change of scale around the reference pixel. Pixel positions are those of the FITS standard: the first pixel goes from 1/2 to 3/2.
-/
namespace Verif.Qregrid

variable {K : Type} [Field K] [LinearOrder K] [IsStrictOrderedRing K] [FloorRing K]

/-- the size of the output along one axis (`qregrid.cpp:101, 139`): `max(ceil(n*ratio), 1)`; a ratio above zero -/
def outSize (n : Nat) (r : K) : Nat := max ⌈(n : K) * r⌉.toNat 1

/-- the output grid: size, reference pixel, and the position of the reference in the input image; `scale` is the size of its pixels in pixels of the input -/
structure Grid (K : Type) where
  nx : Nat
  ny : Nat
  refX : K
  refY : K
  inX : K
  inY : K
  scale : K

/-- `dims/2 + 1` on integers (`qregrid.cpp:93-94, 105-106, 145-147`) -/
def mid (n : Nat) : K := ((n / 2 + 1 : Nat) : K)

/-- images without coordinates, with `ratio=` (`qregrid.cpp:84-108`); `h` rows and `w` columns -/
def ratioGrid (h w : Nat) (r : K) : Grid K :=
  ⟨outSize w r, outSize h r, mid (outSize w r), mid (outSize h r), mid w, mid h, 1 / r⟩

/-- images with coordinates, with `aspix=` (`qregrid.cpp:130-149`); `s` is the ratio of the sizes of the pixels. The call of `xy2ad` gives the number of rows for `x` and the
number of columns for `y`. -/
def aspixGrid (h w : Nat) (s : K) : Grid K :=
  ⟨outSize w (1 / s), outSize h (1 / s), mid (outSize w (1 / s)), mid (outSize h (1 / s)), mid h, mid w, s⟩

/-- images with coordinates, with `ratio=` (`qregrid.cpp:72-82`): `ratio` is turned into `aspix` -/
def ratioWcsGrid (h w : Nat) (r : K) : Grid K := aspixGrid h w (1 / r)

/-! ### Specification -/

/-- the position in the input image of a position of the output image -/
def Grid.source (g : Grid K) (x y : K) : K × K := (g.inX + g.scale * (x - g.refX), g.inY + g.scale * (y - g.refY))

/-- inside an image of `w` columns and `h` rows, with a margin -/
def Inside (w h : Nat) (m : K) (p : K × K) : Prop := 1 / 2 - m ≤ p.1 ∧ p.1 ≤ w + 1 / 2 + m ∧ 1 / 2 - m ≤ p.2 ∧ p.2 ≤ h + 1 / 2 + m

/-- each point of the input is a point of the output, with a margin in pixels of the output -/
def Covers (g : Grid K) (h w : Nat) (m : K) : Prop := ∀ p : K × K, Inside w h 0 p → ∃ x y, Inside g.nx g.ny m (x, y) ∧ g.source x y = p

/-! ### Helpers -/

theorem outSize_pos (n : Nat) (r : K) : 1 ≤ outSize n r := le_max_right _ _

theorem outSize_ge (n : Nat) (r : K) : (n : K) * r ≤ outSize n r := by
  unfold outSize
  have h1 : (n : K) * r ≤ (⌈(n : K) * r⌉ : K) := Int.le_ceil _
  have h2 : (⌈(n : K) * r⌉ : K) ≤ ((⌈(n : K) * r⌉.toNat : Nat) : K) := by
    have : ⌈(n : K) * r⌉ ≤ (⌈(n : K) * r⌉.toNat : Int) := Int.self_le_toNat _
    exact_mod_cast this
  have h3 : ((⌈(n : K) * r⌉.toNat : Nat) : K) ≤ ((max ⌈(n : K) * r⌉.toNat 1 : Nat) : K) := by exact_mod_cast le_max_left _ _
  linarith

theorem outSize_lt (n : Nat) (r : K) (hr : 0 < r) (hn : 0 < n) : (outSize n r : K) < n * r + 1 := by
  have hpos : (0 : K) < n * r := mul_pos (by exact_mod_cast hn) hr
  have hc : 0 < ⌈(n : K) * r⌉ := Int.ceil_pos.2 hpos
  have h1 : (⌈(n : K) * r⌉ : K) < n * r + 1 := Int.ceil_lt_add_one _
  unfold outSize
  have h2 : max ⌈(n : K) * r⌉.toNat 1 = ⌈(n : K) * r⌉.toNat := by omega
  rw [h2]
  have h3 : ((⌈(n : K) * r⌉.toNat : Nat) : K) = (⌈(n : K) * r⌉ : K) := by
    have : ((⌈(n : K) * r⌉.toNat : Nat) : Int) = ⌈(n : K) * r⌉ := Int.toNat_of_nonneg hc.le
    exact_mod_cast this
  rw [h3]
  exact h1

theorem mid_even (n : Nat) (h : n % 2 = 0) : (mid n : K) = n / 2 + 1 := by
  obtain ⟨k, rfl⟩ : ∃ k, n = 2 * k := ⟨n / 2, by omega⟩
  unfold mid
  rw [show 2 * k / 2 = k by omega]
  push_cast
  ring

theorem mid_odd (n : Nat) (h : n % 2 = 1) : (mid n : K) = (n + 1) / 2 := by
  obtain ⟨k, rfl⟩ : ∃ k, n = 2 * k + 1 := ⟨n / 2, by omega⟩
  unfold mid
  rw [show (2 * k + 1) / 2 = k by omega]
  push_cast
  ring

theorem mid_bounds (n : Nat) : ((n : K) + 1) / 2 ≤ mid n ∧ (mid n : K) ≤ n / 2 + 1 := by
  rcases Nat.mod_two_eq_zero_or_one n with h | h
  · rw [mid_even n h]; constructor <;> linarith
  · rw [mid_odd n h]; constructor <;> linarith

/-- one axis: a point of the input is a point of the output, with a margin of half a pixel of the output plus half a pixel of the input -/
theorem axis (n m : Nat) (r : K) (hr : 0 < r) (hm : (n : K) * r ≤ m) (x : K) (h1 : 1 / 2 ≤ x) (h2 : x ≤ n + 1 / 2) :
    1 / 2 - r / 2 ≤ mid m + r * (x - mid n) ∧ mid m + r * (x - mid n) ≤ m + 1 / 2 + 1 / 2 := by
  have a := mid_bounds (K := K) n
  have b := mid_bounds (K := K) m
  have e1 : r * (1 / 2 - (n / 2 + 1)) ≤ r * (x - mid n) := mul_le_mul_of_nonneg_left (by linarith) hr.le
  have e2 : r * (x - mid n) ≤ r * (n + 1 / 2 - (n + 1) / 2) := mul_le_mul_of_nonneg_left (by linarith) hr.le
  constructor
  · have : r * (1 / 2 - (n / 2 + 1)) = -(n * r) / 2 - r / 2 := by ring
    linarith
  · have : r * ((n : K) + 1 / 2 - (n + 1) / 2) = n * r / 2 := by ring
    linarith

/-- one axis, with odd numbers of pixels: no margin -/
theorem axis_odd (n m : Nat) (hn : n % 2 = 1) (hmo : m % 2 = 1) (r : K) (hr : 0 < r) (hm : (n : K) * r ≤ m) (x : K) (h1 : 1 / 2 ≤ x) (h2 : x ≤ n + 1 / 2) :
    1 / 2 ≤ mid m + r * (x - mid n) ∧ mid m + r * (x - mid n) ≤ m + 1 / 2 := by
  have e1 : r * (1 / 2 - (n + 1) / 2) ≤ r * (x - mid n) := mul_le_mul_of_nonneg_left (by rw [mid_odd n hn]; linarith) hr.le
  have e2 : r * (x - mid n) ≤ r * (n + 1 / 2 - (n + 1) / 2) := mul_le_mul_of_nonneg_left (by rw [mid_odd n hn]; linarith) hr.le
  have f1 : r * (1 / 2 - ((n : K) + 1) / 2) = -(n * r) / 2 := by ring
  have f2 : r * ((n : K) + 1 / 2 - (n + 1) / 2) = n * r / 2 := by ring
  rw [mid_odd m hmo]
  constructor <;> linarith

theorem source_back (h w : Nat) (r : K) (hr : 0 < r) (p : K × K) :
    (ratioGrid h w r).source (mid (outSize w r) + r * (p.1 - mid w)) (mid (outSize h r) + r * (p.2 - mid h)) = p := by
  unfold ratioGrid Grid.source
  ext
  · simp only []
    field_simp
    ring
  · simp only []
    field_simp
    ring

/-! ### C191 -/

/-- `qregrid ratio=`: the output covers the input, except for half a pixel of the output and half a pixel of the input at most, and it is not larger than needed. -/
theorem C191_ratio_partial (h w : Nat) (r : K) (hr : 0 < r) :
    Covers (ratioGrid h w r) h w (max (1 / 2) (r / 2)) ∧ (0 < w → ((ratioGrid h w r).nx : K) < w * r + 1) ∧ (0 < h → ((ratioGrid h w r).ny : K) < h * r + 1) := by
  refine ⟨?_, outSize_lt w r hr, outSize_lt h r hr⟩
  rintro p ⟨h1, h2, h3, h4⟩
  rw [sub_zero] at h1 h3
  rw [add_zero] at h2 h4
  refine ⟨_, _, ?_, source_back h w r hr p⟩
  have a := axis w (outSize w r) r hr (outSize_ge w r) p.1 h1 h2
  have b := axis h (outSize h r) r hr (outSize_ge h r) p.2 h3 h4
  have m1 : (1 : K) / 2 ≤ max (1 / 2) (r / 2) := le_max_left _ _
  have m2 : r / 2 ≤ max (1 / 2) (r / 2) := le_max_right _ _
  unfold Inside
  unfold ratioGrid
  refine ⟨?_, ?_, ?_, ?_⟩ <;> simp only [] <;> linarith

/-- With odd numbers of pixels in both images, the output covers the input. -/
theorem C191_odd (h w : Nat) (r : K) (hr : 0 < r) (hh : h % 2 = 1) (hw : w % 2 = 1) (ho : outSize h r % 2 = 1) (wo : outSize w r % 2 = 1) : Covers (ratioGrid h w r) h w 0 := by
  rintro p ⟨h1, h2, h3, h4⟩
  rw [sub_zero] at h1 h3
  rw [add_zero] at h2 h4
  refine ⟨_, _, ?_, source_back h w r hr p⟩
  have a := axis_odd w (outSize w r) hw wo r hr (outSize_ge w r) p.1 h1 h2
  have b := axis_odd h (outSize h r) hh ho r hr (outSize_ge h r) p.2 h3 h4
  unfold Inside
  unfold ratioGrid
  refine ⟨?_, ?_, ?_, ?_⟩ <;> simp only [] <;> linarith

/-- With `aspix=` on a square image the grid is the same as with `ratio=`. -/
theorem C191_square (n : Nat) (s : K) : aspixGrid n n s = ratioGrid n n (1 / s) := by
  unfold aspixGrid ratioGrid
  rw [one_div_one_div]

/-- Half of the last pixel is lost when an image of 3 pixels is made half as large. -/
theorem C191_ratio_refuted : ¬ Covers (ratioGrid 3 3 (1 / 2 : ℚ)) 3 3 0 := by
  intro h
  have e : outSize 3 (1 / 2 : ℚ) = 2 := by
    unfold outSize
    have : ⌈((3 : Nat) : ℚ) * (1 / 2)⌉ = 2 := by rw [Int.ceil_eq_iff]; norm_num
    rw [this]; rfl
  have m3 : (mid 3 : ℚ) = 2 := by unfold mid; norm_num
  have m2 : (mid 2 : ℚ) = 2 := by unfold mid; norm_num
  obtain ⟨x, y, ⟨-, h2, -, -⟩, hs⟩ := h (7 / 2, 7 / 2) ⟨by norm_num, by norm_num, by norm_num, by norm_num⟩
  unfold ratioGrid at h2 hs
  rw [e] at h2 hs
  unfold Grid.source at hs
  simp only [m2, m3, Prod.mk.injEq] at hs h2
  have := hs.1
  norm_num at this h2
  linarith

/-- With `aspix=` (or `ratio=` when the image has coordinates) rows and columns are exchanged: for an image with many more rows than columns, and pixels of the same size, no
pixel of the output touches a pixel of the input. -/
theorem C191_aspix_refuted (h w : Nat) (hw : 0 < w) (hh : 3 * w + 2 ≤ h) (x y : K) (hi : Inside (aspixGrid h w (1 : K)).nx (aspixGrid h w (1 : K)).ny 0 (x, y)) :
    ¬ Inside w h 0 ((aspixGrid h w (1 : K)).source x y) := by
  rintro ⟨-, h2, -, -⟩
  obtain ⟨h1, -, -, -⟩ := hi
  have e : outSize w (1 / (1 : K)) = w := by
    unfold outSize
    rw [div_one, mul_one, Int.ceil_natCast, Int.toNat_natCast]
    omega
  unfold aspixGrid Grid.source at h2
  simp only [e] at h1 h2
  have a := mid_bounds (K := K) h
  have b := mid_bounds (K := K) w
  have : (3 * w + 2 : K) ≤ h := by exact_mod_cast hh
  linarith

example : (0 : ℚ) < 1 / 3 ∧ outSize 9 (1 / 3 : ℚ) % 2 = 1 := by
  refine ⟨by norm_num, ?_⟩
  unfold outSize
  have : ⌈((9 : Nat) : ℚ) * (1 / 3)⌉ = 3 := by rw [Int.ceil_eq_iff]; norm_num
  rw [this]; rfl

example : Inside (aspixGrid 100 10 (1 : ℚ)).nx (aspixGrid 100 10 (1 : ℚ)).ny 0 ((1 : ℚ), 1) := by
  unfold Inside aspixGrid
  have h1 := outSize_pos (K := ℚ) 10 (1 / 1)
  have h2 := outSize_pos (K := ℚ) 100 (1 / 1)
  have h1' : (1 : ℚ) ≤ (outSize 10 (1 / 1 : ℚ) : ℚ) := by exact_mod_cast h1
  have h2' : (1 : ℚ) ≤ (outSize 100 (1 / 1 : ℚ) : ℚ) := by exact_mod_cast h2
  refine ⟨by norm_num, ?_, by norm_num, ?_⟩ <;> simp only [] <;> linarith

end Verif.Qregrid
