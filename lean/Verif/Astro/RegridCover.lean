import Verif.Astro.RegridSum
/-!
# Weights of projections with sides along the axes
-/
namespace Verif.Astro
open Verif Verif.Bil

variable {K : Type} [Field K] [LinearOrder K] [IsStrictOrderedRing K] [FloorRing K]

/-- Spec: the length of the common part of the interval `[a,b]` and of the pixel `n`, which goes from `n-1/2` to `n+1/2` -/
def ov (a b : K) (n : Nat) : K := max 0 (min ((n : K) + 1 / 2) b - max ((n : K) - 1 / 2) a)

omit [FloorRing K] [IsStrictOrderedRing K] in
theorem ov_nonneg (a b : K) (n : Nat) : 0 ≤ ov a b n := le_max_left _ _

omit [FloorRing K] in
theorem ov_pos {a b : K} {n : Nat} : 0 < ov a b n ↔ max ((n : K) - 1 / 2) a < min ((n : K) + 1 / 2) b := by
  unfold ov
  rw [lt_max_iff, sub_pos]
  simp

omit [FloorRing K] in
theorem ov_pos' {a b : K} {n : Nat} (h : a < b) : 0 < ov a b n ↔ a < (n : K) + 1 / 2 ∧ (n : K) - 1 / 2 < b := by
  rw [ov_pos, max_lt_iff, lt_min_iff, lt_min_iff]
  constructor
  · rintro ⟨⟨_, h2⟩, h3, _⟩; exact ⟨h3, h2⟩
  · rintro ⟨h1, h2⟩; exact ⟨⟨by linarith, h2⟩, h1, h⟩

omit [FloorRing K] in
theorem ov_inside {a b : K} {n : Nat} (h : a < b) (h1 : (n : K) - 1 / 2 ≤ a) (h2 : b ≤ (n : K) + 1 / 2) : ov a b n = b - a := by
  unfold ov
  rw [min_eq_right h2, max_eq_right h1, max_eq_right (by linarith)]

omit [FloorRing K] in
/-- the parts of an interval in the pixels add up to its length -/
theorem sum_ov_aux {a b : K} (h0 : -1 / 2 ≤ a) (h : a < b) (n : Nat) :
    ∑ j ∈ Finset.range n, ov a b j = max 0 (min b ((n : K) - 1 / 2) - a) := by
  induction n with
  | zero =>
    have e : min b (((0 : Nat) : K) - 1 / 2) - a ≤ 0 := by
      have := min_le_right b (((0 : Nat) : K) - 1 / 2)
      push_cast at this ⊢
      linarith
    rw [Finset.sum_range_zero, max_eq_left e]
  | succ n ih =>
    rw [Finset.sum_range_succ, ih]
    unfold ov
    push_cast
    have e : (n : K) + 1 - 1 / 2 = (n : K) + 1 / 2 := by ring
    rw [e]
    rcases le_total b ((n : K) - 1 / 2) with h1 | h1
    · rw [min_eq_left h1, min_eq_right (by linarith : b ≤ (n : K) + 1 / 2), min_eq_left (by linarith : b ≤ (n : K) + 1 / 2),
        max_eq_right (by linarith : 0 ≤ b - a)]
      have := le_max_left ((n : K) - 1 / 2) a
      rw [max_eq_left (by linarith : b - max ((n : K) - 1 / 2) a ≤ 0), add_zero]
    · rw [min_eq_right h1, min_comm b]
      rcases le_total a ((n : K) - 1 / 2) with h2 | h2
      · rw [max_eq_left h2, max_eq_right (by linarith : 0 ≤ (n : K) - 1 / 2 - a)]
        have : (n : K) - 1 / 2 ≤ min ((n : K) + 1 / 2) b := le_min (by linarith) h1
        rw [max_eq_right (by linarith : 0 ≤ min ((n : K) + 1 / 2) b - ((n : K) - 1 / 2)),
          max_eq_right (by linarith : 0 ≤ min ((n : K) + 1 / 2) b - a)]
        ring
      · rw [max_eq_right h2, max_eq_left (by linarith : (n : K) - 1 / 2 - a ≤ 0), zero_add]

omit [FloorRing K] in
theorem sum_ov {a b : K} {n : Nat} (h0 : -1 / 2 ≤ a) (h : a < b) (h1 : b ≤ (n : K) - 1 / 2) : ∑ j ∈ Finset.range n, ov a b j = b - a := by
  rw [sum_ov_aux h0 h, min_eq_left h1, max_eq_right (by linarith)]

/-- Spec: the rectangle is inside the destination image -/
def InsideD (dny dnx : Nat) (x0 x1 y0 y1 : K) : Prop := -1 / 2 ≤ x0 ∧ x1 ≤ (dnx : K) - 1 / 2 ∧ -1 / 2 ≤ y0 ∧ y1 ≤ (dny : K) - 1 / 2

/-- Spec: the rectangle does not touch the destination image (it may touch its last row or column from outside) -/
def AwayD (dny dnx : Nat) (x0 x1 y0 y1 : K) : Prop := x1 < -1 / 2 ∨ (dnx : K) - 1 / 2 ≤ x0 ∨ y1 < -1 / 2 ∨ (dny : K) - 1 / 2 ≤ y0

/-- Spec: the rectangle has a part in two pixels of the destination image at least -/
def TwoD (dny dnx : Nat) (x0 x1 y0 y1 : K) : Prop := ∃ i j i' j', i < dny ∧ j < dnx ∧ i' < dny ∧ j' < dnx ∧ (i ≠ i' ∨ j ≠ j') ∧
  0 < ov x0 x1 j * ov y0 y1 i ∧ 0 < ov x0 x1 j' * ov y0 y1 i'

omit [FloorRing K] in
theorem aligned_minmax {p0 p1 p2 p3 : K × K} {x0 x1 y0 y1 : K} (hA : Aligned p0 p1 p2 p3 x0 x1 y0 y1) :
    minOf [p0.1, p1.1, p2.1, p3.1] = x0 ∧ maxOf [p0.1, p1.1, p2.1, p3.1] = x1 ∧
    minOf [p0.2, p1.2, p2.2, p3.2] = y0 ∧ maxOf [p0.2, p1.2, p2.2, p3.2] = y1 := by
  obtain ⟨hx, hy, xa, ya, xb, yb, hxs, hys, rfl, rfl, hp⟩ := hA
  rcases hp with ⟨rfl, rfl⟩ | ⟨rfl, rfl⟩ <;> rcases hxs with ⟨rfl, rfl⟩ | ⟨rfl, rfl⟩ <;> rcases hys with ⟨rfl, rfl⟩ | ⟨rfl, rfl⟩ <;>
    simp [minOf, maxOf, hx.le, hy.le]

omit [FloorRing K] in
theorem aligned_area {p0 p1 p2 p3 : K × K} {x0 x1 y0 y1 : K} (hA : Aligned p0 p1 p2 p3 x0 x1 y0 y1) :
    polyArea [p0, p1, p2, p3] = (x1 - x0) * (y1 - y0) := by
  obtain ⟨hx, hy, xa, ya, xb, yb, hxs, hys, rfl, rfl, hp⟩ := hA
  have dx : 0 < x1 - x0 := sub_pos.2 hx
  have dy : 0 < y1 - y0 := sub_pos.2 hy
  have e : ∀ z w : K, z = (x1 - x0) * (y1 - y0) ∨ z = -((x1 - x0) * (y1 - y0)) → w = (x1 - x0) * (y1 - y0) ∨ w = -((x1 - x0) * (y1 - y0)) →
      1 / 2 * |z| + (1 / 2 * |w| + 0) = (x1 - x0) * (y1 - y0) := by
    have hp := abs_of_pos (mul_pos dx dy)
    rintro z w (rfl | rfl) (rfl | rfl) <;> (try simp only [abs_neg]) <;> rw [hp] <;> ring
  rcases hp with ⟨rfl, rfl⟩ | ⟨rfl, rfl⟩ <;> rcases hxs with ⟨rfl, rfl⟩ | ⟨rfl, rfl⟩ <;> rcases hys with ⟨rfl, rfl⟩ | ⟨rfl, rfl⟩ <;>
    simp only [polyArea, List.length_cons, List.length_nil, fanArea] <;> rw [if_neg (by omega)] <;> apply e <;>
    first
    | (left; ring; done)
    | (right; ring; done)

omit [FloorRing K] in
theorem coverPoly_aligned {tol : K} {p0 p1 p2 p3 : K × K} {x0 x1 y0 y1 : K} (hA : Aligned p0 p1 p2 p3 x0 x1 y0 y1)
    (t1 : tol ≤ x1 - x0) (t2 : tol ≤ y1 - y0) (t3 : tol ≤ (x1 - x0) * (y1 - y0)) (i j : Nat) :
    coverPoly tol p0 p1 p2 p3 i j = if 0 < ov x0 x1 j * ov y0 y1 i then some (ov x0 x1 j * ov y0 y1 i) else none := by
  have h := clipped_rect hA t1 t2 t3 j i
  unfold coverPoly
  simp only
  unfold IsRect at h
  by_cases hc : max ((j : K) - 1 / 2) x0 < min ((j : K) + 1 / 2) x1 ∧ max ((i : K) - 1 / 2) y0 < min ((i : K) + 1 / 2) y1
  · rw [if_pos hc] at h
    obtain ⟨h1, h2⟩ := polyArea_rect h
    rw [if_neg (by omega), h2, if_pos (mul_pos (ov_pos.2 hc.1) (ov_pos.2 hc.2))]
    unfold ov
    have d1 := sub_pos.2 hc.1
    have d2 := sub_pos.2 hc.2
    rw [abs_of_pos d1, abs_of_pos d2, max_eq_right d1.le, max_eq_right d2.le]
  · rw [if_neg hc] at h
    rw [h, if_pos (by simp), if_neg]
    intro hp
    apply hc
    have a1 : ov x0 x1 j ≠ 0 := by rintro e; rw [e, zero_mul] at hp; exact lt_irrefl _ hp
    have a2 : ov y0 y1 i ≠ 0 := by rintro e; rw [e, mul_zero] at hp; exact lt_irrefl _ hp
    exact ⟨ov_pos.1 (lt_of_le_of_ne (ov_nonneg _ _ _) (Ne.symm a1)), ov_pos.1 (lt_of_le_of_ne (ov_nonneg _ _ _) (Ne.symm a2))⟩

omit [FloorRing K] in
theorem ov_mul_pos {x0 x1 y0 y1 : K} {i j : Nat} : 0 < ov x0 x1 j * ov y0 y1 i ↔ 0 < ov x0 x1 j ∧ 0 < ov y0 y1 i := by
  constructor
  · intro hp
    have a1 : ov x0 x1 j ≠ 0 := by rintro e; rw [e, zero_mul] at hp; exact lt_irrefl _ hp
    have a2 : ov y0 y1 i ≠ 0 := by rintro e; rw [e, mul_zero] at hp; exact lt_irrefl _ hp
    exact ⟨lt_of_le_of_ne (ov_nonneg _ _ _) (Ne.symm a1), lt_of_le_of_ne (ov_nonneg _ _ _) (Ne.symm a2)⟩
  · rintro ⟨h1, h2⟩; exact mul_pos h1 h2

/-- a pixel that meets the interval is between the floors -/
theorem ov_floor {a b : K} {n : Nat} (h : a < b) (hp : 0 < ov a b n) : ⌊a + 1 / 2⌋ ≤ (n : Int) ∧ (n : Int) ≤ ⌊b + 1 / 2⌋ := by
  obtain ⟨h1, h2⟩ := (ov_pos' h).1 hp
  constructor
  · rw [← Int.lt_add_one_iff, Int.floor_lt]; push_cast; linarith
  · rw [Int.le_floor]; push_cast; linarith

/-- when the interval is inside the image and both floors agree, it is inside one pixel -/
theorem single_inside {a b : K} {n d : Nat} (h : a < b) (h0 : -1 / 2 ≤ a) (h1 : b ≤ (d : K) - 1 / 2)
    (hn : max 0 ⌊a + 1 / 2⌋ = min ((d : Int) - 1) ⌊b + 1 / 2⌋) (h2 : max 0 ⌊a + 1 / 2⌋ ≤ (n : Int)) (h3 : (n : Int) ≤ min ((d : Int) - 1) ⌊b + 1 / 2⌋) :
    (n : K) - 1 / 2 ≤ a ∧ b ≤ (n : K) + 1 / 2 := by
  have hf : 0 ≤ ⌊a + 1 / 2⌋ := by rw [Int.le_floor]; push_cast; linarith
  have e1 : ⌊a + 1 / 2⌋ = (n : Int) := by omega
  have e2 := Int.floor_le (a + 1 / 2)
  rw [e1] at e2
  push_cast at e2
  refine ⟨by linarith, ?_⟩
  rcases le_or_gt ⌊b + 1 / 2⌋ ((d : Int) - 1) with hb | hb
  · have e3 : ⌊b + 1 / 2⌋ = (n : Int) := by omega
    have e4 := Int.lt_floor_add_one (b + 1 / 2)
    rw [e3] at e4
    push_cast at e4
    linarith
  · have e3 : (d : Int) = (n : Int) + 1 := by omega
    have e4 : (d : K) = (n : K) + 1 := by exact_mod_cast e3
    rw [e4] at h1
    linarith

theorem cover_aligned {tol : K} {p0 p1 p2 p3 : K × K} {x0 x1 y0 y1 : K} {dny dnx : Nat} (hA : Aligned p0 p1 p2 p3 x0 x1 y0 y1)
    (t1 : tol ≤ x1 - x0) (t2 : tol ≤ y1 - y0) (t3 : tol ≤ (x1 - x0) * (y1 - y0))
    (hc : InsideD dny dnx x0 x1 y0 y1 ∨ AwayD dny dnx x0 x1 y0 y1 ∨ TwoD dny dnx x0 x1 y0 y1) {i j : Nat} (hi : i < dny) (hj : j < dnx) :
    cover tol p0 p1 p2 p3 ((x1 - x0) * (y1 - y0)) dny dnx i j =
      if 0 < ov x0 x1 j * ov y0 y1 i then some (ov x0 x1 j * ov y0 y1 i) else none := by
  obtain ⟨e1, e2, e3, e4⟩ := aligned_minmax hA
  have hx := hA.1
  have hy := hA.2.1
  unfold cover
  simp only [e1, e2, e3, e4]
  by_cases hb : (max 0 ⌊y0 + 1 / 2⌋ ≤ (i : Int) ∧ (i : Int) ≤ min ((dny : Int) - 1) ⌊y1 + 1 / 2⌋) ∧
      (max 0 ⌊x0 + 1 / 2⌋ ≤ (j : Int) ∧ (j : Int) ≤ min ((dnx : Int) - 1) ⌊x1 + 1 / 2⌋)
  · rw [if_pos hb]
    by_cases hs : max 0 ⌊x0 + 1 / 2⌋ = min ((dnx : Int) - 1) ⌊x1 + 1 / 2⌋ ∧ max 0 ⌊y0 + 1 / 2⌋ = min ((dny : Int) - 1) ⌊y1 + 1 / 2⌋
    · rw [if_pos hs]
      rcases hc with hc | hc | hc
      · obtain ⟨i1, i2⟩ := single_inside hx hc.1 hc.2.1 hs.1 hb.2.1 hb.2.2
        obtain ⟨i3, i4⟩ := single_inside hy hc.2.2.1 hc.2.2.2 hs.2 hb.1.1 hb.1.2
        rw [ov_inside hx i1 i2, ov_inside hy i3 i4, if_pos (mul_pos (sub_pos.2 hx) (sub_pos.2 hy))]
      · exfalso
        rcases hc with hc | hc | hc | hc
        · have : ⌊x1 + 1 / 2⌋ < 0 := by rw [Int.floor_lt]; push_cast; linarith
          omega
        · have : (dnx : Int) ≤ ⌊x0 + 1 / 2⌋ := by rw [Int.le_floor]; push_cast; linarith
          omega
        · have : ⌊y1 + 1 / 2⌋ < 0 := by rw [Int.floor_lt]; push_cast; linarith
          omega
        · have : (dny : Int) ≤ ⌊y0 + 1 / 2⌋ := by rw [Int.le_floor]; push_cast; linarith
          omega
      · exfalso
        obtain ⟨a, b, a', b', ha, hb1, ha', hb', hne, q, q'⟩ := hc
        obtain ⟨q1, q2⟩ := ov_mul_pos.1 q
        obtain ⟨q3, q4⟩ := ov_mul_pos.1 q'
        have r1 := ov_floor hx q1
        have r2 := ov_floor hy q2
        have r3 := ov_floor hx q3
        have r4 := ov_floor hy q4
        omega
    · rw [if_neg hs, coverPoly_aligned hA t1 t2 t3]
  · rw [if_neg hb, if_neg]
    intro hp
    obtain ⟨q1, q2⟩ := ov_mul_pos.1 hp
    have r1 := ov_floor hx q1
    have r2 := ov_floor hy q2
    omega

/-! ### Any projection: the weights are not negative -/

omit [FloorRing K] in
theorem fanArea_nonneg (p : K × K) (l : List (K × K)) : 0 ≤ fanArea p l := by
  induction l with
  | nil => simp [fanArea]
  | cons q l ih =>
    cases l with
    | nil => simp [fanArea]
    | cons r l => simp only [fanArea]; exact add_nonneg (mul_nonneg (by norm_num) (abs_nonneg _)) ih

omit [FloorRing K] in
theorem polyArea_nonneg (l : List (K × K)) : 0 ≤ polyArea l := by
  unfold polyArea
  split
  · exact le_refl _
  · cases l with
    | nil => exact le_refl _
    | cons p l => exact fanArea_nonneg p l

theorem cover_nonneg {tol : K} {p0 p1 p2 p3 : K × K} {area : K} (ha : 0 ≤ area) (dny dnx i j : Nat) :
    0 ≤ (cover tol p0 p1 p2 p3 area dny dnx i j).getD 0 := by
  unfold cover
  simp only
  split
  · split
    · simpa using ha
    · unfold coverPoly
      simp only
      split
      · simp
      · simpa using polyArea_nonneg _
  · simp

end Verif.Astro
