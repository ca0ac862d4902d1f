import Verif.Astro.MakePsfProps
import Verif.Math.BicubicProps
import Mathlib.Analysis.SpecialFunctions.Trigonometric.Basic
import Mathlib.Analysis.SpecialFunctions.Complex.Arg
/-!
# Model of `scale`, `scale_bicubic`, `rotate`, `rotate_bicubic` (`astro/image.hpp:177-258`)

Numbers are elements of an ordered field (real numbers for the angles), without rounding.
-/
namespace Verif.Rotate
open Verif Verif.Astro Verif.Bil Verif.Psf

section model
variable {K : Type} [Field K] [LinearOrder K] [FloorRing K]

/-- the loops over the pixels (`image.hpp:183-191`, `203-211`, `225-234`, `248-257`): each one gets a value read from the image `v` at some position; `r` starts as a copy of `v` -/
def resample (v : Img K) (interp : K → K → Res K) (py px : Nat → Nat → K) : Res (Img K) :=
  for2 v.nx v.ny (fun y x r => do
    let a ← interp (py y x) (px y x)
    r.put y x a) v

/-- the distance to the central pixel `n/2` -/
def off (n i : Nat) : K := (i : K) - ((n / 2 : Nat) : K)

/-- `(y-int_t(v.dims[0]/2))/factor + v.dims[0]/2` -/
def shrink (f : K) (n i : Nat) : K := off n i / f + ((n / 2 : Nat) : K)

/-- `scale(v, factor, def)` (`image.hpp:177-195`); a factor of zero gives positions that are not finite, whose conversion to an integer is undefined -/
def scale (v : Img K) (f d : K) : Res (Img K) :=
  if f = 0 ∧ 0 < v.nx ∧ 0 < v.ny then .ub
  else resample v (fun y x => bilinearStrict (asMap v) y x d) (fun y _ => shrink f v.nx y) (fun _ x => shrink f v.ny x)

/-- `scale_bicubic(v, factor, def)` (`image.hpp:197-214`) -/
def scaleCubic (v : Img K) (f d : K) : Res (Img K) :=
  if f = 0 ∧ 0 < v.nx ∧ 0 < v.ny then .ub
  else resample v (fun y x => bicubicStrict (asMap v) y x d) (fun y _ => shrink f v.nx y) (fun _ x => shrink f v.ny x)

/-- the position `dy*ca - dx*sa + v.dims[0]/2` -/
def rotY (v : Img K) (ca sa : K) (y x : Nat) : K := off v.nx y * ca - off v.ny x * sa + ((v.nx / 2 : Nat) : K)

/-- the position `dx*ca + dy*sa + v.dims[1]/2` -/
def rotX (v : Img K) (ca sa : K) (y x : Nat) : K := off v.ny x * ca + off v.nx y * sa + ((v.ny / 2 : Nat) : K)

/-- the loops of `rotate` (`image.hpp:225-234`) -/
def rotateBy (v : Img K) (ca sa d : K) : Res (Img K) := resample v (fun y x => bilinearStrict (asMap v) y x d) (rotY v ca sa) (rotX v ca sa)

/-- the loops of `rotate_bicubic` (`image.hpp:248-257`) -/
def rotateCubicBy (v : Img K) (ca sa d : K) : Res (Img K) := resample v (fun y x => bicubicStrict (asMap v) y x d) (rotY v ca sa) (rotX v ca sa)

end model

/-- `rotate(v, angle, def)` (`image.hpp:216-237`) -/
noncomputable def rotate (v : Img ℝ) (angle d : ℝ) : Res (Img ℝ) := rotateBy v (Real.cos (angle * Real.pi / 180)) (Real.sin (angle * Real.pi / 180)) d

/-- `rotate_bicubic(v, angle, def)` (`image.hpp:239-260`) -/
noncomputable def rotateCubic (v : Img ℝ) (angle d : ℝ) : Res (Img ℝ) := rotateCubicBy v (Real.cos (angle * Real.pi / 180)) (Real.sin (angle * Real.pi / 180)) d

section helpers
variable {K : Type} [Field K] [LinearOrder K] [FloorRing K]

theorem resample_rule {v : Img K} (hv : v.WF) {interp : K → K → Res K} {py px : Nat → Nat → K} (val : Nat → Nat → K)
    (h : ∀ y x, y < v.nx → x < v.ny → interp (py y x) (px y x) = .ok (val y x)) :
    ∃ w, resample v interp py px = .ok w ∧ w.WF ∧ w.nx = v.nx ∧ w.ny = v.ny ∧ ∀ y x, y < v.nx → x < v.ny → w.at y x = some (val y x) := by
  obtain ⟨s, s1, s2, s3, s4, s5, -⟩ := for2_write (nx := v.nx) (ny := v.ny) (body := fun y x r => do
      let a ← interp (py y x) (px y x)
      r.put y x a)
    (fun x => x) (fun y => y) val v hv (fun x hx => hx) (fun y hy => hy) (fun _ _ _ _ h => h)
    (fun _ _ _ _ h => h) (fun y x s hy hx _ _ _ => by rw [h y x hy hx]; rfl)
  exact ⟨s, s1, s2, s3, s4, s5⟩

variable [IsStrictOrderedRing K]

/-- Spec: the positions where `bilinear_strict` reads an image: inside, but not on the last row or column -/
def Inside (v : Img K) (py px : K) : Prop := (0 ≤ py ∧ py < ((v.nx - 1 : Nat) : K)) ∧ (0 ≤ px ∧ px < ((v.ny - 1 : Nat) : K))

open Classical in
theorem bilinear_rule {v : Img K} (h : (asMap v).Good) {py px : Nat → Nat → K} (d : K) (hy : ∀ y x, y < v.nx → x < v.ny → InRange (py y x))
    (hx : ∀ y x, y < v.nx → x < v.ny → InRange (px y x)) :
    ∃ w, resample v (fun y x => bilinearStrict (asMap v) y x d) py px = .ok w ∧ w.WF ∧ w.nx = v.nx ∧ w.ny = v.ny ∧
      ∀ y x, y < v.nx → x < v.ny → ∃ a, w.at y x = some a ∧ if Inside v (py y x) (px y x) then bilinear (asMap v) (py y x) (px y x) = .ok a else a = d := by
  have key : ∀ y x : Nat, ∃ a, y < v.nx → x < v.ny → bilinearStrict (asMap v) (py y x) (px y x) d = .ok a ∧
      if Inside v (py y x) (px y x) then bilinear (asMap v) (py y x) (px y x) = .ok a else a = d := by
    intro y x
    by_cases hxy : y < v.nx ∧ x < v.ny
    · have ry := hy y x hxy.1 hxy.2
      have rx := hx y x hxy.1 hxy.2
      have e := C95_strict h ry rx d
      by_cases hc : Inside v (py y x) (px y x)
      · have e := e.trans (if_pos hc)
        obtain ⟨a, ha⟩ : ∃ a, bilinear (asMap v) (py y x) (px y x) = .ok a := ⟨_, bilinear_ramps h ry rx⟩
        exact ⟨a, fun _ _ => ⟨by rw [e, ha], by rw [if_pos hc, ha]⟩⟩
      · have e := e.trans (if_neg hc)
        exact ⟨d, fun _ _ => ⟨e, by rw [if_neg hc]⟩⟩
    · exact ⟨d, fun h1 h2 => absurd ⟨h1, h2⟩ hxy⟩
  choose val hval using key
  obtain ⟨w, w1, w2, w3, w4, w5⟩ := resample_rule h.len (interp := fun y x => bilinearStrict (asMap v) y x d) (py := py) (px := px) val fun y x hy hx => (hval y x hy hx).1
  exact ⟨w, w1, w2, w3, w4, fun x y hx hy => ⟨_, w5 x y hx hy, (hval x y hx hy).2⟩⟩

/-- positions that are integers -/
theorem integer_rule {v : Img K} (h : (asMap v).Good) {py px : Nat → Nat → K} (d : K) (p q : Nat → Nat → Int)
    (hp : ∀ y x, y < v.nx → x < v.ny → py y x = ((p y x : Int) : K)) (hq : ∀ y x, y < v.nx → x < v.ny → px y x = ((q y x : Int) : K))
    (rp : ∀ y x, y < v.nx → x < v.ny → -(2 ^ 63) ≤ p y x ∧ p y x < 2 ^ 63) (rq : ∀ y x, y < v.nx → x < v.ny → -(2 ^ 63) ≤ q y x ∧ q y x < 2 ^ 63) :
    ∃ w, resample v (fun y x => bilinearStrict (asMap v) y x d) py px = .ok w ∧ w.WF ∧ w.nx = v.nx ∧ w.ny = v.ny ∧
      ∀ y x, y < v.nx → x < v.ny → w.at y x = if 0 ≤ p y x ∧ p y x < (v.nx : Int) - 1 ∧ 0 ≤ q y x ∧ q y x < (v.ny : Int) - 1
        then v.at (p y x).toNat (q y x).toNat else some d := by
  have h1 : 2 ≤ v.nx := h.h0
  have h2 : 2 ≤ v.ny := h.h1
  obtain ⟨w, w1, w2, w3, w4, w5⟩ := bilinear_rule h (py := py) (px := px) d (fun y x hy hx => by rw [hp y x hy hx]; exact inRange_int (rp y x hy hx))
    (fun y x hy hx => by rw [hq y x hy hx]; exact inRange_int (rq y x hy hx))
  refine ⟨w, w1, w2, w3, w4, fun y x hy hx => ?_⟩
  obtain ⟨c, c1, c2⟩ := w5 y x hy hx
  rw [c1]
  have hn : ∀ n : Nat, 1 ≤ n → ((n - 1 : Nat) : K) = (((n : Int) - 1 : Int) : K) := fun n hn => by rw [Nat.cast_sub hn]; push_cast; ring
  have hin : Inside v (py y x) (px y x) ↔ 0 ≤ p y x ∧ p y x < (v.nx : Int) - 1 ∧ 0 ≤ q y x ∧ q y x < (v.ny : Int) - 1 := by
    unfold Inside
    rw [hp y x hy hx, hq y x hy hx, hn _ (by omega), hn _ (by omega), Int.cast_nonneg_iff, Int.cast_nonneg_iff, Int.cast_lt, Int.cast_lt, and_assoc]
  by_cases hc : 0 ≤ p y x ∧ p y x < (v.nx : Int) - 1 ∧ 0 ≤ q y x ∧ q y x < (v.ny : Int) - 1
  · rw [if_pos (hin.2 hc)] at c2
    rw [if_pos hc, at_get h.len (by omega) (by omega)]
    have e1 : ((p y x).toNat : Int) = p y x := Int.toNat_of_nonneg hc.1
    have e2 : ((q y x).toNat : Int) = q y x := Int.toNat_of_nonneg hc.2.2.1
    have f1 : py y x = (((p y x).toNat : Nat) : K) := by rw [hp y x hy hx, ← Int.cast_natCast, e1]
    have f2 : px y x = (((q y x).toNat : Nat) : K) := by rw [hq y x hy hx, ← Int.cast_natCast, e2]
    rw [f1, f2, C95_node h _ _ (by show _ < v.nx; omega) (by show _ < v.ny; omega)] at c2
    injection c2 with c2
    rw [c2]
  · rw [if_neg (fun hh => hc (hin.1 hh))] at c2
    rw [if_neg hc, c2]

/-- the same for `bicubic_strict` -/
theorem integer_cubic {v : Img K} (h : (asMap v).Good) {py px : Nat → Nat → K} (d : K) (p q : Nat → Nat → Int)
    (hp : ∀ y x, y < v.nx → x < v.ny → py y x = ((p y x : Int) : K)) (hq : ∀ y x, y < v.nx → x < v.ny → px y x = ((q y x : Int) : K))
    (rp : ∀ y x, y < v.nx → x < v.ny → -(2 ^ 63) ≤ p y x ∧ p y x < 2 ^ 63) (rq : ∀ y x, y < v.nx → x < v.ny → -(2 ^ 63) ≤ q y x ∧ q y x < 2 ^ 63) :
    ∃ w, resample v (fun y x => bicubicStrict (asMap v) y x d) py px = .ok w ∧ w.WF ∧ w.nx = v.nx ∧ w.ny = v.ny ∧
      ∀ y x, y < v.nx → x < v.ny → w.at y x = if 1 ≤ p y x ∧ p y x < (v.nx : Int) - 2 ∧ 1 ≤ q y x ∧ q y x < (v.ny : Int) - 2
        then v.at (p y x).toNat (q y x).toNat else some d := by
  have h1 : 2 ≤ v.nx := h.h0
  have h2 : 2 ≤ v.ny := h.h1
  obtain ⟨w, w1, w2, w3, w4, w5⟩ := resample_rule h.len (interp := fun y x => bicubicStrict (asMap v) y x d) (py := py) (px := px)
    (fun y x => if 1 ≤ p y x ∧ p y x < (v.nx : Int) - 2 ∧ 1 ≤ q y x ∧ q y x < (v.ny : Int) - 2 then (asMap v).get (p y x).toNat (q y x).toNat else d)
    (fun y x hy hx => by
      show bicubicStrict _ _ _ _ = _
      by_cases hc : 1 ≤ p y x ∧ p y x < (v.nx : Int) - 2 ∧ 1 ≤ q y x ∧ q y x < (v.ny : Int) - 2
      · rw [if_pos hc]
        have e1 : ((p y x).toNat : Int) = p y x := Int.toNat_of_nonneg (by omega)
        have e2 : ((q y x).toNat : Int) = q y x := Int.toNat_of_nonneg (by omega)
        rw [hp y x hy hx, hq y x hy hx]
        have f1 : ((p y x : Int) : K) = (((p y x).toNat : Nat) : K) := by rw [← Int.cast_natCast, e1]
        have f2 : ((q y x : Int) : K) = (((q y x).toNat : Nat) : K) := by rw [← Int.cast_natCast, e2]
        rw [f1, f2]
        exact C96_node h _ _ (by omega) (by show _ < v.nx; omega) (by omega) (by show _ < v.ny; omega) d
      · rw [if_neg hc]
        rw [hp y x hy hx, hq y x hy hx]
        unfold bicubicStrict
        rw [floorInt_ok (inRange_int (rp y x hy hx)), Res.ok_bind, floorInt_ok (inRange_int (rq y x hy hx)), Res.ok_bind, Int.floor_intCast, Int.floor_intCast, if_pos]
        have a := h.d0_lt
        have b := h.d1_lt
        have ea : (asMap v).d0 = v.nx := rfl
        have eb : (asMap v).d1 = v.ny := rfl
        rw [ea] at a; rw [eb] at b
        rw [ea, eb, sub64_eq h1 (by omega) (by omega), sub64_eq h2 (by omega) (by omega)]
        omega)
  refine ⟨w, w1, w2, w3, w4, fun y x hy hx => ?_⟩
  rw [w5 y x hy hx]
  by_cases hc : 1 ≤ p y x ∧ p y x < (v.nx : Int) - 2 ∧ 1 ≤ q y x ∧ q y x < (v.ny : Int) - 2
  · rw [if_pos hc, if_pos hc, at_get h.len (by omega) (by omega)]
  · rw [if_neg hc, if_neg hc]

theorem good_sum {v : Img K} (h : (asMap v).Good) : v.nx + v.ny < 2 ^ 63 := by
  have a : 2 ≤ v.nx := h.h0
  have b : 2 ≤ v.ny := h.h1
  have c : v.nx * v.ny < 2 ^ 63 := h.small
  nlinarith [Nat.mul_le_mul a b, mul_nonneg (Nat.zero_le (v.nx - 2)) (Nat.zero_le (v.ny - 2)), Nat.sub_add_cancel a, Nat.sub_add_cancel b]

omit [FloorRing K] [IsStrictOrderedRing K] in
theorem off_int (n i : Nat) : (off n i : K) = (((i : Int) - (n / 2 : Nat) : Int) : K) := by unfold off; simp only [Int.cast_sub, Int.cast_natCast]

omit [FloorRing K] in
theorem off_abs (n i : Nat) (hi : i < n) : |(off n i : K)| ≤ ((n - n / 2 : Nat) : K) := by
  rw [off_int, ← Int.cast_abs]
  have : |(i : Int) - ((n / 2 : Nat) : Int)| ≤ ((n - n / 2 : Nat) : Int) := abs_le.2 ⟨by omega, by omega⟩
  have := (Int.cast_le (R := K)).2 this
  rwa [Int.cast_natCast (n - n / 2)] at this

end helpers

/-! ### C227 -/

theorem rot_range {v : Img ℝ} (h : (asMap v).Good) {y x : Nat} (hy : y < v.nx) (hx : x < v.ny) (t : ℝ) :
    InRange (rotY v (Real.cos t) (Real.sin t) y x) ∧ InRange (rotX v (Real.cos t) (Real.sin t) y x) := by
  have hs := good_sum h
  have a := off_abs (K := ℝ) v.nx y hy
  have b := off_abs (K := ℝ) v.ny x hx
  have prod : ∀ (z c : ℝ) (n : Nat), |z| ≤ (n : ℝ) → |c| ≤ 1 → |z * c| ≤ n := fun z c n hz hc => by
    rw [abs_mul]
    calc |z| * |c| ≤ (n : ℝ) * 1 := mul_le_mul hz hc (abs_nonneg _) (Nat.cast_nonneg _)
      _ = n := mul_one _
  have p1 := abs_le.1 (prod _ _ _ a (Real.abs_cos_le_one t))
  have p2 := abs_le.1 (prod _ _ _ a (Real.abs_sin_le_one t))
  have p3 := abs_le.1 (prod _ _ _ b (Real.abs_cos_le_one t))
  have p4 := abs_le.1 (prod _ _ _ b (Real.abs_sin_le_one t))
  have sn : ((v.nx - v.nx / 2 : Nat) : ℝ) + ((v.nx / 2 : Nat) : ℝ) = (v.nx : ℝ) := by rw [← Nat.cast_add]; congr 1; omega
  have sm : ((v.ny - v.ny / 2 : Nat) : ℝ) + ((v.ny / 2 : Nat) : ℝ) = (v.ny : ℝ) := by rw [← Nat.cast_add]; congr 1; omega
  have hs' : ((v.nx + v.ny : Nat) : ℝ) < ((2 ^ 63 : Nat) : ℝ) := Nat.cast_lt.2 hs
  have hc : ((2 ^ 63 : Nat) : ℝ) = (((2 ^ 63 : Int)) : ℝ) := by norm_num
  rw [hc] at hs'
  push_cast at hs'
  have q1 : (0 : ℝ) ≤ ((v.nx / 2 : Nat) : ℝ) := Nat.cast_nonneg _
  have q2 : (0 : ℝ) ≤ ((v.ny / 2 : Nat) : ℝ) := Nat.cast_nonneg _
  unfold InRange rotY rotX
  refine ⟨⟨Int.le_floor.2 ?_, Int.floor_lt.2 ?_⟩, Int.le_floor.2 ?_, Int.floor_lt.2 ?_⟩ <;> push_cast <;> linarith [p1.1, p1.2, p2.1, p2.2, p3.1, p3.2, p4.1, p4.2]

/-- Spec: from the central pixel of the image `v`, the position `(y,x)` (row, column) is at the distance `ρ` and at the angle `φ` (in degrees), measured from the axis of the columns towards the axis of the rows. -/
def Polar (v : Img ℝ) (y x ρ φ : ℝ) : Prop :=
  y = ((v.nx / 2 : Nat) : ℝ) + ρ * Real.sin (φ * Real.pi / 180) ∧ x = ((v.ny / 2 : Nat) : ℝ) + ρ * Real.cos (φ * Real.pi / 180)

/-- every position has such coordinates -/
theorem polar_exists (v : Img ℝ) (y x : ℝ) : ∃ ρ φ, 0 ≤ ρ ∧ Polar v y x ρ φ := by
  let z : ℂ := ⟨x - ((v.ny / 2 : Nat) : ℝ), y - ((v.nx / 2 : Nat) : ℝ)⟩
  refine ⟨‖z‖, Complex.arg z * 180 / Real.pi, norm_nonneg _, ?_, ?_⟩
  · rw [show Complex.arg z * 180 / Real.pi * Real.pi / 180 = Complex.arg z by field_simp, Complex.norm_mul_sin_arg]
    show y = _ + (y - _); ring
  · rw [show Complex.arg z * 180 / Real.pi * Real.pi / 180 = Complex.arg z by field_simp, Complex.norm_mul_cos_arg]
    show x = _ + (x - _); ring

theorem polar_rot {v : Img ℝ} {y x : Nat} {ρ φ angle : ℝ} (hp : Polar v y x ρ (φ + angle)) :
    rotY v (Real.cos (angle * Real.pi / 180)) (Real.sin (angle * Real.pi / 180)) y x = ((v.nx / 2 : Nat) : ℝ) + ρ * Real.sin (φ * Real.pi / 180) ∧
    rotX v (Real.cos (angle * Real.pi / 180)) (Real.sin (angle * Real.pi / 180)) y x = ((v.ny / 2 : Nat) : ℝ) + ρ * Real.cos (φ * Real.pi / 180) := by
  obtain ⟨h1, h2⟩ := hp
  rw [show (φ + angle) * Real.pi / 180 = φ * Real.pi / 180 + angle * Real.pi / 180 by ring] at h1 h2
  rw [Real.sin_add] at h1
  rw [Real.cos_add] at h2
  have t := Real.sin_sq_add_cos_sq (angle * Real.pi / 180)
  unfold rotY rotX off
  constructor
  · rw [h1, h2]; linear_combination (ρ * Real.sin (φ * Real.pi / 180)) * t
  · rw [h1, h2]; linear_combination (ρ * Real.cos (φ * Real.pi / 180)) * t

open Classical in
/-- **C227** (the part that holds): the image turns around its central pixel by the angle, from the axis of the columns towards the one of the rows: what was at the angle `φ` is at the angle `φ + angle`, at the same distance.
Positions between the pixels are interpolated; those outside of the image, or on or beyond its last row or column, have the default value. -/
theorem C227_rotate_partial {v : Img ℝ} (h : (asMap v).Good) (angle d : ℝ) :
    ∃ w, rotate v angle d = .ok w ∧ w.WF ∧ w.nx = v.nx ∧ w.ny = v.ny ∧ ∀ y x, y < v.nx → x < v.ny → ∀ ρ φ py px, Polar v y x ρ (φ + angle) → Polar v py px ρ φ →
      ∃ a, w.at y x = some a ∧ if Inside v py px then bilinear (asMap v) py px = .ok a else a = d := by
  obtain ⟨w, w1, w2, w3, w4, w5⟩ := bilinear_rule h (py := rotY v (Real.cos (angle * Real.pi / 180)) (Real.sin (angle * Real.pi / 180)))
    (px := rotX v (Real.cos (angle * Real.pi / 180)) (Real.sin (angle * Real.pi / 180))) d (fun y x hy hx => (rot_range h hy hx _).1) (fun y x hy hx => (rot_range h hy hx _).2)
  refine ⟨w, w1, w2, w3, w4, fun y x hy hx ρ φ py px hp hq => ?_⟩
  obtain ⟨e1, e2⟩ := polar_rot hp
  have := w5 y x hy hx
  rw [e1, e2, ← hq.1, ← hq.2] at this
  exact this

/-- **C227**: an image which is a bilinear function of the position is that function of the rotated position. -/
theorem C227_exact_partial {v : Img ℝ} (h : (asMap v).Good) (angle d a b c e : ℝ) (hv : ∀ i j, i < v.nx → j < v.ny → v.at i j = some (a + b * i + c * j + e * i * j)) :
    ∃ w, rotate v angle d = .ok w ∧ ∀ y x, y < v.nx → x < v.ny → ∀ ρ φ py px, Polar v y x ρ (φ + angle) → Polar v py px ρ φ → Inside v py px →
      w.at y x = some (a + b * py + c * px + e * py * px) := by
  obtain ⟨w, w1, -, -, -, w5⟩ := C227_rotate_partial h angle d
  refine ⟨w, w1, fun y x hy hx ρ φ py px hp hq hi => ?_⟩
  obtain ⟨r, r1, r2⟩ := w5 y x hy hx ρ φ py px hp hq
  rw [if_pos hi] at r2
  have rng : ∀ (n : Nat) (z : ℝ), n < 2 ^ 63 → 0 ≤ z → z < ((n - 1 : Nat) : ℝ) → InRange z := by
    intro n z hn h0 h1
    have f0 : (0 : Int) ≤ ⌊z⌋ := Int.floor_nonneg.2 h0
    have f1 : ⌊z⌋ < ((n - 1 : Nat) : Int) := Int.floor_lt.2 (by exact_mod_cast h1)
    exact ⟨by omega, by omega⟩
  rw [C95_exact h a b c e (fun i j hi hj => by
    have := hv i j hi hj
    rw [at_get h.len hi hj] at this
    exact Option.some.inj this) (rng _ _ h.d0_lt hi.1.1 hi.1.2) (rng _ _ h.d1_lt hi.2.1 hi.2.2)] at r2
  injection r2 with r2
  rw [r1, r2]

theorem trig90 : Real.cos (90 * Real.pi / 180) = 0 ∧ Real.sin (90 * Real.pi / 180) = 1 := by
  rw [show (90 : ℝ) * Real.pi / 180 = Real.pi / 2 by ring]
  exact ⟨Real.cos_pi_div_two, Real.sin_pi_div_two⟩

theorem trig180 : Real.cos (180 * Real.pi / 180) = -1 ∧ Real.sin (180 * Real.pi / 180) = 0 := by
  rw [show (180 : ℝ) * Real.pi / 180 = Real.pi by ring]
  exact ⟨Real.cos_pi, Real.sin_pi⟩

/-- **C227**: a quarter of a turn moves the pixels without changing them, if they do not come from the last row or column. -/
theorem C227_quarter_partial {v : Img ℝ} (h : (asMap v).Good) (d : ℝ) :
    ∃ w, rotate v 90 d = .ok w ∧ w.nx = v.nx ∧ w.ny = v.ny ∧ ∀ i j y x : Nat, i + 1 < v.nx → j + 1 < v.ny → y < v.nx → x < v.ny →
      (y : Int) - (v.nx / 2 : Nat) = (j : Int) - (v.ny / 2 : Nat) → (x : Int) - (v.ny / 2 : Nat) = (v.nx / 2 : Nat) - (i : Int) → w.at y x = v.at i j := by
  have hs := good_sum h
  obtain ⟨w, w1, w2, w3, w4, w5⟩ := integer_rule h (py := rotY v 0 1) (px := rotX v 0 1) d (fun _ x => (v.nx / 2 : Nat) - ((x : Int) - (v.ny / 2 : Nat)))
    (fun y _ => (v.ny / 2 : Nat) + ((y : Int) - (v.nx / 2 : Nat))) (fun y x _ _ => by unfold rotY; rw [off_int, off_int]; simp only [Int.cast_sub, Int.cast_add, Int.cast_mul, Int.cast_natCast, Int.cast_ofNat]; ring)
    (fun y x _ _ => by unfold rotX; rw [off_int, off_int]; simp only [Int.cast_sub, Int.cast_add, Int.cast_mul, Int.cast_natCast, Int.cast_ofNat]; ring) (fun y x hy hx => by omega) (fun y x hy hx => by omega)
  refine ⟨w, by unfold rotate rotateBy; rw [trig90.1, trig90.2]; exact w1, w3, w4, fun i j y x hi hj hy hx e1 e2 => ?_⟩
  rw [w5 y x hy hx, if_pos (by omega)]
  congr 1 <;> omega

/-- **C227**: half a turn. -/
theorem C227_half_partial {v : Img ℝ} (h : (asMap v).Good) (d : ℝ) :
    ∃ w, rotate v 180 d = .ok w ∧ w.nx = v.nx ∧ w.ny = v.ny ∧ ∀ i j y x : Nat, i + 1 < v.nx → j + 1 < v.ny → y < v.nx → x < v.ny →
      i + y = 2 * (v.nx / 2) → j + x = 2 * (v.ny / 2) → w.at y x = v.at i j := by
  have hs := good_sum h
  obtain ⟨w, w1, w2, w3, w4, w5⟩ := integer_rule h (py := rotY v (-1) 0) (px := rotX v (-1) 0) d (fun y _ => 2 * (v.nx / 2 : Nat) - (y : Int))
    (fun _ x => 2 * (v.ny / 2 : Nat) - (x : Int)) (fun y x _ _ => by unfold rotY; rw [off_int, off_int]; simp only [Int.cast_sub, Int.cast_add, Int.cast_mul, Int.cast_natCast, Int.cast_ofNat]; ring)
    (fun y x _ _ => by unfold rotX; rw [off_int, off_int]; simp only [Int.cast_sub, Int.cast_add, Int.cast_mul, Int.cast_natCast, Int.cast_ofNat]; ring) (fun y x hy hx => by omega) (fun y x hy hx => by omega)
  refine ⟨w, by unfold rotate rotateBy; rw [trig180.1, trig180.2]; exact w1, w3, w4, fun i j y x hi hj hy hx e1 e2 => ?_⟩
  rw [w5 y x hy hx, if_pos (by omega)]
  congr 1 <;> omega

/-- **C227**: a full turn changes nothing. -/
theorem C227_turn (v : Img ℝ) (angle d : ℝ) : rotate v (angle + 360) d = rotate v angle d ∧ rotateCubic v (angle + 360) d = rotateCubic v angle d := by
  have e : (angle + 360) * Real.pi / 180 = angle * Real.pi / 180 + 2 * Real.pi := by ring
  unfold rotate rotateCubic
  rw [e, Real.cos_add_two_pi, Real.sin_add_two_pi]
  exact ⟨rfl, rfl⟩

/-- Finding: a rotation by zero is not the identity: the last row and the last column are replaced by the default value (the others are the same). -/
theorem C227_zero_refuted {v : Img ℝ} (h : (asMap v).Good) (d : ℝ) :
    ∃ w, rotate v 0 d = .ok w ∧ ∀ y x, y < v.nx → x < v.ny → w.at y x = if y + 1 = v.nx ∨ x + 1 = v.ny then some d else v.at y x := by
  have hs := good_sum h
  obtain ⟨w, w1, w2, w3, w4, w5⟩ := integer_rule h (py := rotY v 1 0) (px := rotX v 1 0) d (fun y _ => (y : Int)) (fun _ x => (x : Int))
    (fun y x _ _ => by unfold rotY off; rw [Int.cast_natCast]; ring) (fun y x _ _ => by unfold rotX off; rw [Int.cast_natCast]; ring) (fun y x hy hx => by omega) (fun y x hy hx => by omega)
  refine ⟨w, by unfold rotate rotateBy; rw [zero_mul, zero_div, Real.cos_zero, Real.sin_zero]; exact w1, fun y x hy hx => ?_⟩
  rw [w5 y x hy hx]
  by_cases hc : y + 1 = v.nx ∨ x + 1 = v.ny
  · rw [if_pos hc, if_neg (by omega)]
  · rw [if_neg hc, if_pos (by omega), Int.toNat_natCast, Int.toNat_natCast]

/-- Finding: with `rotate_bicubic` three rows and three columns are lost by a rotation of zero. -/
theorem C227_cubic_refuted {v : Img ℝ} (h : (asMap v).Good) (d : ℝ) :
    ∃ w, rotateCubic v 0 d = .ok w ∧ ∀ y x, y < v.nx → x < v.ny → w.at y x = if y = 0 ∨ v.nx ≤ y + 2 ∨ x = 0 ∨ v.ny ≤ x + 2 then some d else v.at y x := by
  have hs := good_sum h
  obtain ⟨w, w1, w2, w3, w4, w5⟩ := integer_cubic h (py := rotY v 1 0) (px := rotX v 1 0) d (fun y _ => (y : Int)) (fun _ x => (x : Int))
    (fun y x _ _ => by unfold rotY off; rw [Int.cast_natCast]; ring) (fun y x _ _ => by unfold rotX off; rw [Int.cast_natCast]; ring) (fun y x hy hx => by omega) (fun y x hy hx => by omega)
  refine ⟨w, by unfold rotateCubic rotateCubicBy; rw [zero_mul, zero_div, Real.cos_zero, Real.sin_zero]; exact w1, fun y x hy hx => ?_⟩
  rw [w5 y x hy hx]
  by_cases hc : y = 0 ∨ v.nx ≤ y + 2 ∨ x = 0 ∨ v.ny ≤ x + 2
  · rw [if_pos hc, if_neg (by omega)]
  · rw [if_neg hc, if_pos (by omega), Int.toNat_natCast, Int.toNat_natCast]

/-- **C227**: a quarter of a turn with `rotate_bicubic`. -/
theorem C227_cubic_quarter_partial {v : Img ℝ} (h : (asMap v).Good) (d : ℝ) :
    ∃ w, rotateCubic v 90 d = .ok w ∧ w.nx = v.nx ∧ w.ny = v.ny ∧ ∀ i j y x : Nat, 1 ≤ i → 1 ≤ j → i + 2 < v.nx → j + 2 < v.ny → y < v.nx → x < v.ny →
      (y : Int) - (v.nx / 2 : Nat) = (j : Int) - (v.ny / 2 : Nat) → (x : Int) - (v.ny / 2 : Nat) = (v.nx / 2 : Nat) - (i : Int) → w.at y x = v.at i j := by
  have hs := good_sum h
  obtain ⟨w, w1, w2, w3, w4, w5⟩ := integer_cubic h (py := rotY v 0 1) (px := rotX v 0 1) d (fun _ x => (v.nx / 2 : Nat) - ((x : Int) - (v.ny / 2 : Nat)))
    (fun y _ => (v.ny / 2 : Nat) + ((y : Int) - (v.nx / 2 : Nat))) (fun y x _ _ => by unfold rotY; rw [off_int, off_int]; simp only [Int.cast_sub, Int.cast_add, Int.cast_mul, Int.cast_natCast, Int.cast_ofNat]; ring)
    (fun y x _ _ => by unfold rotX; rw [off_int, off_int]; simp only [Int.cast_sub, Int.cast_add, Int.cast_mul, Int.cast_natCast, Int.cast_ofNat]; ring) (fun y x hy hx => by omega) (fun y x hy hx => by omega)
  refine ⟨w, by unfold rotateCubic rotateCubicBy; rw [trig90.1, trig90.2]; exact w1, w3, w4, fun i j y x hi hj hi2 hj2 hy hx e1 e2 => ?_⟩
  rw [w5 y x hy hx, if_pos (by omega)]
  congr 1 <;> omega

/-! ### C228 -/

variable {K : Type} [Field K] [LinearOrder K] [FloorRing K] [IsStrictOrderedRing K]

open Classical in
/-- **C228** (the part that holds): an image is enlarged around its central pixel: the pixel which is `f` times farther from the center than a position has the value at this position. Those which come from the outside of the image,
or from its last row or column, have the default value. -/
theorem C228_scale_partial {v : Img K} (h : (asMap v).Good) (f d : K) (hf : f ≠ 0) (py px : Nat → K) (hy : ∀ y < v.nx, (y : K) - ((v.nx / 2 : Nat) : K) = f * (py y - ((v.nx / 2 : Nat) : K)))
    (hx : ∀ x < v.ny, (x : K) - ((v.ny / 2 : Nat) : K) = f * (px x - ((v.ny / 2 : Nat) : K))) (ry : ∀ y < v.nx, InRange (py y)) (rx : ∀ x < v.ny, InRange (px x)) :
    ∃ w, scale v f d = .ok w ∧ w.WF ∧ w.nx = v.nx ∧ w.ny = v.ny ∧ ∀ y x, y < v.nx → x < v.ny →
      ∃ a, w.at y x = some a ∧ if Inside v (py y) (px x) then bilinear (asMap v) (py y) (px x) = .ok a else a = d := by
  have ey : ∀ y < v.nx, shrink f v.nx y = py y := fun y h => by
    unfold shrink off; rw [hy y h, mul_div_cancel_left₀ _ hf]; ring
  have ex : ∀ x < v.ny, shrink f v.ny x = px x := fun x h => by
    unfold shrink off; rw [hx x h, mul_div_cancel_left₀ _ hf]; ring
  obtain ⟨w, w1, w2, w3, w4, w5⟩ := bilinear_rule h (py := fun y _ => shrink f v.nx y) (px := fun _ x => shrink f v.ny x) d
    (fun y x hy hx => by rw [ey y hy]; exact ry y hy) (fun y x hy hx => by rw [ex x hx]; exact rx x hx)
  refine ⟨w, by unfold scale; rw [if_neg (fun hc => hf hc.1)]; exact w1, w2, w3, w4, fun y x hy hx => ?_⟩
  have := w5 y x hy hx
  simp only [ey y hy, ex x hx] at this
  exact this

/-- **C228**: reducing the image by a whole number keeps one pixel out of this number. -/
theorem C228_reduce_partial {v : Img K} (h : (asMap v).Good) (k : Nat) (hk : 0 < k) (hs : k * v.nx < 2 ^ 62 ∧ k * v.ny < 2 ^ 62) (d : K) :
    ∃ w, scale v (1 / (k : K)) d = .ok w ∧ w.nx = v.nx ∧ w.ny = v.ny ∧ ∀ i j y x : Nat, i + 1 < v.nx → j + 1 < v.ny → y < v.nx → x < v.ny →
      (i : Int) - (v.nx / 2 : Nat) = k * ((y : Int) - (v.nx / 2 : Nat)) → (j : Int) - (v.ny / 2 : Nat) = k * ((x : Int) - (v.ny / 2 : Nat)) → w.at y x = v.at i j := by
  have hk0 : (k : K) ≠ 0 := Nat.cast_ne_zero.2 (by omega)
  have es : ∀ n i : Nat, shrink (1 / (k : K)) n i = (((k : Int) * ((i : Int) - (n / 2 : Nat)) + (n / 2 : Nat) : Int) : K) := fun n i => by
    unfold shrink; rw [off_int, div_div_eq_mul_div, div_one]; simp only [Int.cast_sub, Int.cast_add, Int.cast_mul, Int.cast_natCast, Int.cast_ofNat]; ring
  have bd : ∀ n i : Nat, i < n → k * n < 2 ^ 62 → -(2 ^ 63) ≤ (k : Int) * ((i : Int) - (n / 2 : Nat)) + (n / 2 : Nat) ∧ (k : Int) * ((i : Int) - (n / 2 : Nat)) + (n / 2 : Nat) < 2 ^ 63 := by
    intro n i hi hn
    have hn' : (k : Int) * n < 2 ^ 62 := by exact_mod_cast hn
    have h1 : (k : Int) * ((i : Int) - (n / 2 : Nat)) ≤ k * n := mul_le_mul_of_nonneg_left (by omega) (by omega)
    have h2 : (k : Int) * (-(n : Int)) ≤ (k : Int) * ((i : Int) - (n / 2 : Nat)) := mul_le_mul_of_nonneg_left (by omega) (by omega)
    have h3 : (n : Int) ≤ k * n := le_mul_of_one_le_left (by omega) (by omega)
    rw [mul_neg] at h2
    generalize (k : Int) * ((i : Int) - (n / 2 : Nat)) = u at *
    generalize (k : Int) * n = w at *
    omega
  obtain ⟨w, w1, w2, w3, w4, w5⟩ := integer_rule h (py := fun y _ => shrink (1 / (k : K)) v.nx y) (px := fun _ x => shrink (1 / (k : K)) v.ny x) d
    (fun y _ => (k : Int) * ((y : Int) - (v.nx / 2 : Nat)) + (v.nx / 2 : Nat)) (fun _ x => (k : Int) * ((x : Int) - (v.ny / 2 : Nat)) + (v.ny / 2 : Nat))
    (fun y x _ _ => es _ _) (fun y x _ _ => es _ _) (fun y x hy hx => bd _ _ hy hs.1) (fun y x hy hx => bd _ _ hx hs.2)
  refine ⟨w, by unfold scale; rw [if_neg (fun hc => one_div_ne_zero hk0 hc.1)]; exact w1, w3, w4, fun i j y x hi hj hy hx e1 e2 => ?_⟩
  rw [w5 y x hy hx]
  simp only [← e1, ← e2]
  rw [if_pos (by omega)]
  congr 1 <;> omega

open Classical in
/-- **C228**: the central pixel stays where it is. -/
theorem C228_centre_partial {v : Img K} (h : (asMap v).Good) (h0 : 3 ≤ v.nx) (h1 : 3 ≤ v.ny) (f d : K) (hf : f ≠ 0)
    (ry : ∀ y < v.nx, InRange (((y : K) - ((v.nx / 2 : Nat) : K)) / f + ((v.nx / 2 : Nat) : K))) (rx : ∀ x < v.ny, InRange (((x : K) - ((v.ny / 2 : Nat) : K)) / f + ((v.ny / 2 : Nat) : K))) :
    ∃ w, scale v f d = .ok w ∧ w.at (v.nx / 2) (v.ny / 2) = v.at (v.nx / 2) (v.ny / 2) := by
  obtain ⟨w, w1, -, -, -, w5⟩ := C228_scale_partial h f d hf _ _ (fun y _ => by field_simp; ring) (fun x _ => by field_simp; ring) ry rx
  refine ⟨w, w1, ?_⟩
  obtain ⟨a, a1, a2⟩ := w5 (v.nx / 2) (v.ny / 2) (by omega) (by omega)
  rw [sub_self, zero_div, zero_add, sub_self, zero_div, zero_add] at a2
  have hi : Inside v ((v.nx / 2 : Nat) : K) ((v.ny / 2 : Nat) : K) :=
    ⟨⟨Nat.cast_nonneg _, Nat.cast_lt.2 (by omega)⟩, Nat.cast_nonneg _, Nat.cast_lt.2 (by omega)⟩
  rw [if_pos hi, C95_node h _ _ (by show _ < v.nx; omega) (by show _ < v.ny; omega)] at a2
  injection a2 with a2
  rw [a1, ← a2, at_get h.len (by omega) (by omega)]

/-- Finding: a factor of one is not the identity: the last row and the last column are lost; with `scale_bicubic`, three rows and three columns. -/
theorem C228_one_refuted {v : Img K} (h : (asMap v).Good) (d : K) :
    (∃ w, scale v 1 d = .ok w ∧ ∀ y x, y < v.nx → x < v.ny → w.at y x = if y + 1 = v.nx ∨ x + 1 = v.ny then some d else v.at y x) ∧
    ∃ w, scaleCubic v 1 d = .ok w ∧ ∀ y x, y < v.nx → x < v.ny → w.at y x = if y = 0 ∨ v.nx ≤ y + 2 ∨ x = 0 ∨ v.ny ≤ x + 2 then some d else v.at y x := by
  have hs := good_sum h
  have es : ∀ n i : Nat, shrink (1 : K) n i = ((i : Int) : K) := fun n i => by unfold shrink off; rw [Int.cast_natCast]; ring
  constructor
  · obtain ⟨w, w1, w2, w3, w4, w5⟩ := integer_rule h (py := fun y _ => shrink (1 : K) v.nx y) (px := fun _ x => shrink (1 : K) v.ny x) d (fun y _ => (y : Int)) (fun _ x => (x : Int))
      (fun y x _ _ => es _ _) (fun y x _ _ => es _ _) (fun y x hy hx => by omega) (fun y x hy hx => by omega)
    refine ⟨w, by unfold scale; rw [if_neg (fun hc => one_ne_zero hc.1)]; exact w1, fun y x hy hx => ?_⟩
    rw [w5 y x hy hx]
    by_cases hc : y + 1 = v.nx ∨ x + 1 = v.ny
    · rw [if_pos hc, if_neg (by omega)]
    · rw [if_neg hc, if_pos (by omega), Int.toNat_natCast, Int.toNat_natCast]
  · obtain ⟨w, w1, w2, w3, w4, w5⟩ := integer_cubic h (py := fun y _ => shrink (1 : K) v.nx y) (px := fun _ x => shrink (1 : K) v.ny x) d (fun y _ => (y : Int)) (fun _ x => (x : Int))
      (fun y x _ _ => es _ _) (fun y x _ _ => es _ _) (fun y x hy hx => by omega) (fun y x hy hx => by omega)
    refine ⟨w, by unfold scaleCubic; rw [if_neg (fun hc => one_ne_zero hc.1)]; exact w1, fun y x hy hx => ?_⟩
    rw [w5 y x hy hx]
    by_cases hc : y = 0 ∨ v.nx ≤ y + 2 ∨ x = 0 ∨ v.ny ≤ x + 2
    · rw [if_pos hc, if_neg (by omega)]
    · rw [if_neg hc, if_pos (by omega), Int.toNat_natCast, Int.toNat_natCast]

omit [IsStrictOrderedRing K] in
/-- Finding: a factor of zero is not rejected. -/
theorem C228_zero_refuted (v : Img K) (h0 : 0 < v.nx) (h1 : 0 < v.ny) (d : K) : scale v 0 d = .ub ∧ scaleCubic v 0 d = .ub :=
  ⟨if_pos ⟨rfl, h0, h1⟩, if_pos ⟨rfl, h0, h1⟩⟩

/-- an image of three by three pixels, for the hypotheses above -/
example : (asMap (⟨3, 3, [1, 2, 3, 4, 5, 6, 7, 8, 9]⟩ : Img ℚ)).Good := ⟨rfl, by decide, by decide, by decide⟩
example : (asMap (⟨3, 3, [1, 2, 3, 4, 5, 6, 7, 8, 9]⟩ : Img ℝ)).Good := ⟨rfl, by show 3 * 3 < _; norm_num, by show 2 ≤ 3; norm_num, by show 2 ≤ 3; norm_num⟩

/-- a quarter of a turn (the rows are written from the first one): the pixel `(1,0)`, on the left of the center, is then below it at `(0,1)`, and the first and the last columns are lost -/
example : rotateBy (⟨3, 3, [1, 2, 3, 4, 5, 6, 7, 8, 9]⟩ : Img ℚ) 0 1 0 = .ok ⟨3, 3, [0, 4, 1, 0, 5, 2, 0, 0, 0]⟩ := by decide +kernel
/-- an enlargement by two -/
example : scale (⟨3, 3, [1, 2, 3, 4, 5, 6, 7, 8, 9]⟩ : Img ℚ) 2 0 = .ok ⟨3, 3, [3, 7 / 2, 4, 9 / 2, 5, 11 / 2, 6, 13 / 2, 7]⟩ := by decide +kernel

end Verif.Rotate
