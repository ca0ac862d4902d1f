import Verif.Astro.MakePsf
import Verif.Astro.RegionProps
import Verif.Astro.FilterProps
import Verif.Math.BilinearProps
import Verif.Math.OrderProps
import Verif.Str.SplitProps
import Verif.Str.TrimProps
/-!
# C158, C159: translation of images and images of point sources
-/
namespace Verif.Psf
open Verif Verif.Astro Verif.Bil

variable {K : Type} [Field K] [LinearOrder K] [FloorRing K]

/-! ### C158 -/

/-- the image as the map of `Verif.Bil` -/
def asMap (v : Img K) : Map K := ⟨v.px, v.nx, v.ny⟩

omit [LinearOrder K] [FloorRing K] in
theorem at_get {v : Img K} (hv : v.WF) {x y : Nat} (hx : x < v.nx) (hy : y < v.ny) : v.at x y = some ((asMap v).get x y) := by
  have h : x * v.ny + y < v.px.length := by rw [hv]; exact flat_lt hx hy
  unfold Img.at Map.get asMap
  rw [if_pos ⟨hx, hy⟩, List.getElem?_eq_getElem h, List.getD_eq_getElem?_getD, List.getElem?_eq_getElem h, Option.getD_some]

theorem translate_rule {v : Img K} {dx dy d : K} (val : Nat → Nat → K)
    (h : ∀ x y, x < v.nx → y < v.ny → bilinearStrict (asMap v) ((x : K) - dx) ((y : K) - dy) d = .ok (val x y)) :
    ∃ w, translate v dx dy d = .ok w ∧ w.WF ∧ w.nx = v.nx ∧ w.ny = v.ny ∧ ∀ x y, x < v.nx → y < v.ny → w.at x y = some (val x y) := by
  obtain ⟨s, s1, s2, s3, s4, s5, -⟩ := for2_write (nx := v.nx) (ny := v.ny) (body := fun x y r => do
      let a ← bilinearStrict ⟨v.px, v.nx, v.ny⟩ ((x : K) - dx) ((y : K) - dy) d
      r.put x y a)
    (fun x => x) (fun y => y) val (Img.fill v.nx v.ny 0) (fill_wf _ _ _) (fun x hx => hx) (fun y hy => hy) (fun _ _ _ _ h => h)
    (fun _ _ _ _ h => h) (fun x y s hx hy _ _ _ => by
      have := h x y hx hy
      unfold asMap at this
      rw [this]; rfl)
  exact ⟨s, s1, s2, s3, s4, s5⟩

variable [IsStrictOrderedRing K]

/-- `translate`: each pixel has the interpolated value at its position minus the shift, if this is inside of the image and not on or beyond the last row or column; otherwise it has the default value. -/
theorem C158_translate_partial {v : Img K} (h : (asMap v).Good) (dx dy d : K) (hx : ∀ x : Nat, x < v.nx → InRange ((x : K) - dx)) (hy : ∀ y : Nat, y < v.ny → InRange ((y : K) - dy)) :
    ∃ w, translate v dx dy d = .ok w ∧ w.WF ∧ w.nx = v.nx ∧ w.ny = v.ny ∧ ∀ x y, x < v.nx → y < v.ny → ∃ a, w.at x y = some a ∧
      if (0 ≤ (x : K) - dx ∧ (x : K) - dx < ((v.nx - 1 : Nat) : K)) ∧ (0 ≤ (y : K) - dy ∧ (y : K) - dy < ((v.ny - 1 : Nat) : K))
      then bilinear (asMap v) ((x : K) - dx) ((y : K) - dy) = .ok a else a = d := by
  have key : ∀ x y : Nat, ∃ a, x < v.nx → y < v.ny → bilinearStrict (asMap v) ((x : K) - dx) ((y : K) - dy) d = .ok a ∧
      if (0 ≤ (x : K) - dx ∧ (x : K) - dx < ((v.nx - 1 : Nat) : K)) ∧ (0 ≤ (y : K) - dy ∧ (y : K) - dy < ((v.ny - 1 : Nat) : K))
      then bilinear (asMap v) ((x : K) - dx) ((y : K) - dy) = .ok a else a = d := by
    intro x y
    by_cases hxy : x < v.nx ∧ y < v.ny
    · have e := C95_strict h (hx x hxy.1) (hy y hxy.2) d
      have e1 : (asMap v).d0 = v.nx := rfl
      have e2 : (asMap v).d1 = v.ny := rfl
      rw [e1, e2] at e
      by_cases hc : (0 ≤ (x : K) - dx ∧ (x : K) - dx < ((v.nx - 1 : Nat) : K)) ∧ (0 ≤ (y : K) - dy ∧ (y : K) - dy < ((v.ny - 1 : Nat) : K))
      · rw [if_pos hc] at e
        obtain ⟨a, ha⟩ : ∃ a, bilinear (asMap v) ((x : K) - dx) ((y : K) - dy) = .ok a := ⟨_, bilinear_ramps h (hx x hxy.1) (hy y hxy.2)⟩
        exact ⟨a, fun _ _ => ⟨by rw [e, ha], by rw [if_pos hc, ha]⟩⟩
      · rw [if_neg hc] at e
        exact ⟨d, fun _ _ => ⟨e, by rw [if_neg hc]⟩⟩
    · exact ⟨d, fun h1 h2 => absurd ⟨h1, h2⟩ hxy⟩
  choose val hval using key
  obtain ⟨w, w1, w2, w3, w4, w5⟩ := translate_rule (v := v) (dx := dx) (dy := dy) (d := d) val fun x y hx hy => (hval x y hx hy).1
  exact ⟨w, w1, w2, w3, w4, fun x y hx hy => ⟨_, w5 x y hx hy, (hval x y hx hy).2⟩⟩

theorem inRange_int {n : Int} (h : -(2 ^ 63) ≤ n ∧ n < 2 ^ 63) : InRange ((n : Int) : K) := by
  unfold InRange
  rw [Int.floor_intCast]
  exact h

/-- For a shift by integers, pixels move by this shift; those that come from the last row or column, or from the outside, have the default value. -/
theorem C158_integer_partial {v : Img K} (h : (asMap v).Good) (a b : Int) (d : K) (ha : -2 ^ 62 < a ∧ a < 2 ^ 62) (hb : -2 ^ 62 < b ∧ b < 2 ^ 62) (hs : v.nx < 2 ^ 62 ∧ v.ny < 2 ^ 62) :
    ∃ w, translate v (a : K) (b : K) d = .ok w ∧ w.WF ∧ w.nx = v.nx ∧ w.ny = v.ny ∧ ∀ x y, x < v.nx → y < v.ny → w.at x y =
      if 0 ≤ (x : Int) - a ∧ (x : Int) - a < (v.nx : Int) - 1 ∧ 0 ≤ (y : Int) - b ∧ (y : Int) - b < (v.ny : Int) - 1
      then v.at ((x : Int) - a).toNat ((y : Int) - b).toNat else some d := by
  have hcast : ∀ (n : Nat) (c : Int), (n : K) - (c : K) = (((n : Int) - c : Int) : K) := fun n c => by push_cast; ring
  have h1 : 2 ≤ v.nx := h.h0
  have h2 : 2 ≤ v.ny := h.h1
  obtain ⟨w, w1, w2, w3, w4, w5⟩ := C158_translate_partial h (a : K) (b : K) d (fun x hx => by rw [hcast]; exact inRange_int (by omega)) (fun y hy => by rw [hcast]; exact inRange_int (by omega))
  refine ⟨w, w1, w2, w3, w4, fun x y hx hy => ?_⟩
  obtain ⟨c, c1, c2⟩ := w5 x y hx hy
  rw [c1]
  rw [hcast, hcast] at c2
  have hn : ∀ n : Nat, 1 ≤ n → ((n - 1 : Nat) : K) = (((n : Int) - 1 : Int) : K) := fun n hn => by rw [Nat.cast_sub hn]; push_cast; ring
  rw [hn _ (by omega), hn _ (by omega), ← Int.cast_zero] at c2
  simp only [Int.cast_le, Int.cast_lt] at c2
  by_cases hc : 0 ≤ (x : Int) - a ∧ (x : Int) - a < (v.nx : Int) - 1 ∧ 0 ≤ (y : Int) - b ∧ (y : Int) - b < (v.ny : Int) - 1
  · rw [if_pos ⟨⟨hc.1, hc.2.1⟩, hc.2.2.1, hc.2.2.2⟩] at c2
    rw [if_pos hc]
    obtain ⟨i, hi⟩ : ∃ i : Nat, (x : Int) - a = i := ⟨((x : Int) - a).toNat, by omega⟩
    obtain ⟨j, hj⟩ : ∃ j : Nat, (y : Int) - b = j := ⟨((y : Int) - b).toNat, by omega⟩
    rw [hi, hj] at c2 ⊢
    rw [Int.toNat_natCast, Int.toNat_natCast]
    have e := C95_node h i j (show i < v.nx by omega) (show j < v.ny by omega)
    rw [Int.cast_natCast, Int.cast_natCast, e] at c2
    rw [at_get h.len (by omega) (by omega), ← Res.ok.inj c2]
  · rw [if_neg (by tauto)] at c2
    rw [if_neg hc, c2]

/-- A shift by zero changes the image: its last row and last column have the default value. -/
theorem C158_zero_refuted {v : Img K} (h : (asMap v).Good) (d : K) (hs : v.nx < 2 ^ 62 ∧ v.ny < 2 ^ 62) (x y : Nat) (hx : x < v.nx) (hy : y < v.ny) (hl : x + 1 = v.nx ∨ y + 1 = v.ny) :
    ∃ w, translate v 0 0 d = .ok w ∧ w.at x y = some d := by
  obtain ⟨w, w1, w2, w3, w4, w5⟩ := C158_integer_partial h 0 0 d (by norm_num) (by norm_num) hs
  rw [Int.cast_zero] at w1
  refine ⟨w, w1, ?_⟩
  rw [w5 x y hx hy, if_neg (by omega)]

/-- An image of one row or one column disappears, whatever the shift. -/
theorem C158_line_refuted {v : Img K} (hv : v.nx = 1 ∨ v.ny = 1) (hs : v.nx < 2 ^ 62 ∧ v.ny < 2 ^ 62) (dx dy d : K) (hx : ∀ x : Nat, x < v.nx → InRange ((x : K) - dx)) (hy : ∀ y : Nat, y < v.ny → InRange ((y : K) - dy)) :
    ∃ w, translate v dx dy d = .ok w ∧ ∀ x y, x < v.nx → y < v.ny → w.at x y = some d := by
  obtain ⟨w, w1, w2, w3, w4, w5⟩ := translate_rule (v := v) (dx := dx) (dy := dy) (d := d) (fun _ _ => d) (fun x y h1 h2 => by
    unfold bilinearStrict
    rw [floorInt_ok (hx x h1), Res.ok_bind, floorInt_ok (hy y h2), Res.ok_bind, if_pos]
    have e : sub64 1 1 = 0 := by decide
    rcases hv with hv | hv
    · right; left
      show sub64 v.nx 1 ≤ _
      rw [hv, e]; exact Nat.zero_le _
    · right; right; right
      show sub64 v.ny 1 ≤ _
      rw [hv, e]; exact Nat.zero_le _)
  exact ⟨w, w1, w5⟩

example : (translate (⟨3, 3, [1, 2, 3, 4, 5, 6, 7, 8, 9]⟩ : Img ℚ) 1 (1 / 2) 0) = .ok ⟨3, 3, [0, 0, 0, 0, 3 / 2, 5 / 2, 0, 9 / 2, 11 / 2]⟩ := by decide +kernel
example : translate (⟨2, 2, [1, 2, 3, 4]⟩ : Img ℚ) 0 0 0 = .ok ⟨2, 2, [1, 0, 0, 0]⟩ := by decide +kernel

/-! ### C159 -/

omit [FloorRing K] [IsStrictOrderedRing K] in
theorem imax_le (t : Img K) (m0 m1 : Nat) : halfSize t m0 m1 ≤ min (min m0 (t.nx - 1 - m0)) (min m1 (t.ny - 1 - m1)) := by
  unfold halfSize
  dsimp only
  split
  · rename_i i hi
    have := List.mem_of_find?_eq_some hi
    rw [List.mem_range'_1] at this
    omega
  · exact le_rfl

/-- The half size of the source of a file: the square around the peak is in the image; the four pixels at this distance along the axes are zero, or the square touches a border; at smaller distances they are not all zero. -/
theorem C159_size (t : Img K) (m0 m1 h : Nat) (h0 : m0 < t.nx) (h1 : m1 < t.ny) (hh : h = halfSize t m0 m1) :
    (h ≤ m0 ∧ m0 + h < t.nx ∧ h ≤ m1 ∧ m1 + h < t.ny) ∧
    ((t.at (m0 - h) m1 = some 0 ∧ t.at (m0 + h) m1 = some 0 ∧ t.at m0 (m1 - h) = some 0 ∧ t.at m0 (m1 + h) = some 0) ∨ h = m0 ∨ m0 + h + 1 = t.nx ∨ h = m1 ∨ m1 + h + 1 = t.ny) ∧
    ∀ i, 0 < i → i < h → ¬ (t.at (m0 - i) m1 = some 0 ∧ t.at (m0 + i) m1 = some 0 ∧ t.at m0 (m1 - i) = some 0 ∧ t.at m0 (m1 + i) = some 0) := by
  have hle := imax_le t m0 m1
  rw [← hh] at hle
  refine ⟨by omega, ?_, ?_⟩
  · unfold halfSize at hh
    dsimp only at hh
    split at hh
    · rename_i i hi
      subst hh
      left
      have := List.find?_some hi
      unfold crossZero at this
      simpa [Bool.and_eq_true, and_assoc] using this
    · right; omega
  · intro i hi0 hih hc
    unfold halfSize at hh
    dsimp only at hh
    have hcz : crossZero t m0 m1 i = true := by
      unfold crossZero
      simp [hc]
    split at hh
    · rename_i j hj
      subst hh
      rw [List.find?_range'_eq_some] at hj
      have := hj.2.2 i (by omega) hih
      simp [hcz] at this
    · rename_i hn
      have := List.find?_eq_none.1 hn i (by rw [List.mem_range'_1]; omega)
      exact this hcz

theorem roundI_int (a : Int) : roundI (a : K) = a := by
  unfold roundI
  split
  · rw [Int.floor_eq_iff]
    constructor
    · linarith [show (0 : K) ≤ 1 / 2 by positivity]
    · have : (1 / 2 : K) < 1 := by norm_num
      linarith
  · rw [Int.ceil_eq_iff]
    constructor
    · have : (1 / 2 : K) < 1 := by norm_num
      linarith
    · linarith [show (0 : K) ≤ 1 / 2 by positivity]

/-- The source of a file around a pixel `(a, b)`: the peak of the file is at this pixel, and the other pixels are those of the file around the peak up to the half size, except for the last row and the last column; elsewhere
the result is zero. If the half size is zero, everything is zero. -/
theorem C159_file_partial (E : Env K) (nx ny : Nat) (a b : Int) (name : Str.Str) (t : Img K) (hf : E.file name = some t) (hw : t.WF) (hne : t.px ≠ []) (hs : t.nx ≤ 2 ^ 30 ∧ t.ny ≤ 2 ^ 30)
    (hd : nx * ny < 2 ^ 63) (ha : -2 ^ 61 < a ∧ a < 2 ^ 61) (hb : -2 ^ 61 < b ∧ b < 2 ^ 61) :
    ∃ m0 m1 p h w, t.at m0 m1 = some p ∧ (∀ x y q, t.at x y = some q → q ≤ p) ∧ h = halfSize t m0 m1 ∧
      filePsf E nx ny (a : K) (b : K) name = .ok w ∧ w.WF ∧ w.nx = nx ∧ w.ny = ny ∧ ∀ x y : Nat, x < nx → y < ny → w.at x y =
        if a - h ≤ x ∧ (x : Int) < a + h ∧ b - h ≤ y ∧ (y : Int) < b + h then t.at ((m0 : Int) + (x - a)).toNat ((m1 : Int) + (y - b)).toNat else some 0 := by
  obtain ⟨p, p1, ⟨p2, p3⟩, -⟩ := Math.C25_max (t.px.map some) (by simpa using hne)
  obtain ⟨c, hc⟩ : ∃ c, t.px[p.1]? = some c ∧ p.2 = some c := by
    rw [List.getElem?_map, Option.map_eq_some_iff] at p2
    obtain ⟨c, c1, c2⟩ := p2
    exact ⟨c, c1, c2.symm⟩
  have hplt : p.1 < t.nx * t.ny := by
    have := (List.getElem?_eq_some_iff.1 hc.1).1
    rw [hw] at this
    exact this
  have hny : 0 < t.ny := by
    rcases Nat.eq_zero_or_pos t.ny with h0 | h0
    · rw [h0, Nat.mul_zero] at hplt; omega
    · exact h0
  have hm0 : p.1 / t.ny < t.nx := by rw [Nat.div_lt_iff_lt_mul hny]; exact hplt
  have hm1 : p.1 % t.ny < t.ny := Nat.mod_lt _ hny
  have hat : t.at (p.1 / t.ny) (p.1 % t.ny) = some c := by
    unfold Img.at
    rw [if_pos ⟨hm0, hm1⟩, Nat.div_add_mod', hc.1]
  have hmax : ∀ x y q, t.at x y = some q → q ≤ c := by
    intro x y q hq
    unfold Img.at at hq
    split at hq
    · obtain ⟨c', e1, e2⟩ := p3 q (List.mem_map.2 ⟨q, List.mem_iff_getElem?.2 ⟨_, hq⟩, rfl⟩)
      rw [hc.2, Option.some.injEq] at e1
      rw [e1]; exact e2
    · simp at hq
  obtain ⟨⟨s1, s2, s3, s4⟩, -, -⟩ := C159_size t (p.1 / t.ny) (p.1 % t.ny) _ hm0 hm1 rfl
  refine ⟨p.1 / t.ny, p.1 % t.ny, c, halfSize t (p.1 / t.ny) (p.1 % t.ny), ?_⟩
  unfold filePsf
  rw [hf]
  dsimp only
  rw [p1, Res.ok_bind]
  generalize hh : halfSize t (p.1 / t.ny) (p.1 % t.ny) = h at s1 s2 s3 s4 ⊢
  generalize p.1 / t.ny = m0 at hm0 hat s1 s2 hh ⊢
  generalize p.1 % t.ny = m1 at hm1 hat s3 s4 hh ⊢
  have hsq : ∀ (u v : Int), (u + h - (u - h) + 1) * (v + h - (v - h) + 1) < 2 ^ 63 := by
    intro u v
    have e : (u + h - (u - h) + 1) * (v + h - (v - h) + 1) = (((2 * h + 1) * (2 * h + 1) : Nat) : Int) := by push_cast; ring
    rw [e]
    have : (2 * h + 1) * (2 * h + 1) ≤ 2 ^ 31 * 2 ^ 31 := Nat.mul_le_mul (by omega) (by omega)
    omega
  have hts : t.nx * t.ny ≤ 2 ^ 30 * 2 ^ 30 := Nat.mul_le_mul hs.1 hs.2
  obtain ⟨u, u1, u2, u3, u4, u5⟩ := C64_image_partial t ((m0 : Int) - h) ((m1 : Int) - h) ((m0 : Int) + h) ((m1 : Int) + h) (0 : K) hw
    ⟨by omega, by omega, by omega, by omega, by omega, hsq _ _⟩ (by omega) (by omega)
  rw [u1, Res.ok_bind, roundI_int, roundI_int, sub_self, sub_self]
  have un : u.nx = 2 * h + 1 := by omega
  have um : u.ny = 2 * h + 1 := by omega
  obtain ⟨v, v1, v2, v3, v4, v5⟩ : ∃ v, translate u 0 0 0 = .ok v ∧ v.WF ∧ v.nx = 2 * h + 1 ∧ v.ny = 2 * h + 1 ∧ ∀ x y, x < 2 * h + 1 → y < 2 * h + 1 → v.at x y =
      if x < 2 * h ∧ y < 2 * h then t.at (m0 - h + x) (m1 - h + y) else some 0 := by
    by_cases h0 : h = 0
    · subst h0
      obtain ⟨v, v1, v2, v3, v4, v5⟩ := translate_rule (v := u) (dx := 0) (dy := 0) (d := 0) (fun _ _ => (0 : K)) (fun x y h1 h2 => by
        unfold bilinearStrict
        have hx : InRange ((x : K) - 0) := by rw [sub_zero]; exact inRange_nat (by omega)
        have hy : InRange ((y : K) - 0) := by rw [sub_zero]; exact inRange_nat (by omega)
        rw [floorInt_ok hx, Res.ok_bind, floorInt_ok hy, Res.ok_bind, if_pos]
        right; left
        show sub64 u.nx 1 ≤ _
        rw [un, show sub64 (2 * 0 + 1) 1 = 0 by decide]; exact Nat.zero_le _)
      refine ⟨v, v1, v2, by omega, by omega, fun x y hx hy => ?_⟩
      rw [v5 x y (by omega) (by omega), if_neg (by omega)]
    · have hg : (asMap u).Good := ⟨u2, by
          show u.nx * u.ny < 2 ^ 63
          rw [un, um]
          have : (2 * h + 1) * (2 * h + 1) ≤ 2 ^ 31 * 2 ^ 31 := Nat.mul_le_mul (by omega) (by omega)
          omega, by show 2 ≤ u.nx; omega, by show 2 ≤ u.ny; omega⟩
      obtain ⟨v, v1, v2, v3, v4, v5⟩ := C158_integer_partial hg 0 0 0 (by norm_num) (by norm_num) ⟨by omega, by omega⟩
      rw [Int.cast_zero] at v1
      refine ⟨v, v1, v2, by omega, by omega, fun x y hx hy => ?_⟩
      rw [v5 x y (by omega) (by omega)]
      by_cases hcc : x < 2 * h ∧ y < 2 * h
      · rw [if_pos hcc, if_pos (by omega), u5 _ _ (by omega) (by omega), if_pos (by omega)]
        congr 1 <;> omega
      · rw [if_neg hcc, if_neg (by omega)]
  rw [v1, Res.ok_bind]
  obtain ⟨rv, rr, g1, g2, g3, g4, g5⟩ := subregion_spec nx ny (a - h) (b - h) (a + h) (b + h) ⟨by omega, by omega, by omega, by omega, hd, hsq _ _⟩
  rw [g1, Res.ok_bind]
  have hfl : (Img.fill nx ny (0 : K)).px.length = nx * ny := by simp [Img.fill]
  obtain ⟨px, k1, k2, k3, k4⟩ := copyIds_spec v.px (rv.zip rr) (Img.fill nx ny (0 : K)).px (fun q hq => by
    have := C64_bounds _ _ _ _ _ _ _ ((g4 q).1 hq)
    refine ⟨by rw [hfl]; exact this.1, ?_⟩
    have e : (a + h - (a - h) + 1) * (b + h - (b - h) + 1) = ((v.nx * v.ny : Nat) : Int) := by rw [v3, v4]; push_cast; ring
    rw [e] at this
    rw [v2]
    exact_mod_cast this.2) (g5.imp fun hlt => Nat.ne_of_lt hlt)
  dsimp only
  rw [k1, Res.ok_bind]
  refine ⟨⟨nx, ny, px⟩, hat, hmax, rfl, rfl, by unfold Img.WF; dsimp only; rw [k2, hfl], rfl, rfl, fun x y hx hy => ?_⟩
  have e1 : (⟨nx, ny, px⟩ : Img K).at x y = px[x * ny + y]? := if_pos ⟨hx, hy⟩
  rw [e1]
  by_cases hin : a - h ≤ x ∧ (x : Int) ≤ a + h ∧ b - h ≤ y ∧ (y : Int) ≤ b + h
  · obtain ⟨i, hi⟩ : ∃ i : Nat, (i : Int) = (x : Int) - (a - h) := ⟨((x : Int) - (a - h)).toNat, by omega⟩
    obtain ⟨j, hj⟩ : ∃ j : Nat, (j : Int) = (y : Int) - (b - h) := ⟨((y : Int) - (b - h)).toNat, by omega⟩
    have hmem : (x * ny + y, i * (2 * h + 1) + j) ∈ rv.zip rr := by
      rw [g4]
      refine ⟨x, y, hx, hy, hin.1, hin.2.1, hin.2.2.1, hin.2.2.2, rfl, ?_⟩
      rw [← hi, ← hj]
      push_cast
      ring
    have e2 := k3 _ hmem
    dsimp only at e2
    have e3 := v5 i j (by omega) (by omega)
    have e4 : v.at i j = v.px[i * v.ny + j]? := if_pos ⟨by omega, by omega⟩
    rw [e4, v4] at e3
    rw [e2, e3]
    by_cases hcc : i < 2 * h ∧ j < 2 * h
    · rw [if_pos hcc, if_pos (by omega)]
      congr 1 <;> omega
    · rw [if_neg hcc, if_neg (by omega)]
  · rw [if_neg (by omega), k4 _ fun q hq he => by
      obtain ⟨x', y', h1, h2, h3, h4, h5, h6, h7, -⟩ := (g4 q).1 hq
      have := flat_inj h2 hy (h7.symm.trans he)
      omega]
    simp [Img.fill, flat_lt hx hy]

/-- Spec: `ps` are the parts of the string between commas, without the blanks around them. -/
def Params (model : Str.Str) (ps : List Str.Str) : Prop :=
  ∃ v : List Str.Str, v ≠ [] ∧ (∀ x ∈ v, ',' ∉ x) ∧ model = Str.collapseSep v [','] ∧ List.Forall₂ (Str.IsTrim Str.blanks) v ps

omit [FloorRing K] [IsStrictOrderedRing K] [LinearOrder K] [Field K] in
theorem params_ok {model : Str.Str} {ps : List Str.Str} (h : Params model ps) :
    ∃ v, Str.split model [','] = .ok v ∧ v.mapM (fun s => Str.trim s Str.blanks) = .ok ps ∧ ps ≠ [] := by
  obtain ⟨v, h1, h2, h3, h4⟩ := h
  refine ⟨v, by rw [h3]; exact Str.C34_split_collapse v ',' h1 h2, ?_, ?_⟩
  · clear h1 h2 h3
    induction h4 with
    | nil => rfl
    | cons h _ ih =>
      obtain ⟨m, m1, m2⟩ := Str.C36_trim _ Str.blanks
      rw [List.mapM_cons, m1, Res.ok_bind, ih, Res.ok_bind, Str.isTrim_unique m2 h]
      rfl
  · rintro rfl
    cases h4
    exact h1 rfl

omit [FloorRing K] [IsStrictOrderedRing K] [LinearOrder K] [Field K] in
theorem param_ok {ps : List Str.Str} {i : Nat} {s : Str.Str} (h : ps[i]? = some s) : param ps i = .ok s := by
  obtain ⟨h1, h2⟩ := List.getElem?_eq_some_iff.1 h
  unfold param
  rw [Res.check_pos h1, Res.ok_bind, Res.rd_lt h1, h2]

omit [IsStrictOrderedRing K] in
/-- The model "gaussian, amplitude, width": each pixel is the amplitude times the exponential of minus half the square of its distance in units of the width. More parameters are ignored. -/
theorem C159_gaussian (E : Env K) (nx ny : Nat) (x0 y0 : K) (model amp width : Str.Str) (more : List Str.Str) (h : Params model ("gaussian".toList :: amp :: width :: more)) (h1 : amp ≠ []) (h2 : width ≠ []) :
    ∃ w, makePsf E nx ny x0 y0 model = .ok (some w) ∧ w.WF ∧ w.nx = nx ∧ w.ny = ny ∧ ∀ x y : Nat, x < nx → y < ny →
      w.at x y = some ((E.read amp).2 * E.exp (-(((x : K) - x0) ^ 2 + ((y : K) - y0) ^ 2) / (2 * (E.read width).2 ^ 2))) := by
  obtain ⟨v, v1, v2, -⟩ := params_ok h
  obtain ⟨w, w1, w2, w3, w4, w5⟩ := C88_generate nx ny (fun x y : Nat => (E.read amp).2 * E.exp (-(((x : K) - x0) ^ 2 + ((y : K) - y0) ^ 2) / (2 * (E.read width).2 ^ 2))) 0
  refine ⟨w, ?_, w2, w3, w4, w5⟩
  unfold makePsf number
  rw [v1, Res.ok_bind, v2, Res.ok_bind, param_ok rfl, Res.ok_bind, if_pos rfl, if_neg (by simp), param_ok rfl, Res.ok_bind, if_neg h1, Res.ok_bind, param_ok rfl, Res.ok_bind, if_neg h2, Res.ok_bind, w1, Res.ok_bind]

omit [IsStrictOrderedRing K] in
/-- The model "gaussring, amplitude, width, distance, fraction, ring width": the same plus a ring. -/
theorem C159_ring (E : Env K) (nx ny : Nat) (x0 y0 : K) (model amp width rpos rfrac rwidth : Str.Str) (more : List Str.Str) (h : Params model ("gaussring".toList :: amp :: width :: rpos :: rfrac :: rwidth :: more))
    (hne : ∀ s ∈ [amp, width, rpos, rfrac, rwidth], s ≠ []) :
    ∃ w, makePsf E nx ny x0 y0 model = .ok (some w) ∧ w.WF ∧ w.nx = nx ∧ w.ny = ny ∧ ∀ x y : Nat, x < nx → y < ny →
      w.at x y = some ((E.read amp).2 * (E.exp (-(((x : K) - x0) ^ 2 + ((y : K) - y0) ^ 2) / (2 * (E.read width).2 ^ 2)) +
        (E.read rfrac).2 * E.exp (-(E.sqrt (((x : K) - x0) ^ 2 + ((y : K) - y0) ^ 2) - (E.read rpos).2) ^ 2 / (2 * (E.read rwidth).2 ^ 2)))) := by
  obtain ⟨v, v1, v2, -⟩ := params_ok h
  obtain ⟨w, w1, w2, w3, w4, w5⟩ := C88_generate nx ny (fun x y : Nat =>
    let r2 := ((x : K) - x0) ^ 2 + ((y : K) - y0) ^ 2
    (E.read amp).2 * (E.exp (-r2 / (2 * (E.read width).2 ^ 2)) +
        (E.read rfrac).2 * E.exp (-(E.sqrt r2 - (E.read rpos).2) ^ 2 / (2 * (E.read rwidth).2 ^ 2)))) 0
  refine ⟨w, ?_, w2, w3, w4, w5⟩
  unfold makePsf number
  rw [v1, Res.ok_bind, v2, Res.ok_bind, param_ok rfl, Res.ok_bind, if_neg (by decide), if_pos rfl, if_neg (by simp), param_ok rfl, Res.ok_bind, if_neg (hne _ (by simp)), Res.ok_bind,
    param_ok rfl, Res.ok_bind, if_neg (hne _ (by simp)), Res.ok_bind, param_ok rfl, Res.ok_bind, if_neg (hne _ (by simp)), Res.ok_bind, param_ok rfl, Res.ok_bind, if_neg (hne _ (by simp)), Res.ok_bind,
    param_ok rfl, Res.ok_bind, if_neg (hne _ (by simp)), Res.ok_bind, w1, Res.ok_bind]

omit [IsStrictOrderedRing K] in
/-- Other models, and models with too few parameters, are refused. -/
theorem C159_refused (E : Env K) (nx ny : Nat) (x0 y0 : K) (model kind : Str.Str) (ps : List Str.Str) (h : Params model (kind :: ps))
    (hk : ∀ n, (kind, n) ∈ [("gaussian".toList, 2), ("gaussring".toList, 5), ("file".toList, 1)] → ps.length < n) : makePsf E nx ny x0 y0 model = .ok none := by
  obtain ⟨v, v1, v2, -⟩ := params_ok h
  unfold makePsf
  rw [v1, Res.ok_bind, v2, Res.ok_bind, param_ok rfl, Res.ok_bind]
  by_cases k1 : kind = "gaussian".toList
  · rw [if_pos k1, if_pos (by have := hk 2 (by simp [k1]); rw [List.length_cons]; omega)]
  rw [if_neg k1]
  by_cases k2 : kind = "gaussring".toList
  · rw [if_pos k2, if_pos (by have := hk 5 (by simp [k2]); rw [List.length_cons]; omega)]
  rw [if_neg k2]
  by_cases k3 : kind = "file".toList
  · rw [if_pos k3, if_pos (by have := hk 1 (by simp [k3]); rw [List.length_cons]; omega)]
  rw [if_neg k3]

omit [IsStrictOrderedRing K] in
/-- A parameter that is not a number is accepted (and is zero); if it is missing between two commas the number that is used has no value. -/
theorem C159_number_refuted (E : Env K) (he : E.read "abc".toList = (false, 0)) (nx ny : Nat) (x0 y0 : K) :
    (∃ w, makePsf E nx ny x0 y0 "gaussian, abc, 2".toList = .ok (some w) ∧ ∀ x y, x < nx → y < ny → w.at x y = some 0) ∧
    makePsf E nx ny x0 y0 "gaussian,,2".toList = .ub := by
  have t : ∀ s m : Str.Str, Str.trim s Str.blanks = .ok m → Str.IsTrim Str.blanks s m := fun s m h => by
    obtain ⟨m', h1, h2⟩ := Str.C36_trim s Str.blanks
    rw [h, Res.ok.injEq] at h1
    rw [h1]; exact h2
  constructor
  · obtain ⟨w, w1, w2, w3, w4, w5⟩ := C159_gaussian E nx ny x0 y0 "gaussian, abc, 2".toList "abc".toList "2".toList []
      ⟨["gaussian".toList, " abc".toList, " 2".toList], by simp, by decide, by decide,
        .cons (t _ _ (by decide)) (.cons (t _ _ (by decide)) (.cons (t _ _ (by decide)) .nil))⟩ (by decide) (by decide)
    refine ⟨w, w1, fun x y hx hy => ?_⟩
    rw [w5 x y hx hy, he, zero_mul]
  · obtain ⟨v, v1, v2, -⟩ := params_ok (model := "gaussian,,2".toList) (ps := ["gaussian".toList, [], "2".toList])
      ⟨["gaussian".toList, [], "2".toList], by simp, by decide, by decide,
        .cons (t _ _ (by decide)) (.cons (t _ _ (by decide)) (.cons (t _ _ (by decide)) .nil))⟩
    unfold makePsf number
    rw [v1, Res.ok_bind, v2, Res.ok_bind, param_ok rfl, Res.ok_bind, if_pos rfl, if_neg (by simp), param_ok rfl, Res.ok_bind, if_pos rfl]
    rfl

/-- a source of three by three pixels in an image of five by five: its last row and column are lost -/
theorem C159_last_refuted : filePsf (⟨fun _ => (false, 0), fun _ => some ⟨3, 3, [1, 1, 1, 1, 2, 1, 1, 1, 1]⟩, fun x => x, fun x => x⟩ : Env ℚ) 5 5 2 2 [] =
    .ok ⟨5, 5, [0, 0, 0, 0, 0, 0, 1, 1, 0, 0, 0, 1, 2, 0, 0, 0, 0, 0, 0, 0, 0, 0, 0, 0, 0]⟩ ∧
    filePsf (⟨fun _ => (false, 0), fun _ => some ⟨1, 1, [1]⟩, fun x => x, fun x => x⟩ : Env ℚ) 3 3 1 1 [] = .ok (Img.fill 3 3 0) := by decide +kernel

end Verif.Psf
