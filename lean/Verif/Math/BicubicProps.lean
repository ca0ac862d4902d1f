import Verif.Math.BilinearProps
import Mathlib.Analysis.Calculus.Deriv.Basic
import Mathlib.Analysis.Calculus.Deriv.Add
import Mathlib.Analysis.Calculus.Deriv.Mul
import Mathlib.Analysis.Calculus.Deriv.Pow
import Mathlib.Tactic.IntervalCases
/-!
# Property C96 (bicubic interpolation of an image)
-/
namespace Verif.Bil
open Verif Verif.Math

section
variable {K : Type} [Field K] [LinearOrder K] [FloorRing K] [IsStrictOrderedRing K]

/-- the middle piece of the natural cubic spline through four values -/
def cub (a b c d t : K) : K :=
  let p := 3 * (c - b) - 3 * (b - a)
  let q := 3 * (d - c) - 3 * (c - b)
  b + (c - b - 1 / 3 * ((4 * q - p) / 15 + 2 * ((4 * p - q) / 15))) * t + (4 * p - q) / 15 * t * t + 1 / 3 * ((4 * q - p) / 15 - (4 * p - q) / 15) * t * t * t

theorem splineReg_four (a b c d t : K) (h0 : 0 ≤ t) (h1 : t < 1) : Spline.splineReg [a, b, c, d] (t + 1) = .ok (cub a b c d t) := by
  have hf : ⌊t + 1⌋ = 1 := by
    rw [Int.floor_eq_iff]
    constructor <;> push_cast <;> linarith
  unfold Spline.splineReg
  rw [Res.check_pos (by simp), Res.ok_bind]
  simp only [hf]
  rw [if_neg (by omega), if_neg (by simp)]
  congr 1
  simp only [Spline.poly, Spline.coefsReg, Spline.fn, Spline.cDown, Spline.sweepReg, cub, List.length_cons, List.length_nil]
  simp only [Nat.reduceAdd, Nat.reduceSub, Nat.reduceLT, if_true, List.getD_cons_zero, List.getD_cons_succ, Int.toNat_one, Nat.cast_one]
  simp only [Spline.cDown, Spline.sweepReg, Nat.reduceSub, Nat.reduceAdd, List.getD_cons_zero, List.getD_cons_succ]
  simp only [sub_zero, mul_zero, add_sub_cancel_right]
  have f0 : Spline.fn [a, b, c, d] 0 = a := rfl
  have f1 : Spline.fn [a, b, c, d] 1 = b := rfl
  have f2 : Spline.fn [a, b, c, d] 2 = c := rfl
  have f3 : Spline.fn [a, b, c, d] 3 = d := rfl
  norm_num [f0, f1, f2, f3]
  ring

omit [LinearOrder K] [FloorRing K] [IsStrictOrderedRing K] in
theorem cub_zero (a b c d : K) : cub a b c d 0 = b := by simp [cub]

omit [FloorRing K] in
theorem cub_one (a b c d : K) : cub a b c d 1 = c := by simp only [cub]; field_simp; ring

/-- the row `i` of the image at `y`, in the cell `j` -/
def rowAt (m : Map K) (i j : Nat) (y : K) : K :=
  cub (m.get i (j - 1)) (m.get i j) (m.get i (j + 1)) (m.get i (j + 2)) (y - (j : K))

/-- the value in the cell `(i,j)` -/
def cubAt (m : Map K) (i j : Nat) (x y : K) : K :=
  cub (rowAt m (i - 1) j y) (rowAt m i j y) (rowAt m (i + 1) j y) (rowAt m (i + 2) j y) (x - (i : K))

theorem bicubic_cell {m : Map K} (h : m.Good) (dflt : K) {x y : K} {i j : Nat} (hi0 : 1 ≤ i) (hi : i + 2 < m.d0) (hj0 : 1 ≤ j) (hj : j + 2 < m.d1)
    (hx0 : (i : K) ≤ x) (hx1 : x < (i : K) + 1) (hy0 : (j : K) ≤ y) (hy1 : y < (j : K) + 1) : bicubicStrict m x y dflt = .ok (cubAt m i j x y) := by
  have a := h.d0_lt
  have b := h.d1_lt
  have fx : ⌊x⌋ = (i : Int) := by
    rw [Int.floor_eq_iff]; exact ⟨by exact_mod_cast hx0, by exact_mod_cast hx1⟩
  have fy : ⌊y⌋ = (j : Int) := by
    rw [Int.floor_eq_iff]; exact ⟨by exact_mod_cast hy0, by exact_mod_cast hy1⟩
  unfold bicubicStrict
  rw [floorInt_ok (by unfold InRange; rw [fx]; omega), floorInt_ok (by unfold InRange; rw [fy]; omega), fx, fy, Res.ok_bind, Res.ok_bind,
    sub64_eq (by omega) (by omega) (by omega), sub64_eq (by omega) (by omega) (by omega), if_neg (by omega)]
  have hp : ∀ r, r < 4 → ((List.range 4).mapM fun c => pix m (r + (i : Int).toNat - 1) (c + (j : Int).toNat - 1)) =
      .ok [m.get (r + i - 1) (j - 1), m.get (r + i - 1) j, m.get (r + i - 1) (j + 1), m.get (r + i - 1) (j + 2)] := by
    intro r hr
    rw [Res.mapM_ok (g := fun c => m.get (r + i - 1) (c + j - 1))]
    · simp only [List.range_succ, List.range_zero, List.nil_append, List.cons_append, List.map_cons, List.map_nil]
      rw [Nat.zero_add, show 1 + j - 1 = j by omega, show 2 + j - 1 = j + 1 by omega, show 3 + j - 1 = j + 2 by omega]
    · intro c hc
      rw [List.mem_range] at hc
      simp only [Int.toNat_natCast]
      exact pix_get h.len h.small (by omega) (by omega)
  have hrows : ((List.range 4).mapM fun ix => do
      let tmpy ← (List.range 4).mapM fun iy => pix m (ix + (i : Int).toNat - 1) (iy + (j : Int).toNat - 1)
      Spline.splineReg tmpy (y - (((j : Int) : Int) : K) + 1)) = .ok [rowAt m (i - 1) j y, rowAt m i j y, rowAt m (i + 1) j y, rowAt m (i + 2) j y] := by
    rw [Res.mapM_ok (g := fun r => rowAt m (r + i - 1) j y)]
    · simp only [List.range_succ, List.range_zero, List.nil_append, List.cons_append, List.map_cons, List.map_nil]
      rw [Nat.zero_add, show 1 + i - 1 = i by omega, show 2 + i - 1 = i + 1 by omega, show 3 + i - 1 = i + 2 by omega]
    · intro r hr
      rw [List.mem_range] at hr
      rw [hp r hr, Res.ok_bind, Int.cast_natCast, splineReg_four _ _ _ _ _ (by linarith) (by linarith)]
      rfl
  rw [hrows, Res.ok_bind, Int.cast_natCast, splineReg_four _ _ _ _ _ (by linarith) (by linarith)]
  rfl

/-- Spec: the region in which `bicubic_strict` interpolates -/
def Inner (d : Nat) (x : K) : Prop := 1 ≤ x ∧ x < ((d - 2 : Nat) : K)

theorem inner_cell {d : Nat} {x : K} (h : Inner d x) : ∃ i : Nat, 1 ≤ i ∧ i + 2 < d ∧ (i : K) ≤ x ∧ x < (i : K) + 1 := by
  obtain ⟨h0, h1⟩ := h
  have f0 : (1 : Int) ≤ ⌊x⌋ := Int.le_floor.2 (by exact_mod_cast h0)
  have f1 : ⌊x⌋ < ((d - 2 : Nat) : Int) := Int.floor_lt.2 (by exact_mod_cast h1)
  obtain ⟨i, hi⟩ : ∃ i : Nat, ⌊x⌋ = i := ⟨⌊x⌋.toNat, by omega⟩
  refine ⟨i, by omega, by omega, ?_, ?_⟩
  · have := Int.floor_le x; rw [hi] at this; exact_mod_cast this
  · have := Int.lt_floor_add_one x; rw [hi] at this; exact_mod_cast this

/-- **C96**: the default value is returned exactly outside of `1 ≤ x < dims[0]-2`, `1 ≤ y < dims[1]-2`: the positions that do not have two
pixels on either side. -/
theorem C96_default {m : Map K} (h : m.Good) {x y : K} (hx : InRange x) (hy : InRange y) (hout : ¬ (Inner m.d0 x ∧ Inner m.d1 y)) (dflt : K) :
    bicubicStrict m x y dflt = .ok dflt := by
  have key : ∀ (d : Nat) (z : K), 2 ≤ d → d < 2 ^ 63 → ¬ (⌊z⌋ ≤ 0 ∨ sub64 d 2 ≤ ⌊z⌋.toNat) → Inner d z := by
    intro d z hd hd' hn
    rw [sub64_eq (by omega) (by omega) (by omega), not_or, not_le, not_le] at hn
    obtain ⟨n1, n2⟩ := hn
    constructor
    · have : (1 : Int) ≤ ⌊z⌋ := by omega
      have := Int.le_floor.1 this
      exact_mod_cast this
    · have : ⌊z⌋ < ((d - 2 : Nat) : Int) := by omega
      have := Int.floor_lt.1 this
      exact_mod_cast this
  unfold bicubicStrict
  rw [floorInt_ok hx, Res.ok_bind, floorInt_ok hy, Res.ok_bind, if_pos]
  by_contra hn
  refine hout ⟨key _ _ h.h0 h.d0_lt fun hc => hn ?_, key _ _ h.h1 h.d1_lt fun hc => hn ?_⟩
  · rcases hc with hc | hc
    · exact .inl hc
    · exact .inr (.inl hc)
  · exact .inr (.inr hc)

/-- **C96**: at a pixel with two others on either side the result is the pixel. -/
theorem C96_node {m : Map K} (h : m.Good) (i j : Nat) (hi0 : 1 ≤ i) (hi : i + 2 < m.d0) (hj0 : 1 ≤ j) (hj : j + 2 < m.d1) (dflt : K) :
    bicubicStrict m (i : K) (j : K) dflt = .ok (m.get i j) := by
  rw [bicubic_cell h dflt hi0 hi hj0 hj le_rfl (by linarith) le_rfl (by linarith)]
  simp only [cubAt, rowAt, sub_self, cub_zero]

omit [FloorRing K] in
theorem cub_affine (p q t : K) : cub (p - q) p (p + q) (p + 2 * q) t = p + q * t := by
  simp only [cub]; ring

/-- **C96**: an image that is a bilinear function of the position is reproduced. -/
theorem C96_exact {m : Map K} (h : m.Good) (a b c e : K) (hm : ∀ i j, i < m.d0 → j < m.d1 → m.get i j = a + b * i + c * j + e * i * j)
    {x y : K} (hx : Inner m.d0 x) (hy : Inner m.d1 y) (dflt : K) : bicubicStrict m x y dflt = .ok (a + b * x + c * y + e * x * y) := by
  obtain ⟨i, i0, i1, i2, i3⟩ := inner_cell hx
  obtain ⟨j, j0, j1, j2, j3⟩ := inner_cell hy
  rw [bicubic_cell h dflt i0 i1 j0 j1 i2 i3 j2 j3]
  congr 1
  have hrow : ∀ r, r < m.d0 → rowAt m r j y = a + b * r + c * y + e * r * y := by
    intro r hr
    have := cub_affine (a + b * r + c * j + e * r * j) (c + e * r) (y - (j : K))
    unfold rowAt
    rw [hm _ _ hr (by omega), hm _ _ hr (by omega), hm _ _ hr (by omega), hm _ _ hr (by omega), Nat.cast_sub j0]
    push_cast
    rw [show a + b * (r : K) + c * ((j : K) - 1) + e * r * ((j : K) - 1) = (a + b * r + c * j + e * r * j) - (c + e * r) by ring,
      show a + b * (r : K) + c * ((j : K) + 1) + e * r * ((j : K) + 1) = (a + b * r + c * j + e * r * j) + (c + e * r) by ring,
      show a + b * (r : K) + c * ((j : K) + 2) + e * r * ((j : K) + 2) = (a + b * r + c * j + e * r * j) + 2 * (c + e * r) by ring, this]
    ring
  unfold cubAt
  rw [hrow _ (by omega), hrow _ (by omega), hrow _ (by omega), hrow _ (by omega), Nat.cast_sub i0]
  push_cast
  have := cub_affine (a + b * i + c * y + e * i * y) (b + e * y) (x - (i : K))
  rw [show a + b * ((i : K) - 1) + c * y + e * ((i : K) - 1) * y = (a + b * i + c * y + e * i * y) - (b + e * y) by ring,
    show a + b * ((i : K) + 1) + c * y + e * ((i : K) + 1) * y = (a + b * i + c * y + e * i * y) + (b + e * y) by ring,
    show a + b * ((i : K) + 2) + c * y + e * ((i : K) + 2) * y = (a + b * i + c * y + e * i * y) + 2 * (b + e * y) by ring, this]
  ring

end

/-- Finding: an image of a single row is read out of bounds. -/
theorem C96_line_refuted : bicubicStrict (⟨[1, 2, 3, 4, 5], 1, 5⟩ : Map ℚ) 1 1 0 = .ub := by decide +kernel

example : bicubicStrict (⟨[0, 0, 0, 0, 0, 1, 2, 0, 0, 3, 5, 0, 0, 0, 0, 0], 4, 4⟩ : Map ℚ) (3 / 2) 1 0 = .ok (23 / 10) := by decide +kernel

/-! ### Continuity -/

/-- functions that agree where their cells meet can be put together -/
theorem glue (q : ℝ × ℝ → ℝ) (hq : Continuous q) (P : Nat → ℝ × ℝ → ℝ) (hP : ∀ k, Continuous (P k))
    (hag : ∀ (k : Nat) (p : ℝ × ℝ), q p = (k : ℝ) + 1 → P k p = P (k + 1) p) (n : Nat) :
    ∃ G : ℝ × ℝ → ℝ, Continuous G ∧ (∀ p, (n : ℝ) ≤ q p → G p = P n p) ∧ ∀ k, k ≤ n → ∀ p, (k : ℝ) ≤ q p → q p ≤ (k : ℝ) + 1 → G p = P k p := by
  induction n with
  | zero =>
    refine ⟨P 0, hP 0, fun _ _ => rfl, fun k hk p _ _ => ?_⟩
    rw [show k = 0 by omega]
  | succ n ih =>
    obtain ⟨G, hG, hlast, hmid⟩ := ih
    refine ⟨fun p => if q p ≤ (n : ℝ) + 1 then G p else P (n + 1) p, ?_, ?_, ?_⟩
    · refine Continuous.if_le hG (hP _) hq continuous_const ?_
      intro p hp
      rw [hlast p (by rw [hp]; linarith), hag n p hp]
    · intro p hp
      push_cast at hp
      simp only
      split
      · have e : q p = (n : ℝ) + 1 := le_antisymm (by assumption) hp
        rw [hlast p (by rw [e]; linarith), hag n p e]
      · rfl
    · intro k hk p h0 h1
      simp only
      by_cases hkn : k ≤ n
      · rw [if_pos, hmid k hkn p h0 h1]
        have : (k : ℝ) ≤ n := Nat.cast_le.2 hkn
        linarith
      · have : k = n + 1 := by omega
        subst this
        push_cast at h0
        split
        · have e : q p = (n : ℝ) + 1 := le_antisymm (by assumption) h0
          rw [hlast p (by rw [e]; linarith), hag n p e]
        · rfl

theorem cub_continuous {a b c d t : ℝ × ℝ → ℝ} (ha : Continuous a) (hb : Continuous b) (hc : Continuous c) (hd : Continuous d) (ht : Continuous t) :
    Continuous fun p => cub (a p) (b p) (c p) (d p) (t p) := by
  unfold cub
  fun_prop

/-- **C96**: inside its region the interpolated image is a continuous function of the position. -/
theorem C96_continuous {m : Map ℝ} (h : m.Good) (dflt : ℝ) :
    ∃ F : ℝ × ℝ → ℝ, Continuous F ∧ ∀ x y, Inner m.d0 x → Inner m.d1 y → bicubicStrict m x y dflt = .ok (F (x, y)) := by
  -- the rows
  have hrow : ∀ i, ∃ R : ℝ × ℝ → ℝ, Continuous R ∧ ∀ j, 1 ≤ j → j ≤ m.d1 → ∀ p : ℝ × ℝ, (j : ℝ) ≤ p.2 → p.2 ≤ (j : ℝ) + 1 → R p = rowAt m i j p.2 := by
    intro i
    obtain ⟨G, hG, -, hmid⟩ := glue (fun p => p.2) continuous_snd (fun k p => rowAt m i (k + 0) p.2)
      (fun k => cub_continuous continuous_const continuous_const continuous_const continuous_const (continuous_snd.sub continuous_const))
      (by
        intro k p hp
        simp only [rowAt, hp, Nat.add_zero, Nat.add_sub_cancel]
        push_cast
        rw [add_sub_cancel_left, sub_self, cub_one, cub_zero]) m.d1
    exact ⟨G, hG, fun j _ hj p h0 h1 => by rw [hmid j hj p h0 h1]; rfl⟩
  choose R hRc hR using hrow
  obtain ⟨G, hG, -, hmid⟩ := glue (fun p => p.1) continuous_fst
    (fun k p => cub (R (k - 1) p) (R k p) (R (k + 1) p) (R (k + 2) p) (p.1 - (k : ℝ)))
    (fun k => cub_continuous (hRc _) (hRc _) (hRc _) (hRc _) (continuous_fst.sub continuous_const))
    (by
      intro k p hp
      simp only [hp, Nat.add_sub_cancel]
      push_cast
      rw [add_sub_cancel_left, sub_self, cub_one, cub_zero]) m.d0
  refine ⟨G, hG, fun x y hx hy => ?_⟩
  obtain ⟨i, i0, i1, i2, i3⟩ := inner_cell hx
  obtain ⟨j, j0, j1, j2, j3⟩ := inner_cell hy
  rw [bicubic_cell h dflt i0 i1 j0 j1 i2 i3 j2 j3, hmid i (by omega) (x, y) i2 i3.le]
  simp only [cubAt]
  rw [hR _ j j0 (by omega) (x, y) j2 j3.le, hR _ j j0 (by omega) (x, y) j2 j3.le, hR _ j j0 (by omega) (x, y) j2 j3.le, hR _ j j0 (by omega) (x, y) j2 j3.le]

/-- six rows of four pixels, all zero except the fifth row -/
def kinkMap : Map ℝ := ⟨List.replicate 16 0 ++ List.replicate 4 1 ++ List.replicate 4 0, 6, 4⟩

theorem kinkMap_good : kinkMap.Good := ⟨by simp [kinkMap], by simp [kinkMap], by simp [kinkMap], by simp [kinkMap]⟩

theorem kinkMap_get (i j : Nat) (hj : j < 4) (hi : i < 6) : kinkMap.get i j = if i = 4 then 1 else 0 := by
  interval_cases i <;> interval_cases j <;> simp [kinkMap, Map.get]

/-- C96 is false if smoothness is expected: the image is interpolated with different splines in neighbouring cells, which have different
slopes where they meet. -/
theorem C96_smooth_refuted (f : ℝ → ℝ) (hf : ∀ x, 1 ≤ x → x < 4 → bicubicStrict kinkMap x 1 0 = .ok (f x)) : ¬ DifferentiableAt ℝ f 2 := by
  have val : ∀ (i : Nat) (x : ℝ), 1 ≤ i → i < 4 → (i : ℝ) ≤ x → x < (i : ℝ) + 1 → f x =
      cub (kinkMap.get (i - 1) 1) (kinkMap.get i 1) (kinkMap.get (i + 1) 1) (kinkMap.get (i + 2) 1) (x - i) := by
    intro i x hi0 hi h0 h1
    have e1 : (1 : ℝ) ≤ i := by exact_mod_cast hi0
    have e2 : (i : ℝ) + 1 ≤ 4 := by exact_mod_cast hi
    have := hf x (by linarith) (by linarith)
    rw [bicubic_cell kinkMap_good 0 (i := i) (j := 1) hi0 (by simp only [kinkMap]; omega) le_rfl (by simp [kinkMap]) h0 h1 (by simp) (by norm_num)] at this
    injection this with this
    rw [← this]
    simp only [cubAt, rowAt, Nat.cast_one, sub_self, cub_zero]
  have left : ∀ x, 1 ≤ x → x ≤ 2 → f x = 0 := by
    intro x h0 h1
    rcases lt_or_eq_of_le h1 with h1 | rfl
    · rw [val 1 x (by omega) (by omega) (by simpa using h0) (by norm_num; exact h1)]
      simp [kinkMap_get, cub]
    · rw [val 2 2 (by omega) (by omega) (by norm_num) (by norm_num)]
      simp [kinkMap_get, cub]
  have right : ∀ x, 2 ≤ x → x < 3 → f x = -(2 / 15) * (x - 2) - 1 / 5 * (x - 2) * (x - 2) + 1 / 3 * (x - 2) * (x - 2) * (x - 2) := by
    intro x h0 h1
    rw [val 2 x (by omega) (by omega) (by simpa using h0) (by norm_num; exact h1)]
    simp [kinkMap_get, cub]
    ring
  intro hd
  have hleft : HasDerivWithinAt f 0 (Set.Iic 2) 2 := by
    refine (hasDerivWithinAt_const (2 : ℝ) (Set.Iic 2) (0 : ℝ)).congr_of_eventuallyEq ?_ (left 2 (by norm_num) le_rfl)
    have hnb : Set.Ioi (1 : ℝ) ∈ nhdsWithin 2 (Set.Iic 2) := mem_nhdsWithin_of_mem_nhds (isOpen_Ioi.mem_nhds (by norm_num))
    filter_upwards [hnb, self_mem_nhdsWithin] with t ht1 ht2
    exact left t (le_of_lt ht1) ht2
  have hright : HasDerivWithinAt f (-(2 / 15)) (Set.Ici 2) 2 := by
    have h1 : HasDerivAt (fun x : ℝ => -(2 / 15) * (x - 2) - 1 / 5 * (x - 2) * (x - 2) + 1 / 3 * (x - 2) * (x - 2) * (x - 2)) (-(2 / 15)) 2 := by
      have h0 : HasDerivAt (fun x : ℝ => x - 2) 1 2 := (hasDerivAt_id (2 : ℝ)).sub_const 2
      have := (((h0.const_mul (-(2 / 15) : ℝ)).sub (((h0.const_mul (1 / 5 : ℝ))).mul h0)).add ((((h0.const_mul (1 / 3 : ℝ))).mul h0).mul h0))
      exact this.congr_deriv (by norm_num)
    refine h1.hasDerivWithinAt.congr_of_eventuallyEq ?_ (right 2 le_rfl (by norm_num))
    have hnb : Set.Iio (3 : ℝ) ∈ nhdsWithin 2 (Set.Ici 2) := mem_nhdsWithin_of_mem_nhds (isOpen_Iio.mem_nhds (by norm_num))
    filter_upwards [hnb, self_mem_nhdsWithin] with t ht1 ht2
    exact right t ht2 ht1
  have e1 := (uniqueDiffWithinAt_Iic (2 : ℝ)).eq_deriv _ hleft hd.hasDerivAt.hasDerivWithinAt
  have e2 := (uniqueDiffWithinAt_Ici (2 : ℝ)).eq_deriv _ hright hd.hasDerivAt.hasDerivWithinAt
  rw [← e1] at e2
  norm_num at e2

end Verif.Bil
