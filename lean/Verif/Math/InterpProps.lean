import Verif.Math.Interp
import Verif.Find.BoundProps
import Mathlib.Tactic.FieldSimp
/-!
# Properties C28, C30
-/
namespace Verif.Math
open Verif Verif.Core Verif.Find
variable {K : Type} [Field K] [LinearOrder K] [IsStrictOrderedRing K]

/-- Spec: strictly increasing. -/
def Increasing (x : List K) : Prop := x.Pairwise (· < ·)

omit [Field K] [IsStrictOrderedRing K] in
theorem Increasing.lt {x : List K} (h : Increasing x) {i j : Nat} (hij : i < j) (hj : j < x.length) :
    x[i]'(by omega) < x[j] := List.pairwise_iff_getElem.1 h i j (by omega) hj hij

omit [Field K] [IsStrictOrderedRing K] in
theorem Increasing.le {x : List K} (h : Increasing x) {i j : Nat} (hij : i ≤ j) (hj : j < x.length) :
    x[i]'(by omega) ≤ x[j] := by
  rcases Nat.lt_or_eq_of_le hij with h' | rfl
  · exact (h.lt h' hj).le
  · exact le_refl _

omit [Field K] [IsStrictOrderedRing K] in
theorem sorted_map {x : List K} (h : Increasing x) : Sorted (x.map some) := by
  unfold Sorted
  rw [List.pairwise_map]
  exact h.imp (fun {a b} hab => by simpa using hab.le)

omit [IsStrictOrderedRing K] in
theorem lowerB_spec {x : List K} (h : Increasing x) (t : K) :
    ∃ r, lowerB x t = .ok r ∧ match r with
      | none => ∀ a ∈ x, t < a
      | some i => ∃ (hi : i < x.length), x[i] ≤ t ∧ ∀ j (hj : j < x.length), i < j → t < x[j] := by
  obtain ⟨r, h1, h2⟩ := C21_lower_bound (x.map some) (by simp) (sorted_map h) t
  refine ⟨r, h1, ?_⟩
  cases r with
  | none => intro a ha; exact h2 a (List.mem_map.2 ⟨a, ha, rfl⟩)
  | some i =>
    obtain ⟨a, ha, hle, hgt⟩ := h2
    rw [List.getElem?_map] at ha
    have hi : i < x.length := by
      by_contra hc
      rw [List.getElem?_eq_none (by omega)] at ha; simp at ha
    rw [List.getElem?_eq_getElem hi] at ha
    simp only [Option.map_some, Option.some.injEq] at ha
    refine ⟨hi, by rw [ha]; exact hle, fun j hj hij => hgt j _ hij (by simp [hj])⟩

omit [IsStrictOrderedRing K] in
theorem upperB_spec {x : List K} (h : Increasing x) (t : K) :
    ∃ r, upperB x t = .ok r ∧ match r with
      | none => ∀ a ∈ x, a ≤ t
      | some i => ∃ (hi : i < x.length), t < x[i] ∧ ∀ j (hj : j < x.length), j < i → x[j] ≤ t := by
  obtain ⟨r, h1, h2⟩ := C21_upper_bound (x.map some) (by simp) (sorted_map h) t
  refine ⟨r, h1, ?_⟩
  cases r with
  | none => intro a ha; exact h2 a (List.mem_map.2 ⟨a, ha, rfl⟩)
  | some i =>
    obtain ⟨a, ha, hle, hgt⟩ := h2
    rw [List.getElem?_map] at ha
    have hi : i < x.length := by
      by_contra hc
      rw [List.getElem?_eq_none (by omega)] at ha; simp at ha
    rw [List.getElem?_eq_getElem hi] at ha
    simp only [Option.map_some, Option.some.injEq] at ha
    refine ⟨hi, by rw [ha]; exact hle, fun j hj hij => hgt j _ hij (by simp [hj])⟩

/-! ## C30 -/

/-- Spec: `(t, v)` is on the straight line through points `i` and `i+1` of the data. -/
def OnChord (y x : List K) (i : Nat) (t v : K) : Prop :=
  ∃ xa xb ya yb, x[i]? = some xa ∧ x[i + 1]? = some xb ∧ y[i]? = some ya ∧ y[i + 1]? = some yb ∧
    (v - ya) * (xb - xa) = (yb - ya) * (t - xa)

theorem OnChord.unique {y x : List K} (h : Increasing x) {i : Nat} {t v w : K} (hv : OnChord y x i t v)
    (hw : OnChord y x i t w) : v = w := by
  obtain ⟨xa, xb, ya, yb, h1, h2, h3, h4, h5⟩ := hv
  obtain ⟨xa', xb', ya', yb', g1, g2, g3, g4, g5⟩ := hw
  rw [h1] at g1; rw [h2] at g2; rw [h3] at g3; rw [h4] at g4
  simp only [Option.some.injEq] at g1 g2 g3 g4
  subst g1 g2 g3 g4
  obtain ⟨i1, rfl⟩ := List.getElem?_eq_some_iff.1 h1
  obtain ⟨i2, rfl⟩ := List.getElem?_eq_some_iff.1 h2
  have hlt := h.lt (show i < i + 1 by omega) i2
  have : (v - w) * (x[i + 1] - x[i]) = 0 := by linarith
  rcases mul_eq_zero.1 this with h | h
  · linarith
  · linarith

/-- the interval chosen by the code -/
theorem interpAt_chord {y x : List K} (h : Increasing x) (hl : y.length = x.length) (hn : 2 ≤ x.length) (t : K) :
    ∃ v i, interpAt y x t = .ok v ∧ OnChord y x i t v ∧ ∃ (hi : i + 1 < x.length),
      (x[i] ≤ t ∨ i = 0) ∧ (t < x[i + 1] ∨ i + 2 = x.length) := by
  obtain ⟨r, h1, h2⟩ := lowerB_spec h t
  have hi : ∃ i, interval x.length r = i ∧ i + 1 < x.length ∧
      ((∃ hh : i < x.length, x[i] ≤ t) ∨ i = 0) ∧
      ((∃ hh : i + 1 < x.length, t < x[i + 1]) ∨ i + 2 = x.length) := by
    cases r with
    | none =>
      exact ⟨0, rfl, by omega, .inr rfl, .inl ⟨by omega, h2 _ (List.getElem_mem _)⟩⟩
    | some l =>
      obtain ⟨hll, hle, hgt⟩ := h2
      by_cases hc : l ≠ x.length - 1
      · exact ⟨l, by simp only [interval]; rw [if_pos hc], by omega, .inl ⟨hll, hle⟩, .inl ⟨by omega, hgt _ _ (by omega)⟩⟩
      · exact ⟨l - 1, by simp only [interval]; rw [if_neg hc], by omega,
          .inl ⟨by omega, le_trans (h.le (by omega) hll) hle⟩, .inr (by omega)⟩
  obtain ⟨i, hi0, hi1, hi2, hi3⟩ := hi
  unfold interpAt
  rw [h1, Res.ok_bind]
  simp only [hi0]
  rw [Res.rd_lt (by omega), Res.rd_lt (by omega), Res.rd_lt (by omega), Res.rd_lt (by omega)]
  simp only [Res.ok_bind]
  have hlt := h.lt (show i < i + 1 by omega) hi1
  refine ⟨_, i, rfl, ⟨x[i], x[i + 1], y[i], y[i + 1], by simp, by simp, by simp, by simp, ?_⟩, hi1, ?_, ?_⟩
  · have : x[i + 1] - x[i] ≠ 0 := by intro h0; linarith
    field_simp
    ring
  · rcases hi2 with ⟨_, h⟩ | h
    · exact .inl h
    · exact .inr h
  · rcases hi3 with ⟨_, h⟩ | h
    · exact .inl h
    · exact .inr h

theorem interpolate_eq {y x : List K} (hl : y.length = x.length) (hn : 2 ≤ x.length) (t : K) :
    interpolate y x t = interpAt y x t := by
  unfold interpolate
  rw [Res.check_pos hl, Res.check_pos (by omega)]; rfl

/-- C30: inside the range the result is on the chord of every interval that contains the position. -/
theorem C30_inside (y x : List K) (h : Increasing x) (hl : y.length = x.length) (hn : 2 ≤ x.length) (t : K)
    (i : Nat) (hi : i + 1 < x.length) (hlo : x[i] ≤ t) (hhi : t ≤ x[i + 1]) :
    ∃ v, interpolate y x t = .ok v ∧ OnChord y x i t v := by
  obtain ⟨v, k, h1, h2, hk, h3, h4⟩ := interpAt_chord h hl hn t
  refine ⟨v, by rw [interpolate_eq hl hn, h1], ?_⟩
  rcases Nat.lt_trichotomy k i with hc | rfl | hc
  · -- then `t = x[k+1] = x[i]`
    have e1 : t < x[k + 1] ∨ k + 2 = x.length := h4
    rcases h4 with h4 | h4
    · have := h.le (show k + 1 ≤ i by omega) (by omega)
      exact absurd (lt_of_lt_of_le h4 (le_trans this hlo)) (lt_irrefl _)
    · omega
  · exact h2
  · rcases h3 with h3 | h3
    · have := h.le (show i + 1 ≤ k by omega) (by omega)
      have ht : t = x[k] := le_antisymm (le_trans hhi this) h3
      have hik : k = i + 1 := by
        by_contra hne
        have := h.lt (show i + 1 < k by omega) (by omega)
        rw [← ht] at this
        exact absurd (lt_of_lt_of_le this hhi) (lt_irrefl _)
      subst hik
      obtain ⟨xa, xb, ya, yb, g1, g2, g3, g4, g5⟩ := h2
      obtain ⟨i1, rfl⟩ := List.getElem?_eq_some_iff.1 g1
      obtain ⟨i2, rfl⟩ := List.getElem?_eq_some_iff.1 g2
      have hlt := h.lt (show i + 1 < i + 1 + 1 by omega) i2
      have hv : v = ya := by
        rw [ht, sub_self, mul_zero] at g5
        rcases mul_eq_zero.1 g5 with h | h
        · linarith
        · linarith
      refine ⟨x[i], x[i + 1], y[i], ya, by simp, by simp, by simp, g3, ?_⟩
      rw [ht, hv]
    · omega

/-- C30: below the range the result is on the first chord. -/
theorem C30_below (y x : List K) (h : Increasing x) (hl : y.length = x.length) (hn : 2 ≤ x.length) (t : K)
    (ht : t < x[0]) : ∃ v, interpolate y x t = .ok v ∧ OnChord y x 0 t v := by
  obtain ⟨v, k, h1, h2, hk, h3, h4⟩ := interpAt_chord h hl hn t
  refine ⟨v, by rw [interpolate_eq hl hn, h1], ?_⟩
  rcases h3 with h3 | rfl
  · have := h.le (show 0 ≤ k by omega) (by omega)
    exact absurd (lt_of_lt_of_le ht (le_trans this h3)) (lt_irrefl _)
  · exact h2

/-- C30: above the range the result is on the last chord. -/
theorem C30_above (y x : List K) (h : Increasing x) (hl : y.length = x.length) (hn : 2 ≤ x.length) (t : K)
    (ht : x[x.length - 1] < t) : ∃ v, interpolate y x t = .ok v ∧ OnChord y x (x.length - 2) t v := by
  obtain ⟨v, k, h1, h2, hk, h3, h4⟩ := interpAt_chord h hl hn t
  refine ⟨v, by rw [interpolate_eq hl hn, h1], ?_⟩
  rcases h4 with h4 | h4
  · have := h.le (show k + 1 ≤ x.length - 1 by omega) (by omega)
    exact absurd (lt_of_lt_of_le h4 (le_trans this ht.le)) (lt_irrefl _)
  · rw [show x.length - 2 = k by omega]; exact h2

/-- C30: at a knot the result is the datum. -/
theorem C30_knot (y x : List K) (h : Increasing x) (hl : y.length = x.length) (hn : 2 ≤ x.length)
    (i : Nat) (hi : i < x.length) : interpolate y x x[i] = .ok (y[i]'(by omega)) := by
  by_cases hc : i + 1 < x.length
  · obtain ⟨v, h1, xa, xb, ya, yb, g1, g2, g3, g4, g5⟩ := C30_inside y x h hl hn x[i] i hc (le_refl _)
      (h.le (by omega) hc)
    obtain ⟨i1, rfl⟩ := List.getElem?_eq_some_iff.1 g1
    obtain ⟨i2, rfl⟩ := List.getElem?_eq_some_iff.1 g2
    obtain ⟨i3, rfl⟩ := List.getElem?_eq_some_iff.1 g3
    have hlt := h.lt (show i < i + 1 by omega) i2
    rw [sub_self, mul_zero] at g5
    rw [h1]; congr 1
    rcases mul_eq_zero.1 g5 with h | h <;> linarith
  · obtain ⟨j, rfl⟩ : ∃ j, i = j + 1 := ⟨i - 1, by omega⟩
    obtain ⟨v, h1, xa, xb, ya, yb, g1, g2, g3, g4, g5⟩ := C30_inside y x h hl hn x[j + 1] j hi
      (h.le (by omega) hi) (le_refl _)
    obtain ⟨i1, rfl⟩ := List.getElem?_eq_some_iff.1 g1
    obtain ⟨i2, rfl⟩ := List.getElem?_eq_some_iff.1 g2
    obtain ⟨i4, rfl⟩ := List.getElem?_eq_some_iff.1 g4
    have hlt := h.lt (show j < j + 1 by omega) i2
    have : (v - y[j + 1]) * (x[j + 1] - x[j]) = 0 := by linarith
    rw [h1]; congr 1
    rcases mul_eq_zero.1 this with h | h <;> linarith

/-- C30: the result lies between the two data of the interval. -/
theorem C30_between (y x : List K) (h : Increasing x) (hl : y.length = x.length) (hn : 2 ≤ x.length) (t : K)
    (i : Nat) (hi : i + 1 < x.length) (hlo : x[i] ≤ t) (hhi : t ≤ x[i + 1]) :
    ∃ v, interpolate y x t = .ok v ∧ min (y[i]'(by omega)) (y[i + 1]'(by omega)) ≤ v ∧
      v ≤ max (y[i]'(by omega)) (y[i + 1]'(by omega)) := by
  obtain ⟨v, h1, xa, xb, ya, yb, g1, g2, g3, g4, g5⟩ := C30_inside y x h hl hn t i hi hlo hhi
  obtain ⟨i1, rfl⟩ := List.getElem?_eq_some_iff.1 g1
  obtain ⟨i2, rfl⟩ := List.getElem?_eq_some_iff.1 g2
  obtain ⟨i3, rfl⟩ := List.getElem?_eq_some_iff.1 g3
  obtain ⟨i4, rfl⟩ := List.getElem?_eq_some_iff.1 g4
  have hlt := h.lt (show i < i + 1 by omega) i2
  refine ⟨v, h1, ?_⟩
  have hd : 0 < x[i + 1] - x[i] := by linarith
  rcases le_total y[i] y[i + 1] with hy | hy
  · rw [min_eq_left hy, max_eq_right hy]
    constructor
    · have : 0 ≤ (v - y[i]) * (x[i + 1] - x[i]) := by
        rw [g5]; exact mul_nonneg (by linarith) (by linarith)
      have := nonneg_of_mul_nonneg_left this hd
      linarith
    · have : 0 ≤ (y[i + 1] - v) * (x[i + 1] - x[i]) := by
        have e : (y[i + 1] - v) * (x[i + 1] - x[i]) = (y[i + 1] - y[i]) * (x[i + 1] - t) := by linarith
        rw [e]; exact mul_nonneg (by linarith) (by linarith)
      have := nonneg_of_mul_nonneg_left this hd
      linarith
  · rw [min_eq_right hy, max_eq_left hy]
    constructor
    · have : 0 ≤ (v - y[i + 1]) * (x[i + 1] - x[i]) := by
        have e : (v - y[i + 1]) * (x[i + 1] - x[i]) = (y[i] - y[i + 1]) * (x[i + 1] - t) := by linarith
        rw [e]; exact mul_nonneg (by linarith) (by linarith)
      have := nonneg_of_mul_nonneg_left this hd
      linarith
    · have : 0 ≤ (y[i] - v) * (x[i + 1] - x[i]) := by
        have e : (y[i] - v) * (x[i + 1] - x[i]) = (y[i] - y[i + 1]) * (t - x[i]) := by linarith
        rw [e]; exact mul_nonneg (by linarith) (by linarith)
      have := nonneg_of_mul_nonneg_left this hd
      linarith

/-- C30: linear data are reproduced exactly, at every position. -/
theorem C30_linear (x : List K) (h : Increasing x) (hn : 2 ≤ x.length) (a b t : K) :
    interpolate (x.map fun u => a + b * u) x t = .ok (a + b * t) := by
  have hl : (x.map fun u => a + b * u).length = x.length := by simp
  obtain ⟨v, k, h1, h2, hk, -, -⟩ := interpAt_chord h hl hn t
  rw [interpolate_eq hl hn, h1]
  congr 1
  refine h2.unique h ⟨x[k], x[k + 1], a + b * x[k], a + b * x[k + 1], by simp, by simp, ?_, ?_, by ring⟩
  · simp [show k < x.length by omega]
  · simp [hk]

/-- C30: the vector version does the same for each position. -/
theorem C30_vector (y x : List K) (hl : y.length = x.length) (hn : 2 ≤ x.length) (nx : List K) :
    interpolateV y x nx = nx.mapM (interpolate y x) := by
  unfold interpolateV
  rw [Res.check_pos hl, Res.check_pos (by omega)]
  simp only [Res.ok_bind]
  congr 1
  funext t
  rw [interpolate_eq hl hn]

/-- C30: data of different sizes, or fewer than two points, are refused. -/
theorem C30_refused (y x : List K) (t : K) (h : y.length ≠ x.length ∨ y.length < 2) :
    interpolate y x t = .abort := by
  unfold interpolate
  by_cases h1 : y.length = x.length
  · rw [Res.check_pos h1, Res.ok_bind, Res.check_neg (by omega)]; rfl
  · rw [Res.check_neg h1]; rfl

/-- C30: with errors, the value is the same, and at a knot the error is that of the datum. -/
theorem C30_error (y e x : List K) (h : Increasing x) (hl : y.length = x.length) (he : e.length = x.length)
    (hn : 2 ≤ x.length) (t : K) :
    ∃ v s, interpErrAt y e x t = .ok (v, s) ∧ interpolate y x t = .ok v ∧
      ∀ (i : Nat) (hi : i < x.length), t = x[i] → s = e[i] ^ 2 := by
  obtain ⟨r, h1, h2⟩ := lowerB_spec h t
  have hi : interval x.length r + 1 < x.length := by
    cases r with
    | none => simp [interval]; omega
    | some l =>
      obtain ⟨hll, -, -⟩ := h2
      unfold interval
      simp only
      split <;> omega
  rw [interpolate_eq hl hn]
  unfold interpErrAt interpAt
  rw [h1]
  simp only [Res.ok_bind]
  have hsel : ∀ (i : Nat) (hi : i < x.length), t = x[i] → r = some i := by
    intro i hix ht
    cases r with
    | none =>
      have := h2 _ (List.getElem_mem hix)
      rw [← ht] at this
      exact absurd this (lt_irrefl _)
    | some l =>
      obtain ⟨hll, hle, hgt⟩ := h2
      congr 1
      rcases Nat.lt_trichotomy l i with hc | hc | hc
      · have := hgt i hix hc
        rw [← ht] at this
        exact absurd this (lt_irrefl _)
      · exact hc
      · have := h.lt hc hll
        rw [← ht] at this
        exact absurd (lt_of_lt_of_le this hle) (lt_irrefl _)
  generalize hk : interval x.length r = k at hi ⊢
  rw [Res.rd_lt (show k < y.length by omega), Res.rd_lt (show k + 1 < y.length by omega),
    Res.rd_lt (show k < e.length by omega), Res.rd_lt (show k + 1 < e.length by omega),
    Res.rd_lt (show k < x.length by omega), Res.rd_lt hi]
  simp only [Res.ok_bind]
  have hlt := h.lt (show k < k + 1 by omega) hi
  have hne : x[k + 1] - x[k] ≠ 0 := by intro h0; linarith
  refine ⟨_, _, rfl, by congr 1; field_simp, fun i hii ht => ?_⟩
  have hr := hsel i hii ht
  subst hr
  simp only [interval] at hk
  by_cases hc : i ≠ x.length - 1
  · rw [if_pos hc] at hk
    subst hk
    rw [ht]; simp
  · rw [if_neg hc] at hk
    obtain rfl : i = k + 1 := by omega
    rw [ht, div_self hne]; simp

example : Increasing [(0 : ℚ), 1, 3] ∧ interpolate [5, 7, (3 : ℚ)] [0, 1, 3] 2 = .ok 5 := by
  constructor
  · unfold Increasing; norm_num
  · have h : Increasing [(0 : ℚ), 1, 3] := by unfold Increasing; norm_num
    obtain ⟨v, h1, xa, xb, ya, yb, g1, g2, g3, g4, g5⟩ :=
      C30_inside [5, 7, (3 : ℚ)] [0, 1, 3] h rfl (by simp) 2 1 (by simp) (by norm_num) (by norm_num)
    simp at g1 g2 g3 g4
    subst g1 g2 g3 g4
    rw [h1]; congr 1; linarith

/-! ## C28 -/

theorem rangeFrom1_pos (n : Nat) (h : 0 < n) : rangeFrom1 n = (List.range (n - 1)).map (· + 1) := by
  unfold rangeFrom1
  rw [range2_asc 1 n (by omega), List.map_map]
  have : ((n : Int) - 1).toNat = n - 1 := by omega
  rw [this]
  apply List.map_congr_left
  intro i _
  simp only [Function.comp]; omega

theorem rangeFrom1_zero : rangeFrom1 0 = [1] := by decide

/-- Spec: area of the trapezoid between points `i` and `i+1`. -/
def Trap (x y : List K) (i : Nat) (v : K) : Prop :=
  ∃ xa xb ya yb, x[i]? = some xa ∧ x[i + 1]? = some xb ∧ y[i]? = some ya ∧ y[i + 1]? = some yb ∧
    v = (ya + yb) / 2 * (xb - xa)

theorem trapezoid_ok (x y : List K) (hl : x.length = y.length) (i : Nat) (hi : i + 1 < x.length) :
    ∃ v, trapezoid x y (i + 1) = .ok v ∧ Trap x y i v := by
  unfold trapezoid
  rw [Nat.add_sub_cancel, Res.rd_lt (show i + 1 < y.length by omega), Res.rd_lt (show i < y.length by omega),
    Res.rd_lt hi, Res.rd_lt (show i < x.length by omega)]
  refine ⟨_, rfl, x[i], x[i + 1], y[i], y[i + 1], by simp, by simp, by simp, by simp, by ring⟩

theorem cumulLoop_spec (x y : List K) (hl : x.length = y.length) (m k : Nat) (hk : k + m + 1 = x.length) (r : K)
    (dr : List K) (hdl : dr.length = x.length) (hr : dr[k]? = some r) :
    ∃ d, cumulLoop x y ((List.range m).map (fun i => k + i + 1)) r dr = .ok d ∧ d.length = x.length ∧
      (∀ i, i ≤ k → d[i]? = dr[i]?) ∧
      ∀ i, k ≤ i → i + 1 < x.length → ∃ a b v, d[i]? = some a ∧ d[i + 1]? = some b ∧ Trap x y i v ∧ b = a + v := by
  induction m generalizing k r dr with
  | zero =>
    exact ⟨dr, rfl, hdl, fun _ _ => rfl, fun i h1 h2 => by omega⟩
  | succ m ih =>
    obtain ⟨v, hv, hT⟩ := trapezoid_ok x y hl k (by omega)
    have hlist : (List.range (m + 1)).map (fun i => k + i + 1) =
        (k + 1) :: (List.range m).map (fun i => (k + 1) + i + 1) := by
      rw [List.range_succ_eq_map, List.map_cons, List.map_map]
      congr 1
      apply List.map_congr_left
      intro i _
      simp only [Function.comp]; omega
    rw [hlist, cumulLoop, hv, Res.ok_bind, if_pos (by omega)]
    obtain ⟨d, h1, h2, h3, h4⟩ := ih (k + 1) (by omega) (r + v) (dr.set (k + 1) (r + v)) (by simpa using hdl)
      (by simp [show k + 1 < dr.length by omega])
    refine ⟨d, h1, h2, ?_, ?_⟩
    · intro i hi
      rw [h3 i (by omega), List.getElem?_set_ne (by omega)]
    · intro i hki hi
      rcases Nat.lt_or_eq_of_le hki with hc | rfl
      · exact h4 i (by omega) hi
      · refine ⟨r, r + v, v, ?_, ?_, hT, rfl⟩
        · rw [h3 k (by omega), List.getElem?_set_ne (by omega)]; exact hr
        · rw [h3 (k + 1) (by omega)]; simp [show k + 1 < dr.length by omega]

/-- C28: `cumul(x, y)` starts at 0 and each step adds the trapezoid. -/
theorem C28_cumul_partial (x y : List K) (hl : x.length = y.length) (hn : 0 < x.length) :
    ∃ d, cumul x y = .ok d ∧ d.length = x.length ∧ d[0]? = some 0 ∧
      ∀ i, i + 1 < x.length → ∃ a b v, d[i]? = some a ∧ d[i + 1]? = some b ∧ Trap x y i v ∧ b = a + v := by
  unfold cumul
  rw [Res.check_pos hl, Res.ok_bind, rangeFrom1_pos _ hn]
  have hlist : (List.range (x.length - 1)).map (· + 1) = (List.range (x.length - 1)).map (fun i => 0 + i + 1) := by
    apply List.map_congr_left; intro i _; omega
  obtain ⟨d, h1, h2, h3, h4⟩ := cumulLoop_spec x y hl (x.length - 1) 0 (by omega) 0 (List.replicate y.length 0)
    (by simp [hl]) (by rw [List.getElem?_replicate, if_pos (by omega)])
  rw [hlist]
  refine ⟨d, h1, h2, ?_, fun i hi => h4 i (by omega) hi⟩
  rw [h3 0 (by omega), List.getElem?_replicate, if_pos (by omega)]

/-- Finding: `cumul(x, y)` and `integrate(x, y)` of empty vectors read out of bounds. -/
theorem C28_cumul_empty_refuted : cumul ([] : List K) [] = .ub ∧ integrate ([] : List K) [] = .ub := by
  constructor
  · unfold cumul
    rw [Res.check_pos rfl, Res.ok_bind, List.length_nil, rangeFrom1_zero]
    simp [cumulLoop, trapezoid, Res.rd]
  · unfold integrate
    rw [Res.check_pos rfl, Res.ok_bind, List.length_nil, rangeFrom1_zero]
    simp [trapezoid, Res.rd]

theorem cumul1Loop_spec (y : List K) (m k : Nat) (hk : k + m = y.length) (dr : List K)
    (hdl : dr.length = y.length) (hz : ∀ i, k ≤ i → i < y.length → dr[i]? = some 0)
    (hpre : ∀ i, i < k → dr[i]? = some (y.take (i + 1)).sum) :
    ∃ d, cumul1Loop y ((List.range m).map (fun i => k + i)) dr = .ok d ∧ d.length = y.length ∧
      ∀ i, i < y.length → d[i]? = some (y.take (i + 1)).sum := by
  induction m generalizing k dr with
  | zero => exact ⟨dr, rfl, hdl, fun i hi => hpre i (by omega)⟩
  | succ m ih =>
    have hlist : (List.range (m + 1)).map (fun i => k + i) = k :: (List.range m).map (fun i => (k + 1) + i) := by
      rw [List.range_succ_eq_map, List.map_cons, List.map_map]
      congr 1
      apply List.map_congr_left
      intro i _
      simp only [Function.comp]; omega
    have hk' : k < y.length := by omega
    have hd : (if k ≠ 0 then Res.rd dr (k - 1) else Res.rd dr k) = .ok (y.take k).sum := by
      by_cases hc : k ≠ 0
      · rw [if_pos hc]
        have := hpre (k - 1) (by omega)
        rw [show k - 1 + 1 = k by omega] at this
        obtain ⟨h1, h2⟩ := List.getElem?_eq_some_iff.1 this
        rw [Res.rd_lt h1, h2]
      · have : k = 0 := by omega
        subst this
        rw [if_neg hc]
        obtain ⟨h1, h2⟩ := List.getElem?_eq_some_iff.1 (hz 0 (by omega) hk')
        rw [Res.rd_lt h1, h2]; simp
    have hs : (y.take k).sum + y[k] = (y.take (k + 1)).sum := by
      rw [List.take_add_one, List.getElem?_eq_getElem hk', List.sum_append]
      simp
    rw [hlist, cumul1Loop, hd, Res.ok_bind, Res.rd_lt hk', Res.ok_bind, if_pos (by omega), hs]
    apply ih (k + 1) (by omega) (dr.set k (y.take (k + 1)).sum) (by simpa using hdl)
    · intro i h1 h2
      rw [List.getElem?_set_ne (by omega)]; exact hz i (by omega) h2
    · intro i hi
      rcases Nat.lt_or_eq_of_le (show i ≤ k by omega) with hc | rfl
      · rw [List.getElem?_set_ne (by omega)]; exact hpre i hc
      · simp [show i < dr.length by omega]

/-- C28: `cumul(y)` holds at `i` the sum of `y[0..i]`. -/
theorem C28_cumul1 (y : List K) :
    ∃ d, cumul1 y = .ok d ∧ d.length = y.length ∧ ∀ i, i < y.length → d[i]? = some (y.take (i + 1)).sum := by
  unfold cumul1
  have hlist : List.range y.length = (List.range y.length).map (fun i => 0 + i) := by simp
  rw [hlist]
  exact cumul1Loop_spec y y.length 0 (by omega) _ (by simp)
    (fun i _ hi => by rw [List.getElem?_replicate, if_pos hi]) (fun i hi => absurd hi (by omega))

theorem cumulReverseLoop_spec (y : List K) (m k : Nat) (hk : k + m = y.length) (dr : List K)
    (hdl : dr.length = y.length) (hz : ∀ i, i + k < y.length → dr[i]? = some 0)
    (hpost : ∀ i, y.length ≤ i + k → i < y.length → dr[i]? = some (y.getD (i + 1) 0 + y.getD i 0)) :
    ∃ d, cumulReverseLoop y ((List.range m).map (fun i => k + i)) dr = .ok d ∧ d.length = y.length ∧
      ∀ i, i < y.length → d[i]? = some (y.getD (i + 1) 0 + y.getD i 0) := by
  induction m generalizing k dr with
  | zero => exact ⟨dr, rfl, hdl, fun i hi => hpost i (by omega) hi⟩
  | succ m ih =>
    have hlist : (List.range (m + 1)).map (fun i => k + i) = k :: (List.range m).map (fun i => (k + 1) + i) := by
      rw [List.range_succ_eq_map, List.map_cons, List.map_map]
      congr 1
      apply List.map_congr_left
      intro i _
      simp only [Function.comp]; omega
    have hk' : y.length - 1 - k < y.length := by omega
    have hd : (if k ≠ 0 then Res.rd y (y.length - 1 - k + 1) else Res.rd dr (y.length - 1 - k)) =
        .ok (y.getD (y.length - 1 - k + 1) 0) := by
      by_cases hc : k ≠ 0
      · rw [if_pos hc, Res.rd_lt (by omega)]
        rw [List.getD_eq_getElem?_getD, List.getElem?_eq_getElem (by omega)]; rfl
      · have : k = 0 := by omega
        subst this
        rw [if_neg hc]
        obtain ⟨h1, h2⟩ := List.getElem?_eq_some_iff.1 (hz (y.length - 1 - 0) (by omega))
        rw [Res.rd_lt h1, h2, List.getD_eq_getElem?_getD, List.getElem?_eq_none (by omega)]; rfl
    have hg : y[y.length - 1 - k] = y.getD (y.length - 1 - k) 0 := by
      rw [List.getD_eq_getElem?_getD, List.getElem?_eq_getElem hk']; rfl
    rw [hlist, cumulReverseLoop, hd, Res.ok_bind, Res.rd_lt hk', Res.ok_bind, if_pos (by omega), hg]
    apply ih (k + 1) (by omega) _ (by simpa using hdl)
    · intro i hi
      rw [List.getElem?_set_ne (by omega)]; exact hz i (by omega)
    · intro i h1 h2
      rcases Nat.lt_or_eq_of_le (show y.length - 1 - k ≤ i by omega) with hc | hc
      · rw [List.getElem?_set_ne (by omega)]; exact hpost i (by omega) h2
      · subst hc
        simp [show y.length - 1 - k < dr.length by omega]

/-- what `cumul_reverse(y)` computes: the sum of an element and its successor -/
theorem C28_cumul_reverse_actual (y : List K) :
    ∃ d, cumulReverse y = .ok d ∧ d.length = y.length ∧
      ∀ i, i < y.length → d[i]? = some (y.getD (i + 1) 0 + y.getD i 0) := by
  unfold cumulReverse
  have hlist : List.range y.length = (List.range y.length).map (fun i => 0 + i) := by simp
  rw [hlist]
  exact cumulReverseLoop_spec y y.length 0 (by omega) _ (by simp)
    (fun i hi => by rw [List.getElem?_replicate, if_pos (by omega)]) (fun i h1 h2 => by omega)

/-- C28: `cumul_reverse` holds the sums to the end for at most two elements. -/
theorem C28_cumul_reverse_partial (y : List K) (h : y.length ≤ 2) :
    ∃ d, cumulReverse y = .ok d ∧ d.length = y.length ∧ ∀ i, i < y.length → d[i]? = some (y.drop i).sum := by
  obtain ⟨d, h1, h2, h3⟩ := C28_cumul_reverse_actual y
  refine ⟨d, h1, h2, fun i hi => ?_⟩
  rw [h3 i hi]
  match y, h, hi with
  | [a], _, hi =>
    obtain rfl : i = 0 := by simpa using hi
    simp
  | [a, b], _, hi =>
    have : i = 0 ∨ i = 1 := by simp at hi; omega
    rcases this with rfl | rfl
    · simp [add_comm]
    · simp

/-- Finding: with three elements `cumul_reverse` is not the sum to the end. -/
theorem C28_cumul_reverse_refuted :
    ∃ d, cumulReverse [(1 : ℚ), 1, 1] = .ok d ∧ d[0]? = some 2 ∧ ([(1 : ℚ), 1, 1].drop 0).sum = 3 := by
  obtain ⟨d, h1, h2, h3⟩ := C28_cumul_reverse_actual [(1 : ℚ), 1, 1]
  refine ⟨d, h1, ?_, by norm_num⟩
  rw [h3 0 (by simp)]; norm_num

end Verif.Math
