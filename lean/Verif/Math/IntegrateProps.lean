import Verif.Math.InterpProps
import Mathlib.Analysis.SpecialFunctions.Integrals.Basic
/-!
# Property C29

The specification is the Lebesgue integral of Mathlib, of the function that `interpolate` computes.
-/
namespace Verif.Math
open Verif Verif.Core Verif.Find MeasureTheory

/-- Spec: `f` is the piecewise linear interpolant of the data, as computed by `interpolate`. -/
def IsInterpolant (y x : List ℝ) (f : ℝ → ℝ) : Prop := ∀ t, interpolate y x t = .ok (f t)

/-- an affine function -/
theorem integral_affine (p q a b : ℝ) : ∫ t in a..b, (p + q * t) = ((p + q * a) + (p + q * b)) / 2 * (b - a) := by
  rw [intervalIntegral.integral_add (by simp) (by apply Continuous.intervalIntegrable; fun_prop),
    intervalIntegral.integral_const, intervalIntegral.integral_const_mul, integral_id]
  simp only [smul_eq_mul]
  ring

section
variable {x y : List ℝ} {f : ℝ → ℝ}

/-- value of the interpolant on interval `i` -/
theorem interpolant_chord (h : Increasing x) (hl : y.length = x.length) (hn : 2 ≤ x.length)
    (hf : IsInterpolant y x f) (i : Nat) (hi : i + 1 < x.length) (t : ℝ) (hlo : x[i] ≤ t) (hhi : t ≤ x[i + 1]) :
    f t = interp2 (y[i]'(by omega)) (y[i + 1]'(by omega)) x[i] x[i + 1] t := by
  obtain ⟨v, h1, h2⟩ := C30_inside y x h hl hn t i hi hlo hhi
  rw [hf t, Res.ok.injEq] at h1
  rw [h1]
  have hlt := h.lt (show i < i + 1 by omega) hi
  refine h2.unique h ⟨x[i], x[i + 1], y[i], y[i + 1], by simp, by simp, by simp, by simp, ?_⟩
  have hne : x[i + 1] - x[i] ≠ 0 := by intro h0; linarith
  unfold interp2
  field_simp
  ring

theorem seg_integral (h : Increasing x) (hl : y.length = x.length) (hn : 2 ≤ x.length)
    (hf : IsInterpolant y x f) (i : Nat) (hi : i + 1 < x.length) (a b : ℝ) (ha : x[i] ≤ a) (hab : a ≤ b)
    (hb : b ≤ x[i + 1]) :
    IntervalIntegrable f volume a b ∧ ∫ t in a..b, f t = (f a + f b) / 2 * (b - a) := by
  have hch : ∀ t, a ≤ t → t ≤ b → f t = interp2 (y[i]'(by omega)) (y[i + 1]'(by omega)) x[i] x[i + 1] t :=
    fun t h1 h2 => interpolant_chord h hl hn hf i hi t (by linarith) (by linarith)
  have haff : ∀ t, interp2 (y[i]'(by omega)) (y[i + 1]'(by omega)) x[i] x[i + 1] t =
      ((y[i]'(by omega)) - ((y[i + 1]'(by omega)) - (y[i]'(by omega))) / (x[i + 1] - x[i]) * x[i]) +
      ((y[i + 1]'(by omega)) - (y[i]'(by omega))) / (x[i + 1] - x[i]) * t := by
    intro t; unfold interp2; ring
  have heq : Set.EqOn f (fun t => ((y[i]'(by omega)) - ((y[i + 1]'(by omega)) - (y[i]'(by omega))) / (x[i + 1] - x[i]) * x[i]) +
      ((y[i + 1]'(by omega)) - (y[i]'(by omega))) / (x[i + 1] - x[i]) * t) (Set.uIcc a b) := by
    intro t ht
    rw [Set.uIcc_of_le hab] at ht
    simp only
    rw [hch t ht.1 ht.2, haff]
  constructor
  · refine IntervalIntegrable.congr (g := f) (heq.symm.mono Set.uIoc_subset_uIcc) ?_
    apply Continuous.intervalIntegrable
    fun_prop
  · rw [intervalIntegral.integral_congr heq, integral_affine, hch a (le_refl _) hab, hch b hab (le_refl _), haff, haff]

/-- the loop over full intervals -/
theorem loop_integral (h : Increasing x) (hl : y.length = x.length) (hn : 2 ≤ x.length)
    (hf : IsInterpolant y x f) (i0 m : Nat) (hm : i0 + m < x.length) (r : ℝ) :
    ((List.range m).map (i0 + ·)).foldlM (fun r i => do let t ← trapezoid x y (i + 1); pure (r + t)) r =
      Res.ok (r + ∫ t in (x[i0]'(by omega))..(x[i0 + m]), f t) ∧
    IntervalIntegrable f volume (x[i0]'(by omega)) (x[i0 + m]) := by
  induction m with
  | zero => simp
  | succ m ih =>
    obtain ⟨h1, h2⟩ := ih (by omega)
    have hlt := h.lt (show i0 + m < i0 + m + 1 by omega) hm
    obtain ⟨s1, s2⟩ := seg_integral h hl hn hf (i0 + m) hm x[i0 + m] x[i0 + m + 1] (le_refl _) hlt.le (le_refl _)
    refine ⟨?_, h2.trans s1⟩
    rw [List.range_succ, List.map_append, List.foldlM_append, h1, Res.ok_bind]
    simp only [List.map_cons, List.map_nil, List.foldlM_cons, List.foldlM_nil]
    obtain ⟨v, hv, xa, xb, ya, yb, g1, g2, g3, g4, g5⟩ := trapezoid_ok x y hl.symm (i0 + m) hm
    obtain ⟨i1, rfl⟩ := List.getElem?_eq_some_iff.1 g1
    obtain ⟨i2, rfl⟩ := List.getElem?_eq_some_iff.1 g2
    obtain ⟨i3, rfl⟩ := List.getElem?_eq_some_iff.1 g3
    obtain ⟨i4, rfl⟩ := List.getElem?_eq_some_iff.1 g4
    have k1 : f x[i0 + m] = y[i0 + m] := by
      have := C30_knot y x h hl hn (i0 + m) (by omega)
      rw [hf] at this; simpa using this
    have k2 : f x[i0 + m + 1] = y[i0 + m + 1] := by
      have := C30_knot y x h hl hn (i0 + m + 1) (by omega)
      rw [hf] at this; simpa using this
    rw [hv]
    simp only [Res.ok_bind, Res.pure_def]
    have := intervalIntegral.integral_add_adjacent_intervals h2 s1
    congr 1
    change _ = r + ∫ (t : ℝ) in x[i0]..x[i0 + m + 1], f t
    rw [← this, s2, k1, k2, g5]
    ring

/-- what the last part of `integrate` and `integrate_hinted` computes for the right positions -/
theorem between_integral (h : Increasing x) (hl : y.length = x.length) (hn : 2 ≤ x.length)
    (hf : IsInterpolant y x f) (x0 x1 : ℝ) (h01 : x0 ≤ x1) (hx1 : x1 ≤ x[x.length - 1])
    (i0 i1 : Nat) (hi0 : i0 < x.length) (hi1 : i1 < x.length) (hpos : 0 < i0)
    (a1 : x[i0 - 1] ≤ x0) (a2 : x0 < x[i0] ∨ (x0 = x[i0] ∧ i0 + 1 = x.length)) (b1 : x[i1] ≤ x1)
    (b2 : ∀ (hh : i1 + 1 < x.length), x1 < x[i1 + 1]) :
    integrateBetween x y x0 x1 (some i0) (some i1) = .ok (∫ t in x0..x1, f t) := by
  have hx0 : x0 ≤ x[i0] := by rcases a2 with a | a; exact a.le; exact a.1.le
  have hge : i0 ≤ i1 + 1 := by
    by_contra hc
    have h1 := b2 (by omega)
    have h2 := h.le (show i1 + 1 ≤ i0 - 1 by omega) (by omega)
    linarith
  unfold integrateBetween
  simp only [idxGt, decide_eq_true_eq]
  by_cases hc : i1 < i0
  · rw [if_pos hc]
    obtain rfl : i0 = i1 + 1 := by omega
    simp only [Nat.add_sub_cancel] at a1
    have hb := (b2 hi0).le
    obtain ⟨-, s2⟩ := seg_integral h hl hn hf i1 hi0 x0 x1 a1 h01 hb
    simp only [idx]
    rw [Res.rd_lt (show i1 < y.length by omega), Res.rd_lt (show i1 + 1 < y.length by omega), Res.rd_lt hi1,
      Res.rd_lt hi0]
    simp only [Res.ok_bind, Res.pure_def]
    rw [s2, interpolant_chord h hl hn hf i1 hi0 x0 a1 hx0, interpolant_chord h hl hn hf i1 hi0 x1 b1 hb]
  · rw [if_neg hc]
    obtain ⟨h1, h2⟩ := loop_integral h hl hn hf i0 (i1 - i0) (by omega) 0
    have e1 : i0 + (i1 - i0) = i1 := by omega
    simp only [e1, zero_add] at h1 h2
    obtain ⟨s1, s2⟩ := seg_integral h hl hn hf (i0 - 1) (by omega) x0 x[i0] a1 hx0 (by
      simp only [show i0 - 1 + 1 = i0 by omega]; exact le_refl _)
    simp only [h1, Res.ok_bind, if_pos hpos]
    rw [Res.rd_lt (show i0 - 1 < y.length by omega), Res.rd_lt (show i0 < y.length by omega),
      Res.rd_lt (show i0 - 1 < x.length by omega), Res.rd_lt hi0]
    simp only [Res.ok_bind, Res.pure_def]
    have c0 : interp2 (y[i0 - 1]'(by omega)) (y[i0]'(by omega)) x[i0 - 1] x[i0] x0 = f x0 := by
      have := interpolant_chord h hl hn hf (i0 - 1) (by omega) x0 a1 (by
        simp only [show i0 - 1 + 1 = i0 by omega]; exact hx0)
      simp only [show i0 - 1 + 1 = i0 by omega] at this
      exact this.symm
    have k0 : y[i0]'(by omega) = f x[i0] := by
      have := C30_knot y x h hl hn i0 hi0
      rw [hf] at this; simpa using this.symm
    rw [c0, k0]
    by_cases hc2 : i1 < x.length - 1
    · rw [if_pos hc2]
      have hi1' : i1 + 1 < x.length := by omega
      obtain ⟨t1, t2⟩ := seg_integral h hl hn hf i1 hi1' x[i1] x1 (le_refl _) b1 (b2 hi1').le
      rw [Res.rd_lt (show i1 < y.length by omega), Res.rd_lt (show i1 + 1 < y.length by omega),
        Res.rd_lt hi1, Res.rd_lt hi1']
      simp only [Res.ok_bind, Res.pure_def]
      have k1 : y[i1]'(by omega) = f x[i1] := by
        have := C30_knot y x h hl hn i1 hi1
        rw [hf] at this; simpa using this.symm
      congr 1
      rw [← interpolant_chord h hl hn hf i1 hi1' x1 b1 (b2 hi1').le, k1,
        ← intervalIntegral.integral_add_adjacent_intervals (s1.trans h2) t1,
        ← intervalIntegral.integral_add_adjacent_intervals s1 h2, s2, t2]
      ring
    · rw [if_neg hc2]
      have hlast : x1 = x[i1] := by
        refine le_antisymm ?_ b1
        simpa only [show x.length - 1 = i1 by omega] using hx1
      congr 1
      rw [hlast, ← intervalIntegral.integral_add_adjacent_intervals s1 h2, s2]
      ring

theorem checks_ok {x y : List ℝ} (hl : y.length = x.length) (hn : 2 ≤ x.length) (x0 x1 : ℝ) (hx0 : x[0] ≤ x0)
    (hx1 : x1 ≤ x[x.length - 1]) : integrateChecks x y x0 x1 = .ok () := by
  unfold integrateChecks
  have hy : y ≠ [] := by intro h; rw [h] at hl; simp at hl; omega
  rw [Res.check_pos hl.symm, Res.ok_bind, Res.check_pos hy, Res.ok_bind, Res.rd_lt (show 0 < x.length by omega),
    Res.ok_bind, Res.check_pos hx0, Res.ok_bind, Res.rd_lt (show x.length - 1 < x.length by omega), Res.ok_bind,
    Res.check_pos hx1]

/-- C29: `integrate(x, y, x0, x1)` is the integral of the interpolant, if `x0` is before the last point. -/
theorem C29_integrate_partial (h : Increasing x) (hl : y.length = x.length) (hn : 2 ≤ x.length)
    (hf : IsInterpolant y x f) (x0 x1 : ℝ) (hx0 : x[0] ≤ x0) (h01 : x0 ≤ x1) (hx1 : x1 ≤ x[x.length - 1])
    (hlast : x0 < x[x.length - 1]) :
    integrateIn x y x0 x1 = .ok (∫ t in x0..x1, f t) := by
  unfold integrateIn
  rw [checks_ok hl hn x0 x1 hx0 hx1, Res.ok_bind]
  obtain ⟨r0, e0, s0⟩ := upperB_spec h x0
  obtain ⟨r1, e1, s1⟩ := lowerB_spec h x1
  rw [e0, e1, Res.ok_bind, Res.ok_bind]
  cases r0 with
  | none => exact absurd (s0 _ (List.getElem_mem (show x.length - 1 < x.length by omega))) (not_le.2 hlast)
  | some i0 =>
    cases r1 with
    | none =>
      have := s1 _ (List.getElem_mem (show 0 < x.length by omega))
      linarith
    | some i1 =>
      obtain ⟨hi0, a1, a2⟩ := s0
      obtain ⟨hi1, b1, b2⟩ := s1
      have hpos : 0 < i0 := by
        by_contra hc
        obtain rfl : i0 = 0 := by omega
        linarith
      exact between_integral h hl hn hf x0 x1 h01 hx1 i0 i1 hi0 hi1 hpos (a2 (i0 - 1) (by omega) (by omega))
        (.inl a1) b1 (fun hh => b2 (i1 + 1) hh (by omega))

/-- C29: `integrate(x, y)` is the integral over the full range. -/
theorem C29_full (h : Increasing x) (hl : y.length = x.length) (hn : 2 ≤ x.length)
    (hf : IsInterpolant y x f) : integrate x y = .ok (∫ t in x[0]..x[x.length - 1], f t) := by
  unfold integrate
  rw [Res.check_pos hl.symm, Res.ok_bind, rangeFrom1_pos _ (by omega)]
  obtain ⟨h1, -⟩ := loop_integral h hl hn hf 0 (x.length - 1) (by omega) 0
  simp only [Nat.zero_add, zero_add, List.map_id'] at h1
  rw [List.foldlM_map, ← h1]

/-- C29: adjacent intervals add up, and the full interval gives `integrate(x, y)`. -/
theorem C29_additive_partial (h : Increasing x) (hl : y.length = x.length) (hn : 2 ≤ x.length)
    (x0 x1 x2 : ℝ) (hx0 : x[0] ≤ x0) (h01 : x0 ≤ x1) (h12 : x1 ≤ x2) (hx2 : x2 ≤ x[x.length - 1])
    (hlast : x1 < x[x.length - 1]) :
    ∃ a b c, integrateIn x y x0 x1 = .ok a ∧ integrateIn x y x1 x2 = .ok b ∧ integrateIn x y x0 x2 = .ok c ∧
      a + b = c := by
  have hex : ∀ t, ∃ v, interpolate y x t = .ok v := by
    intro t
    obtain ⟨v, _, hv, -⟩ := interpAt_chord h hl hn t
    exact ⟨v, by rw [interpolate_eq hl hn, hv]⟩
  choose f hf using hex
  have hf' : IsInterpolant y x f := hf
  refine ⟨_, _, _, C29_integrate_partial h hl hn hf' x0 x1 hx0 h01 (by linarith) (by linarith),
    C29_integrate_partial h hl hn hf' x1 x2 (by linarith) h12 hx2 hlast,
    C29_integrate_partial h hl hn hf' x0 x2 hx0 (by linarith) hx2 (by linarith), ?_⟩
  -- integrability on any part of the range
  have hint : ∀ i (hi : i < x.length), IntervalIntegrable f volume x[0] x[i] := by
    intro i hi
    have := (loop_integral h hl hn hf' 0 i (by omega) 0).2
    simpa using this
  have hall : IntervalIntegrable f volume x[0] x[x.length - 1] := hint _ (by omega)
  have hsub : ∀ a b, x[0] ≤ a → a ≤ b → b ≤ x[x.length - 1] → IntervalIntegrable f volume a b := by
    intro a b ha hab hb
    apply hall.mono_set
    rw [Set.uIcc_of_le hab, Set.uIcc_of_le (by linarith)]
    exact Set.Icc_subset_Icc ha hb
  exact intervalIntegral.integral_add_adjacent_intervals (hsub x0 x1 hx0 h01 (by linarith))
    (hsub x1 x2 (by linarith) h12 hx2)

/-- C29: the full interval gives `integrate(x, y)`. -/
theorem C29_full_agree (h : Increasing x) (hl : y.length = x.length) (hn : 2 ≤ x.length) :
    integrateIn x y x[0] x[x.length - 1] = integrate x y := by
  have hex : ∀ t, ∃ v, interpolate y x t = .ok v := by
    intro t
    obtain ⟨v, _, hv, -⟩ := interpAt_chord h hl hn t
    exact ⟨v, by rw [interpolate_eq hl hn, hv]⟩
  choose f hf using hex
  have hlt := h.lt (show 0 < x.length - 1 by omega) (by omega)
  rw [C29_full h hl hn hf, C29_integrate_partial h hl hn hf _ _ (le_refl _) hlt.le (le_refl _) hlt]

/-- Finding: the empty interval at the last point is accepted by the checks and reads out of bounds. -/
theorem C29_last_refuted (h : Increasing x) (hl : y.length = x.length) (hn : 2 ≤ x.length) :
    integrateIn x y x[x.length - 1] x[x.length - 1] = .ub := by
  unfold integrateIn
  rw [checks_ok hl hn _ _ (h.le (by omega) (by omega)) (le_refl _), Res.ok_bind]
  obtain ⟨r0, e0, s0⟩ := upperB_spec h x[x.length - 1]
  obtain ⟨r1, e1, s1⟩ := lowerB_spec h x[x.length - 1]
  rw [e0, e1, Res.ok_bind, Res.ok_bind]
  cases r0 with
  | some i0 =>
    obtain ⟨hi0, a1, -⟩ := s0
    have := h.le (show i0 ≤ x.length - 1 by omega) (by omega)
    linarith
  | none =>
    cases r1 with
    | none =>
      have := s1 _ (List.getElem_mem (show x.length - 1 < x.length by omega))
      exact absurd this (lt_irrefl _)
    | some i1 =>
      obtain ⟨hi1, -, -⟩ := s1
      simp only [integrateBetween, idxGt, if_true, idx]
      rw [Res.rd_lt (by omega), Res.ok_bind]; rfl

/-! ### The version with a hint -/

theorem advance_spec (h : Increasing x) (t : ℝ) (i : Nat) (hi : i < x.length) (hle : x[i] ≤ t) :
    ∃ (hj : advance x t i < x.length), i ≤ advance x t i ∧ x[advance x t i] ≤ t ∧
      ∀ (hh : advance x t i + 1 < x.length), t < x[advance x t i + 1] := by
  have : ∃ j, advance x t i = j ∧ ∃ (hj : j < x.length), i ≤ j ∧ x[j] ≤ t ∧
      ∀ (hh : j + 1 < x.length), t < x[j + 1] := by
    induction hm : x.length - 1 - i generalizing i with
    | zero =>
      refine ⟨i, ?_, hi, le_refl _, hle, fun hh => by omega⟩
      unfold advance
      rw [dif_neg (by omega)]
    | succ m ih =>
      unfold advance
      rw [dif_pos (by omega), List.getElem?_eq_getElem (show i + 1 < x.length by omega)]
      simp only
      by_cases hc : x[i + 1] ≤ t
      · rw [if_pos hc]
        obtain ⟨j, e, hj, h1, h2, h3⟩ := ih (i + 1) (by omega) hc (by omega)
        exact ⟨j, e, hj, by omega, h2, h3⟩
      · rw [if_neg hc]
        exact ⟨i, rfl, hi, le_refl _, hle, fun _ => not_le.1 hc⟩
  obtain ⟨j, e, hj, h1, h2, h3⟩ := this
  subst e
  exact ⟨hj, h1, h2, h3⟩

/-- C29: `integrate_hinted` with a hint at or before `x0` gives the integral over any interval of the
range, and a hint that is right for an interval starting at `x1` or later. -/
theorem C29_hinted (h : Increasing x) (hl : y.length = x.length) (hn : 2 ≤ x.length)
    (hf : IsInterpolant y x f) (x0 x1 : ℝ) (hx0 : x[0] ≤ x0) (h01 : x0 ≤ x1) (hx1 : x1 ≤ x[x.length - 1])
    (k : Nat) (hk : k < x.length) (hkx : x[k] ≤ x0) :
    ∃ k', integrateHinted x y (some k) x0 x1 = .ok (∫ t in x0..x1, f t, k') ∧
      ∃ (hk' : k' < x.length), x[k'] ≤ x1 := by
  unfold integrateHinted
  rw [checks_ok hl hn x0 x1 hx0 hx1, Res.ok_bind]
  obtain ⟨c1, c2, c3, c4⟩ := advance_spec h x0 k hk hkx
  simp only
  generalize advance x x0 k = j at c1 c2 c3 c4 ⊢
  obtain ⟨d1, d2, d3, d4⟩ := advance_spec h x1 j c1 (by linarith)
  generalize advance x x1 j = i1 at d1 d2 d3 d4 ⊢
  have hbt : integrateBetween x y x0 x1 (some (if j ≠ x.length - 1 then j + 1 else j)) (some i1) =
      .ok (∫ t in x0..x1, f t) := by
    by_cases hc : j ≠ x.length - 1
    · rw [if_pos hc]
      exact between_integral h hl hn hf x0 x1 h01 hx1 (j + 1) i1 (by omega) d1 (by omega) c3
        (.inl (c4 (by omega))) d3 d4
    · rw [if_neg hc]
      have hj : j = x.length - 1 := not_not.1 hc
      have e : x0 = x[j] := by
        refine le_antisymm ?_ c3
        simp only [hj]; linarith
      exact between_integral h hl hn hf x0 x1 h01 hx1 j i1 c1 d1 (by omega)
        (le_trans (h.le (by omega) c1) c3) (.inr ⟨e, by omega⟩) d3 d4
  rw [hbt]
  exact ⟨i1, rfl, d1, d3⟩

/-- C29: without a hint the result is that of `integrate` and the hint is right for what follows. -/
theorem C29_unhinted_partial (h : Increasing x) (hl : y.length = x.length) (hn : 2 ≤ x.length)
    (hf : IsInterpolant y x f) (x0 x1 : ℝ) (hx0 : x[0] ≤ x0) (h01 : x0 ≤ x1) (hx1 : x1 ≤ x[x.length - 1])
    (hlast : x0 < x[x.length - 1]) :
    ∃ k', integrateHinted x y none x0 x1 = .ok (∫ t in x0..x1, f t, k') ∧
      ∃ (hk' : k' < x.length), x[k'] ≤ x1 := by
  unfold integrateHinted
  rw [checks_ok hl hn x0 x1 hx0 hx1, Res.ok_bind]
  obtain ⟨r0, e0, s0⟩ := upperB_spec h x0
  simp only [e0, Res.ok_bind]
  cases r0 with
  | none => exact absurd (s0 _ (List.getElem_mem (show x.length - 1 < x.length by omega))) (not_le.2 hlast)
  | some i0 =>
    obtain ⟨hi0, a1, a2⟩ := s0
    have hpos : 0 < i0 := by
      by_contra hc
      obtain rfl : i0 = 0 := by omega
      linarith
    have a3 := a2 (i0 - 1) (by omega) (by omega)
    obtain ⟨d1, d2, d3, d4⟩ := advance_spec h x1 (i0 - 1) (by omega) (by linarith)
    simp only
    generalize advance x x1 (i0 - 1) = i1 at d1 d2 d3 d4 ⊢
    rw [between_integral h hl hn hf x0 x1 h01 hx1 i0 i1 hi0 d1 hpos a3 (.inl a1) d3 d4]
    exact ⟨i1, rfl, d1, d3⟩

end

/-! ### Binned data -/
section
variable {K : Type} [Field K] [LinearOrder K] [IsStrictOrderedRing K]

omit [LinearOrder K] [IsStrictOrderedRing K] in
theorem binsLoop_ok (lo hi y : List K) (m : Nat) (h1 : m ≤ lo.length) (h2 : m ≤ hi.length) (h3 : m ≤ y.length) (r : K) :
    (List.range m).foldlM (fun r i => do
      let t ← Res.rd y i
      let b ← Res.rd hi i
      let a ← Res.rd lo i
      pure (r + t * (b - a))) r =
    Res.ok (r + ((List.range m).map fun i => y.getD i 0 * (hi.getD i 0 - lo.getD i 0)).sum) := by
  induction m with
  | zero => simp
  | succ m ih =>
    rw [List.range_succ, List.foldlM_append, ih (by omega) (by omega) (by omega), Res.ok_bind]
    simp only [List.foldlM_cons, List.foldlM_nil]
    rw [Res.rd_lt (show m < y.length by omega), Res.rd_lt (show m < hi.length by omega),
      Res.rd_lt (show m < lo.length by omega)]
    simp only [Res.ok_bind, Res.pure_def, List.map_append, List.sum_append, List.map_cons, List.map_nil,
      List.sum_cons, List.sum_nil, add_zero]
    congr 1
    simp [show m < y.length by omega, show m < hi.length by omega, show m < lo.length by omega, add_assoc]

/-- C29: binned `integrate(x, y)` is the sum of value times width. -/
theorem C29_bins (lo hi y : List K) (h1 : lo.length = y.length) (h2 : hi.length = lo.length) :
    integrateBins lo hi y =
      .ok ((List.range lo.length).map fun i => y.getD i 0 * (hi.getD i 0 - lo.getD i 0)).sum := by
  unfold integrateBins
  rw [Res.check_pos h1, Res.ok_bind, binsLoop_ok lo hi y _ (by omega) (by omega) (by omega)]
  simp

/-- C29: binned `integrate(x, y, x0, x1)` inside a single bin is value times width. -/
theorem C29_bins_in_partial (lo hi y : List K) (h : Increasing lo) (h1 : lo.length = y.length)
    (h2 : hi.length = lo.length) (i : Nat) (hi' : i < lo.length) (x0 x1 : K)
    (hx0 : lo[i] ≤ x0) (h01 : x0 ≤ x1) (hx1 : ∀ (hh : i + 1 < lo.length), x1 < lo[i + 1])
    (hend : x1 ≤ hi[hi.length - 1]'(by omega)) :
    integrateBinsIn lo hi y x0 x1 = .ok (y[i] * (x1 - x0)) := by
  unfold integrateBinsIn
  have hy : y ≠ [] := by intro h'; rw [h', List.length_nil] at h1; omega
  rw [Res.check_pos h1, Res.ok_bind, Res.check_pos hy, Res.ok_bind, Res.rd_lt (show 0 < lo.length by omega),
    Res.ok_bind, Res.rd_lt (show hi.length - 1 < hi.length by omega), Res.ok_bind,
    Res.check_pos ⟨le_trans (h.le (by omega) hi') hx0, hend⟩, Res.ok_bind]
  obtain ⟨r0, e0, s0⟩ := upperB_spec h x0
  obtain ⟨r1, e1, s1⟩ := lowerB_spec h x1
  rw [e0, e1, Res.ok_bind, Res.ok_bind]
  have hr1 : r1 = some i := by
    cases r1 with
    | none =>
      have := s1 _ (List.getElem_mem hi')
      exact absurd (lt_of_le_of_lt (le_trans hx0 h01) this) (lt_irrefl _)
    | some k =>
      obtain ⟨hk, b1, b2⟩ := s1
      congr 1
      rcases Nat.lt_trichotomy k i with hc | hc | hc
      · exact absurd (lt_of_le_of_lt (le_trans hx0 h01) (b2 i hi' hc)) (lt_irrefl _)
      · exact hc
      · have := h.le (show i + 1 ≤ k by omega) hk
        exact absurd (lt_of_lt_of_le (hx1 (by omega)) (le_trans this b1)) (lt_irrefl _)
  subst hr1
  have hgt : idxGt r0 (some i) = true := by
    cases r0 with
    | none => rfl
    | some k =>
      obtain ⟨hk, a1, a2⟩ := s0
      simp only [idxGt, decide_eq_true_eq]
      by_contra hc
      have := h.le (show k ≤ i by omega) hi'
      exact absurd (lt_of_lt_of_le a1 (le_trans this hx0)) (lt_irrefl _)
  rw [if_pos hgt]
  simp only [idx]
  rw [Res.rd_lt (show i < y.length by omega)]; rfl

theorem binsLoop_from (lo hi y : List K) (a m : Nat) (hm : a + m ≤ y.length) (hm1 : a + m ≤ lo.length) (hm2 : a + m ≤ hi.length) (r : K) :
    ((List.range m).map (a + ·)).foldlM (fun r i => do
      let t ← Res.rd y i
      let b ← Res.rd hi i
      let a ← Res.rd lo i
      pure (r + t * (b - a))) r =
    Res.ok (r + ((List.range m).map fun i => y.getD (a + i) 0 * (hi.getD (a + i) 0 - lo.getD (a + i) 0)).sum) := by
  induction m with
  | zero => simp
  | succ m ih =>
    rw [List.range_succ, List.map_append, List.foldlM_append, ih (by omega) (by omega) (by omega), Res.ok_bind]
    simp only [List.map_cons, List.map_nil, List.foldlM_cons, List.foldlM_nil]
    rw [Res.rd_lt (show a + m < y.length by omega), Res.rd_lt (show a + m < hi.length by omega),
      Res.rd_lt (show a + m < lo.length by omega)]
    simp only [Res.ok_bind, Res.pure_def, List.map_append, List.sum_append, List.map_cons, List.map_nil,
      List.sum_cons, List.sum_nil, add_zero]
    congr 1
    simp [show a + m < y.length by omega, show a + m < hi.length by omega, show a + m < lo.length by omega, add_assoc]

/-- C29: binned `integrate(x, y, x0, x1)` from bin `a` to a later bin `b`: the integral over these bins, plus an error
of the difference between the values of the bins `a + 1` and `a` times the width covered in `a`. -/
theorem C29_bins_across_partial (lo hi y : List K) (h : Increasing lo) (h1 : lo.length = y.length)
    (h2 : hi.length = lo.length) (a b : Nat) (hab : a < b) (hb : b < lo.length) (x0 x1 : K)
    (hcont : hi[a] = lo[a + 1])
    (hx0 : lo[a] ≤ x0) (hx0' : x0 < lo[a + 1]) (hx1' : lo[b] ≤ x1) (hx1 : ∀ (hh : b + 1 < lo.length), x1 < lo[b + 1])
    (hend : x1 ≤ hi[hi.length - 1]'(by omega)) :
    integrateBinsIn lo hi y x0 x1 = .ok (
      (y[a] * (hi[a] - x0)
        + ((List.range (b - (a + 1))).map fun i => y.getD (a + 1 + i) 0 * (hi.getD (a + 1 + i) 0 - lo.getD (a + 1 + i) 0)).sum
        + y[b] * (x1 - lo[b]))
      + (y[a + 1] - y[a]) * (hi[a] - x0)) := by
  unfold integrateBinsIn
  have hy : y ≠ [] := by intro h'; rw [h', List.length_nil] at h1; omega
  rw [Res.check_pos h1, Res.ok_bind, Res.check_pos hy, Res.ok_bind, Res.rd_lt (show 0 < lo.length by omega),
    Res.ok_bind, Res.rd_lt (show hi.length - 1 < hi.length by omega), Res.ok_bind,
    Res.check_pos ⟨le_trans (h.le (by omega) (by omega)) hx0, hend⟩, Res.ok_bind]
  obtain ⟨r0, e0, s0⟩ := upperB_spec h x0
  obtain ⟨r1, e1, s1⟩ := lowerB_spec h x1
  rw [e0, e1, Res.ok_bind, Res.ok_bind]
  have hr1 : r1 = some b := by
    cases r1 with
    | none =>
      have := s1 _ (List.getElem_mem hb)
      exact absurd (lt_of_le_of_lt hx1' this) (lt_irrefl _)
    | some k =>
      obtain ⟨hk, b1, b2⟩ := s1
      congr 1
      rcases Nat.lt_trichotomy k b with hc | hc | hc
      · exact absurd (lt_of_le_of_lt hx1' (b2 b hb hc)) (lt_irrefl _)
      · exact hc
      · have := h.le (show b + 1 ≤ k by omega) hk
        exact absurd (lt_of_lt_of_le (hx1 (by omega)) (le_trans this b1)) (lt_irrefl _)
  have hr0 : r0 = some (a + 1) := by
    cases r0 with
    | none =>
      have := s0 _ (List.getElem_mem (show a + 1 < lo.length by omega))
      exact absurd (lt_of_le_of_lt this hx0') (lt_irrefl _)
    | some k =>
      obtain ⟨hk, a1, a2⟩ := s0
      congr 1
      rcases Nat.lt_trichotomy k (a + 1) with hc | hc | hc
      · have := h.le (show k ≤ a by omega) (by omega)
        exact absurd (lt_of_lt_of_le a1 (le_trans this hx0)) (lt_irrefl _)
      · exact hc
      · exact absurd (lt_of_le_of_lt (a2 (a + 1) (by omega) hc) hx0') (lt_irrefl _)
  subst hr0 hr1
  rw [if_neg (by simp [idxGt]; omega)]
  simp only
  rw [binsLoop_from lo hi y (a + 1) (b - (a + 1)) (by omega) (by omega) (by omega), Res.ok_bind,
    Res.rd_lt (show a + 1 < y.length by omega), Res.ok_bind, Res.rd_lt (show a + 1 < lo.length by omega), Res.ok_bind,
    Res.rd_lt (show b < y.length by omega), Res.ok_bind, Res.rd_lt hb, Res.ok_bind]
  simp only [Res.pure_def, hcont]
  congr 1
  ring

example : integrateBinsIn [(0 : ℚ), 1, 2] [1, 2, 3] [1, 3, 10] (1 / 2) (5 / 2) = .ok (19 / 2) := by
  have h : Increasing [(0 : ℚ), 1, 2] := by unfold Increasing; norm_num
  rw [C29_bins_across_partial [(0 : ℚ), 1, 2] [1, 2, 3] [1, 3, 10] h rfl rfl 0 2 (by omega) (by simp) (1 / 2) (5 / 2) rfl
    (by norm_num) (by norm_num) (by norm_num) (by simp) (by norm_num)]
  congr 1
  simp
  norm_num

/-- Finding: across two bins the part in the first bin is weighted with the value of the second:
for `y = 1` on `[0,1)` and `y = 3` on `[1,2)`, the integral from 1/2 to 3/2 is 2, the code gives 3. -/
theorem C29_bins_in_refuted : integrateBinsIn [(0 : ℚ), 1] [1, 2] [1, 3] (1 / 2) (3 / 2) = .ok 3 := by
  have h : Increasing [(0 : ℚ), 1] := by unfold Increasing; norm_num
  unfold integrateBinsIn
  obtain ⟨r0, e0, s0⟩ := upperB_spec h (1 / 2)
  obtain ⟨r1, e1, s1⟩ := lowerB_spec h (3 / 2)
  have hr0 : r0 = some 1 := by
    cases r0 with
    | none => have := s0 1 (by simp); norm_num at this
    | some k =>
      obtain ⟨hk, a1, a2⟩ := s0
      have : k = 0 ∨ k = 1 := by simp at hk; omega
      rcases this with rfl | rfl
      · norm_num at a1
      · rfl
  have hr1 : r1 = some 1 := by
    cases r1 with
    | none => have := s1 1 (by simp); norm_num at this
    | some k =>
      obtain ⟨hk, a1, a2⟩ := s1
      have : k = 0 ∨ k = 1 := by simp at hk; omega
      rcases this with rfl | rfl
      · have := a2 1 (by simp) (by omega); norm_num at this
      · rfl
  subst hr0 hr1
  rw [e0, e1]
  simp [Res.rd, Res.check, idxGt]
  norm_num

end

/-- a case that meets the hypotheses -/
example : Increasing [(0 : ℝ), 1, 3] ∧ ∃ f, IsInterpolant [1, 2, (5 : ℝ)] [0, 1, 3] f := by
  have h : Increasing [(0 : ℝ), 1, 3] := by unfold Increasing; norm_num
  refine ⟨h, ?_⟩
  have hex : ∀ t, ∃ v, interpolate [1, 2, (5 : ℝ)] [0, 1, 3] t = .ok v := by
    intro t
    obtain ⟨v, _, hv, -⟩ := interpAt_chord (y := [1, 2, (5 : ℝ)]) h rfl (by simp) t
    exact ⟨v, by rw [interpolate_eq (y := [1, 2, (5 : ℝ)]) (x := [0, 1, 3]) rfl (by simp), hv]⟩
  choose f hf using hex
  exact ⟨f, hf⟩

end Verif.Math
