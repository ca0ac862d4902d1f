import Verif.Math.Convolve
import Verif.Math.InterpProps
import Mathlib.Algebra.BigOperators.Group.Finset.Basic
import Mathlib.Algebra.BigOperators.Ring.Finset
import Mathlib.Algebra.BigOperators.Intervals
import Mathlib.Tactic.FieldSimp
import Mathlib.Tactic.LinearCombination
import Mathlib.Algebra.Order.Ring.Rat
/-!
# C176: convolution of tabulated functions
-/
namespace Verif.Math
open Verif
variable {K : Type} [Field K] [LinearOrder K] [IsStrictOrderedRing K]

/-- Spec: `(t, v)` is on the broken line through the data, prolonged by its first and last pieces -/
def Curve (y x : List K) (t v : K) : Prop :=
  ∃ k, OnChord y x k t v ∧ (k = 0 ∨ ∃ a, x[k]? = some a ∧ a ≤ t) ∧ (k + 2 = x.length ∨ ∃ b, x[k + 1]? = some b ∧ t ≤ b)

/-- Spec: the width given to each point: the distance to the previous one, for the first one to the next one -/
def width (x : List K) (i : Nat) : K := if i = 0 then x.getD 1 0 - x.getD 0 0 else x.getD i 0 - x.getD (i - 1) 0

theorem OnChord.knot {y x : List K} (h : Increasing x) {k : Nat} {t v a b : K} (hv : OnChord y x k t v) (hx : x[k + 1]? = some t) (hy : y[k + 1]? = some b) : v = b := by
  obtain ⟨xa, xb, ya, yb, h1, h2, h3, h4, h5⟩ := hv
  rw [h2, Option.some.injEq] at hx
  rw [h4, Option.some.injEq] at hy
  subst hx hy
  obtain ⟨i1, rfl⟩ := List.getElem?_eq_some_iff.1 h1
  obtain ⟨i2, rfl⟩ := List.getElem?_eq_some_iff.1 h2
  have hlt := h.lt (show k < k + 1 by omega) i2
  have : (v - yb) * (x[k + 1] - x[k]) = 0 := by linear_combination h5
  rcases mul_eq_zero.1 this with h | h <;> linarith

theorem OnChord.knot0 {y x : List K} (h : Increasing x) {k : Nat} {t v b : K} (hv : OnChord y x k t v) (hx : x[k]? = some t) (hy : y[k]? = some b) : v = b := by
  obtain ⟨xa, xb, ya, yb, h1, h2, h3, h4, h5⟩ := hv
  rw [h1, Option.some.injEq] at hx
  rw [h3, Option.some.injEq] at hy
  subst hx hy
  obtain ⟨i1, rfl⟩ := List.getElem?_eq_some_iff.1 h1
  obtain ⟨i2, rfl⟩ := List.getElem?_eq_some_iff.1 h2
  have hlt := h.lt (show k < k + 1 by omega) i2
  have : (v - ya) * (x[k + 1] - x[k]) = 0 := by linear_combination h5
  rcases mul_eq_zero.1 this with h | h <;> linarith

theorem curve_lt {y x : List K} (h : Increasing x) {t v w : K} {k k' : Nat} (hkk : k < k') (hv : OnChord y x k t v) (hw : OnChord y x k' t w)
    (h1 : k' = 0 ∨ ∃ a, x[k']? = some a ∧ a ≤ t) (h2 : k + 2 = x.length ∨ ∃ b, x[k + 1]? = some b ∧ t ≤ b) : v = w := by
  have hw' := hw
  obtain ⟨xa, xb, ya, yb, g1, g2, g3, g4, -⟩ := hw'
  obtain ⟨i1, e1⟩ := List.getElem?_eq_some_iff.1 g1
  obtain ⟨i2, e2⟩ := List.getElem?_eq_some_iff.1 g2
  rcases h1 with h1 | ⟨a, ha, hat⟩
  · omega
  rcases h2 with h2 | ⟨b, hb, htb⟩
  · omega
  rw [g1, Option.some.injEq] at ha
  subst ha
  obtain ⟨i3, e3⟩ := List.getElem?_eq_some_iff.1 hb
  have hle := h.le (show k + 1 ≤ k' by omega) i1
  have hk : k + 1 = k' := by
    by_contra hne
    have := h.lt (show k + 1 < k' by omega) i1
    rw [e1, e3] at this
    exact absurd (lt_of_lt_of_le this (le_trans hat htb)) (lt_irrefl _)
  subst hk
  have ht : t = xa := le_antisymm (by rw [← e1, e3]; exact htb) hat
  subst ht
  rw [hv.knot (a := t) h g1 g3, hw.knot0 h g1 g3]

theorem Curve.unique {y x : List K} (h : Increasing x) {t v w : K} (hv : Curve y x t v) (hw : Curve y x t w) : v = w := by
  obtain ⟨k, a1, a2, a3⟩ := hv
  obtain ⟨k', b1, b2, b3⟩ := hw
  rcases Nat.lt_trichotomy k k' with hkk | rfl | hkk
  · exact curve_lt h hkk a1 b1 b2 a3
  · exact a1.unique h b1
  · exact (curve_lt h hkk b1 a1 a2 b3).symm

theorem increasing_shift {x : List K} (h : Increasing x) (s : K) : Increasing (x.map (· + s)) := by
  unfold Increasing at h ⊢
  rw [List.pairwise_map]
  exact h.imp fun hab => by linarith

/-- interpolation on the shifted abscissae -/
theorem interp_shift {y x : List K} (h : Increasing x) (hl : y.length = x.length) (hn : 2 ≤ x.length) (s t : K) :
    ∃ v, interpAt y (x.map (· + s)) t = .ok v ∧ Curve y x (t - s) v := by
  obtain ⟨v, k, e, ⟨xa, xb, ya, yb, h1, h2, h3, h4, h5⟩, hi, h6, h7⟩ := interpAt_chord (y := y) (increasing_shift h s) (by rw [List.length_map]; exact hl)
    (by rw [List.length_map]; exact hn) t
  rw [List.getElem?_map, Option.map_eq_some_iff] at h1 h2
  obtain ⟨xa', g1, rfl⟩ := h1
  obtain ⟨xb', g2, rfl⟩ := h2
  rw [List.length_map] at hi h7
  refine ⟨v, e, k, ⟨xa', xb', ya, yb, g1, g2, h3, h4, by linear_combination h5⟩, ?_, ?_⟩
  · rcases h6 with h6 | h6
    · rw [List.getElem_map] at h6
      exact .inr ⟨x[k], by simp, by linarith⟩
    · exact .inl h6
  · rcases h7 with h7 | h7
    · rw [List.getElem_map] at h7
      exact .inr ⟨x[k + 1], by simp, by linarith⟩
    · exact .inl h7

theorem convStep_ok (x : List K) (hn : 1 < x.length) (i : Nat) (hi : i < x.length) : convStep x i = .ok (width x i) := by
  unfold convStep width
  rw [Res.rd_lt hi, Res.ok_bind]
  by_cases h0 : i = 0
  · subst h0
    rw [if_pos rfl, if_pos rfl, Res.rd_lt (by omega), Res.ok_bind]
    simp [List.getD_eq_getElem?_getD, hi, show 1 < x.length from hn]
  · rw [if_neg h0, if_neg h0, Res.rd_lt (by omega), Res.ok_bind]
    simp [List.getD_eq_getElem?_getD, hi, show i - 1 < x.length by omega]

/-- The value at each abscissa is the sum of the products of the values of the first function at each point, of the width of the point, and of the value of
the second function at the difference of the abscissae; outside of its range the second function is prolonged by straight lines. -/
theorem C176_sum (x y1 y2 : List K) (h : Increasing x) (h1 : y1.length = x.length) (h2 : y2.length = x.length) (hn : 3 < x.length) :
    ∃ (r : List K) (c : Nat → Nat → K), convolve x y1 y2 = .ok r ∧ r.length = x.length ∧
      (∀ (i j : Nat) (hi : i < x.length) (hj : j < x.length), Curve y2 x (x[j] - x[i]) (c i j)) ∧
      ∀ (j : Nat), j < x.length → r[j]? = some (∑ i ∈ Finset.range x.length, y1.getD i 0 * c i j * width x i) := by
  have hex : ∀ i j, ∃ v, ∀ (hi : i < x.length) (hj : j < x.length), interpAt y2 (x.map (· + x[i])) x[j] = .ok v ∧ Curve y2 x (x[j] - x[i]) v := by
    intro i j
    by_cases hi : i < x.length
    · by_cases hj : j < x.length
      · obtain ⟨v, a, b⟩ := interp_shift h h2 (by omega) x[i] x[j]
        exact ⟨v, fun _ _ => ⟨a, b⟩⟩
      · exact ⟨0, fun _ hj' => absurd hj' hj⟩
    · exact ⟨0, fun hi' => absurd hi' hi⟩
  choose c hc using hex
  have turn : ∀ i (hi : i < x.length) (f : Nat → K), convTurn x y1 y2 ((List.range x.length).map f) i =
      .ok ((List.range x.length).map fun j => f j + y1.getD i 0 * c i j * width x i) := by
    intro i hi f
    unfold convTurn
    rw [convStep_ok x (by omega) i hi, Res.ok_bind, Res.rd_lt hi, Res.ok_bind]
    have : interpolateV y2 (x.map (· + x[i])) x = .ok ((List.range x.length).map fun j => c i j) := by
      unfold interpolateV
      rw [Res.check_pos (by rw [List.length_map]; exact h2), Res.check_pos (by omega), Res.ok_bind, Res.ok_bind]
      exact Res.mapM_getElem (by simp) fun j hj hr => by rw [(hc i j hi hj).1]; simp
    rw [this, Res.ok_bind, Res.rd_lt (by omega), Res.ok_bind]
    congr 1
    apply List.ext_getElem?
    intro j
    by_cases hj : j < x.length
    · simp [List.getElem?_zipWith, hj, List.getD_eq_getElem?_getD, show i < y1.length by omega]
    · simp [List.getElem?_zipWith, hj]
  have loop : ∀ m, m ≤ x.length → (List.range m).foldlM (convTurn x y1 y2) (List.replicate x.length 0) =
      .ok ((List.range x.length).map fun j => ∑ i ∈ Finset.range m, y1.getD i 0 * c i j * width x i) := by
    intro m
    induction m with
    | zero =>
      intro _
      simp only [List.range_zero, List.foldlM_nil, Finset.range_zero, Finset.sum_empty, List.map_const', List.length_range]
      rfl
    | succ m ih =>
      intro hm
      rw [List.range_succ, List.foldlM_append, ih (by omega), Res.ok_bind, List.foldlM_cons, turn m (by omega), Res.ok_bind]
      simp only [List.foldlM_nil, Finset.sum_range_succ]
      rfl
  refine ⟨(List.range x.length).map fun j => ∑ i ∈ Finset.range x.length, y1.getD i 0 * c i j * width x i, c, ?_, ?_, fun i j hi hj => (hc i j hi hj).2, ?_⟩
  · unfold convolve
    rw [Res.check_pos h1.symm, Res.check_pos h2.symm, Res.check_pos hn, Res.ok_bind, Res.ok_bind, Res.ok_bind, loop _ (le_refl _)]
  · simp
  · intro j hj
    simp [hj]

theorem list_eq {r s : List K} {n : Nat} {f : Nat → K} (h1 : r.length = n) (h2 : s.length = n) (h3 : ∀ j < n, r[j]? = some (f j)) (h4 : ∀ j < n, s[j]? = some (f j)) : r = s := by
  apply List.ext_getElem?
  intro j
  by_cases hj : j < n
  · rw [h3 j hj, h4 j hj]
  · rw [List.getElem?_eq_none (by omega), List.getElem?_eq_none (by omega)]

/-- Spec: `a u + b v`, element by element -/
def lin (a b : K) (u v : List K) : List K := List.zipWith (fun s t => a * s + b * t) u v

theorem lin_get {a b : K} {u v : List K} {i : Nat} {s t : K} (h1 : u[i]? = some s) (h2 : v[i]? = some t) : (lin a b u v)[i]? = some (a * s + b * t) := by
  unfold lin
  rw [List.getElem?_zipWith, h1, h2]

theorem lin_getD (a b : K) {u v : List K} (h : u.length = v.length) (i : Nat) : (lin a b u v).getD i 0 = a * u.getD i 0 + b * v.getD i 0 := by
  by_cases hi : i < u.length
  · rw [List.getD_eq_getElem?_getD, lin_get (List.getElem?_eq_getElem hi) (List.getElem?_eq_getElem (h ▸ hi))]
    simp [List.getD_eq_getElem?_getD, hi, h ▸ hi]
  · rw [List.getD_eq_getElem?_getD, List.getD_eq_getElem?_getD, List.getD_eq_getElem?_getD, List.getElem?_eq_none (by simp [lin]; omega),
      List.getElem?_eq_none (by omega), List.getElem?_eq_none (by omega)]
    simp

/-- The convolution is linear in the first function. -/
theorem C176_linear_first (x y1 z1 y2 : List K) (h : Increasing x) (h1 : y1.length = x.length) (h1' : z1.length = x.length) (h2 : y2.length = x.length)
    (hn : 3 < x.length) (a b : K) : ∃ r s, convolve x y1 y2 = .ok r ∧ convolve x z1 y2 = .ok s ∧ convolve x (lin a b y1 z1) y2 = .ok (lin a b r s) := by
  obtain ⟨r, c, e, l, hc, hr⟩ := C176_sum x y1 y2 h h1 h2 hn
  obtain ⟨s, c', e', l', hc', hs⟩ := C176_sum x z1 y2 h h1' h2 hn
  obtain ⟨u, c'', e'', l'', hc'', hu⟩ := C176_sum x (lin a b y1 z1) y2 h (by simp [lin, h1, h1']) h2 hn
  refine ⟨r, s, e, e', ?_⟩
  rw [e'']
  congr 1
  refine list_eq (f := fun j => ∑ i ∈ Finset.range x.length, (lin a b y1 z1).getD i 0 * c'' i j * width x i) l'' (by simp [lin, l, l']) hu fun j hj => ?_
  rw [lin_get (hr j hj) (hs j hj), Finset.mul_sum, Finset.mul_sum, ← Finset.sum_add_distrib]
  congr 1
  refine Finset.sum_congr rfl fun i hi => ?_
  have hi := Finset.mem_range.1 hi
  rw [(hc i j hi hj).unique h (hc'' i j hi hj), (hc' i j hi hj).unique h (hc'' i j hi hj), lin_getD a b (by rw [h1, h1'])]
  ring

theorem Curve.lin {y z x : List K} (h : Increasing x) (hl : y.length = z.length) {t v w : K} (a b : K) (hv : Curve y x t v) (hw : Curve z x t w) :
    Curve (lin a b y z) x t (a * v + b * w) := by
  obtain ⟨k, ⟨xa, xb, ya, yb, g1, g2, g3, g4, g5⟩, q1, q2⟩ := hv
  obtain ⟨i3, -⟩ := List.getElem?_eq_some_iff.1 g3
  obtain ⟨i4, -⟩ := List.getElem?_eq_some_iff.1 g4
  obtain ⟨i1, e1⟩ := List.getElem?_eq_some_iff.1 g1
  obtain ⟨i2, e2⟩ := List.getElem?_eq_some_iff.1 g2
  have hz3 : z[k]? = some (z[k]'(by omega)) := by simp
  have hz4 : z[k + 1]? = some (z[k + 1]'(by omega)) := by simp
  have hlt := h.lt (show k < k + 1 by omega) i2
  rw [e1, e2] at hlt
  have hne : xb - xa ≠ 0 := by intro h0; linarith
  generalize z[k]'(by omega) = za at hz3
  generalize z[k + 1]'(by omega) = zb at hz4
  have hw' : Curve z x t (za + (zb - za) * (t - xa) / (xb - xa)) :=
    ⟨k, ⟨xa, xb, za, zb, g1, g2, hz3, hz4, by field_simp; ring⟩, q1, q2⟩
  rw [hw.unique h hw']
  refine ⟨k, ⟨xa, xb, _, _, g1, g2, lin_get g3 hz3, lin_get g4 hz4, ?_⟩, q1, q2⟩
  field_simp
  linear_combination a * g5

/-- The convolution is linear in the second function. -/
theorem C176_linear_second (x y1 y2 z2 : List K) (h : Increasing x) (h1 : y1.length = x.length) (h2 : y2.length = x.length) (h2' : z2.length = x.length)
    (hn : 3 < x.length) (a b : K) : ∃ r s, convolve x y1 y2 = .ok r ∧ convolve x y1 z2 = .ok s ∧ convolve x y1 (lin a b y2 z2) = .ok (lin a b r s) := by
  obtain ⟨r, c, e, l, hc, hr⟩ := C176_sum x y1 y2 h h1 h2 hn
  obtain ⟨s, c', e', l', hc', hs⟩ := C176_sum x y1 z2 h h1 h2' hn
  obtain ⟨u, c'', e'', l'', hc'', hu⟩ := C176_sum x y1 (lin a b y2 z2) h h1 (by simp [lin, h2, h2']) hn
  refine ⟨r, s, e, e', ?_⟩
  rw [e'']
  congr 1
  refine list_eq (f := fun j => ∑ i ∈ Finset.range x.length, y1.getD i 0 * c'' i j * width x i) l'' (by simp [lin, l, l']) hu fun j hj => ?_
  rw [lin_get (hr j hj) (hs j hj), Finset.mul_sum, Finset.mul_sum, ← Finset.sum_add_distrib]
  congr 1
  refine Finset.sum_congr rfl fun i hi => ?_
  have hi := Finset.mem_range.1 hi
  rw [(hc'' i j hi hj).unique h ((hc i j hi hj).lin h (by rw [h2, h2']) a b (hc' i j hi hj))]
  ring

theorem curve_knot {y x : List K} (h : Increasing x) (hl : y.length = x.length) (hn : 2 ≤ x.length) (j : Nat) (hj : j < x.length) : Curve y x x[j] (y[j]'(by omega)) := by
  by_cases hc : j + 1 < x.length
  · exact ⟨j, ⟨x[j], x[j + 1], y[j], y[j + 1], by simp, by simp, by simp, by simp, by ring⟩, .inr ⟨x[j], by simp, le_refl _⟩,
      .inr ⟨x[j + 1], by simp, h.le (by omega) hc⟩⟩
  · obtain ⟨k, rfl⟩ : ∃ k, j = k + 1 := ⟨j - 1, by omega⟩
    exact ⟨k, ⟨x[k], x[k + 1], y[k], y[k + 1], by simp, by simp, by simp, by simp, by ring⟩, .inr ⟨x[k], by simp, h.le (by omega) hj⟩,
      .inr ⟨x[k + 1], by simp, le_refl _⟩⟩

/-- A unit impulse at the abscissa 0 — the inverse of the width of this point there, 0 elsewhere — gives back the second function. -/
theorem C176_impulse (x y2 : List K) (h : Increasing x) (h2 : y2.length = x.length) (hn : 3 < x.length) (p : Nat) (hp : p < x.length) (h0 : x[p] = 0) :
    convolve x ((List.replicate x.length 0).set p (1 / width x p)) y2 = .ok y2 := by
  obtain ⟨r, c, e, l, hc, hr⟩ := C176_sum x ((List.replicate x.length 0).set p (1 / width x p)) y2 h (by simp) h2 hn
  have hw : width x p ≠ 0 := by
    unfold width
    by_cases hz : p = 0
    · have := h.lt (show 0 < 1 by omega) (show 1 < x.length by omega)
      rw [if_pos hz]
      simp only [List.getD_eq_getElem?_getD, List.getElem?_eq_getElem (show 1 < x.length by omega), List.getElem?_eq_getElem (show 0 < x.length by omega), Option.getD_some]
      intro h0; linarith
    · have := h.lt (show p - 1 < p by omega) hp
      rw [if_neg hz]
      simp only [List.getD_eq_getElem?_getD, List.getElem?_eq_getElem hp, List.getElem?_eq_getElem (show p - 1 < x.length by omega), Option.getD_some]
      intro h0; linarith
  rw [e]
  congr 1
  refine list_eq (f := fun j => ∑ i ∈ Finset.range x.length, ((List.replicate x.length 0).set p (1 / width x p)).getD i 0 * c i j * width x i) l h2 hr fun j hj => ?_
  have hk : c p j = y2[j]'(by omega) := by
    have := hc p j hp hj
    rw [h0, sub_zero] at this
    exact this.unique h (curve_knot h h2 (by omega) j hj)
  rw [List.getElem?_eq_getElem (by omega)]
  congr 1
  rw [Finset.sum_eq_single p]
  · rw [hk]
    simp only [List.getD_eq_getElem?_getD, List.getElem?_set, List.length_replicate, hp, if_true, Option.getD_some]
    field_simp
  · intro i hi hne
    have hi := Finset.mem_range.1 hi
    simp [List.getD_eq_getElem?_getD, List.getElem?_set, hne.symm, hi]
  · intro hne
    exact absurd (Finset.mem_range.2 hp) hne

/-- Arrays of different sizes, or of at most three elements, are refused. -/
theorem C176_refused (x y1 y2 : List K) (h : y1.length ≠ x.length ∨ y2.length ≠ x.length ∨ x.length ≤ 3) : convolve x y1 y2 = .abort := by
  unfold convolve
  by_cases h1 : x.length = y1.length
  · rw [Res.check_pos h1, Res.ok_bind]
    by_cases h2 : x.length = y2.length
    · rw [Res.check_pos h2, Res.ok_bind, Res.check_neg (by omega)]; rfl
    · rw [Res.check_neg h2]; rfl
  · rw [Res.check_neg h1]; rfl

/-- Finding: the convolution of functions that are zero outside of a few points is not the convolution, nor symmetric: the second function is prolonged by
straight lines (4 at -3 for a function that is 1 at 0 and 0 at 1, 2, 3). Arrays of 3 elements are refused, although the message asks for at least 3. -/
theorem C176_refuted : convolve ([0, 1, 2, 3] : List ℚ) [1, 0, 0, 0] [0, 0, 0, 1] = .ok [0, 0, 0, 1] ∧
    convolve ([0, 1, 2, 3] : List ℚ) [0, 0, 0, 1] [1, 0, 0, 0] = .ok [4, 3, 2, 1] ∧
    convolve ([0, 1, 2] : List ℚ) [0, 0, 1] [1, 0, 0] = .abort := by
  refine ⟨by decide +kernel, by decide +kernel, C176_refused _ _ _ (by simp)⟩

/-- hypotheses of C176_impulse, and a convolution on irregular abscissae -/
example : Increasing ([-1, 0, 1, 3] : List ℚ) ∧ convolve ([-1, 0, 1, 3] : List ℚ) [0, 1, 0, 0] [5, 6, 7, 8] = .ok [5, 6, 7, 8] := by
  refine ⟨by unfold Increasing; decide +kernel, ?_⟩
  have := C176_impulse ([-1, 0, 1, 3] : List ℚ) [5, 6, 7, 8] (by unfold Increasing; decide +kernel) rfl (by decide) 1 (by decide) rfl
  have hw : width ([-1, 0, 1, 3] : List ℚ) 1 = 1 := by decide +kernel
  rw [hw] at this
  simpa using this

end Verif.Math
