import Verif.Math.Hist
import Mathlib.Tactic.Linarith
import Mathlib.Data.Rat.Floor
import Mathlib.Tactic.FieldSimp
import Mathlib.Tactic.Positivity
/-!
# Property C32
-/
namespace Verif.Math
open Verif Verif.Core
variable {K : Type} [Field K] [LinearOrder K] [IsStrictOrderedRing K]

/-- C32: `rgen(i, j, n)`, `n ≥ 2`: `n` values from `i` to `j` with a constant step. -/
theorem C32_rgen (i j : K) (n : Nat) (h : 2 ≤ n) :
    (rgen i j n).length = n ∧ (rgen i j n)[0]? = some i ∧ (rgen i j n)[n - 1]? = some j ∧
    ∀ k, k + 1 < n → ∃ a b, (rgen i j n)[k]? = some a ∧ (rgen i j n)[k + 1]? = some b ∧
      b - a = (j - i) / ((n : K) - 1) := by
  unfold rgen
  rw [if_neg (by omega)]
  have hg : ∀ k, k < n → ((List.range n).map (fun k : Nat => i + k * ((j - i) / ((n : K) - 1))))[k]? =
      some (i + k * ((j - i) / ((n : K) - 1))) := by
    intro k hk; simp [hk]
  have hn : (n : K) - 1 ≠ 0 := by
    have : (2 : K) ≤ n := by exact_mod_cast h
    intro h0; linarith
  refine ⟨by simp, ?_, ?_, ?_⟩
  · rw [hg 0 (by omega)]; simp
  · rw [hg (n - 1) (by omega), Nat.cast_sub (by omega), Nat.cast_one]
    congr 1
    field_simp
    ring
  · intro k hk
    exact ⟨_, _, hg k (by omega), hg (k + 1) hk, by push_cast; ring⟩

/-- C32: `rgen(i, j, 1)` is `{i}`, and `rgen(i, j, 0)` is empty. -/
theorem C32_rgen_small (i j : K) : rgen i j 1 = [i] ∧ rgen i j 0 = [] := ⟨rfl, rfl⟩

variable [FloorRing K]

theorem roundNat_bounds (t : K) (h : 0 ≤ t) : t - 1 / 2 < roundNat t ∧ (roundNat t : K) ≤ t + 1 / 2 := by
  unfold roundNat
  have h0 : (0 : Int) ≤ Int.floor (t + 1 / 2) := Int.floor_nonneg.2 (by linarith)
  have hc : ((Int.floor (t + 1 / 2)).toNat : K) = ((Int.floor (t + 1 / 2) : Int) : K) := by
    have : ((Int.floor (t + 1 / 2)).toNat : Int) = Int.floor (t + 1 / 2) := Int.toNat_of_nonneg h0
    exact_mod_cast congrArg (Int.cast (R := K)) this
  rw [hc]
  have h1 := Int.floor_le (t + 1 / 2)
  have h2 := Int.lt_floor_add_one (t + 1 / 2)
  constructor <;> linarith

/-- Spec: `r` goes from `i` to `j` in steps of `step`, except the last one which has the same sign
and a size between half and one and a half times the step, or less if there is only one step. -/
def IsGrid (r : List K) (i j step : K) : Prop :=
  r[0]? = some i ∧ r[r.length - 1]? = some j ∧
  (∀ k, k + 2 < r.length → ∃ a b, r[k]? = some a ∧ r[k + 1]? = some b ∧ b - a = step) ∧
  (2 ≤ r.length → ∃ a, r[r.length - 2]? = some a ∧ 0 < (j - a) / step ∧ (j - a) / step ≤ 3 / 2) ∧
  (3 ≤ r.length → ∃ a, r[r.length - 2]? = some a ∧ 1 / 2 ≤ (j - a) / step)

theorem grid_aux (i j step d : K) (hs : step ≠ 0) (hd : d = (j - i) / step) (hd0 : 0 ≤ d) :
    IsGrid (if 1 < roundNat d + 1 then ((List.range (roundNat d + 1)).map
        (fun k : Nat => (k : K) * step + i)).set (roundNat d) j
      else if i - j ≠ 0 then [i, j] else [i]) i j step := by
  obtain ⟨h1, h2⟩ := roundNat_bounds d hd0
  have hj : j = i + d * step := by rw [hd]; field_simp; ring
  generalize roundNat d = m at h1 h2 ⊢
  have hlast : ∀ m' : Nat, m' + 1 = m → (j - ((m' : K) * step + i)) / step = d - m + 1 := by
    intro m' hm'
    have : (m : K) = m' + 1 := by rw [← hm']; push_cast; ring
    rw [hj, this]; field_simp; ring
  by_cases hm : 1 < m + 1
  · rw [if_pos hm]
    set r := ((List.range (m + 1)).map (fun k : Nat => (k : K) * step + i)).set m j with hr
    have hl : r.length = m + 1 := by simp [hr]
    have hg : ∀ k, k < m → r[k]? = some ((k : K) * step + i) := by
      intro k hk
      rw [hr, List.getElem?_set_ne (by omega)]
      simp [show k < m + 1 by omega]
    refine ⟨?_, ?_, ?_, ?_, ?_⟩
    · rw [hg 0 (by omega)]; simp
    · rw [hl, hr]; simp
    · intro k hk
      exact ⟨_, _, hg k (by omega), hg (k + 1) (by omega), by push_cast; ring⟩
    · intro _
      refine ⟨_, by rw [hl]; exact hg (m + 1 - 2) (by omega), ?_, ?_⟩ <;>
        rw [hlast (m + 1 - 2) (by omega)] <;> linarith
    · intro _
      refine ⟨_, by rw [hl]; exact hg (m + 1 - 2) (by omega), ?_⟩
      rw [hlast (m + 1 - 2) (by omega)]; linarith
  · rw [if_neg hm]
    have hm0 : m = 0 := by omega
    subst hm0
    simp only [Nat.cast_zero] at h1
    by_cases hij : i - j ≠ 0
    · rw [if_pos hij]
      refine ⟨rfl, rfl, ?_, ?_, ?_⟩
      · intro k hk; simp at hk
      · intro _
        refine ⟨i, rfl, ?_, ?_⟩
        · rw [← hd]
          rcases lt_or_eq_of_le hd0 with h | h
          · exact h
          · exfalso; apply hij; rw [hj, ← h]; ring
        · rw [← hd]; linarith
      · intro h; simp at h
    · rw [if_neg hij]
      have hij' : i = j := by
        have : i - j = 0 := not_not.1 hij
        linarith
      refine ⟨rfl, by simp [hij'], ?_, ?_, ?_⟩
      · intro k hk; simp at hk
      · intro h; simp at h
      · intro h; simp at h

/-- C32: `rgen_step(i, j, s)` goes from `i` to `j`, upwards or downwards, by steps of `s` except
the last. -/
theorem C32_rgen_step (i j s : K) (hs : 0 < s) :
    ∃ r, rgenStep i j s = .ok r ∧ IsGrid r i j (if i < j then s else -s) ∧ (i = j → r = [i]) := by
  unfold rgenStep
  rw [Res.check_pos hs, Res.ok_bind]
  by_cases hij : i < j
  · rw [if_pos hij, if_pos hij]
    have hd0 : 0 ≤ (j - i) / s := div_nonneg (by linarith) hs.le
    have := grid_aux i j s ((j - i) / s) hs.ne' rfl hd0
    simp only
    refine ⟨_, ?_, this, fun h => absurd h hij.ne⟩
    split
    · simp
    · next h =>
      have hm : roundNat ((j - i) / s) = 0 := by omega
      split <;> simp [hm]
  · rw [if_neg hij, if_neg hij]
    have hd0 : 0 ≤ (i - j) / s := div_nonneg (by linarith [not_lt.1 hij]) hs.le
    have he : (i - j) / s = (j - i) / -s := by rw [div_neg, ← neg_div, neg_sub]
    have := grid_aux i j (-s) ((i - j) / s) (neg_ne_zero.2 hs.ne') he hd0
    simp only
    refine ⟨_, ?_, this, ?_⟩
    · split
      · simp
      · next h =>
        have hm : roundNat ((i - j) / s) = 0 := by omega
        split <;> simp [hm]
    · rintro rfl
      have hm : roundNat ((i - i) / s) = 0 := by
        simp only [sub_self, zero_div, roundNat, zero_add]
        have : Int.floor ((1 : K) / 2) = 0 := by
          rw [Int.floor_eq_iff]; constructor <;> norm_num
        rw [this]; rfl
      rw [hm]; simp

/-- C32: the values of a grid are strictly monotone in the direction of the step. -/
theorem C32_rgen_step_monotone (r : List K) (i j step : K) (hs : step ≠ 0) (hg : IsGrid r i j step)
    (k : Nat) (hk : k + 1 < r.length) : ∃ a b, r[k]? = some a ∧ r[k + 1]? = some b ∧ 0 < (b - a) / step := by
  obtain ⟨h1, h2, h3, h4, -⟩ := hg
  by_cases hc : k + 2 < r.length
  · obtain ⟨a, b, ha, hb, hab⟩ := h3 k hc
    exact ⟨a, b, ha, hb, by rw [hab, div_self hs]; exact one_pos⟩
  · obtain ⟨a, ha, hpos, -⟩ := h4 (by omega)
    have e1 : r.length - 2 = k := by omega
    have e2 : r.length - 1 = k + 1 := by omega
    rw [e1] at ha
    rw [e2] at h2
    exact ⟨a, j, ha, h2, hpos⟩

/-- C32: a step that is not positive is refused. -/
theorem C32_rgen_step_bad (i j s : K) (hs : s ≤ 0) : rgenStep i j s = .abort := by
  unfold rgenStep
  rw [Res.check_neg (not_lt.2 hs)]; rfl

omit [FloorRing K] in
/-- C32: `make_bins(lo, hi, n)`: contiguous bins of equal width covering exactly `[lo, hi)`. -/
theorem C32_make_bins (mi ma : K) (n : Nat) (h : 0 < n) :
    (makeBins mi ma n).dims = [2, n] ∧ (makeBins mi ma n).data.length = 2 * n ∧
    (makeBins mi ma n).data[0]? = some mi ∧ (makeBins mi ma n).data[n + (n - 1)]? = some ma ∧
    (∀ i, i + 1 < n → (makeBins mi ma n).data[n + i]? = (makeBins mi ma n).data[i + 1]?) ∧
    ∀ i, i < n → ∃ lo hi, (makeBins mi ma n).data[i]? = some lo ∧ (makeBins mi ma n).data[n + i]? = some hi ∧
      hi - lo = (ma - mi) / n := by
  have hlo : ∀ i, i < n → (makeBins mi ma n).data[i]? = some (mi + i * ((ma - mi) / n)) := by
    intro i hi
    unfold makeBins
    simp only
    rw [List.getElem?_append_left (by simpa using hi)]; simp [hi]
  have hhi : ∀ i, i < n → (makeBins mi ma n).data[n + i]? = some (mi + (i + 1) * ((ma - mi) / n)) := by
    intro i hi
    unfold makeBins
    simp only
    rw [List.getElem?_append_right (by simp)]; simp [hi]
  have hn : (n : K) ≠ 0 := by exact_mod_cast h.ne'
  refine ⟨rfl, by simp [makeBins]; omega, ?_, ?_, ?_, ?_⟩
  · rw [hlo 0 h]; simp
  · rw [hhi (n - 1) (by omega), Nat.cast_sub (by omega), Nat.cast_one]
    congr 1; field_simp; ring
  · intro i hi
    rw [hhi i (by omega), hlo (i + 1) hi]; push_cast; rfl
  · intro i hi
    exact ⟨_, _, hlo i hi, hhi i hi, by ring⟩

example : rgen (1 : ℚ) 3 5 = [1, 3 / 2, 2, 5 / 2, 3] := by
  simp [rgen, List.range_succ]; norm_num
example : ∃ r, rgenStep (0 : ℚ) 5 2 = .ok r ∧ r = [0, 2, 4, 5] := by
  refine ⟨_, ?_, rfl⟩
  have : roundNat ((5 - 0) / 2 : ℚ) = 3 := by
    unfold roundNat
    have : Int.floor ((5 - 0) / 2 + 1 / 2 : ℚ) = 3 := by rw [Int.floor_eq_iff]; constructor <;> norm_num
    rw [this]; rfl
  simp only [rgenStep, Res.check_pos (show (0 : ℚ) < 2 by norm_num), Res.ok_bind,
    if_pos (show (0 : ℚ) < 5 by norm_num), this]
  simp [List.range_succ]; norm_num

end Verif.Math
