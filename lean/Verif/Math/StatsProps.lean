import Verif.Math.Stats
import Verif.Math.OrderProps
import Mathlib.Algebra.BigOperators.Group.List.Basic
import Mathlib.Algebra.BigOperators.Ring.List
import Mathlib.Algebra.Order.BigOperators.Group.List
import Mathlib.Tactic.Linarith
import Mathlib.Tactic.FieldSimp
import Mathlib.Tactic.Ring
import Mathlib.Tactic.LinearCombination
/-!
# C106: means.  C107: measures of spread and outlier rejection
-/
namespace Verif.Stats
open Verif Verif.Math Verif.Find

section mean
variable {K : Type} [Field K] [LinearOrder K] [IsStrictOrderedRing K]

omit [IsStrictOrderedRing K] in
theorem total_eq (v : List K) : total v = v.sum := by
  unfold total
  rw [List.sum_eq_foldl]

omit [IsStrictOrderedRing K] in
/-- sums of a linear function -/
theorem sum_affine (v : List K) (a b : K) : (v.map fun t => a * t + b).sum = a * v.sum + b * v.length := by
  induction v with
  | nil => simp
  | cons t v ih => simp [ih]; ring

theorem len_pos {α : Type} {v : List α} (h : v ≠ []) : (0 : K) < v.length := by
  have : 0 < v.length := List.length_pos_of_ne_nil h
  exact_mod_cast this

omit [IsStrictOrderedRing K] in
theorem mean_ne {v : List K} (h : v ≠ []) : mean v = some (v.sum / v.length) := by
  unfold mean
  rw [if_neg (by simpa using h), total_eq]

/-- C106: the mean is the sum divided by the number of elements; of nothing it is NaN. -/
theorem C106_mean (v : List K) : (mean v = none ↔ v = []) ∧ ∀ m, mean v = some m → m * v.length = v.sum := by
  constructor
  · constructor
    · intro h; by_contra hv; rw [mean_ne hv] at h; simp at h
    · rintro rfl; rfl
  · intro m hm
    have hv : v ≠ [] := by rintro rfl; simp [mean] at hm
    rw [mean_ne hv, Option.some.injEq] at hm
    have := (len_pos hv : (0 : K) < v.length).ne'
    rw [← hm]; field_simp

/-- C106: the mean lies between any bounds of the data. -/
theorem C106_bounds {v : List K} {m a b : K} (hm : mean v = some m) (h : ∀ t ∈ v, a ≤ t ∧ t ≤ b) : a ≤ m ∧ m ≤ b := by
  have hv : v ≠ [] := by rintro rfl; simp [mean] at hm
  have hp : (0 : K) < v.length := len_pos hv
  have h1 := (C106_mean v).2 m hm
  have h2 := List.card_nsmul_le_sum v a fun t ht => (h t ht).1
  have h3 := List.sum_le_card_nsmul v b fun t ht => (h t ht).2
  rw [nsmul_eq_mul, ← h1, mul_comm] at h2
  rw [nsmul_eq_mul, ← h1, mul_comm (v.length : K)] at h3
  exact ⟨le_of_mul_le_mul_right h2 hp, le_of_mul_le_mul_right h3 hp⟩

/-- C106: scaling and shifting the data scales and shifts the mean. -/
theorem C106_affine {v : List K} {m : K} (hm : mean v = some m) (a b : K) : mean (v.map fun t => a * t + b) = some (a * m + b) := by
  have hv : v ≠ [] := by rintro rfl; simp [mean] at hm
  have hp := (len_pos hv : (0 : K) < v.length).ne'
  have h1 := (C106_mean v).2 m hm
  rw [mean_ne (by simpa using hv), sum_affine, ← h1, List.length_map]
  congr 1
  field_simp

omit [IsStrictOrderedRing K] in
theorem sum_sq_shift (v : List K) (x m : K) :
    (v.map fun t => (t - x) ^ 2).sum = (v.map fun t => (t - m) ^ 2).sum + 2 * (m - x) * (v.sum - m * v.length) + v.length * (m - x) ^ 2 := by
  induction v with
  | nil => simp
  | cons t v ih => simp only [List.map_cons, List.sum_cons, ih, List.length_cons]; push_cast; ring

/-- C106: no other number is closer to the data in the sense of the sum of squares. -/
theorem C106_least_squares {v : List K} {m : K} (hm : mean v = some m) (x : K) :
    (v.map fun t => (t - m) ^ 2).sum ≤ (v.map fun t => (t - x) ^ 2).sum ∧
    ((v.map fun t => (t - m) ^ 2).sum = (v.map fun t => (t - x) ^ 2).sum → x = m) := by
  have hv : v ≠ [] := by rintro rfl; simp [mean] at hm
  have hp : (0 : K) < v.length := len_pos hv
  have h1 := (C106_mean v).2 m hm
  rw [sum_sq_shift v x m, ← h1]
  constructor
  · have : 0 ≤ (v.length : K) * (m - x) ^ 2 := mul_nonneg hp.le (sq_nonneg _)
    linarith
  · intro h
    have : (v.length : K) * (m - x) ^ 2 = 0 := by linarith
    have := (mul_eq_zero.1 this).resolve_left hp.ne'
    have := pow_eq_zero_iff (two_ne_zero) |>.1 this
    linarith

omit [LinearOrder K] [IsStrictOrderedRing K] in
theorem weighted_fold (l : List (K × K)) (s : K × K) :
    l.foldl (fun s p => (s.1 + p.1 * p.2, s.2 + p.2)) s = (s.1 + (l.map fun p => p.1 * p.2).sum, s.2 + (l.map fun p => p.2).sum) := by
  induction l generalizing s with
  | nil => simp
  | cons p l ih => rw [List.foldl_cons, ih]; simp [add_assoc]

/-- C106: `weighted_mean` is the weighted sum over the sum of the weights; NaN or infinite when that is zero; vectors of
different lengths are refused. -/
theorem C106_weighted (v w : List K) : weightedMean v w =
    if v.length = w.length then .ok (if w.sum = 0 then none else some (((v.zip w).map fun p => p.1 * p.2).sum / w.sum)) else .abort := by
  unfold weightedMean
  by_cases h : v.length = w.length
  · rw [Res.check_pos h, Res.ok_bind, if_pos h, weighted_fold]
    have : ((v.zip w).map fun p => p.2) = w := by
      have := List.map_snd_zip (l₁ := v) (l₂ := w) (by omega)
      exact this
    simp only [zero_add, this]
  · rw [Res.check_neg h, if_neg h]; rfl

/-- C106: with equal weights it is the mean. -/
theorem C106_weighted_equal {v w : List K} {c m : K} (hl : v.length = w.length) (hw : ∀ x ∈ w, x = c) (hc : c ≠ 0) (hm : mean v = some m) :
    weightedMean v w = .ok (some m) := by
  have hv : v ≠ [] := by rintro rfl; simp [mean] at hm
  have hp : (0 : K) < v.length := len_pos hv
  have hwr : w = List.replicate v.length c := List.eq_replicate_iff.2 ⟨hl.symm, hw⟩
  have hz : ((v.zip w).map fun p => p.1 * p.2) = v.map fun t => c * t + 0 := by
    refine List.ext_getElem (by simp [hl]) ?_
    intro i h1 h2
    have : i < w.length := by simp at h1; omega
    simp [hw w[i] (List.getElem_mem _), mul_comm]
  have hs : w.sum = v.length * c := by rw [hwr]; simp
  rw [C106_weighted, if_pos hl, hs, if_neg (mul_ne_zero hp.ne' hc), hz, sum_affine, ← (C106_mean v).2 m hm]
  congr 2
  field_simp
  ring

/-- C106: with weights that are not negative the weighted mean lies between any bounds of the data. -/
theorem C106_weighted_bounds {v w : List K} {m a b : K} (hm : weightedMean v w = .ok (some m)) (hw : ∀ x ∈ w, 0 ≤ x) (h : ∀ t ∈ v, a ≤ t ∧ t ≤ b) :
    a ≤ m ∧ m ≤ b := by
  rw [C106_weighted] at hm
  split at hm
  · rename_i hl
    rw [Res.ok.injEq] at hm
    split at hm
    · simp at hm
    · rename_i hs
      rw [Option.some.injEq] at hm
      have hpos : 0 < w.sum := lt_of_le_of_ne (List.sum_nonneg hw) (Ne.symm hs)
      have hz : ((v.zip w).map fun p => p.2) = w := List.map_snd_zip (by omega)
      have key : ∀ c : K, c * w.sum = ((v.zip w).map fun p => c * p.2).sum := by
        intro c
        conv_lhs => rw [← hz]
        rw [List.sum_map_mul_left]
      rw [← hm, le_div_iff₀ hpos, div_le_iff₀ hpos, key a, key b]
      constructor
      · refine List.sum_le_sum ?_
        intro p hp
        exact mul_le_mul_of_nonneg_right (h p.1 (List.of_mem_zip hp).1).1 (hw p.2 (List.of_mem_zip hp).2)
      · refine List.sum_le_sum ?_
        intro p hp
        exact mul_le_mul_of_nonneg_right (h p.1 (List.of_mem_zip hp).1).2 (hw p.2 (List.of_mem_zip hp).2)
  · simp at hm

example : weightedMean [(1 : ℚ), 5] [3, 1] = .ok (some 2) := by decide +kernel

/-! ### counting -/

/-- C106: `count` is the number of true elements. -/
theorem C106_count (b : List Bool) : count b = b.count true := by
  unfold count
  have : ∀ (b : List Bool) (n : Nat), b.foldl (fun n b => if b then n + 1 else n) n = n + b.count true := by
    intro b
    induction b with
    | nil => simp
    | cons x b ih => intro n; rw [List.foldl_cons, ih]; cases x <;> simp <;> omega
  rw [this, zero_add]

omit [LinearOrder K] [IsStrictOrderedRing K] in
theorem sum_bool (b : List Bool) : (b.map fun x => if x then (1 : K) else 0).sum = b.count true := by
  induction b with
  | nil => simp
  | cons x b ih => cases x <;> simp [ih]; ring

/-- C106: `fraction_of` is the fraction of true elements. -/
theorem C106_fraction {b : List Bool} (h : b ≠ []) : fractionOf (K := K) b = some ((b.count true : K) / b.length) := by
  unfold fractionOf
  rw [mean_ne (by simpa using h), sum_bool, List.length_map]

/-- C106: `fraction_of(b, among)` is the fraction of true elements of `b` among the positions selected by `among`. -/
theorem C106_fraction_among (b among : List Bool) : fractionAmong (K := K) b among =
    if b.length = among.length then .ok (if among.count true = 0 then none else
      some (((b.zip among).countP fun p => p.1 && p.2 : Nat) / (among.count true : K))) else .abort := by
  unfold fractionAmong
  by_cases h : b.length = among.length
  · rw [Res.check_pos h, Res.ok_bind, if_pos h]
    have key : ∀ (l : List (Bool × Bool)) (s : K × Nat),
        l.foldl (fun s p => if p.2 then (s.1 + (if p.1 then 1 else 0), s.2 + 1) else s) s =
          (s.1 + ((l.countP fun p => p.1 && p.2 : Nat) : K), s.2 + (l.map fun p => p.2).count true) := by
      intro l
      induction l with
      | nil => simp
      | cons p l ih =>
        intro s
        rw [List.foldl_cons, ih]
        rcases p with ⟨_ | _, _ | _⟩
        · simp
        · simp; omega
        · simp
        · simp; constructor
          · ring
          · omega
    rw [key]
    have : ((b.zip among).map fun p => p.2) = among := List.map_snd_zip (by omega)
    simp only [this, zero_add]
  · rw [Res.check_neg h, if_neg h]; rfl

end mean

/-! ### optimal mean -/

theorem optimal_fold (l : List (ℝ × ℝ)) (s : ℝ × ℝ) :
    l.foldl (fun s p => (s.1 + 1 / (p.2 * p.2) * p.1, s.2 + 1 / (p.2 * p.2))) s =
      (s.1 + (l.map fun p => p.1 / p.2 ^ 2).sum, s.2 + (l.map fun p => 1 / p.2 ^ 2).sum) := by
  induction l generalizing s with
  | nil => simp
  | cons p l ih =>
    rw [List.foldl_cons, ih]
    simp only [List.map_cons, List.sum_cons, Prod.mk.injEq]
    constructor <;> ring

/-- Spec: how far a constant `x` is from the data, in units of the uncertainties -/
noncomputable def chi2 (v e : List ℝ) (x : ℝ) : ℝ := ((v.zip e).map fun p => ((p.1 - x) / p.2) ^ 2).sum

theorem chi2_shift (l : List (ℝ × ℝ)) (x m : ℝ) :
    (l.map fun p => ((p.1 - x) / p.2) ^ 2).sum = (l.map fun p => ((p.1 - m) / p.2) ^ 2).sum
      + 2 * (m - x) * ((l.map fun p => p.1 / p.2 ^ 2).sum - m * (l.map fun p => 1 / p.2 ^ 2).sum)
      + (m - x) ^ 2 * (l.map fun p => 1 / p.2 ^ 2).sum := by
  induction l with
  | nil => simp
  | cons p l ih =>
    rw [List.map_cons, List.sum_cons, ih]
    simp only [List.map_cons, List.sum_cons]
    ring

theorem weights_pos {v e : List ℝ} (hl : v.length = e.length) (hv : v ≠ []) (he : (0 : ℝ) ∉ e) :
    0 < ((v.zip e).map fun p => 1 / p.2 ^ 2).sum := by
  rcases v with _ | ⟨t, v⟩
  · exact absurd rfl hv
  rcases e with _ | ⟨s, e⟩
  · simp at hl
  simp only [List.zip_cons_cons, List.map_cons, List.sum_cons]
  have hs : s ≠ 0 := by rintro rfl; simp at he
  have h1 : 0 < 1 / s ^ 2 := by positivity
  have h2 : 0 ≤ ((v.zip e).map fun p => 1 / p.2 ^ 2).sum := by
    refine List.sum_nonneg ?_
    intro y hy
    obtain ⟨p, _, rfl⟩ := List.mem_map.1 hy
    positivity
  linarith

/-- C106: `optimal_mean` returns the constant closest to the data in units of the uncertainties. -/
theorem C106_optimal {v e : List ℝ} (hl : v.length = e.length) (hv : v ≠ []) (he : (0 : ℝ) ∉ e) :
    ∃ m s, optimalMean v e = .ok (some (m, s)) ∧ (∀ x, chi2 v e m ≤ chi2 v e x) ∧ (∀ x, chi2 v e x = chi2 v e m → x = m) ∧
      0 < s ∧ chi2 v e (m + s) = chi2 v e m + 1 := by
  have hW := weights_pos hl hv he
  refine ⟨_, _, by
    unfold optimalMean
    rw [Res.check_pos hl, Res.ok_bind, if_neg (by tauto), optimal_fold], ?_, ?_, ?_, ?_⟩
  all_goals simp only [zero_add]
  all_goals set W := ((v.zip e).map fun p => 1 / p.2 ^ 2).sum
  all_goals set S := ((v.zip e).map fun p => p.1 / p.2 ^ 2).sum with hS
  · intro x
    rw [chi2, chi2, chi2_shift (v.zip e) x (S / W), ← hS]
    have : S - S / W * W = 0 := by field_simp; ring
    rw [this]
    have : 0 ≤ (S / W - x) ^ 2 * W := mul_nonneg (sq_nonneg _) hW.le
    linarith
  · intro x
    rw [chi2, chi2, chi2_shift (v.zip e) x (S / W), ← hS]
    have : S - S / W * W = 0 := by field_simp; ring
    rw [this]
    intro h
    have : (S / W - x) ^ 2 * W = 0 := by linarith
    have := pow_eq_zero_iff (two_ne_zero) |>.1 ((mul_eq_zero.1 this).resolve_right hW.ne')
    linarith
  · positivity
  · rw [chi2, chi2, chi2_shift (v.zip e) (S / W + 1 / √W) (S / W), ← hS]
    have : S - S / W * W = 0 := by field_simp; ring
    rw [this]
    have : (S / W - (S / W + 1 / √W)) ^ 2 * W = 1 := by
      rw [show (S / W - (S / W + 1 / √W)) ^ 2 = 1 / √W ^ 2 by ring, Real.sq_sqrt hW.le]
      field_simp
    linarith

/-- C106: the returned uncertainty is that of the weighted mean, and no unbiased linear combination `sum a_i v_i` of the data
has a smaller one. -/
theorem C106_optimal_error {v e : List ℝ} (hl : v.length = e.length) {m s : ℝ} (h : optimalMean v e = .ok (some (m, s)))
    {a : List ℝ} (ha : a.length = e.length) (h1 : a.sum = 1) : s ^ 2 ≤ ((a.zip e).map fun p => (p.1 * p.2) ^ 2).sum := by
  unfold optimalMean at h
  rw [Res.check_pos hl, Res.ok_bind] at h
  split at h
  · simp at h
  · rename_i hne
    push Not at hne
    have hW := weights_pos hl hne.1 hne.2
    rw [optimal_fold] at h
    simp only [zero_add, Res.ok.injEq, Option.some.injEq, Prod.mk.injEq] at h
    set W := ((v.zip e).map fun p => 1 / p.2 ^ 2).sum with hWd
    rw [← h.2, div_pow, Real.sq_sqrt hW.le, one_pow]
    have hW2 : W = ((a.zip e).map fun p => 1 / p.2 ^ 2).sum := by
      have e1 : ((v.zip e).map fun p => 1 / p.2 ^ 2) = e.map fun t => 1 / t ^ 2 := by
        have := List.map_snd_zip (l₁ := v) (l₂ := e) (by omega)
        conv_rhs => rw [← this]
        rw [List.map_map]; rfl
      have e2 : ((a.zip e).map fun p => 1 / p.2 ^ 2) = e.map fun t => 1 / t ^ 2 := by
        have := List.map_snd_zip (l₁ := a) (l₂ := e) (by omega)
        conv_rhs => rw [← this]
        rw [List.map_map]; rfl
      rw [hWd, e1, e2]
    have ha1 : ((a.zip e).map fun p => p.1).sum = 1 := by
      rw [← h1]; congr 1
      exact List.map_fst_zip (by omega)
    have key : ∀ l : List (ℝ × ℝ), (∀ p ∈ l, p.2 ≠ 0) → ∀ c : ℝ,
        (l.map fun p => (p.1 * p.2) ^ 2).sum = (l.map fun p => (p.1 * p.2 - c / p.2) ^ 2).sum + 2 * c * (l.map fun p => p.1).sum
          - c ^ 2 * (l.map fun p => 1 / p.2 ^ 2).sum := by
      intro l hl c
      induction l with
      | nil => simp
      | cons p l ih =>
        have hp := hl p (by simp)
        simp only [List.map_cons, List.sum_cons, ih (fun q hq => hl q (by simp [hq]))]
        field_simp
        ring
    rw [key (a.zip e) (fun p hp h0 => hne.2 (h0 ▸ (List.of_mem_zip hp).2)) (1 / W), ha1, ← hW2]
    have : 0 ≤ ((a.zip e).map fun p => (p.1 * p.2 - 1 / W / p.2) ^ 2).sum := by
      refine List.sum_nonneg ?_
      intro y hy
      obtain ⟨p, _, rfl⟩ := List.mem_map.1 hy
      positivity
    have e2 : (1 / W) ^ 2 * W = 1 / W := by field_simp
    rw [e2]
    linarith

example : ∃ m s : ℝ, optimalMean [1, 3] [1, 1] = .ok (some (m, s)) :=
  (C106_optimal (v := [1, 3]) (e := [1, 1]) rfl (by simp) (by simp)).imp fun _ h => h.imp fun _ h => h.1

/-! ### rms and standard deviation -/

theorem rms_fold (v : List ℝ) : v.foldl (fun s t => s + t * t) 0 = (v.map fun t => t ^ 2).sum := by
  have : ∀ (v : List ℝ) (s : ℝ), v.foldl (fun s t => s + t * t) s = s + (v.map fun t => t ^ 2).sum := by
    intro v
    induction v with
    | nil => simp
    | cons t v ih => intro s; rw [List.foldl_cons, ih]; simp; ring
  rw [this, zero_add]

theorem sum_sq_nonneg (v : List ℝ) (m : ℝ) : 0 ≤ (v.map fun t => (t - m) ^ 2).sum := by
  refine List.sum_nonneg ?_
  intro y hy
  obtain ⟨p, _, rfl⟩ := List.mem_map.1 hy
  positivity

/-- C107: `rms` is the non-negative root of the mean of the squares; NaN without data. -/
theorem C107_rms (v : List ℝ) : (rms v = none ↔ v = []) ∧ ∀ r, rms v = some r → 0 ≤ r ∧ r ^ 2 * v.length = (v.map fun t => t ^ 2).sum := by
  unfold rms
  rw [rms_fold]
  by_cases hv : v = []
  · subst hv; simp
  · rw [if_neg (by simpa using hv)]
    have hp : (0 : ℝ) < v.length := len_pos hv
    refine ⟨by simp [hv], ?_⟩
    intro r hr
    rw [Option.some.injEq] at hr
    subst hr
    refine ⟨Real.sqrt_nonneg _, ?_⟩
    have := sum_sq_nonneg v 0
    simp only [sub_zero] at this
    rw [Real.sq_sqrt (div_nonneg this hp.le)]
    field_simp

theorem stddev_ne {v : List ℝ} (h : v ≠ []) : stddev v = some (√((v.map fun t => (t - v.sum / v.length) ^ 2).sum / v.length)) := by
  unfold stddev rms
  rw [mean_ne h]
  simp only [List.length_map, rms_fold, List.map_map]
  rw [if_neg (by simpa using h)]
  rfl

/-- C107: the square of `stddev` is the mean of the squares minus the square of the mean. -/
theorem C107_stddev {v : List ℝ} {s : ℝ} (h : stddev v = some s) :
    ∃ m, mean v = some m ∧ 0 ≤ s ∧ s ^ 2 * v.length = (v.map fun t => (t - m) ^ 2).sum ∧
      s ^ 2 = (v.map fun t => t ^ 2).sum / v.length - m ^ 2 := by
  have hv : v ≠ [] := by rintro rfl; simp [stddev, mean, rms] at h
  have hp : (0 : ℝ) < v.length := len_pos hv
  rw [stddev_ne hv, Option.some.injEq] at h
  subst h
  refine ⟨_, mean_ne hv, Real.sqrt_nonneg _, ?_, ?_⟩
  · rw [Real.sq_sqrt (div_nonneg (sum_sq_nonneg v _) hp.le)]
    exact div_mul_cancel₀ _ hp.ne'
  · rw [Real.sq_sqrt (div_nonneg (sum_sq_nonneg v _) hp.le)]
    have := sum_sq_shift v (0 : ℝ) (v.sum / v.length)
    simp only [sub_zero] at this
    rw [this]
    generalize (v.map fun t => (t - v.sum / v.length) ^ 2).sum = S
    field_simp
    ring

/-- C107: shifting the data does not change the standard deviation, scaling scales it by the absolute value. -/
theorem C107_stddev_affine {v : List ℝ} {s : ℝ} (h : stddev v = some s) (a b : ℝ) : stddev (v.map fun t => a * t + b) = some (|a| * s) := by
  have hv : v ≠ [] := by rintro rfl; simp [stddev, mean, rms] at h
  have hp : (0 : ℝ) < v.length := len_pos hv
  rw [stddev_ne hv, Option.some.injEq] at h
  rw [stddev_ne (by simpa using hv), ← h, sum_affine, List.length_map, List.map_map]
  have : ((fun t => (t - (a * v.sum + b * v.length) / v.length) ^ 2) ∘ fun t => a * t + b) = fun t : ℝ => a ^ 2 * (t - v.sum / v.length) ^ 2 := by
    funext t
    simp only [Function.comp]
    field_simp
    ring
  rw [this, List.sum_map_mul_left, mul_div_assoc, Real.sqrt_mul (sq_nonneg a), Real.sqrt_sq_eq_abs]

/-- C107: the standard deviation is zero exactly when all elements are equal. -/
theorem C107_stddev_zero {v : List ℝ} {s : ℝ} (h : stddev v = some s) : s = 0 ↔ ∃ c, ∀ t ∈ v, t = c := by
  obtain ⟨m, hm, h0, h1, h2⟩ := C107_stddev h
  have hv : v ≠ [] := by rintro rfl; simp [stddev, mean, rms] at h
  have hp : (0 : ℝ) < v.length := len_pos hv
  constructor
  · rintro rfl
    refine ⟨m, ?_⟩
    intro t ht
    have hz : (v.map fun t => (t - m) ^ 2).sum = 0 := by rw [← h1]; ring
    have hle : (t - m) ^ 2 ≤ (v.map fun t => (t - m) ^ 2).sum := by
      refine List.single_le_sum ?_ _ (List.mem_map.2 ⟨t, ht, rfl⟩)
      intro y hy
      obtain ⟨p, _, rfl⟩ := List.mem_map.1 hy
      positivity
    rw [hz] at hle
    have := pow_eq_zero_iff (two_ne_zero) |>.1 (le_antisymm hle (sq_nonneg _))
    linarith
  · rintro ⟨c, hc⟩
    have hmc := C106_bounds hm (a := c) (b := c) fun t ht => by rw [hc t ht]; exact ⟨le_refl _, le_refl _⟩
    have hmc : m = c := le_antisymm hmc.2 hmc.1
    have hz : (v.map fun t => (t - m) ^ 2).sum = 0 := by
      refine List.sum_eq_zero ?_
      intro y hy
      obtain ⟨t, ht, rfl⟩ := List.mem_map.1 hy
      rw [hc t ht, hmc]; ring
    rw [hz] at h1
    exact pow_eq_zero_iff (two_ne_zero) |>.1 ((mul_eq_zero.1 h1).resolve_right hp.ne')

/-! ### median absolute deviation, sigma clipping -/

section mad
variable {K : Type} [Field K] [LinearOrder K] [IsStrictOrderedRing K]

omit [IsStrictOrderedRing K] in
theorem numbers_absDiff (v : List (Option K)) (m : K) : numbers (v.map (absDiff · (some m))) = numbers v := by
  unfold numbers
  rw [List.countP_map]
  congr 1
  funext x
  cases x <;> rfl

omit [IsStrictOrderedRing K] in
/-- C107: `mad` is the median of the distances to the median, over the elements that are not NaN. -/
theorem C107_mad {v : List (Option K)} (h : 0 < numbers v) : ∃ med d, median v = .ok (some med) ∧ IsOrderStat v (numbers v / 2) med ∧
    mad v = .ok (some d) ∧ IsOrderStat (v.map (absDiff · (some med))) (numbers v / 2) d := by
  have hv : v ≠ [] := by rintro rfl; simp [numbers] at h
  rcases C26_median v hv with ⟨h0, _⟩ | ⟨_, med, h1, h2⟩
  · omega
  · rcases C26_median (v.map (absDiff · (some med))) (by simpa using hv) with ⟨h0, _⟩ | ⟨_, d, h3, h4⟩
    · rw [numbers_absDiff] at h0; omega
    · rw [numbers_absDiff] at h4
      exact ⟨med, d, h1, h2, by unfold mad; rw [h1, Res.ok_bind, h3], h4⟩

/-- C107: the deviation is not negative. -/
theorem C107_mad_nonneg {v : List (Option K)} {d : K} (h : mad v = .ok (some d)) : 0 ≤ d := by
  have hv : v ≠ [] := by rintro rfl; simp [mad, median] at h
  rcases C26_median v hv with ⟨h0, h1⟩ | ⟨hp, _⟩
  · unfold mad at h
    rw [h1, Res.ok_bind] at h
    have hn : numbers (v.map (absDiff · none)) = 0 := by
      unfold numbers; rw [List.countP_eq_zero]
      intro x hx
      obtain ⟨y, _, rfl⟩ := List.mem_map.1 hx
      cases y <;> simp [absDiff]
    rcases C26_median (v.map (absDiff · none)) (by simpa using hv) with ⟨_, h3⟩ | ⟨h3, _⟩
    · rw [h3] at h; simp at h
    · omega
  · obtain ⟨med, d', _, _, h3, h4⟩ := C107_mad hp
    rw [h, Res.ok.injEq, Option.some.injEq] at h3
    subst h3
    obtain ⟨x, _, hx⟩ := List.mem_map.1 h4.1
    cases x with
    | none => simp [absDiff] at hx
    | some x =>
      simp only [absDiff, Option.some.injEq] at hx
      rw [← hx]; exact abs_nonneg _

omit [IsStrictOrderedRing K] in
/-- C107: `sigma_clip` marks the elements whose distance to the median is at most `sigma` times 1.48 times the median absolute
deviation; NaN is never kept.  The order in which the values are left by the median does not matter. -/
theorem C107_clip {v v' : List (Option K)} (hp : v'.Perm v) (h : 0 < numbers v) (sigma : K) : ∃ med d, median v = .ok (some med) ∧
    mad v = .ok (some d) ∧ sigmaClip v v' sigma = .ok (v.map fun x => match x with
      | some t => decide (|t - med| ≤ sigma * (1.48 * d))
      | none => false) := by
  obtain ⟨med, d, h1, _, h3, _⟩ := C107_mad h
  refine ⟨med, d, h1, h3, ?_⟩
  unfold sigmaClip
  unfold mad at h3
  rw [h1, Res.ok_bind] at h3 ⊢
  rw [C26_median_perm _ _ (hp.map _), h3, Res.ok_bind]
  congr 1
  refine List.map_congr_left ?_
  intro x _
  cases x <;> rfl

omit [IsStrictOrderedRing K] in
/-- C107: when there is no number, nothing is kept. -/
theorem C107_clip_nan {v v' : List (Option K)} (hp : v'.Perm v) (hv : v ≠ []) (h : numbers v = 0) (sigma : K) :
    sigmaClip v v' sigma = .ok (List.replicate v.length false) := by
  rcases C26_median v hv with ⟨_, h1⟩ | ⟨h1, _⟩
  · have hn : numbers (v'.map (absDiff · none)) = 0 := by
      unfold numbers; rw [List.countP_eq_zero]
      intro x hx
      obtain ⟨y, _, rfl⟩ := List.mem_map.1 hx
      cases y <;> simp [absDiff]
    have hv' : v' ≠ [] := by rintro rfl; exact hv (List.nil_perm.1 hp)
    unfold sigmaClip
    rw [h1, Res.ok_bind]
    rcases C26_median (v'.map (absDiff · none)) (by simpa using hv') with ⟨_, h3⟩ | ⟨h3, _⟩
    · rw [h3, Res.ok_bind]
      congr 1
      rw [List.eq_replicate_iff]
      refine ⟨by simp, ?_⟩
      intro b hb
      obtain ⟨x, _, rfl⟩ := List.mem_map.1 hb
      cases x <;> rfl
    · omega
  · omega

/-- C107: for `sigma` at least `1/1.48`, more than half of the numbers are kept. -/
theorem C107_clip_half {v v' : List (Option K)} (hp : v'.Perm v) (h : 0 < numbers v) {sigma : K} (hs : 1 ≤ sigma * 1.48) :
    ∃ r, sigmaClip v v' sigma = .ok r ∧ numbers v / 2 < r.count true := by
  obtain ⟨med, d, h1, h2, h3⟩ := C107_clip hp h sigma
  obtain ⟨med', d', g1, _, g3, g4⟩ := C107_mad h
  rw [h1, Res.ok.injEq, Option.some.injEq] at g1
  rw [h2, Res.ok.injEq, Option.some.injEq] at g3
  subst g1 g3
  refine ⟨_, h3, lt_of_lt_of_le g4.2.2 ?_⟩
  have hd := C107_mad_nonneg h2
  rw [List.countP_map, List.count, List.countP_map]
  refine List.countP_mono_left ?_
  intro x _ hx
  cases x with
  | none => simp [absDiff] at hx
  | some t =>
    simp only [Function.comp, absDiff, decide_eq_true_eq] at hx
    simp only [Function.comp, beq_true, decide_eq_true_eq]
    have : d ≤ sigma * 1.48 * d := le_mul_of_one_le_left hd hs
    linarith

omit [IsStrictOrderedRing K] in
/-- C107: a larger `sigma` keeps at least the same elements. -/
theorem C107_clip_mono [IsStrictOrderedRing K] {v v' : List (Option K)} (hp : v'.Perm v) (h : 0 < numbers v) {s1 s2 : K} (hs : s1 ≤ s2) {r1 r2 : List Bool}
    (h1 : sigmaClip v v' s1 = .ok r1) (h2 : sigmaClip v v' s2 = .ok r2) (i : Nat) (hi : r1[i]? = some true) : r2[i]? = some true := by
  obtain ⟨med, d, g1, g2, g3⟩ := C107_clip hp h s1
  obtain ⟨med', d', f1, f2, f3⟩ := C107_clip hp h s2
  rw [g1, Res.ok.injEq, Option.some.injEq] at f1
  rw [g2, Res.ok.injEq, Option.some.injEq] at f2
  subst f1 f2
  rw [h1, Res.ok.injEq] at g3
  rw [h2, Res.ok.injEq] at f3
  subst g3 f3
  have hd := C107_mad_nonneg g2
  rw [List.getElem?_map] at hi ⊢
  rcases hx : v[i]? with _ | x
  · rw [hx] at hi; simp at hi
  · rw [hx] at hi
    cases x with
    | none => simp at hi
    | some t =>
      simp only [Option.map_some, Option.some.injEq, decide_eq_true_eq] at hi ⊢
      have : s1 * (1.48 * d) ≤ s2 * (1.48 * d) := mul_le_mul_of_nonneg_right hs (mul_nonneg (by norm_num) hd)
      exact le_trans hi this

omit [IsStrictOrderedRing K] in
/-- C107: an empty vector is refused. -/
theorem C107_empty (sigma : K) : mad ([] : List (Option K)) = .abort ∧ sigmaClip ([] : List (Option K)) [] sigma = .abort := ⟨rfl, rfl⟩

example : 0 < numbers [some (1 : ℚ), none, some 2, some 100] := by decide

end mad

end Verif.Stats
