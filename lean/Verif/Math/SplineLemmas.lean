import Verif.Math.Spline
import Verif.Math.InterpProps
import Mathlib.Tactic.FieldSimp
import Mathlib.Tactic.LinearCombination
import Mathlib.Tactic.Positivity
/-!
# The tridiagonal system of the spline
-/
namespace Verif.Spline
open Verif Verif.Math

variable {K : Type} [Field K] [LinearOrder K] [IsStrictOrderedRing K]

/-- the forward loop with any spacing and right-hand side -/
def sweepG (h al : Nat → K) : Nat → K × K
  | 0 => (0, 0)
  | i + 1 => (h (i + 1) / (2 * (h i + h (i + 1)) - h i * (sweepG h al i).1),
      (al (i + 1) - h i * (sweepG h al i).2) / (2 * (h i + h (i + 1)) - h i * (sweepG h al i).1))

omit [LinearOrder K] [IsStrictOrderedRing K] in
theorem sweep_eq (y x : Nat → K) (i : Nat) : sweep y x i = sweepG (fun i => x (i + 1) - x i)
    (fun i => 3 * (y (i + 1) - y i) / (x (i + 1) - x i) - 3 * (y i - y (i - 1)) / (x (i + 1) - x i)) i := by
  induction i with
  | zero => rfl
  | succ i ih =>
    simp only [sweep, sweepG, ih, Nat.add_sub_cancel]
    have e : 2 * (x (i + 2) - x i) = 2 * (x (i + 1) - x i + (x (i + 1 + 1) - x (i + 1))) := by ring
    rw [e]

omit [LinearOrder K] [IsStrictOrderedRing K] in
theorem sweepReg_eq (y : Nat → K) (i : Nat) : sweepReg y i = sweepG (fun _ => 1)
    (fun i => 3 * (y (i + 1) - y i) - 3 * (y i - y (i - 1))) i := by
  induction i with
  | zero => rfl
  | succ i ih =>
    simp only [sweepReg, sweepG, ih, Nat.add_sub_cancel, one_mul]
    have e : (4 : K) = 2 * (1 + 1) := by norm_num
    rw [e]

theorem sweepG_pos {h : Nat → K} (al : Nat → K) (i : Nat) (hh : ∀ j ≤ i, 0 < h j) :
    0 ≤ (sweepG h al i).1 ∧ (sweepG h al i).1 ≤ 1 := by
  induction i with
  | zero => simp [sweepG]
  | succ i ih =>
    obtain ⟨h1, h2⟩ := ih fun j hj => hh j (by omega)
    have p1 := hh i (by omega)
    have p2 := hh (i + 1) le_rfl
    have hm : h i * (sweepG h al i).1 ≤ h i := by
      have := mul_le_mul_of_nonneg_left h2 p1.le
      linarith
    have hl : h (i + 1) ≤ 2 * (h i + h (i + 1)) - h i * (sweepG h al i).1 := by linarith
    exact ⟨div_nonneg p2.le (by linarith), (div_le_one (by linarith)).2 hl⟩

theorem sweepG_den {h : Nat → K} (al : Nat → K) (i : Nat) (hh : ∀ j ≤ i + 1, 0 < h j) :
    2 * (h i + h (i + 1)) - h i * (sweepG h al i).1 ≠ 0 := by
  obtain ⟨h1, h2⟩ := sweepG_pos al i fun j hj => hh j (by omega)
  have p1 := hh i (by omega)
  have p2 := hh (i + 1) le_rfl
  have := mul_le_mul_of_nonneg_left h2 p1.le
  have : 0 < 2 * (h i + h (i + 1)) - h i * (sweepG h al i).1 := by linarith
  exact this.ne'

/-- the solution of the backward loop -/
def cG (n : Nat) (h al : Nat → K) (i : Nat) : K := cDown n (sweepG h al) (n - i)

omit [LinearOrder K] [IsStrictOrderedRing K] in
theorem cG_last (n : Nat) (h al : Nat → K) : cG n h al n = 0 := by simp [cG, cDown]

omit [LinearOrder K] [IsStrictOrderedRing K] in
theorem cG_step {n i : Nat} (h al : Nat → K) (hi : i < n) :
    cG n h al i = (sweepG h al i).2 - (sweepG h al i).1 * cG n h al (i + 1) := by
  unfold cG
  obtain ⟨k, rfl⟩ : ∃ k, n = i + k + 1 := ⟨n - i - 1, by omega⟩
  rw [show i + k + 1 - i = k + 1 by omega, show i + k + 1 - (i + 1) = k by omega, cDown, show i + k + 1 - (k + 1) = i by omega]

omit [LinearOrder K] [IsStrictOrderedRing K] in
theorem cG_first {n : Nat} (h al : Nat → K) (hn : 0 < n) : cG n h al 0 = 0 := by
  rw [cG_step h al hn]; simp [sweepG]

/-- the system is solved -/
theorem cG_tri {n i : Nat} {h : Nat → K} (al : Nat → K) (hh : ∀ j < n, 0 < h j) (hi : i + 1 < n) :
    h i * cG n h al i + 2 * (h i + h (i + 1)) * cG n h al (i + 1) + h (i + 1) * cG n h al (i + 2) = al (i + 1) := by
  have hd := sweepG_den al i fun j hj => hh j (by omega)
  have hc : (2 * (h i + h (i + 1)) - h i * (sweepG h al i).1) * cG n h al (i + 1) =
      al (i + 1) - h i * (sweepG h al i).2 - h (i + 1) * cG n h al (i + 2) := by
    rw [cG_step h al hi]
    simp only [sweepG]
    field_simp
  rw [cG_step h al (show i < n by omega)]
  linear_combination hc

/-! ### The coefficients of both functions -/

/-- the properties of the coefficients the smoothness relies on: values and second derivatives agree at the knots; `al` is the right-hand
side of the system -/
structure Good (n : Nat) (y h al : Nat → K) (q : Coefs K) : Prop where
  value : ∀ i < n, y i + q.b i * h i + q.c i * h i * h i + q.d i * h i * h i * h i = y (i + 1)
  second : ∀ i < n, q.c i + 3 * q.d i * h i = q.c (i + 1)
  first : ∀ i, i + 1 < n → q.b i + 2 * q.c i * h i + 3 * q.d i * h i * h i - q.b (i + 1) =
    1 / 3 * (al (i + 1) - 3 * ((y (i + 2) - y (i + 1)) / h (i + 1) - (y (i + 1) - y i) / h i))
  end1 : 0 < n → q.b (n - 1) + 2 * q.c (n - 1) * h (n - 1) + 3 * q.d (n - 1) * h (n - 1) * h (n - 1) = q.b n
  c0 : q.c 0 = 0
  cn : q.c n = 0
  dn : q.d n = 0

theorem good_of {n : Nat} (hn : 0 < n) {y h al : Nat → K} {q : Coefs K} (hh : ∀ j < n, 0 < h j) (hc : ∀ i, q.c i = cG n h al i)
    (hb : ∀ i < n, q.b i = (y (i + 1) - y i) / h i - 1 / 3 * h i * (q.c (i + 1) + 2 * q.c i))
    (hd : ∀ i < n, q.d i = 1 / 3 * (q.c (i + 1) - q.c i) / h i)
    (hbn : q.b n = q.b (n - 1) + 2 * q.c (n - 1) * h (n - 1) + 3 * q.d (n - 1) * (h (n - 1) * h (n - 1))) (hdn : q.d n = 0) :
    Good n y h al q := by
  constructor
  · intro i hi
    have := (hh i hi).ne'
    rw [hb i hi, hd i hi]
    field_simp
    ring
  · intro i hi
    have := (hh i hi).ne'
    rw [hd i hi]
    field_simp
    ring
  · intro i hi
    have h1 := (hh i (by omega)).ne'
    have h2 := (hh (i + 1) hi).ne'
    have ht := cG_tri al hh hi
    rw [← hc, ← hc, ← hc] at ht
    rw [← ht, hb i (by omega), hb (i + 1) hi, hd i (by omega)]
    field_simp
    ring
  · intro _
    rw [hbn]; ring
  · rw [hc, cG_first _ _ hn]
  · rw [hc, cG_last]
  · exact hdn

theorem coefs_good {n : Nat} (hn : 0 < n) (y : Nat → K) {x : Nat → K} (hx : ∀ i < n, x i < x (i + 1)) :
    Good n y (fun i => x (i + 1) - x i) (fun i => 3 * (y (i + 1) - y i) / (x (i + 1) - x i) - 3 * (y i - y (i - 1)) / (x (i + 1) - x i))
      (coefs n y x) := by
  refine good_of hn (fun j hj => sub_pos.2 (hx j hj)) ?_ ?_ ?_ ?_ ?_
  · intro i
    show cDown n (sweep y x) (n - i) = _
    rw [cG, show sweep y x = _ from funext (sweep_eq y x)]
  · intro i hi
    simp only [coefs, if_pos hi]
  · intro i hi
    simp only [coefs, if_pos hi]
  · simp only [coefs, if_neg (lt_irrefl n), if_pos (show n - 1 < n by omega), show n - 1 + 1 = n by omega]
  · simp only [coefs, if_neg (lt_irrefl n)]

theorem coefsReg_good {n : Nat} (hn : 0 < n) (y : Nat → K) :
    Good n y (fun _ => 1) (fun i => 3 * (y (i + 1) - y i) - 3 * (y i - y (i - 1))) (coefsReg n y) := by
  refine good_of hn (fun j hj => one_pos) ?_ ?_ ?_ ?_ ?_
  · intro i
    show cDown n (sweepReg y) (n - i) = _
    rw [cG, show sweepReg y = _ from funext (sweepReg_eq y)]
  · intro i hi
    simp only [coefsReg, if_pos hi]; ring
  · intro i hi
    simp only [coefsReg, if_pos hi]; ring
  · simp only [coefsReg, if_neg (lt_irrefl n), if_pos (show n - 1 < n by omega)]; ring
  · simp only [coefsReg, if_neg (lt_irrefl n)]

end Verif.Spline
