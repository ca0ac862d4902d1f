import Verif.Math.Romberg
import Mathlib.Algebra.BigOperators.Intervals
import Mathlib.Algebra.BigOperators.Ring.Finset
import Mathlib.Tactic.Linarith
import Mathlib.Tactic.FieldSimp
import Mathlib.Tactic.Ring
import Mathlib.Tactic.LinearCombination
/-!
# C109: adaptive integration of a function

Spec: Romberg's table.  Its first column holds the sums of trapezia with 1, 2, 4, ... pieces, each further column
extrapolates the previous one; the integral is the first diagonal element close to its left neighbour.
-/
namespace Verif.Romberg
open Verif

variable {K : Type} [Field K] [LinearOrder K] [IsStrictOrderedRing K]

/-- Spec: sum of `N` trapezia of equal width -/
def trap (f : K → K) (x0 x1 : K) (N : Nat) : K :=
  ∑ i ∈ Finset.range N, (x1 - x0) / N * ((f (x0 + i * ((x1 - x0) / N)) + f (x0 + (i + 1 : Nat) * ((x1 - x0) / N))) / 2)

/-- Spec: Romberg's table, column `m`, row `n` -/
def table (f : K → K) (x0 x1 : K) : Nat → Nat → K
  | 0, n => trap f x0 x1 (2 ^ n)
  | m + 1, n => (4 ^ (m + 1) * table f x0 x1 m n - table f x0 x1 m (n - 1)) / (4 ^ (m + 1) - 1)

/-- Spec: the two last estimates of row `n` agree to the relative precision `e` -/
def Stop (f : K → K) (x0 x1 e : K) (n : Nat) : Prop :=
  |table f x0 x1 n n - table f x0 x1 (n - 1) n| ≤ e * |table f x0 x1 n n|

/-! ### the first column -/

omit [LinearOrder K] [IsStrictOrderedRing K] in
theorem sum_double (g : Nat → K) (M : Nat) : ∑ i ∈ Finset.range (2 * M), g i = ∑ k ∈ Finset.range M, (g (2 * k) + g (2 * k + 1)) := by
  induction M with
  | zero => simp
  | succ M ih => rw [show 2 * (M + 1) = 2 * M + 1 + 1 by ring, Finset.sum_range_succ, Finset.sum_range_succ, ih, Finset.sum_range_succ]; ring

omit [LinearOrder K] [IsStrictOrderedRing K] in
theorem newPoints_eq (f : K → K) (x0 d : K) (M : Nat) : newPoints f x0 d M = ∑ k ∈ Finset.range M, f (x0 + (2 * k + 1 : Nat) * d) := by
  unfold newPoints
  induction M with
  | zero => simp
  | succ M ih =>
    rw [List.range_succ, List.foldl_append, ih, Finset.sum_range_succ]
    simp only [List.foldl_cons, List.foldl_nil]
    congr 4

/-- halving the pieces -/
theorem trap_double (f : K → K) (x0 x1 : K) {M : Nat} (hM : M ≠ 0) :
    trap f x0 x1 (2 * M) = 1 / 2 * trap f x0 x1 M + (x1 - x0) / (2 * M : Nat) * newPoints f x0 ((x1 - x0) / (2 * M : Nat)) M := by
  have hm : (M : K) ≠ 0 := Nat.cast_ne_zero.2 hM
  rw [newPoints_eq]
  unfold trap
  rw [sum_double, Finset.mul_sum, Finset.mul_sum, ← Finset.sum_add_distrib]
  refine Finset.sum_congr rfl ?_
  intro k _
  have e1 : x0 + ((2 * k : Nat) : K) * ((x1 - x0) / (2 * M : Nat)) = x0 + (k : K) * ((x1 - x0) / M) := by push_cast; field_simp
  have e2 : x0 + ((2 * k + 1 + 1 : Nat) : K) * ((x1 - x0) / (2 * M : Nat)) = x0 + ((k + 1 : Nat) : K) * ((x1 - x0) / M) := by push_cast; field_simp; ring
  rw [e1, e2]
  push_cast
  field_simp
  ring

theorem trap_succ (f : K → K) (x0 x1 : K) (n : Nat) : table f x0 x1 0 (n + 1) =
    1 / 2 * table f x0 x1 0 n + (x1 - x0) / (2 : K) ^ (n + 1) * newPoints f x0 ((x1 - x0) / (2 : K) ^ (n + 1)) (2 ^ (n + 1) / 2) := by
  have := trap_double f x0 x1 (M := 2 ^ n) (by positivity)
  rw [show 2 * 2 ^ n = 2 ^ (n + 1) by ring] at this
  rw [show 2 ^ (n + 1) / 2 = 2 ^ n by rw [pow_succ]; omega]
  push_cast at this
  exact this

/-! ### the code computes the table -/

/-- row `n` of the table -/
def row (f : K → K) (x0 x1 : K) (n : Nat) : List K := (List.range (n + 1)).map fun m => table f x0 x1 m n

omit [IsStrictOrderedRing K] in
theorem extrapolate_row (f : K → K) (x0 x1 : K) (pre : List K) {n : Nat} (h1 : 1 ≤ n) (h16 : n < 16) (cnt m : Nat) (hm : 1 ≤ m) (hc : cnt + m = n + 1) :
    extrapolate pre.length cnt m (pre ++ row f x0 x1 (n - 1) ++ (List.range m).map fun k => table f x0 x1 k n) =
      .ok (pre ++ row f x0 x1 (n - 1) ++ row f x0 x1 n) := by
  induction cnt generalizing m with
  | zero =>
    have : m = n + 1 := by omega
    subst this
    rfl
  | succ cnt ih =>
    have hr : (row f x0 x1 (n - 1)).length = n := by simp [row]; omega
    rw [extrapolate, if_neg (by omega)]
    have hl : Res.rd (pre ++ row f x0 x1 (n - 1) ++ (List.range m).map fun k => table f x0 x1 k n)
        ((pre ++ row f x0 x1 (n - 1) ++ (List.range m).map fun k => table f x0 x1 k n).length - 1) = .ok (table f x0 x1 (m - 1) n) := by
      rw [Res.rd_lt (by simp; omega)]
      congr 1
      rw [List.getElem_append_right (by simp [hr]; omega)]
      simp only [List.getElem_map, List.getElem_range]
      congr 1
      simp [hr]; omega
    have hp : Res.rd (pre ++ row f x0 x1 (n - 1) ++ (List.range m).map fun k => table f x0 x1 k n) (pre.length + m - 1) =
        .ok (table f x0 x1 (m - 1) (n - 1)) := by
      rw [Res.rd_lt (by simp [hr]; omega)]
      congr 1
      rw [List.getElem_append_left (by simp [hr]; omega), List.getElem_append_right (by omega)]
      simp only [row, List.getElem_map, List.getElem_range]
      congr 1
      omega
    rw [hl, Res.ok_bind, hp, Res.ok_bind]
    have hnew : ((4 : K) ^ m * table f x0 x1 (m - 1) n - table f x0 x1 (m - 1) (n - 1)) / ((4 : K) ^ m - 1) = table f x0 x1 m n := by
      obtain ⟨k, rfl⟩ : ∃ k, m = k + 1 := ⟨m - 1, by omega⟩
      rw [table]
      rfl
    rw [hnew]
    have := ih (m + 1) (by omega) (by omega)
    rw [← this]
    congr 1
    rw [List.range_succ, List.map_append]
    simp

omit [IsStrictOrderedRing K] in
theorem extrapolate_ub (oid : Nat) (cnt m : Nat) (buf : List K) (hm : m ≤ 16) (h16 : 16 < m + cnt) (ho : oid + 15 ≤ buf.length) (hb : buf ≠ []) :
    extrapolate oid cnt m buf = .ub := by
  induction cnt generalizing m buf with
  | zero => omega
  | succ cnt ih =>
    rw [extrapolate]
    by_cases h : 16 ≤ m
    · rw [if_pos h]
    · have hb' : 0 < buf.length := List.length_pos_of_ne_nil hb
      rw [if_neg h, Res.rd_lt (by omega), Res.ok_bind, Res.rd_lt (by omega), Res.ok_bind]
      exact ih (m + 1) _ (by omega) (by omega) (by simp; omega) (by simp)

omit [IsStrictOrderedRing K] in
theorem goOn_iff [IsStrictOrderedRing K] {e a b : K} (he : 0 ≤ e) : goOn e a b = true ↔ ¬ |a - b| ≤ e * |a| := by
  unfold goOn
  by_cases ha : a = 0
  · subst ha; simp
  · rw [if_neg ha, decide_eq_true_eq, abs_div, lt_div_iff₀ (abs_pos.2 ha), not_le]

/-- the loop from row `n` on -/
theorem loop_spec (f : K → K) (x0 x1 : K) {e : K} (he : 0 ≤ e) (k : Nat) (pre : List K) {n : Nat} (h1 : 1 ≤ n) (hk : k + n = 16) :
    (∃ N, n ≤ N ∧ N ≤ 15 ∧ loop f x0 x1 e n pre.length (pre ++ row f x0 x1 (n - 1)) = .ok (table f x0 x1 N N) ∧ Stop f x0 x1 e N ∧
      ∀ j, n ≤ j → j < N → ¬ Stop f x0 x1 e j) ∨
    (loop f x0 x1 e n pre.length (pre ++ row f x0 x1 (n - 1)) = .ub ∧ ∀ j, n ≤ j → j ≤ 15 → ¬ Stop f x0 x1 e j) := by
  induction k generalizing pre n with
  | zero =>
    have hn : n = 16 := by omega
    subst hn
    right
    refine ⟨?_, by intro j; omega⟩
    rw [loop]
    rw [dif_neg (by omega)]
    simp only
    have hr : (row f x0 x1 (16 - 1)).length = 16 := by simp [row]
    rw [Res.rd_lt (by simp [hr]), Res.ok_bind, extrapolate_ub _ _ _ _ (by omega) (by omega) (by simp [hr]) (by simp)]
    rfl
  | succ k ih =>
    have hr : (row f x0 x1 (n - 1)).length = n := by simp [row]; omega
    have hr' : (row f x0 x1 n).length = n + 1 := by simp [row]
    have hfirst : Res.rd (pre ++ row f x0 x1 (n - 1)) pre.length = .ok (table f x0 x1 0 (n - 1)) := by
      rw [Res.rd_lt (by simp [hr]; omega)]
      congr 1
      rw [List.getElem_append_right (by omega)]
      simp [row]
    have hnew : 1 / 2 * table f x0 x1 0 (n - 1) + (x1 - x0) / (2 : K) ^ n * newPoints f x0 ((x1 - x0) / (2 : K) ^ n) (2 ^ n / 2) = table f x0 x1 0 n := by
      obtain ⟨j, rfl⟩ : ∃ j, n = j + 1 := ⟨n - 1, by omega⟩
      exact (trap_succ f x0 x1 j).symm
    have hstep : loop f x0 x1 e n pre.length (pre ++ row f x0 x1 (n - 1)) =
        if goOn e (table f x0 x1 n n) (table f x0 x1 (n - 1) n) then
          loop f x0 x1 e (n + 1) (pre.length + n) (pre ++ row f x0 x1 (n - 1) ++ row f x0 x1 n) else .ok (table f x0 x1 n n) := by
      rw [loop, dif_neg (by omega)]
      simp only
      rw [hfirst, Res.ok_bind, hnew]
      have := extrapolate_row f x0 x1 pre h1 (by omega) n 1 (le_refl _) (by omega)
      rw [show ((List.range 1).map fun k => table f x0 x1 k n) = [table f x0 x1 0 n] from rfl] at this
      rw [this, Res.ok_bind]
      have ea : Res.rd (pre ++ row f x0 x1 (n - 1) ++ row f x0 x1 n) ((pre ++ row f x0 x1 (n - 1) ++ row f x0 x1 n).length - 1) = .ok (table f x0 x1 n n) := by
        rw [Res.rd_lt (by simp [hr'] <;> omega)]
        congr 1
        rw [List.getElem_append_right (by simp [hr, hr'] <;> omega)]
        simp only [row, List.getElem_map, List.getElem_range]
        congr 1
        simp; omega
      have eb : Res.rd (pre ++ row f x0 x1 (n - 1) ++ row f x0 x1 n) ((pre ++ row f x0 x1 (n - 1) ++ row f x0 x1 n).length - 2) = .ok (table f x0 x1 (n - 1) n) := by
        rw [Res.rd_lt (by simp [hr'] <;> omega)]
        congr 1
        rw [List.getElem_append_right (by simp [hr, hr'] <;> omega)]
        simp only [row, List.getElem_map, List.getElem_range]
        congr 1
        simp; omega
      rw [ea, Res.ok_bind, eb, Res.ok_bind]
    rw [hstep]
    by_cases hg : goOn e (table f x0 x1 n n) (table f x0 x1 (n - 1) n) = true
    · rw [if_pos hg]
      have hns : ¬ Stop f x0 x1 e n := (goOn_iff he).1 hg
      have := ih (pre ++ row f x0 x1 (n - 1)) (n := n + 1) (by omega) (by omega)
      rw [show (pre ++ row f x0 x1 (n - 1)).length = pre.length + n by simp [hr], show n + 1 - 1 = n by omega] at this
      rcases this with ⟨N, a1, a2, a3, a4, a5⟩ | ⟨a1, a2⟩
      · left
        refine ⟨N, by omega, a2, a3, a4, ?_⟩
        intro j hj hj'
        rcases Nat.eq_or_lt_of_le hj with rfl | hlt
        · exact hns
        · exact a5 j (by omega) hj'
      · right
        refine ⟨a1, ?_⟩
        intro j hj hj'
        rcases Nat.eq_or_lt_of_le hj with rfl | hlt
        · exact hns
        · exact a2 j (by omega) hj'
    · rw [if_neg hg]
      left
      refine ⟨n, le_refl _, by omega, rfl, ?_, by intro j; omega⟩
      by_contra hs
      exact hg ((goOn_iff he).2 hs)

omit [IsStrictOrderedRing K] in
theorem row_zero (f : K → K) (x0 x1 : K) : row f x0 x1 0 = [1 / 2 * (x1 - x0) * (f x0 + f x1)] := by
  simp [row, table, trap]
  ring

/-- C109: `integrate_func` returns the first diagonal element of Romberg's table that agrees with its left neighbour to the
requested relative precision, among rows 1 to 15; if none does the behaviour is undefined (the code shifts an `int`
by 32 bits). -/
theorem C109_table (f : K → K) (x0 x1 : K) {e : K} (he : 0 ≤ e) :
    (∃ N, 1 ≤ N ∧ N ≤ 15 ∧ integrateFunc f x0 x1 e = .ok (table f x0 x1 N N) ∧ Stop f x0 x1 e N ∧ ∀ j, 1 ≤ j → j < N → ¬ Stop f x0 x1 e j) ∨
    (integrateFunc f x0 x1 e = .ub ∧ ∀ j, 1 ≤ j → j ≤ 15 → ¬ Stop f x0 x1 e j) := by
  have := loop_spec f x0 x1 he 15 [] (n := 1) (le_refl _) rfl
  rw [show (1 - 1 : Nat) = 0 from rfl, row_zero] at this
  exact this

/-! ### exactness -/

/-- the second column is exact for polynomials of degree three -/
theorem simpson_exact {f : K → K} {a b c d : K} (hf : ∀ t, f t = a + b * t + c * t ^ 2 + d * t ^ 3) (x0 x1 : K) (n : Nat) :
    table f x0 x1 1 (n + 1) = (a * x1 + b * x1 ^ 2 / 2 + c * x1 ^ 3 / 3 + d * x1 ^ 4 / 4) - (a * x0 + b * x0 ^ 2 / 2 + c * x0 ^ 3 / 3 + d * x0 ^ 4 / 4) := by
  set P : K → K := fun t => a * t + b * t ^ 2 / 2 + c * t ^ 3 / 3 + d * t ^ 4 / 4 with hP
  have hM : ((2 ^ n : Nat) : K) ≠ 0 := by positivity
  rw [table, show n + 1 - 1 = n from rfl, table, table, show (2 : Nat) ^ (n + 1) = 2 * 2 ^ n by ring,
    trap_double f x0 x1 (by positivity), newPoints_eq]
  generalize hMd : (2 ^ n : Nat) = M at hM
  have tele : ∑ k ∈ Finset.range M, (P (x0 + ((k + 1 : Nat) : K) * ((x1 - x0) / M)) - P (x0 + (k : K) * ((x1 - x0) / M))) = P x1 - P x0 := by
    rw [Finset.sum_range_sub (fun k : Nat => P (x0 + (k : K) * ((x1 - x0) / M)))]
    congr 2
    · field_simp; ring
    · simp
  show _ = P x1 - P x0
  rw [← tele]
  unfold trap
  have : ∀ S1 S2 : K, ((4 : K) ^ (0 + 1) * (1 / 2 * S1 + S2) - S1) / (4 ^ (0 + 1) - 1) = 1 / 3 * S1 + 4 / 3 * S2 := by
    intro S1 S2; norm_num; ring
  rw [this, Finset.mul_sum, Finset.mul_sum, Finset.mul_sum, ← Finset.sum_add_distrib]
  refine Finset.sum_congr rfl ?_
  intro k _
  simp only [hf, hP]
  push_cast
  field_simp
  ring

theorem table_exact {f : K → K} {a b c d : K} (hf : ∀ t, f t = a + b * t + c * t ^ 2 + d * t ^ 3) (x0 x1 : K) {m n : Nat} (hm : 1 ≤ m) (hn : m ≤ n) :
    table f x0 x1 m n = (a * x1 + b * x1 ^ 2 / 2 + c * x1 ^ 3 / 3 + d * x1 ^ 4 / 4) - (a * x0 + b * x0 ^ 2 / 2 + c * x0 ^ 3 / 3 + d * x0 ^ 4 / 4) := by
  induction m generalizing n with
  | zero => omega
  | succ m ih =>
    rcases Nat.eq_zero_or_pos m with rfl | hp
    · obtain ⟨j, rfl⟩ : ∃ j, n = j + 1 := ⟨n - 1, by omega⟩
      exact simpson_exact hf x0 x1 j
    · rw [table, ih hp (by omega), ih hp (by omega)]
      have : (4 : K) ^ (m + 1) - 1 ≠ 0 := by
        have : (1 : K) < 4 ^ (m + 1) := one_lt_pow₀ (by norm_num) (by omega)
        linarith
      field_simp

/-- C109: polynomials up to the third degree are integrated exactly, for any interval (also backwards) and precision. -/
theorem C109_cubic {f : K → K} {a b c d : K} (hf : ∀ t, f t = a + b * t + c * t ^ 2 + d * t ^ 3) (x0 x1 : K) {e : K} (he : 0 ≤ e) :
    integrateFunc f x0 x1 e = .ok ((a * x1 + b * x1 ^ 2 / 2 + c * x1 ^ 3 / 3 + d * x1 ^ 4 / 4) - (a * x0 + b * x0 ^ 2 / 2 + c * x0 ^ 3 / 3 + d * x0 ^ 4 / 4)) := by
  rcases C109_table f x0 x1 he with ⟨N, h1, h2, h3, _⟩ | ⟨_, h⟩
  · rw [h3, table_exact hf x0 x1 h1 (le_refl _)]
  · exfalso
    refine h 2 (by omega) (by omega) ?_
    unfold Stop
    rw [table_exact hf x0 x1 (by omega) (le_refl _), table_exact hf x0 x1 (by omega) (by omega), sub_self, abs_zero]
    exact mul_nonneg he (abs_nonneg _)

example : integrateFunc (fun t : ℚ => t ^ 2) 0 3 0 = .ok 9 := by
  rw [C109_cubic (a := 0) (b := 0) (c := 1) (d := 0) (by intro t; ring) 0 3 (le_refl _)]
  norm_num

/-- C109 refuted: only the two ends and the middle decide whether the first estimate is accepted: a function that takes the same
value there is taken for constant. -/
theorem C109_alias_refuted {f : K → K} {x0 x1 c e : K} (he : 0 ≤ e) (h0 : f x0 = c) (h1 : f ((x0 + x1) / 2) = c) (h2 : f x1 = c) :
    integrateFunc f x0 x1 e = .ok ((x1 - x0) * c) := by
  have hm : x0 + (x1 - x0) / 2 = (x0 + x1) / 2 := by ring
  have t0 : table f x0 x1 0 0 = (x1 - x0) * c := by
    simp [table, trap, h0, h2]
  have t1 : table f x0 x1 0 1 = (x1 - x0) * c := by
    rw [trap_succ, t0, newPoints_eq]
    simp [hm, h1]
    ring
  have t2 : table f x0 x1 1 1 = (x1 - x0) * c := by
    rw [table, t1, show 1 - 1 = 0 from rfl, t0]
    norm_num
    ring
  have hs : Stop f x0 x1 e 1 := by
    unfold Stop
    rw [t2, show 1 - 1 = 0 from rfl, t1, sub_self, abs_zero]
    exact mul_nonneg he (abs_nonneg _)
  rcases C109_table f x0 x1 he with ⟨N, g1, g2, g3, _, g5⟩ | ⟨_, h⟩
  · have : N = 1 := by
      by_contra hn
      exact g5 1 (le_refl _) (by omega) hs
    rw [g3, this, t2]
  · exact absurd hs (h 1 (le_refl _) (by omega))

/-- a case: this function is 1 at 0, 1 and 2, but its integral over [0,2] is not 2 -/
example : ∃ f : ℚ → ℚ, (∀ t, f t = 1 + (t * (t - 1) * (t - 2)) ^ 2) ∧ integrateFunc f 0 2 0 = .ok 2 ∧ ∀ t, 1 ≤ f t := by
  refine ⟨fun t => 1 + (t * (t - 1) * (t - 2)) ^ 2, fun _ => rfl, ?_, ?_⟩
  · rw [C109_alias_refuted (c := 1) (le_refl _) (by norm_num) (by norm_num) (by norm_num)]; norm_num
  · intro t; nlinarith [sq_nonneg (t * (t - 1) * (t - 2))]

/-- the function with a single jump used below -/
def jump (t : K) : K := if t = 0 then 1 else 0

theorem jump_trap (n : Nat) : table (jump : K → K) 0 1 0 n = 1 / 2 * (1 / 2 ^ n) := by
  induction n with
  | zero => simp [table, trap, jump]
  | succ n ih =>
    rw [trap_succ, ih, newPoints_eq, Finset.sum_eq_zero]
    · rw [pow_succ]; field_simp; ring
    · intro k _
      have : (0 : K) < 0 + ((2 * k + 1 : Nat) : K) * ((1 - 0) / 2 ^ (n + 1)) := by
        rw [zero_add]
        have : (0 : K) < ((2 * k + 1 : Nat) : K) := by exact_mod_cast (by omega : 0 < 2 * k + 1)
        have h2 : (0 : K) < (1 - 0) / 2 ^ (n + 1) := by rw [sub_zero]; positivity
        exact mul_pos this h2
      rw [jump, if_neg this.ne']

theorem jump_table (m : Nat) : ∃ c : K, 0 < c ∧ ∀ n, m ≤ n → table (jump : K → K) 0 1 m n = c / 2 ^ n ∧
    table (jump : K → K) 0 1 (m + 1) (n + 1) = c * ((4 ^ (m + 1) - 2) / (4 ^ (m + 1) - 1)) / 2 ^ (n + 1) := by
  have step : ∀ (m : Nat) (c : K), (∀ n, m ≤ n → table (jump : K → K) 0 1 m n = c / 2 ^ n) → ∀ n, m ≤ n →
      table (jump : K → K) 0 1 (m + 1) (n + 1) = c * ((4 ^ (m + 1) - 2) / (4 ^ (m + 1) - 1)) / 2 ^ (n + 1) := by
    intro m c h n hn
    have : (4 : K) ^ (m + 1) - 1 ≠ 0 := by
      have : (1 : K) < 4 ^ (m + 1) := one_lt_pow₀ (by norm_num) (by omega)
      linarith
    rw [table, h (n + 1) (by omega), show n + 1 - 1 = n from rfl, h n hn, pow_succ (2 : K) n]
    field_simp
  induction m with
  | zero =>
    refine ⟨1 / 2, by norm_num, fun n hn => ⟨?_, step 0 (1 / 2) (fun n _ => ?_) n hn⟩⟩
    · rw [jump_trap]; ring
    · rw [jump_trap]; ring
  | succ m ih =>
    obtain ⟨c, hc, h⟩ := ih
    have h4 : (4 : K) ≤ 4 ^ (m + 1) := by
      rw [pow_succ]
      have : (1 : K) ≤ 4 ^ m := one_le_pow₀ (by norm_num)
      linarith
    have hx : ∀ n, m + 1 ≤ n → table (jump : K → K) 0 1 (m + 1) n = c * ((4 ^ (m + 1) - 2) / (4 ^ (m + 1) - 1)) / 2 ^ n := by
      intro n hn
      obtain ⟨j, rfl⟩ : ∃ j, n = j + 1 := ⟨n - 1, by omega⟩
      exact (h j (by omega)).2
    refine ⟨c * ((4 ^ (m + 1) - 2) / (4 ^ (m + 1) - 1)), mul_pos hc (div_pos (by linarith) (by linarith)), fun n hn => ⟨hx n hn, step (m + 1) _ hx n hn⟩⟩

/-- C109 refuted: a single jump is enough to reach the undefined behaviour at any precision better than 2^-30, such as the default. -/
theorem C109_jump_refuted {e : K} (he : 0 ≤ e) (h30 : e * 2 ^ 30 ≤ 1) : integrateFunc (jump : K → K) 0 1 e = .ub := by
  rcases C109_table (jump : K → K) 0 1 he with ⟨N, h1, h2, _, h4, _⟩ | ⟨h, _⟩
  · exfalso
    obtain ⟨m, rfl⟩ : ∃ m, N = m + 1 := ⟨N - 1, by omega⟩
    obtain ⟨c, hc, h⟩ := jump_table (K := K) m
    unfold Stop at h4
    rw [(h m (le_refl _)).2, show m + 1 - 1 = m from rfl, (h (m + 1) (by omega)).1] at h4
    have h4' : (4 : K) ≤ 4 ^ (m + 1) := by
      rw [pow_succ]
      have : (1 : K) ≤ 4 ^ m := one_le_pow₀ (by norm_num)
      linarith
    have hb : (4 : K) ^ (m + 1) ≤ 2 ^ 30 := by
      calc (4 : K) ^ (m + 1) ≤ 4 ^ 15 := pow_le_pow_right₀ (by norm_num) h2
        _ = 2 ^ 30 := by norm_num
    generalize (4 : K) ^ (m + 1) = q at h4 h4' hb
    generalize hr : (2 : K) ^ (m + 1) = r at h4
    have hr0 : 0 < r := by rw [← hr]; positivity
    have hq1 : 0 < q - 1 := by linarith
    have hq2 : 0 < q - 2 := by linarith
    rw [show c * ((q - 2) / (q - 1)) / r - c / r = -(c / (r * (q - 1))) by field_simp; ring, abs_neg, abs_of_pos (by positivity),
      abs_of_pos (by positivity), show e * (c * ((q - 2) / (q - 1)) / r) = e * (q - 2) * (c / (r * (q - 1))) by field_simp] at h4
    have hp : 0 < c / (r * (q - 1)) := by positivity
    have : 1 ≤ e * (q - 2) := by
      by_contra hlt
      have := mul_lt_mul_of_pos_right (not_le.1 hlt) hp
      linarith
    have : e * (q - 2) ≤ e * (2 ^ 30 - 2) := mul_le_mul_of_nonneg_left (by linarith) he
    have he0 : 0 < e := by
      by_contra h0
      have : e = 0 := le_antisymm (not_lt.1 h0) he
      subst this
      linarith
    nlinarith
  · exact h

end Verif.Romberg
