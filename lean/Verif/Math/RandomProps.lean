import Verif.Math.Random
import Mathlib.Tactic.Linarith
import Mathlib.Tactic.NormNum
import Mathlib.Tactic.FieldSimp
import Mathlib.Tactic.Ring
import Mathlib.Data.Rat.Floor
import Mathlib.Algebra.Field.Rat
import Mathlib.Algebra.Order.Ring.Rat
/-!
# C59: `randomi`; C70: `shuffle` and `random_coin`
-/
namespace Verif.Rand
open Verif

variable {K : Type} [LinearOrder K] [Field K] [IsStrictOrderedRing K] [FloorRing K]

/-- the bounds do not overflow their type -/
def Fits (w : Nat) (mi ma : Int) : Prop := ma + 1 < 2 ^ (w - 1) ∧ ma + 1 - mi < 2 ^ (w - 1)

theorem scaled {mi ma : Int} (h : mi ≤ ma) {u : K} (h0 : 0 ≤ u) (h1 : u < 1) :
    (mi : K) ≤ u * ((ma + 1 - mi : Int) : K) + mi ∧ u * ((ma + 1 - mi : Int) : K) + mi < (ma : K) + 1 := by
  have hp : (0 : K) < ((ma + 1 - mi : Int) : K) := by exact_mod_cast (by omega : 0 < ma + 1 - mi)
  have a := mul_nonneg h0 hp.le
  have b := mul_lt_mul_of_pos_right h1 hp
  push_cast at a b ⊢
  constructor <;> linarith

/-- **C59**: with a non-negative upper bound the values are in the closed interval, whatever the draws. -/
theorem C59_randomi_partial {w : Nat} {mi ma : Int} (h : mi ≤ ma) (hw : Fits w mi ma) (hma : 0 ≤ ma) {us : List K}
    (hu : ∀ u ∈ us, 0 ≤ u ∧ u < 1) :
    ∃ l, randomiVec w mi ma us = .ok l ∧ l.length = us.length ∧ ∀ v ∈ l, mi ≤ v ∧ v ≤ ma := by
  have hok : ∀ u, randomi w mi ma u = .ok (trunc (u * ((ma + 1 - mi : Int) : K) + (mi : K))) := by
    intro u
    unfold randomi
    rw [if_neg (by rintro (h | h); exact absurd hw.1 (by omega); exact absurd hw.2 (by omega))]
  refine ⟨_, Verif.Res.mapM_ok fun u _ => hok u, by simp, fun v hv => ?_⟩
  obtain ⟨u, hu', rfl⟩ := List.mem_map.1 hv
  obtain ⟨a, b⟩ := scaled (K := K) h (hu u hu').1 (hu u hu').2
  unfold trunc
  split
  · constructor
    · exact Int.le_floor.2 a
    · have : ⌊u * ((ma + 1 - mi : Int) : K) + (mi : K)⌋ < ma + 1 := Int.floor_lt.2 (by push_cast at b ⊢; exact b)
      omega
  · rename_i hneg
    have hneg := (not_le.1 hneg).le
    constructor
    · have := Int.le_ceil (u * ((ma + 1 - mi : Int) : K) + (mi : K))
      exact_mod_cast a.trans this
    · have : ⌈u * ((ma + 1 - mi : Int) : K) + (mi : K)⌉ ≤ 0 := Int.ceil_le.2 (by simpa using hneg)
      omega

/-- **C59**: with bounds that are not negative every value of the interval can be drawn. -/
theorem C59_randomi_onto {w : Nat} {mi ma k : Int} (h0 : 0 ≤ mi) (hw : Fits w mi ma) (h1 : mi ≤ k) (h2 : k ≤ ma) :
    ∃ u : K, 0 ≤ u ∧ u < 1 ∧ randomi w mi ma u = .ok k := by
  have hp : (0 : K) < ((ma + 1 - mi : Int) : K) := by exact_mod_cast (by omega : 0 < ma + 1 - mi)
  refine ⟨((k - mi : Int) : K) / ((ma + 1 - mi : Int) : K), ?_, ?_, ?_⟩
  · exact div_nonneg (by exact_mod_cast (by omega : 0 ≤ k - mi)) hp.le
  · rw [div_lt_one hp]; exact_mod_cast (by omega : k - mi < ma + 1 - mi)
  · unfold randomi
    rw [if_neg (by rintro (h | h); exact absurd hw.1 (by omega); exact absurd hw.2 (by omega)), div_mul_cancel₀ _ hp.ne']
    have : ((k - mi : Int) : K) + (mi : K) = (k : K) := by push_cast; ring
    rw [this, trunc, if_pos (by exact_mod_cast (by omega : 0 ≤ k)), Int.floor_intCast]

/-- **C59**, what fails: with a negative upper bound the conversion to an integer, which rounds toward zero, can give `ma + 1`. -/
theorem C59_negative_refuted {w : Nat} {mi ma : Int} (h : mi ≤ ma) (hw : Fits w mi ma) (hma : ma < 0) :
    ∃ u : K, 0 ≤ u ∧ u < 1 ∧ randomi w mi ma u = .ok (ma + 1) := by
  have hp : (0 : K) < ((ma + 1 - mi : Int) : K) := by exact_mod_cast (by omega : 0 < ma + 1 - mi)
  have hd : (0 : K) ≤ ((ma - mi : Int) : K) := by exact_mod_cast (by omega : 0 ≤ ma - mi)
  have hma' : (ma : K) + 1 ≤ 0 := by exact_mod_cast (by omega : ma + 1 ≤ 0)
  refine ⟨(((ma - mi : Int) : K) + 1/2) / ((ma + 1 - mi : Int) : K), ?_, ?_, ?_⟩
  · exact div_nonneg (by linarith) hp.le
  · rw [div_lt_one hp]; push_cast; linarith
  · unfold randomi
    rw [if_neg (by rintro (h | h); exact absurd hw.1 (by omega); exact absurd hw.2 (by omega)), div_mul_cancel₀ _ hp.ne']
    have e : ((ma - mi : Int) : K) + 1/2 + (mi : K) = (ma : K) + 1/2 := by push_cast; ring
    rw [e, trunc, if_neg (by linarith)]
    congr 1
    rw [Int.ceil_eq_iff]
    push_cast
    constructor <;> linarith

/-- **C59**, what fails (2): the width of the interval overflows. -/
theorem C59_overflow_refuted : ∃ mi ma : Int, -2^31 ≤ mi ∧ mi ≤ ma ∧ ma < 2^31 ∧ ∀ u : K, randomi 32 mi ma u = .ub :=
  ⟨-2^31, 0, by norm_num, by norm_num, by norm_num, fun u => by unfold randomi; rw [if_pos (by norm_num)]⟩

example : Fits 32 (-3) 5 := by unfold Fits; norm_num
example : randomiVec 32 (-3) 5 [0, (1/10 : ℚ), 1/3, 1/2, 99/100] = .ok [-3, -2, 0, 1, 5] := by decide +kernel
example : randomi 32 (-3) (-1) (9/10 : ℚ) = .ok 0 := by decide +kernel

/-! ### C70 -/

/-- **C70**: `random_coin` is always true with probability 1, and never with probability 0 unless the draw is exactly 0; a larger
probability never turns a success into a failure. -/
theorem C70_coin_partial : (∀ u : K, u < 1 → coin u 1 = true) ∧ (∀ u : K, 0 < u → coin u 0 = false) ∧
    (∀ u p q : K, p ≤ q → coin u p = true → coin u q = true) := by
  refine ⟨fun u h => ?_, fun u h => ?_, fun u p q h hp => ?_⟩
  · simp [coin, h.le]
  · simp [coin, h]
  · simp only [coin, decide_eq_true_eq] at *; exact hp.trans h

/-- **C70**: the vector form is the scalar one on each element. -/
theorem C70_coins {us probs : List K} (h : us.length = probs.length) : (coins us probs).length = probs.length ∧
    ∀ i (h1 : i < us.length) (h2 : i < probs.length), (coins us probs)[i]? = some (decide (us[i] ≤ probs[i])) := by
  refine ⟨by simp [coins, h], fun i h1 h2 => ?_⟩
  simp [coins, coin, h1, h2]

/-- **C70**, what fails: 0 is a possible draw, and then `random_coin` with probability 0 is true. -/
theorem C70_zero_refuted : ∃ u : K, 0 ≤ u ∧ u < 1 ∧ coin u 0 = true := ⟨0, le_rfl, zero_lt_one, by simp [coin]⟩

theorem swapAt_perm {α : Type} (l : List α) (i j : Nat) : (swapAt l i j).Perm l := by
  unfold swapAt
  split
  · rename_i a b ha hb
    obtain ⟨hi, rfl⟩ := List.getElem?_eq_some_iff.1 ha
    obtain ⟨hj, rfl⟩ := List.getElem?_eq_some_iff.1 hb
    exact List.set_set_perm hi hj
  · exact .refl _

theorem shuffleFrom_perm {α : Type} (draw : Nat → Nat) : ∀ (n i : Nat) (l : List α), (shuffleFrom draw n i l).Perm l
  | 0, _, _ => .refl _
  | n + 1, i, l => (shuffleFrom_perm draw n (i + 1) _).trans (swapAt_perm l i (draw i))

/-- **C70**: `shuffle` gives a permutation of its input, whatever is drawn. -/
theorem C70_shuffle {α : Type} (draw : Nat → Nat) (l : List α) : (shuffle draw l).Perm l := shuffleFrom_perm _ _ _ _

/-- moving the element `k` to the place `i` by choice of the draws -/
theorem shuffleFrom_snoc {α : Type} (draw : Nat → Nat) : ∀ (n i : Nat) (l : List α),
    shuffleFrom draw (n + 1) i l = swapAt (shuffleFrom draw n i l) (i + n) (draw (i + n))
  | 0, i, l => rfl
  | n + 1, i, l => by
    rw [shuffleFrom, shuffleFrom_snoc draw n (i + 1), shuffleFrom]
    rw [show i + 1 + n = i + (n + 1) by omega]

theorem shuffleFrom_congr {α : Type} (d d' : Nat → Nat) : ∀ (n i : Nat) (l : List α), (∀ k, i ≤ k → k < i + n → d k = d' k) →
    shuffleFrom d n i l = shuffleFrom d' n i l
  | 0, _, _, _ => rfl
  | n + 1, i, l, h => by
    rw [shuffleFrom, shuffleFrom, h i le_rfl (by omega)]
    exact shuffleFrom_congr d d' n (i + 1) _ fun k h1 h2 => h k (by omega) (by omega)

theorem swapAt_append {α : Type} (l m : List α) (i j : Nat) (hi : i < l.length) (hj : j < l.length) : swapAt (l ++ m) i j = swapAt l i j ++ m := by
  unfold swapAt
  rw [List.getElem?_append_left hi, List.getElem?_append_left hj, List.getElem?_eq_getElem hi, List.getElem?_eq_getElem hj]
  simp [List.set_append, hi, hj]

theorem shuffleFrom_append {α : Type} (draw : Nat → Nat) : ∀ (n i : Nat) (l m : List α), (∀ k, i ≤ k → k < i + n → draw k ≤ k) → i + n ≤ l.length →
    shuffleFrom draw n i (l ++ m) = shuffleFrom draw n i l ++ m
  | 0, _, _, _, _, _ => rfl
  | n + 1, i, l, m, h, hl => by
    have h1 := h i le_rfl (by omega)
    rw [shuffleFrom, shuffleFrom, swapAt_append l m i (draw i) (by omega) (by omega)]
    exact shuffleFrom_append draw n (i + 1) _ m (fun k h1 h2 => h k (by omega) (by omega)) (by
      have := (swapAt_perm l i (draw i)).length_eq; omega)

/-- **C70**: every permutation can be obtained, with draws in the range `std::shuffle` uses. -/
theorem C70_shuffle_onto {α : Type} (l m : List α) (h : m.Perm l) : ∃ draw : Nat → Nat, (∀ i, draw i ≤ i) ∧ shuffle draw l = m := by
  induction hn : l.length generalizing l m with
  | zero =>
    have : l = [] := List.length_eq_zero_iff.1 hn
    subst this
    exact ⟨fun _ => 0, fun i => Nat.zero_le _, by rw [h.eq_nil]; rfl⟩
  | succ n ih =>
    rcases List.eq_nil_or_concat l with rfl | ⟨l', a, rfl⟩
    · simp at hn
    rw [List.concat_eq_append] at *
    have hl' : l'.length = n := by simpa using hn
    rcases Nat.eq_zero_or_pos n with rfl | hpos
    · have : l' = [] := List.length_eq_zero_iff.1 hl'
      subst this
      exact ⟨fun _ => 0, fun i => Nat.zero_le _, by rw [List.nil_append] at *; rw [List.perm_singleton.1 h]; rfl⟩
    -- where the last element of `l` goes
    obtain ⟨k, hk, hka⟩ := List.getElem_of_mem (h.mem_iff.2 (by simp : a ∈ l' ++ [a]))
    have hml : m.length = n + 1 := by rw [h.length_eq]; exact hn
    -- `m` before its last exchange
    set m0 := swapAt m k n with hm0
    have hkn : k ≤ n := by omega
    have hm0n : m0.length = n + 1 := by rw [hm0, (swapAt_perm m k n).length_eq, hml]
    have hlast : m0[n]? = some a := by
      rw [hm0, swapAt, List.getElem?_eq_getElem hk, List.getElem?_eq_getElem (by omega : n < m.length)]
      simp [hka, hml]
    have hm0' : m0 = m0.take n ++ [a] := by
      conv_lhs => rw [← List.take_append_drop n m0]
      congr 1
      obtain ⟨h1, h2⟩ := List.getElem?_eq_some_iff.1 hlast
      rw [List.drop_eq_getElem_cons h1, h2, List.drop_of_length_le (by omega)]
    have hp : (m0.take n).Perm l' := by
      have h3 : (m0.take n ++ [a]).Perm (l' ++ [a]) := by rw [← hm0']; exact (swapAt_perm m k n).trans h
      exact (List.perm_append_right_iff _).1 h3
    obtain ⟨d, hd1, hd2⟩ := ih l' (m0.take n) hp hl'
    refine ⟨fun i => if i = n then k else d i, fun i => ?_, ?_⟩
    · simp only; split
      · omega
      · exact hd1 i
    · unfold shuffle at *
      rw [hn, Nat.add_sub_cancel]
      obtain ⟨n', rfl⟩ : ∃ n', n = n' + 1 := ⟨n - 1, by omega⟩
      rw [shuffleFrom_snoc, shuffleFrom_congr _ d n' 1 _ (fun k h1 h2 => if_neg (by omega)),
        shuffleFrom_append d n' 1 l' [a] (fun k _ _ => hd1 k) (by omega)]
      rw [hl', Nat.add_sub_cancel] at hd2
      rw [hd2, ← hm0', show 1 + n' = n' + 1 by omega]
      simp only [if_true]
      rw [hm0]
      -- exchanging twice
      unfold swapAt
      have h1 : n' + 1 < m.length := by omega
      rw [List.getElem?_eq_getElem hk, List.getElem?_eq_getElem h1]
      simp only
      by_cases hkk : k = n' + 1
      · subst hkk; simp [h1]
      · have e1 : (((m.set k m[n' + 1]).set (n' + 1) m[k]))[n' + 1]? = some m[k] := by simp [h1]
        have e2 : (((m.set k m[n' + 1]).set (n' + 1) m[k]))[k]? = some m[n' + 1] := by
          rw [List.getElem?_set_ne (Ne.symm hkk)]; simp [hk]
        rw [e1, e2]
        simp only
        refine List.ext_getElem (by simp) fun i h2 h3 => ?_
        simp only [List.getElem_set]
        split
        · rename_i h; subst h; rfl
        · split
          · rename_i h; subst h; rfl
          · rfl

example : shuffle (fun i => i / 2) [10, 20, 30, 40] = [20, 40, 10, 30] := by decide

end Verif.Rand
