import Verif.Math.Stats
import Verif.Find.SortProps
import Verif.Math.OrderProps
import Mathlib.Algebra.Order.BigOperators.Group.List
import Mathlib.Tactic.Linarith
/-!
# C108: weighted percentiles
-/
namespace Verif.Stats
open Verif Verif.Math Verif.Find

variable {K : Type} [Field K] [LinearOrder K] [IsStrictOrderedRing K]

/-- the weight of a pair, when its value is a number selected by `P` and the weight is a number -/
def pairWeight (P : K → Bool) : Option K × Option K → K
  | (some a, some x) => if P a then x else 0
  | _ => 0

/-- Spec: total weight of the values selected by `P` -/
def weightOf (P : K → Bool) (v w : List (Option K)) : K := ((v.zip w).map (pairWeight P)).sum

omit [IsStrictOrderedRing K] in
theorem totalWeight_eq (v w : List (Option K)) : totalWeight v w = weightOf (fun _ => true) v w := by
  unfold totalWeight weightOf
  generalize v.zip w = l
  have : ∀ (l : List (Option K × Option K)) (s : K),
      l.foldl addWeight s = s + (l.map (pairWeight fun _ => true)).sum := by
    intro l
    induction l with
    | nil => simp
    | cons p l ih =>
      intro s
      rw [List.foldl_cons, ih, List.map_cons, List.sum_cons]
      rcases p with ⟨_ | a, _ | x⟩ <;> simp [pairWeight, addWeight, add_assoc]
  rw [this, zero_add]

/-- the weight at an index -/
def wt (P : K → Bool) (v w : List (Option K)) (i : Nat) : K := pairWeight P (elt v i, elt w i)

omit [IsStrictOrderedRing K] in
theorem weightOf_sort (P : K → Bool) {v w : List (Option K)} (h : v.length = w.length) :
    weightOf P v w = ((Find.sort v).map (wt P v w)).sum := by
  rw [((sort_perm v).map (wt P v w)).sum_eq]
  unfold weightOf
  congr 1
  refine List.ext_getElem (by simp [h]) ?_
  intro i h1 h2
  have hi : i < v.length := by simpa using h2
  simp [wt, elt, hi, h ▸ hi]

omit [IsStrictOrderedRing K] in
theorem rd_elt {v : List (Option K)} {i : Nat} (h : i < v.length) : Res.rd v i = .ok (elt v i) := by
  rw [Res.rd_lt h]
  simp [elt, h]

/-- the loop stops at the first index where the running weight reaches the limit -/
theorem wpLoop_spec {v w : List (Option K)} {lim : K} (h : v.length = w.length) (ids : List Nat) (hi : ∀ i ∈ ids, i < v.length)
    (tot : K) (ht : tot < lim) :
    (∃ pre j rest a, ids = pre ++ j :: rest ∧ elt v j = some a ∧ wpLoop v w lim tot ids = .ok (some a) ∧
      tot + (pre.map (wt (fun _ => true) v w)).sum < lim ∧
      lim ≤ tot + (pre.map (wt (fun _ => true) v w)).sum + wt (fun _ => true) v w j) ∨
    (wpLoop v w lim tot ids = .ok none ∧ tot + (ids.map (wt (fun _ => true) v w)).sum < lim) := by
  induction ids generalizing tot with
  | nil => right; simpa [wpLoop] using ht
  | cons j ids ih =>
    have hj := hi j (by simp)
    have hi' : ∀ i ∈ ids, i < v.length := fun i h => hi i (by simp [h])
    have step : ∀ tot', tot' = tot + wt (fun _ => true) v w j → tot' < lim → wpLoop v w lim tot (j :: ids) = wpLoop v w lim tot' ids →
        (∃ pre j' rest a, j :: ids = pre ++ j' :: rest ∧ elt v j' = some a ∧ wpLoop v w lim tot (j :: ids) = .ok (some a) ∧
          tot + (pre.map (wt (fun _ => true) v w)).sum < lim ∧
          lim ≤ tot + (pre.map (wt (fun _ => true) v w)).sum + wt (fun _ => true) v w j') ∨
        (wpLoop v w lim tot (j :: ids) = .ok none ∧ tot + ((j :: ids).map (wt (fun _ => true) v w)).sum < lim) := by
      intro tot' he hl hw
      rcases ih hi' tot' hl with ⟨pre, j', rest, a, e1, e2, e3, e4, e5⟩ | ⟨e1, e2⟩
      · left
        refine ⟨j :: pre, j', rest, a, by rw [e1]; rfl, e2, hw.trans e3, ?_, ?_⟩
        · rw [List.map_cons, List.sum_cons]; linarith
        · rw [List.map_cons, List.sum_cons]; linarith
      · right
        refine ⟨hw.trans e1, ?_⟩
        rw [List.map_cons, List.sum_cons]; linarith
    rcases hv : elt v j with _ | a
    · refine step tot ?_ ht ?_
      · simp [wt, hv, pairWeight]
      · rw [wpLoop, rd_elt hj, rd_elt (h ▸ hj), Res.ok_bind, Res.ok_bind, hv]
    · rcases hw : elt w j with _ | b
      · refine step tot ?_ ht ?_
        · simp [wt, hv, hw, pairWeight]
        · rw [wpLoop, rd_elt hj, rd_elt (h ▸ hj), Res.ok_bind, Res.ok_bind, hv, hw]
      · have hwt : wt (fun _ => true) v w j = b := by simp [wt, hv, hw, pairWeight]
        by_cases hb : tot + b ≥ lim
        · left
          refine ⟨[], j, ids, a, rfl, hv, ?_, by simpa using ht, by simpa [hwt] using hb⟩
          rw [wpLoop, rd_elt hj, rd_elt (h ▸ hj), Res.ok_bind, Res.ok_bind, hv, hw]
          simp [hb]
        · refine step (tot + b) (by rw [hwt]) (not_le.1 hb) ?_
          rw [wpLoop, rd_elt hj, rd_elt (h ▸ hj), Res.ok_bind, Res.ok_bind, hv, hw]
          simp [hb]

/-- the weights are numbers that are not negative, or NaN -/
def NonNeg (w : List (Option K)) : Prop := ∀ x, some x ∈ w → 0 ≤ x

omit [IsStrictOrderedRing K] in
theorem elt_nonneg {w : List (Option K)} (hw : NonNeg w) {i : Nat} {x : K} (h : elt w i = some x) : 0 ≤ x := by
  refine hw x ?_
  unfold elt at h
  rw [List.getD_eq_getElem?_getD] at h
  rcases hi : w[i]? with _ | y
  · rw [hi] at h; simp at h
  · rw [hi] at h
    simp only [Option.getD_some] at h
    subst h
    exact List.mem_of_getElem? hi

omit [IsStrictOrderedRing K] in
theorem wt_nonneg {w : List (Option K)} (hw : NonNeg w) (P : K → Bool) (v : List (Option K)) (i : Nat) : 0 ≤ wt P v w i := by
  unfold wt
  rcases hv : elt v i with _ | a
  · simp [pairWeight]
  · rcases hx : elt w i with _ | x
    · simp [pairWeight]
    · simp only [pairWeight]
      split
      · exact elt_nonneg hw hx
      · exact le_refl _

omit [IsStrictOrderedRing K] in
theorem wt_le {w : List (Option K)} (hw : NonNeg w) (P : K → Bool) (v : List (Option K)) (i : Nat) : wt P v w i ≤ wt (fun _ => true) v w i := by
  unfold wt
  rcases hv : elt v i with _ | a
  · simp [pairWeight]
  · rcases hx : elt w i with _ | x
    · simp [pairWeight]
    · simp only [pairWeight]
      split
      · simp
      · simpa using elt_nonneg hw hx

/-- C108: with weights that are not negative and not all zero, and `0 < p ≤ 1`, the weighted percentile is a value of
positive weight such that the values below it have less than the fraction `p` of the weight, and the values up to it
at least this fraction.  NaN values and values with NaN weights do not count. -/
theorem C108_percentile {v w : List (Option K)} {p : K} (hl : v.length = w.length) (hw : NonNeg w)
    (ht : 0 < weightOf (fun _ => true) v w) (h0 : 0 < p) (h1 : p ≤ 1) :
    ∃ a, weightedPercentile v w p = .ok (some a) ∧ (∃ x, (some a, some x) ∈ v.zip w ∧ 0 < x) ∧
      weightOf (fun b => decide (b < a)) v w < p * weightOf (fun _ => true) v w ∧
      p * weightOf (fun _ => true) v w ≤ weightOf (fun b => decide (b ≤ a)) v w := by
  have hne : v ≠ [] := by
    rintro rfl
    simp [weightOf] at ht
  unfold weightedPercentile
  rw [Res.check_pos hne, Res.ok_bind, Res.check_pos hl, Res.ok_bind, totalWeight_eq]
  simp only
  rw [if_neg ht.ne']
  have hlim : 0 < weightOf (fun _ => true) v w * p := mul_pos ht h0
  rcases wpLoop_spec (v := v) (w := w) hl (Find.sort v) (fun i hi => (sort_lt v i).1 hi) 0 hlim with
    ⟨pre, j, rest, a, e1, e2, e3, e4, e5⟩ | ⟨e1, e2⟩
  · have hlp : ∀ i ∈ pre, ∀ b, elt v i = some b → b ≤ a := by
      intro i hi b hb
      have := sort_le v
      rw [e1, List.pairwise_append] at this
      have := this.2.2 i hi j (by simp)
      rw [hb, e2] at this
      simpa [FP.le, FP.less] using this
    have hrs : ∀ i ∈ rest, ∀ b, elt v i = some b → a ≤ b := by
      intro i hi b hb
      have := sort_le v
      rw [e1, List.pairwise_append] at this
      have := (List.pairwise_cons.1 this.2.1).1 i hi
      rw [hb, e2] at this
      simpa [FP.le, FP.less] using this
    rw [zero_add] at e4 e5
    refine ⟨a, e3, ?_, ?_, ?_⟩
    · have hpos : 0 < wt (fun _ => true) v w j := by linarith
      rcases hx : elt w j with _ | x
      · rw [wt, e2, hx] at hpos; simp [pairWeight] at hpos
      · refine ⟨x, ?_, ?_⟩
        · have hj : j < v.length := (sort_lt v j).1 (by rw [e1]; simp)
          have hj' : j < w.length := hl ▸ hj
          refine List.mem_of_getElem? (i := j) ?_
          simp only [elt, List.getD_eq_getElem?_getD, List.getElem?_eq_getElem hj, List.getElem?_eq_getElem hj', Option.getD_some] at e2 hx
          rw [List.getElem?_eq_getElem (by simp; omega), List.getElem_zip, e2, hx]
        · rw [wt, e2, hx] at hpos; simpa [pairWeight] using hpos
    · rw [weightOf_sort _ hl, e1, List.map_append, List.sum_append, List.map_cons, List.sum_cons]
      have hj0 : wt (fun b => decide (b < a)) v w j = 0 := by
        rw [wt, e2]
        rcases elt w j with _ | x <;> simp [pairWeight]
      have hr0 : (rest.map (wt (fun b => decide (b < a)) v w)).sum = 0 := by
        refine List.sum_eq_zero ?_
        intro y hy
        obtain ⟨i, hi, rfl⟩ := List.mem_map.1 hy
        unfold wt
        rcases hv : elt v i with _ | b
        · simp [pairWeight]
        · rcases elt w i with _ | x
          · simp [pairWeight]
          · simp only [pairWeight]
            rw [if_neg]
            simpa using hrs i hi b hv
      have hp : (pre.map (wt (fun b => decide (b < a)) v w)).sum ≤ (pre.map (wt (fun _ => true) v w)).sum :=
        List.sum_le_sum fun i _ => wt_le hw _ v i
      rw [hj0, hr0, mul_comm]
      linarith
    · rw [weightOf_sort (fun b => decide (b ≤ a)) hl, e1, List.map_append, List.sum_append, List.map_cons, List.sum_cons]
      have hj0 : wt (fun b => decide (b ≤ a)) v w j = wt (fun _ => true) v w j := by
        rw [wt, wt, e2]
        rcases elt w j with _ | x <;> simp [pairWeight]
      have hr0 : 0 ≤ (rest.map (wt (fun b => decide (b ≤ a)) v w)).sum := by
        refine List.sum_nonneg ?_
        intro y hy
        obtain ⟨i, _, rfl⟩ := List.mem_map.1 hy
        exact wt_nonneg hw _ v i
      have hp : pre.map (wt (fun b => decide (b ≤ a)) v w) = pre.map (wt (fun _ => true) v w) := by
        refine List.map_congr_left ?_
        intro i hi
        unfold wt
        rcases hv : elt v i with _ | b
        · simp [pairWeight]
        · rcases elt w i with _ | x
          · simp [pairWeight]
          · simp only [pairWeight]
            rw [if_pos (by simpa using hlp i hi b hv)]
            simp
      rw [hj0, hp, mul_comm]
      linarith
  · exfalso
    rw [zero_add, ← weightOf_sort _ hl] at e2
    have : weightOf (fun _ => true) v w * p ≤ weightOf (fun _ => true) v w * 1 := mul_le_mul_of_nonneg_left h1 ht.le
    linarith

example : ∃ v w : List (Option ℚ), v.length = w.length ∧ NonNeg w ∧ 0 < weightOf (fun _ => true) v w ∧
    weightedPercentile v w (1 / 2) = .ok (some 2) := by
  refine ⟨[some 3, none, some 2, some 1], [some 1, some 5, some 3, some 1], rfl, ?_, ?_, ?_⟩
  · intro x hx
    simp at hx
    rcases hx with rfl | rfl | rfl | rfl <;> decide +kernel
  · decide +kernel
  · have hs : Find.sort [some 3, none, some 2, some (1 : ℚ)] = [3, 2, 0, 1] := by
      symm; apply C14_sort_unique <;> decide +kernel
    unfold weightedPercentile
    rw [hs]
    decide +kernel

/-- C108: the value is determined by this description, so the order of the pairs does not matter. -/
theorem C108_unique {v w : List (Option K)} {t a b : K} (hw : NonNeg w)
    (ha : weightOf (fun c => decide (c < a)) v w < t ∧ t ≤ weightOf (fun c => decide (c ≤ a)) v w)
    (hb : weightOf (fun c => decide (c < b)) v w < t ∧ t ≤ weightOf (fun c => decide (c ≤ b)) v w) : a = b := by
  have key : ∀ a b : K, t ≤ weightOf (fun c => decide (c ≤ a)) v w → weightOf (fun c => decide (c < b)) v w < t → ¬ a < b := by
    intro a b h1 h2 hab
    have : weightOf (fun c => decide (c ≤ a)) v w ≤ weightOf (fun c => decide (c < b)) v w := by
      unfold weightOf
      refine List.sum_le_sum ?_
      rintro ⟨_ | c, _ | x⟩ hm
      · simp [pairWeight]
      · simp [pairWeight]
      · simp [pairWeight]
      · have hx : 0 ≤ x := hw x (List.of_mem_zip hm).2
        simp only [pairWeight, decide_eq_true_eq]
        by_cases h : c ≤ a
        · rw [if_pos h, if_pos (lt_of_le_of_lt h hab)]
        · rw [if_neg h]; split
          · exact hx
          · exact le_refl _
    linarith
  rcases lt_trichotomy a b with h | h | h
  · exact absurd h (key a b ha.2 hb.1)
  · exact h
  · exact absurd h (key b a hb.2 ha.1)

/-- C108: without any weight, or above the total weight, the result is NaN. -/
theorem C108_nan {v w : List (Option K)} {p : K} (hne : v ≠ []) (hl : v.length = w.length)
    (h : weightOf (fun _ => true) v w = 0 ∨ (0 < weightOf (fun _ => true) v w ∧ 1 < p)) (hw : NonNeg w) :
    weightedPercentile v w p = .ok none := by
  unfold weightedPercentile
  rw [Res.check_pos hne, Res.ok_bind, Res.check_pos hl, Res.ok_bind, totalWeight_eq]
  simp only
  rcases h with h | ⟨ht, hp⟩
  · rw [if_pos h]
  · rw [if_neg ht.ne']
    have hlt : weightOf (fun _ => true) v w * 1 < weightOf (fun _ => true) v w * p := mul_lt_mul_of_pos_left hp ht
    rcases wpLoop_spec (v := v) (w := w) hl (Find.sort v) (fun i hi => (sort_lt v i).1 hi) 0 (lim := weightOf (fun _ => true) v w * p) (by linarith) with
      ⟨pre, j, rest, a, e1, e2, e3, e4, e5⟩ | ⟨e1, e2⟩
    · exfalso
      have hs := weightOf_sort (fun _ => true) hl
      rw [e1, List.map_append, List.sum_append, List.map_cons, List.sum_cons] at hs
      have hr0 : 0 ≤ (rest.map (wt (fun _ => true) v w)).sum := by
        refine List.sum_nonneg ?_
        intro y hy
        obtain ⟨i, _, rfl⟩ := List.mem_map.1 hy
        exact wt_nonneg hw _ v i
      linarith
    · exact e1

/-- C108: empty vectors and vectors of different lengths are refused. -/
theorem C108_refused (v w : List (Option K)) (p : K) (h : v = [] ∨ v.length ≠ w.length) : weightedPercentile v w p = .abort := by
  unfold weightedPercentile
  by_cases hv : v = []
  · rw [Res.check_neg (by simpa using hv)]; rfl
  · rw [Res.check_pos hv, Res.ok_bind, Res.check_neg (by tauto)]; rfl

/-- C108: the weighted median is the weighted percentile at one half. -/
theorem C108_median {v w : List (Option K)} (hl : v.length = w.length) (hw : NonNeg w) (ht : 0 < weightOf (fun _ => true) v w) :
    ∃ a, weightedMedian v w = .ok (some a) ∧ 2 * weightOf (fun b => decide (b < a)) v w < weightOf (fun _ => true) v w ∧
      weightOf (fun _ => true) v w ≤ 2 * weightOf (fun b => decide (b ≤ a)) v w := by
  obtain ⟨a, h1, _, h3, h4⟩ := C108_percentile (p := 1 / 2) hl hw ht (by norm_num) (by norm_num)
  exact ⟨a, h1, by linarith, by linarith⟩

/-- C108 refuted: with all weights equal the weighted median is not the median: of two values it returns the smaller one,
`median` the larger one. -/
theorem C108_equal_refuted : weightedMedian [some (1 : ℚ), some 2] [some 1, some 1] = .ok (some 1) ∧ median [some (1 : ℚ), some 2] = .ok (some 2) := by
  constructor
  · have hs : Find.sort [some (1 : ℚ), some 2] = [0, 1] := by
      symm; apply C14_sort_unique <;> decide +kernel
    unfold weightedMedian weightedPercentile
    rw [hs]
    decide +kernel
  · rcases C26_median [some (1 : ℚ), some 2] (by simp) with ⟨h, _⟩ | ⟨_, a, h1, h2⟩
    · simp [numbers] at h
    · rw [h1, isOrderStat_unique h2 (b := 2) ⟨by simp, by decide +kernel, by decide +kernel⟩]

end Verif.Stats
