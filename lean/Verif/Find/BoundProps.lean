import Verif.Find.Find
import Verif.Find.SortProps
/-!
# Properties C20, C21
-/
namespace Verif.Find
open Verif Verif.Core
variable {α : Type} [LinearOrder α]

/-! ## C20 -/

theorem eq_of_not_less {a b : Option α} (h1 : ¬ FP.less a b = true) (h2 : ¬ FP.less b a = true) :
    a = b := by
  cases a <;> cases b <;> simp_all [FP.less]
  exact le_antisymm h2 h1

theorem less_le_trans {a b c : Option α} (h1 : FP.less a b = true) (h2 : FP.le b c = true) :
    FP.less a c = true := by
  cases a <;> cases b <;> cases c <;> simp_all [FP.less, FP.le]
  exact lt_of_lt_of_le h1 h2

theorem less_irrefl (a : Option α) : FP.less a a = false := by cases a <;> simp [FP.less]

theorem less_le {a b : Option α} (h : FP.less a b = true) : FP.le a b = true :=
  ((FP.less_iff a b).1 h).1

abbrev Sorted (v : List (Option α)) : Prop := v.Pairwise fun a b => FP.le a b = true

/-- in a sorted list a value below the head does not occur -/
theorem count_zero_of_less {a b : Option α} {bs : List (Option α)} (h : FP.less a b = true)
    (hs : Sorted (b :: bs)) : (b :: bs).count a = 0 := by
  rw [List.count_eq_zero]
  intro hm
  unfold Sorted at hs
  rw [List.pairwise_cons] at hs
  rcases List.mem_cons.1 hm with rfl | hm
  · rw [less_irrefl] at h; simp at h
  · have := less_le_trans h (hs.1 a hm)
    rw [less_irrefl] at this; simp at this

theorem C20_intersection_sorted_count (v1 v2 : List (Option α)) (s1 : Sorted v1) (s2 : Sorted v2)
    (x : Option α) :
    (setIntersectionSorted v1 v2).count x = min (v1.count x) (v2.count x) := by
  fun_induction setIntersectionSorted v1 v2 with
  | case1 a as b bs h ih =>
    rw [ih (List.pairwise_cons.1 s1).2 s2]
    by_cases hx : x = a
    · subst hx
      rw [count_zero_of_less h s2]; simp
    · rw [List.count_cons_of_ne (Ne.symm hx)]
  | case2 a as b bs h h' ih =>
    rw [ih s1 (List.pairwise_cons.1 s2).2]
    by_cases hx : x = b
    · subst hx
      rw [count_zero_of_less h' s1]; simp
    · rw [List.count_cons_of_ne (Ne.symm hx)]
  | case3 a as b bs h h' ih =>
    have := eq_of_not_less h h'
    subst this
    rw [List.count_cons, List.count_cons, List.count_cons,
      ih (List.pairwise_cons.1 s1).2 (List.pairwise_cons.1 s2).2]
    omega
  | case4 l1 l2 h =>
    cases l1 with
    | nil => simp
    | cons a l1 =>
      cases l2 with
      | nil => simp
      | cons b l2 => exact absurd rfl (h a l1 b l2 rfl)

theorem intersection_sub (v1 v2 : List (Option α)) : (setIntersectionSorted v1 v2).Sublist v1 := by
  fun_induction setIntersectionSorted v1 v2 with
  | case1 a as b bs h ih => exact ih.cons _
  | case2 a as b bs h h' ih => exact ih
  | case3 a as b bs h h' ih => exact ih.cons_cons _
  | case4 => simp

theorem setUnionSorted_count (v1 v2 : List (Option α)) (s1 : Sorted v1) (s2 : Sorted v2)
    (x : Option α) :
    (setUnionSorted v1 v2).count x = max (v1.count x) (v2.count x) := by
  fun_induction setUnionSorted v1 v2 with
  | case1 a as b bs h ih =>
    rw [List.count_cons, ih (List.pairwise_cons.1 s1).2 s2]
    by_cases hx : a = x
    · subst hx
      rw [count_zero_of_less h s2]; simp
    · rw [List.count_cons_of_ne hx]; simp [hx]
  | case2 a as b bs h h' ih =>
    rw [List.count_cons, ih s1 (List.pairwise_cons.1 s2).2]
    by_cases hx : b = x
    · subst hx
      rw [count_zero_of_less h' s1]; simp
    · rw [List.count_cons_of_ne hx]; simp [hx]
  | case3 a as b bs h h' ih =>
    have := eq_of_not_less h h'
    subst this
    rw [List.count_cons, List.count_cons, List.count_cons,
      ih (List.pairwise_cons.1 s1).2 (List.pairwise_cons.1 s2).2]
    omega
  | case4 => simp
  | case5 => simp

theorem setUnionSorted_sorted (v1 v2 : List (Option α)) (s1 : Sorted v1) (s2 : Sorted v2) :
    Sorted (setUnionSorted v1 v2) := by
  have hmem : ∀ (w1 w2 : List (Option α)), Sorted w1 → Sorted w2 → ∀ x, x ∈ setUnionSorted w1 w2 →
      x ∈ w1 ∨ x ∈ w2 := by
    intro w1 w2 h1 h2 x hx
    rw [← List.count_pos_iff, setUnionSorted_count _ _ h1 h2] at hx
    rcases (by omega : 0 < w1.count x ∨ 0 < w2.count x) with h | h
    · exact .inl (List.count_pos_iff.1 h)
    · exact .inr (List.count_pos_iff.1 h)
  fun_induction setUnionSorted v1 v2 with
  | case1 a as b bs h ih =>
    have hs1 := List.pairwise_cons.1 s1
    have hs2 := List.pairwise_cons.1 s2
    refine List.pairwise_cons.2 ⟨fun x hx => ?_, ih hs1.2 s2⟩
    rcases hmem _ _ hs1.2 s2 x hx with hx | hx
    · exact hs1.1 x hx
    · rcases List.mem_cons.1 hx with rfl | hx
      · exact less_le h
      · exact less_le (less_le_trans h (hs2.1 x hx))
  | case2 a as b bs h h' ih =>
    have hs1 := List.pairwise_cons.1 s1
    have hs2 := List.pairwise_cons.1 s2
    refine List.pairwise_cons.2 ⟨fun x hx => ?_, ih s1 hs2.2⟩
    rcases hmem _ _ s1 hs2.2 x hx with hx | hx
    · rcases List.mem_cons.1 hx with rfl | hx
      · exact less_le h'
      · exact less_le (less_le_trans h' (hs1.1 x hx))
    · exact hs2.1 x hx
  | case3 a as b bs h h' ih =>
    have := eq_of_not_less h h'
    subst this
    have hs1 := List.pairwise_cons.1 s1
    have hs2 := List.pairwise_cons.1 s2
    refine List.pairwise_cons.2 ⟨fun x hx => ?_, ih hs1.2 hs2.2⟩
    rcases hmem _ _ hs1.2 hs2.2 x hx with hx | hx
    · exact hs1.1 x hx
    · exact hs2.1 x hx
  | case4 => exact s2
  | case5 => exact s1

theorem inplaceSort_sorted (v : List (Option α)) : Sorted (inplaceSort v) :=
  List.pairwise_mergeSort (le := FP.le (α := α)) FP.le_trans FP.le_total v

/-- C20: `set_intersection` is sorted and holds each value the smaller number of times. -/
theorem C20_set_intersection (v1 v2 : List (Option α)) :
    Sorted (setIntersection v1 v2) ∧
    ∀ x, (setIntersection v1 v2).count x = min (v1.count x) (v2.count x) := by
  refine ⟨List.Pairwise.sublist (intersection_sub _ _) (inplaceSort_sorted v1), fun x => ?_⟩
  unfold setIntersection
  rw [C20_intersection_sorted_count _ _ (inplaceSort_sorted v1) (inplaceSort_sorted v2),
    (C14_inplace_sort v1).1.count_eq, (C14_inplace_sort v2).1.count_eq]

/-- C20: `set_union` is sorted and holds each value the larger number of times. -/
theorem C20_set_union (v1 v2 : List (Option α)) :
    Sorted (setUnion v1 v2) ∧
    ∀ x, (setUnion v1 v2).count x = max (v1.count x) (v2.count x) := by
  refine ⟨setUnionSorted_sorted _ _ (inplaceSort_sorted v1) (inplaceSort_sorted v2), fun x => ?_⟩
  unfold setUnion
  rw [setUnionSorted_count _ _ (inplaceSort_sorted v1) (inplaceSort_sorted v2),
    (C14_inplace_sort v1).1.count_eq, (C14_inplace_sort v2).1.count_eq]

/-- C20, versions for sorted input. -/
theorem C20_sorted_versions (v1 v2 : List (Option α)) (s1 : Sorted v1) (s2 : Sorted v2) :
    (Sorted (setIntersectionSorted v1 v2) ∧
      ∀ x, (setIntersectionSorted v1 v2).count x = min (v1.count x) (v2.count x)) ∧
    (Sorted (setUnionSorted v1 v2) ∧
      ∀ x, (setUnionSorted v1 v2).count x = max (v1.count x) (v2.count x)) :=
  ⟨⟨List.Pairwise.sublist (intersection_sub _ _) s1, C20_intersection_sorted_count v1 v2 s1 s2⟩,
    setUnionSorted_sorted v1 v2 s1 s2, setUnionSorted_count v1 v2 s1 s2⟩

/-- C20: for sets, membership. -/
theorem C20_membership (v1 v2 : List (Option α)) (x : Option α) :
    (x ∈ setIntersection v1 v2 ↔ x ∈ v1 ∧ x ∈ v2) ∧ (x ∈ setUnion v1 v2 ↔ x ∈ v1 ∨ x ∈ v2) := by
  constructor
  · rw [← List.count_pos_iff, (C20_set_intersection v1 v2).2, ← List.count_pos_iff (l := v1),
      ← List.count_pos_iff (l := v2)]
    omega
  · rw [← List.count_pos_iff, (C20_set_union v1 v2).2, ← List.count_pos_iff (l := v1),
      ← List.count_pos_iff (l := v2)]
    omega

example : setIntersection [some 3, some 1, some 3] [some 3, some (3 : Nat), some 3] = [some 3, some 3] := by
  have h1 : inplaceSort [some 3, some 1, some (3 : Nat)] = [some 1, some 3, some 3] := by
    simp [inplaceSort, List.mergeSort, List.merge]
  have h2 : inplaceSort [some 3, some 3, some (3 : Nat)] = [some 3, some 3, some 3] := by
    simp [inplaceSort, List.mergeSort, List.merge]
  unfold setIntersection
  rw [h1, h2]
  simp [setIntersectionSorted]

/-! ## C21 -/

/-- Spec: `p` separates values not above `x` from values above `x` within `[lo, hi)`. -/
def SplitsAbove (v : List (Option α)) (x : Option α) (lo hi p : Nat) : Prop :=
  lo ≤ p ∧ p ≤ hi ∧ (∀ i, lo ≤ i → i < p → FP.less x (elt v i) = false) ∧
    ∀ i, p ≤ i → i < hi → FP.less x (elt v i) = true

def SplitsBelow (v : List (Option α)) (x : Option α) (lo hi p : Nat) : Prop :=
  lo ≤ p ∧ p ≤ hi ∧ (∀ i, lo ≤ i → i < p → FP.less (elt v i) x = true) ∧
    ∀ i, p ≤ i → i < hi → FP.less (elt v i) x = false

theorem sorted_elt {v : List (Option α)} (hs : Sorted v) {i j : Nat} (hij : i ≤ j) (hj : j < v.length) :
    FP.le (elt v i) (elt v j) = true := by
  rcases Nat.lt_or_eq_of_le hij with h | rfl
  · have := List.pairwise_iff_getElem.1 hs i j (by omega) hj h
    simpa [elt, show i < v.length by omega, hj] using this
  · simp [FP.le, less_irrefl]

theorem rd_elt {v : List (Option α)} {i : Nat} (h : i < v.length) : Res.rd v i = .ok (elt v i) := by
  rw [Res.rd_eq_ok]; simp [elt, h]

theorem le_less_trans {a b c : Option α} (h1 : FP.le a b = true) (h2 : FP.less b c = true) :
    FP.less a c = true := by
  cases a <;> cases b <;> cases c <;> simp_all [FP.less, FP.le]
  exact lt_of_le_of_lt h1 h2

theorem not_less_of_le {a b c : Option α} (h1 : FP.less a c = false) (h2 : FP.le b c = true) :
    FP.less a b = false := by
  by_contra h
  have := less_le_trans (by simpa using h) h2
  rw [h1] at this; simp at this

theorem stdUpper_spec (v : List (Option α)) (hs : Sorted v) (x : Option α) (first len : Nat)
    (h : first + len ≤ v.length) :
    ∃ p, stdUpper v x first len = .ok p ∧ SplitsAbove v x first (first + len) p := by
  induction len using Nat.strong_induction_on generalizing first with
  | _ len ih =>
    unfold stdUpper
    by_cases h0 : len = 0
    · rw [if_pos h0]
      exact ⟨first, rfl, by omega, by omega, fun i h1 h2 => by omega, fun i h1 h2 => by omega⟩
    · rw [if_neg h0]
      simp only [rd_elt (show first + len / 2 < v.length by omega), Res.ok_bind]
      by_cases hc : FP.less x (elt v (first + len / 2)) = true
      · rw [if_pos hc]
        obtain ⟨p, h1, h2, h3, h4, h5⟩ := ih (len / 2) (by omega) first (by omega)
        refine ⟨p, h1, h2, by omega, h4, fun i hi1 hi2 => ?_⟩
        by_cases hi : i < first + len / 2
        · exact h5 i hi1 hi
        · exact less_le_trans hc (sorted_elt hs (by omega) (by omega))
      · rw [if_neg hc]
        obtain ⟨p, h1, h2, h3, h4, h5⟩ := ih (len - len / 2 - 1) (by omega) (first + len / 2 + 1) (by omega)
        refine ⟨p, h1, by omega, by omega, fun i hi1 hi2 => ?_, fun i hi1 hi2 => h5 i hi1 (by omega)⟩
        by_cases hi : first + len / 2 + 1 ≤ i
        · exact h4 i hi hi2
        · exact not_less_of_le (by simpa using hc) (sorted_elt hs (by omega) (by omega))

theorem stdLower_spec (v : List (Option α)) (hs : Sorted v) (x : Option α) (first len : Nat)
    (h : first + len ≤ v.length) :
    ∃ p, stdLower v x first len = .ok p ∧ SplitsBelow v x first (first + len) p := by
  induction len using Nat.strong_induction_on generalizing first with
  | _ len ih =>
    unfold stdLower
    by_cases h0 : len = 0
    · rw [if_pos h0]
      exact ⟨first, rfl, by omega, by omega, fun i h1 h2 => by omega, fun i h1 h2 => by omega⟩
    · rw [if_neg h0]
      simp only [rd_elt (show first + len / 2 < v.length by omega), Res.ok_bind]
      by_cases hc : FP.less (elt v (first + len / 2)) x = true
      · rw [if_pos hc]
        obtain ⟨p, h1, h2, h3, h4, h5⟩ := ih (len - len / 2 - 1) (by omega) (first + len / 2 + 1) (by omega)
        refine ⟨p, h1, by omega, by omega, fun i hi1 hi2 => ?_, fun i hi1 hi2 => h5 i hi1 (by omega)⟩
        by_cases hi : first + len / 2 + 1 ≤ i
        · exact h4 i hi hi2
        · exact le_less_trans (sorted_elt hs (by omega) (by omega)) hc
      · rw [if_neg hc]
        obtain ⟨p, h1, h2, h3, h4, h5⟩ := ih (len / 2) (by omega) first (by omega)
        refine ⟨p, h1, h2, by omega, h4, fun i hi1 hi2 => ?_⟩
        by_cases hi : i < first + len / 2
        · exact h5 i hi1 hi
        · by_contra hl
          have := le_less_trans (sorted_elt hs (show first + len / 2 ≤ i by omega) (by omega))
            (by simpa using hl)
          exact hc this

theorem stdEqual_spec (v : List (Option α)) (hs : Sorted v) (x : Option α) (first len : Nat)
    (h : first + len ≤ v.length) :
    ∃ p q, stdEqual v x first len = .ok (p, q) ∧ SplitsBelow v x first (first + len) p ∧
      SplitsAbove v x first (first + len) q := by
  induction len using Nat.strong_induction_on generalizing first with
  | _ len ih =>
    unfold stdEqual
    by_cases h0 : len = 0
    · rw [if_pos h0]
      exact ⟨first, first, rfl, ⟨by omega, by omega, fun i h1 h2 => by omega, fun i h1 h2 => by omega⟩,
        ⟨by omega, by omega, fun i h1 h2 => by omega, fun i h1 h2 => by omega⟩⟩
    · rw [if_neg h0]
      simp only [rd_elt (show first + len / 2 < v.length by omega), Res.ok_bind]
      by_cases hc : FP.less (elt v (first + len / 2)) x = true
      · rw [if_pos hc]
        obtain ⟨p, q, h1, ⟨a1, a2, a3, a4⟩, b1, b2, b3, b4⟩ :=
          ih (len - len / 2 - 1) (by omega) (first + len / 2 + 1) (by omega)
        refine ⟨p, q, h1, ⟨by omega, by omega, fun i hi1 hi2 => ?_, fun i hi1 hi2 => a4 i hi1 (by omega)⟩,
          by omega, by omega, fun i hi1 hi2 => ?_, fun i hi1 hi2 => b4 i hi1 (by omega)⟩
        · by_cases hi : first + len / 2 + 1 ≤ i
          · exact a3 i hi hi2
          · exact le_less_trans (sorted_elt hs (by omega) (by omega)) hc
        · by_cases hi : first + len / 2 + 1 ≤ i
          · exact b3 i hi hi2
          · have := le_less_trans (sorted_elt hs (show i ≤ first + len / 2 by omega) (by omega)) hc
            simpa [FP.le] using less_le this
      · rw [if_neg hc]
        by_cases hc' : FP.less x (elt v (first + len / 2)) = true
        · rw [if_pos hc']
          obtain ⟨p, q, h1, ⟨a1, a2, a3, a4⟩, b1, b2, b3, b4⟩ := ih (len / 2) (by omega) first (by omega)
          refine ⟨p, q, h1, ⟨a1, by omega, a3, fun i hi1 hi2 => ?_⟩, b1, by omega, b3, fun i hi1 hi2 => ?_⟩
          · by_cases hi : i < first + len / 2
            · exact a4 i hi1 hi
            · have := less_le_trans hc' (sorted_elt hs (show first + len / 2 ≤ i by omega) (by omega))
              simpa [FP.le] using less_le this
          · by_cases hi : i < first + len / 2
            · exact b4 i hi1 hi
            · exact less_le_trans hc' (sorted_elt hs (by omega) (by omega))
        · rw [if_neg hc']
          obtain ⟨p, hp, a1, a2, a3, a4⟩ := stdLower_spec v hs x first (len / 2) (by omega)
          obtain ⟨q, hq, b1, b2, b3, b4⟩ := stdUpper_spec v hs x (first + len / 2 + 1)
            (first + len - (first + len / 2 + 1)) (by omega)
          have hx : elt v (first + len / 2) = x := eq_of_not_less hc hc'
          refine ⟨p, q, by simp only [hp, hq, Res.ok_bind], ⟨a1, by omega, a3, fun i hi1 hi2 => ?_⟩,
            by omega, by omega, fun i hi1 hi2 => ?_, fun i hi1 hi2 => b4 i hi1 (by omega)⟩
          · by_cases hi : i < first + len / 2
            · exact a4 i hi1 hi
            · have := sorted_elt hs (show first + len / 2 ≤ i by omega) (by omega)
              rw [hx] at this
              simpa [FP.le] using this
          · by_cases hi : first + len / 2 + 1 ≤ i
            · exact b3 i hi hi2
            · have := sorted_elt hs (show i ≤ first + len / 2 by omega) (by omega)
              rw [hx] at this
              simpa [FP.le] using this

/-- Spec: position of the last value `≤ x`, or `npos`. -/
def IsLastLE (v : List (Option α)) (x : α) : Option Nat → Prop
  | none => ∀ a, some a ∈ v → x < a
  | some i => ∃ a, v[i]? = some (some a) ∧ a ≤ x ∧ ∀ (j : Nat) (b : α), i < j → v[j]? = some (some b) → x < b

/-- Spec: position of the first value `> x`, or `npos`. -/
def IsFirstGT (v : List (Option α)) (x : α) : Option Nat → Prop
  | none => ∀ a, some a ∈ v → a ≤ x
  | some i => ∃ a, v[i]? = some (some a) ∧ x < a ∧ ∀ (j : Nat) (b : α), j < i → v[j]? = some (some b) → b ≤ x

theorem elt_some {v : List (Option α)} {i : Nat} {a : α} (h : v[i]? = some (some a)) :
    elt v i = some a ∧ i < v.length := by
  obtain ⟨h1, h2⟩ := List.getElem?_eq_some_iff.1 h
  exact ⟨by simp [elt, h], h1⟩

theorem some_elt {v : List (Option α)} (hn : ∀ x ∈ v, x ≠ none) {i : Nat} (h : i < v.length) :
    ∃ a, v[i]? = some (some a) ∧ elt v i = some a := by
  have hm : elt v i ∈ v := by simp [elt, h]
  obtain ⟨a, ha⟩ := Option.ne_none_iff_exists'.1 (hn _ hm)
  refine ⟨a, ?_, ha⟩
  have : v[i]? = some (elt v i) := by simp [elt, h]
  rw [this, ha]

theorem lastLE_of_split {v : List (Option α)} (hn : ∀ x ∈ v, x ≠ none) {x : α} {p : Nat}
    (h : SplitsAbove v (some x) 0 v.length p) :
    IsLastLE v x (if p = 0 then none else some (p - 1)) := by
  obtain ⟨-, h2, h3, h4⟩ := h
  by_cases hp : p = 0
  · rw [if_pos hp]
    intro a ha
    obtain ⟨j, hj, he⟩ := List.getElem_of_mem ha
    have hjs : v[j]? = some (some a) := by simp [hj, he]
    have := h4 j (by omega) hj
    rw [(elt_some hjs).1] at this
    simpa using this
  · rw [if_neg hp]
    obtain ⟨a, ha, hae⟩ := some_elt hn (show p - 1 < v.length by omega)
    refine ⟨a, ha, ?_, fun j b hj hb => ?_⟩
    · have := h3 (p - 1) (by omega) (by omega)
      rw [hae] at this
      simpa using this
    · have := h4 j (by omega) (elt_some hb).2
      rw [(elt_some hb).1] at this
      simpa using this

theorem firstGT_of_split {v : List (Option α)} (hn : ∀ x ∈ v, x ≠ none) {x : α} {p : Nat}
    (h : SplitsAbove v (some x) 0 v.length p) :
    IsFirstGT v x (if p = v.length then none else some p) := by
  obtain ⟨-, h2, h3, h4⟩ := h
  by_cases hp : p = v.length
  · rw [if_pos hp]
    intro a ha
    obtain ⟨j, hj, he⟩ := List.getElem_of_mem ha
    have hjs : v[j]? = some (some a) := by simp [hj, he]
    have := h3 j (by omega) (by omega)
    rw [(elt_some hjs).1] at this
    simpa using this
  · rw [if_neg hp]
    obtain ⟨a, ha, hae⟩ := some_elt hn (show p < v.length by omega)
    refine ⟨a, ha, ?_, fun j b hj hb => ?_⟩
    · have := h4 p (by omega) (by omega)
      rw [hae] at this
      simpa using this
    · have := h3 j (by omega) hj
      rw [(elt_some hb).1] at this
      simpa using this

theorem isLastLE_empty (x : α) : IsLastLE ([] : List (Option α)) x none := by simp [IsLastLE]
theorem isFirstGT_empty (x : α) : IsFirstGT ([] : List (Option α)) x none := by simp [IsFirstGT]

/-- C21: `lower_bound` returns the last position whose value is `≤ x`, or `npos`. -/
theorem C21_lower_bound (v : List (Option α)) (hn : ∀ x ∈ v, x ≠ none) (hs : Sorted v) (x : α) :
    ∃ r, lowerBound v (some x) = .ok r ∧ IsLastLE v x r := by
  unfold lowerBound
  by_cases h0 : v = []
  · subst h0; exact ⟨none, by simp, isLastLE_empty x⟩
  · rw [if_neg h0]
    obtain ⟨p, h1, h2⟩ := stdUpper_spec v hs (some x) 0 v.length (by omega)
    rw [Nat.zero_add] at h2
    exact ⟨_, by rw [h1, Res.ok_bind], lastLE_of_split hn h2⟩

/-- C21: `upper_bound` returns the first position whose value is `> x`, or `npos`. -/
theorem C21_upper_bound (v : List (Option α)) (hn : ∀ x ∈ v, x ≠ none) (hs : Sorted v) (x : α) :
    ∃ r, upperBound v (some x) = .ok r ∧ IsFirstGT v x r := by
  unfold upperBound
  by_cases h0 : v = []
  · subst h0; exact ⟨none, by simp, isFirstGT_empty x⟩
  · rw [if_neg h0]
    obtain ⟨p, h1, h2⟩ := stdUpper_spec v hs (some x) 0 v.length (by omega)
    rw [Nat.zero_add] at h2
    exact ⟨_, by rw [h1, Res.ok_bind], firstGT_of_split hn h2⟩

/-- C21: `bounds(v, x)` is the pair of `lower_bound` and `upper_bound`; adjacent if both exist. -/
theorem C21_bounds (v : List (Option α)) (hn : ∀ x ∈ v, x ≠ none) (hs : Sorted v) (x : α) :
    ∃ l u, bounds v (some x) = .ok (l, u) ∧ IsLastLE v x l ∧ IsFirstGT v x u ∧
      (∀ i j, l = some i → u = some j → j = i + 1) := by
  unfold bounds
  by_cases h0 : v = []
  · subst h0; exact ⟨none, none, by simp, isLastLE_empty x, isFirstGT_empty x, by simp⟩
  · rw [if_neg h0]
    have hpos := List.length_pos_iff.2 h0
    obtain ⟨p, h1, h2⟩ := stdUpper_spec v hs (some x) 0 v.length (by omega)
    rw [Nat.zero_add] at h2
    have hl := lastLE_of_split hn h2
    have hu := firstGT_of_split hn h2
    rw [h1, Res.ok_bind]
    by_cases hp : p = v.length
    · rw [if_neg (by omega)] at hl
      rw [if_pos hp] at hu ⊢
      refine ⟨_, _, rfl, by rwa [hp] at hl, hu, by simp⟩
    · rw [if_neg hp] at hu ⊢
      by_cases hp0 : p = 0
      · rw [if_pos hp0] at hl ⊢
        exact ⟨_, _, rfl, hl, by rwa [hp0] at hu, by simp⟩
      · rw [if_neg hp0] at hl ⊢
        exact ⟨_, _, rfl, hl, hu, by rintro i j ⟨⟩ ⟨⟩; omega⟩

/-- C21: `bounds(v, x1, x2)` with `x1 ≤ x2`. -/
theorem C21_bounds2 (v : List (Option α)) (hn : ∀ x ∈ v, x ≠ none) (hs : Sorted v) (x1 x2 : α)
    (hx : x1 ≤ x2) :
    ∃ l u, bounds2 v (some x1) (some x2) = .ok (l, u) ∧ IsLastLE v x1 l ∧ IsFirstGT v x2 u := by
  unfold bounds2
  by_cases h0 : v = []
  · subst h0; exact ⟨none, none, by simp, isLastLE_empty x1, isFirstGT_empty x2⟩
  · rw [if_neg h0]
    obtain ⟨p, h1, h2⟩ := stdUpper_spec v hs (some x1) 0 v.length (by omega)
    rw [Nat.zero_add] at h2
    obtain ⟨q, h3, h4⟩ := stdUpper_spec v hs (some x2) p (v.length - p) (by have := h2.2.1; omega)
    have hpl := h2.2.1
    rw [show p + (v.length - p) = v.length by omega] at h4
    have h5 : SplitsAbove v (some x2) 0 v.length q := by
      refine ⟨by omega, h4.2.1, fun i hi1 hi2 => ?_, h4.2.2.2⟩
      by_cases hi : p ≤ i
      · exact h4.2.2.1 i hi hi2
      · have := h2.2.2.1 i (by omega) (by omega)
        obtain ⟨a, -, ha⟩ := some_elt hn (show i < v.length by omega)
        rw [ha] at this ⊢
        simp at this ⊢
        exact le_trans this hx
    simp only [h1, h3, Res.ok_bind]
    exact ⟨_, _, rfl, lastLE_of_split hn h2, firstGT_of_split hn h5⟩

example : ∃ l u, bounds2 [some 1, some 4, some 4, some 7] (some 0) (some (4 : Nat)) = .ok (l, u) ∧
    l = none ∧ u = some 3 := by
  refine ⟨none, some 3, ?_, rfl, rfl⟩
  unfold bounds2
  repeat (unfold stdUpper; simp [Res.rd, FP.less])

/-- C21: `equal_range` returns the half-open range `[r0, r1)` of the positions holding `x`; both
`npos` only when all values are below `x`. When `x` is absent but a larger value exists the range
is empty, `r0 = r1`. -/
theorem C21_equal_range (v : List (Option α)) (hn : ∀ x ∈ v, x ≠ none) (hs : Sorted v) (x : α) :
    (∃ p q, equalRange v (some x) = .ok (some p, some q) ∧ p ≤ q ∧ p < v.length ∧ q ≤ v.length ∧
      (∀ i, v[i]? = some (some x) ↔ p ≤ i ∧ i < q)) ∨
    (equalRange v (some x) = .ok (none, none) ∧ ∀ a, some a ∈ v → a < x) := by
  obtain ⟨p, q, h1, ⟨a1, a2, a3, a4⟩, b1, b2, b3, b4⟩ := stdEqual_spec v hs (some x) 0 v.length (by omega)
  simp only [Nat.zero_add] at a2 a4 b2 b4
  have hpq : p ≤ q := by
    by_contra hc
    have e1 := a3 q (by omega) (by omega)
    have e2 := b4 q (by omega) (by omega)
    have := less_le_trans e1 (less_le e2)
    rw [less_irrefl] at this; simp at this
  by_cases hp : p = v.length
  · right
    refine ⟨by simp [equalRange, h1, hp], fun a ha => ?_⟩
    obtain ⟨j, hj, he⟩ := List.getElem_of_mem ha
    have := a3 j (by omega) (by omega)
    rw [(elt_some (show v[j]? = some (some a) by simp [hj, he])).1] at this
    simpa using this
  · left
    refine ⟨p, q, by simp [equalRange, h1, hp], hpq, by omega, b2, fun i => ⟨fun hi => ?_, ?_⟩⟩
    · obtain ⟨he, hil⟩ := elt_some hi
      constructor
      · by_contra hc
        have := a3 i (by omega) (by omega)
        rw [he, less_irrefl] at this; simp at this
      · by_contra hc
        have := b4 i (by omega) hil
        rw [he, less_irrefl] at this; simp at this
    · rintro ⟨hi1, hi2⟩
      have e1 := a4 i hi1 (by omega)
      have e2 := b3 i (by omega) hi2
      have := eq_of_not_less (a := elt v i) (b := some x) (by simp [e1]) (by simp [e2])
      have hil : i < v.length := by omega
      have he : v[i]? = some (elt v i) := by simp [elt, hil]
      rw [he, this]

/-- Finding: documented as "the first and last values equal to x"; the second position is one past
the last, and can be the size of the vector. -/
theorem C21_equal_range_refuted :
    equalRange [some 2, some (2 : Nat)] (some 2) = .ok (some 0, some 2) := by
  unfold equalRange stdEqual
  simp [Res.rd, FP.less]
  unfold stdUpper stdLower
  simp [Res.rd, FP.less]
  unfold stdLower
  simp

/-- Finding: for an absent value a position is still returned, unless it is above all others. -/
theorem C21_equal_range_absent_refuted :
    equalRange [some 1, some (3 : Nat)] (some 2) = .ok (some 1, some 1) := by
  unfold equalRange
  repeat (unfold stdEqual; simp [Res.rd, FP.less])

end Verif.Find
