import Verif.Find.Sort
import Mathlib.Data.List.Sort
import Mathlib.Data.List.Range
import Mathlib.Data.List.Perm.Subperm
import Mathlib.Data.List.Nodup
/-!
# Properties C14, C15
-/
namespace Verif.Find
open Verif Verif.Core
variable {α : Type} [LinearOrder α]

/-! ## C14 -/

theorem sort_perm (v : List (Option α)) : (sort v).Perm (List.range v.length) :=
  List.mergeSort_perm _ _

theorem sort_nodup (v : List (Option α)) : (sort v).Nodup :=
  (sort_perm v).nodup_iff.2 List.nodup_range

theorem sort_lt (v : List (Option α)) (i : Nat) : i ∈ sort v ↔ i < v.length := by
  rw [(sort_perm v).mem_iff]; simp

theorem sort_le (v : List (Option α)) :
    (sort v).Pairwise fun i j => FP.le (elt v i) (elt v j) = true :=
  List.pairwise_mergeSort (le := fun i j => FP.le (elt v i) (elt v j))
    (fun _ _ _ => FP.le_trans _ _ _) (fun _ _ => FP.le_total _ _) _

theorem range_pair_sublist {n i j : Nat} (h : i < j) (hj : j < n) : [i, j].Sublist (List.range n) := by
  have : ([i, j] : List Nat).Pairwise (· < ·) := by simp [h]
  have hsp : [i, j].Subperm (List.range n) := by
    apply List.subperm_of_subset
    · simp; omega
    · intro x hx; simp at hx ⊢; omega
  exact List.sublist_of_subperm_of_pairwise hsp this List.pairwise_lt_range

/-- Position of `i` before `j` in a duplicate-free list excludes the opposite. -/
theorem not_both_sublist {l : List Nat} (hn : l.Nodup) {i j : Nat} (hij : i ≠ j)
    (h1 : [i, j].Sublist l) (h2 : [j, i].Sublist l) : False := by
  induction l with
  | nil => simp at h1
  | cons a l ih =>
    rw [List.nodup_cons] at hn
    cases h1 with
    | cons _ h1 =>
      cases h2 with
      | cons _ h2 => exact ih hn.2 h1 h2
      | cons_cons _ h2 =>
        exact hn.1 (h1.subset (by simp))
    | cons_cons _ h1 =>
      cases h2 with
      | cons _ h2 => exact hn.1 (h2.subset (by simp))
      | cons_cons _ h2 => exact hij rfl

theorem pairwise_sublist_pairs {l : List Nat} : l.Pairwise fun i j => [i, j].Sublist l := by
  induction l with
  | nil => simp
  | cons a l ih =>
    rw [List.pairwise_cons]
    refine ⟨fun b hb => List.Sublist.cons_cons _ (List.singleton_sublist.2 hb),
      ih.imp fun h => h.cons _⟩

/-- C14: `sort(v)` is a permutation of the indices, values taken in that order never decrease (NaN
last), and among equivalent values the smaller index comes first. -/
theorem C14_sort (v : List (Option α)) :
    (sort v).Perm (List.range v.length) ∧
    (sort v).Pairwise (fun i j => FP.less (elt v i) (elt v j) = true ∨
      (FP.less (elt v j) (elt v i) = false ∧ i < j)) := by
  refine ⟨sort_perm v, ?_⟩
  have h1 := (sort_le v).and (pairwise_sublist_pairs (l := sort v))
  refine List.Pairwise.imp_of_mem (fun {i j} hi hj h => ?_) h1
  obtain ⟨hle, hsub⟩ := h
  by_cases hl : FP.less (elt v i) (elt v j) = true
  · exact .inl hl
  · refine .inr ⟨by simpa [FP.le] using hle, ?_⟩
    by_contra hij
    have hne : i ≠ j := by
      rintro rfl
      have := (hsub.nodup (sort_nodup v))
      simp at this
    have hji : j < i := by omega
    have hr := range_pair_sublist hji ((sort_lt v i).1 hi)
    have := List.pair_sublist_mergeSort (le := fun i j => FP.le (elt v i) (elt v j))
      (fun _ _ _ => FP.le_trans _ _ _) (fun _ _ => FP.le_total _ _)
      (by simpa [FP.le] using hl) hr
    exact not_both_sublist (sort_nodup v) hne hsub this

example : FP.less (some 3 : Option Nat) none = true ∧ FP.less none (some (3 : Nat)) = false := by decide

/-- C14 determines the result: there is only one such permutation. -/
theorem C14_sort_unique (v : List (Option α)) (r : List Nat) (hp : r.Perm (List.range v.length))
    (hs : r.Pairwise (fun i j => FP.less (elt v i) (elt v j) = true ∨
      (FP.less (elt v j) (elt v i) = false ∧ i < j))) : r = sort v := by
  have h := C14_sort v
  refine (hp.trans h.1.symm).eq_of_pairwise ?_ hs h.2
  intro a b _ _ h1 h2
  rcases h1 with h1 | ⟨h1, h1'⟩ <;> rcases h2 with h2 | ⟨h2, h2'⟩
  · exfalso; rw [FP.less_iff] at h1 h2; exact h1.2 h2.1
  · rw [h1] at h2; simp at h2
  · rw [h2] at h1; simp at h1
  · omega

example : sort [some 5, none, some 2, some (5 : Nat), some 2] = [2, 4, 0, 3, 1] := by
  symm; apply C14_sort_unique
  · decide
  · decide

/-- C14: `inplace_sort` keeps the multiset and orders it. -/
theorem C14_inplace_sort (v : List (Option α)) :
    (inplaceSort v).Perm v ∧ (inplaceSort v).Pairwise fun a b => FP.less b a = false := by
  refine ⟨List.mergeSort_perm _ _, ?_⟩
  have := List.pairwise_mergeSort (le := FP.le (α := α)) FP.le_trans FP.le_total v
  exact this.imp fun h => by simpa [FP.le] using h

/-- C14: `sort` and `inplace_sort` agree. -/
theorem C14_agree (v : List (Option α)) : (sort v).map (elt v) = inplaceSort v := by
  unfold sort inplaceSort
  rw [List.map_mergeSort (s := FP.le) (by intros; rfl)]
  congr 1
  apply List.ext_getElem?
  intro i
  by_cases h : i < v.length
  · simp [elt, h]
  · simp [h]

theorem isSortedLoop_ok (v : List (Option α)) (n k : Nat) (hk : k + n = v.length) (h1 : 1 ≤ k) :
    isSortedLoop v ((List.range n).map fun (j : Nat) => (k : Int) + (j : Int)) =
      .ok (decide ((v.drop (k - 1)).IsChain fun a b => FP.less a b = true)) := by
  induction n generalizing k with
  | zero =>
    have : (v.drop (k - 1)).length = 1 := by simp; omega
    obtain ⟨x, hx⟩ := List.length_eq_one_iff.1 this
    simp [isSortedLoop, hx]
  | succ n ih =>
    have hr : (List.range (n + 1)).map (fun (j : Nat) => (k : Int) + (j : Int)) =
        (k : Int) :: (List.range n).map (fun (j : Nat) => ((k + 1 : Nat) : Int) + (j : Int)) := by
      rw [List.range_succ_eq_map]
      simp only [List.map_cons, List.map_map]
      congr 1
      · simp
        intros; omega
    have e1 : ((k : Int) - 1).toNat = k - 1 := by omega
    have hk1 : k - 1 < v.length := by omega
    have hk2 : k < v.length := by omega
    rw [hr, isSortedLoop, e1, Int.toNat_natCast, Res.rd_lt hk1, Res.rd_lt hk2, Res.ok_bind, Res.ok_bind]
    have hd : v.drop (k - 1) = v[k - 1] :: v[k] :: v.drop (k + 1) := by
      rw [List.drop_eq_getElem_cons hk1, show k - 1 + 1 = k by omega, List.drop_eq_getElem_cons hk2]
    have hd2 : v.drop k = v[k] :: v.drop (k + 1) := List.drop_eq_getElem_cons hk2
    rw [hd]
    by_cases hl : FP.less v[k - 1] v[k] = true
    · rw [if_neg (by simp [hl]), ih (k + 1) (by omega) (by omega), Nat.add_sub_cancel, hd2]
      congr 1
      rw [decide_eq_decide, List.isChain_cons_cons]; simp only [hl, true_and]
    · rw [if_pos (by simpa using hl)]
      congr 1
      rw [eq_comm, decide_eq_false_iff_not, List.isChain_cons_cons]; exact fun h => hl h.1

/-- C14: what `is_sorted` decides on a non-empty vector is that neighbours are *strictly*
increasing. -/
theorem C14_is_sorted_partial (v : List (Option α)) (h : v ≠ []) :
    isSorted v = .ok (decide (v.IsChain fun a b => FP.less a b = true)) := by
  have hl : 0 < v.length := List.length_pos_iff.2 h
  have := isSortedLoop_ok v (v.length - 1) 1 (by omega) (by omega)
  unfold isSorted
  rw [range2_asc 1 v.length (by omega), show ((v.length : Int) - 1).toNat = v.length - 1 by omega]
  simpa using this

example : isSorted [some 1, some 3, none] = (.ok true : Res Bool) := by
  rw [C14_is_sorted_partial (α := Nat) _ (by simp)]; decide

/-- Finding: the sorted vector `{1,1}` is reported as not sorted. -/
theorem C14_is_sorted_refuted :
    inplaceSort [some 1, some (1 : Nat)] = [some 1, some 1] ∧
    isSorted [some 1, some (1 : Nat)] = .ok false := by
  refine ⟨?_, ?_⟩
  · simp [inplaceSort, List.mergeSort]
  · rw [C14_is_sorted_partial _ (by simp)]; decide

/-- Finding: on an empty vector `is_sorted` reads elements that do not exist (`range(1, 0)` counts
down from 1). -/
theorem C14_is_sorted_empty_refuted : isSorted ([] : List (Option Nat)) = .ub := by decide

/-! ## C15 -/

/-- what the loop keeps: a sublist of the indices, values different from each previous one -/
theorem uniqueLoop_ok (v : List (Option α)) (hv : ∀ x ∈ v, x ≠ none) (sid : List Nat) (last : α)
    (hi : ∀ i ∈ sid, i < v.length) (hs : sid.Pairwise fun i j => FP.le (elt v i) (elt v j) = true)
    (hl : ∀ i ∈ sid, FP.le (some last) (elt v i) = true) :
    ∃ r, uniqueLoop v (some last) sid = .ok r ∧ r.Sublist sid ∧
      (r.Pairwise fun i j => FP.less (elt v i) (elt v j) = true) ∧
      (∀ i ∈ r, FP.less (some last) (elt v i) = true) ∧
      ∀ i ∈ sid, elt v i = some last ∨ ∃ j ∈ r, elt v j = elt v i := by
  induction sid generalizing last with
  | nil => exact ⟨[], rfl, by simp, by simp, by simp, by simp⟩
  | cons i is ih =>
    rw [List.pairwise_cons] at hs
    have hin := hi i (by simp)
    have hrd : Res.rd v i = .ok (elt v i) := by
      rw [Res.rd_eq_ok]; simp [elt, hin]
    obtain ⟨x, hx⟩ : ∃ x, elt v i = some x := by
      have hm : elt v i ∈ v := by simp [elt, hin]
      exact Option.ne_none_iff_exists'.1 (hv _ hm)
    have hlx : last ≤ x := by simpa [hx] using hl i (by simp)
    simp only [uniqueLoop, hrd, Res.ok_bind, hx]
    by_cases hc : x = last
    · subst hc
      obtain ⟨r, h1, h2, h3, h4, h5⟩ := ih x (fun j hj => hi j (by simp [hj])) hs.2
        (fun j hj => hl j (by simp [hj]))
      refine ⟨r, by simp [FP.ne, FP.eq, h1], h2.cons _, h3, h4, ?_⟩
      intro j hj
      rcases List.mem_cons.1 hj with rfl | hj
      · exact .inl hx
      · exact h5 j hj
    · obtain ⟨r, h1, h2, h3, h4, h5⟩ := ih x (fun j hj => hi j (by simp [hj])) hs.2
        (fun j hj => by rw [← hx]; exact hs.1 j hj)
      have hlt : last < x := lt_of_le_of_ne hlx (Ne.symm hc)
      refine ⟨i :: r, by simp [FP.ne, FP.eq, hc, h1], h2.cons_cons _, ?_, ?_, ?_⟩
      · rw [List.pairwise_cons]; exact ⟨fun j hj => by rw [hx]; exact h4 j hj, h3⟩
      · intro j hj
        rcases List.mem_cons.1 hj with rfl | hj
        · rw [hx]; simpa using hlt
        · have := h4 j hj
          cases hj' : elt v j with
          | none => rfl
          | some y => rw [hj'] at this; simp at this ⊢; exact lt_trans hlt this
      · intro j hj
        rcases List.mem_cons.1 hj with rfl | hj
        · exact .inr ⟨j, by simp, rfl⟩
        · rcases h5 j hj with h | ⟨k, hk, hke⟩
          · exact .inr ⟨i, by simp, by rw [h, hx]⟩
          · exact .inr ⟨k, by simp [hk], hke⟩

/-- Spec of C15: strictly increasing values, and every value of `v` is represented. Together: one
index for each distinct value. -/
def Representatives (v : List (Option α)) (r : List Nat) : Prop :=
  (∀ i ∈ r, i < v.length) ∧
  (r.Pairwise fun i j => FP.less (elt v i) (elt v j) = true) ∧
  ∀ x ∈ v, ∃ i ∈ r, elt v i = x

theorem uniqueIdsFrom_ok (v : List (Option α)) (hv : ∀ x ∈ v, x ≠ none) (sid : List Nat)
    (hp : sid.Perm (List.range v.length))
    (hs : sid.Pairwise fun i j => FP.le (elt v i) (elt v j) = true) :
    ∃ r, uniqueIdsFrom v sid = .ok r ∧ Representatives v r ∧ r.Sublist sid := by
  have hm : ∀ i, i ∈ sid ↔ i < v.length := fun i => by rw [hp.mem_iff]; simp
  cases sid with
  | nil =>
    have : v = [] := by
      rw [← List.length_eq_zero_iff]
      by_contra h
      exact absurd ((hm 0).2 (by omega)) (by simp)
    subst this
    exact ⟨[], rfl, ⟨by simp, by simp, by simp⟩, by simp⟩
  | cons i is =>
    have hin := (hm i).1 (by simp)
    rw [List.pairwise_cons] at hs
    obtain ⟨x, hx⟩ : ∃ x, elt v i = some x := by
      have : elt v i ∈ v := by simp [elt, hin]
      exact Option.ne_none_iff_exists'.1 (hv _ this)
    have hrd : Res.rd v i = .ok (some x) := by
      rw [Res.rd_eq_ok, ← hx]; simp [elt, hin]
    obtain ⟨r, h1, h2, h3, h4, h5⟩ := uniqueLoop_ok v hv is x (fun j hj => (hm j).1 (by simp [hj])) hs.2
      (fun j hj => by rw [← hx]; exact hs.1 j hj)
    refine ⟨i :: r, by simp only [uniqueIdsFrom, hrd, Res.ok_bind, h1], ⟨?_, ?_, ?_⟩, h2.cons_cons _⟩
    · intro j hj
      rcases List.mem_cons.1 hj with rfl | hj
      · exact hin
      · exact (hm j).1 (by simp [h2.subset hj])
    · rw [List.pairwise_cons]; exact ⟨fun j hj => by rw [hx]; exact h4 j hj, h3⟩
    · intro y hy
      obtain ⟨k, hk, rfl⟩ := List.getElem_of_mem hy
      have hke : elt v k = v[k] := by simp [elt, hk]
      rw [← hke]
      rcases List.mem_cons.1 ((hm k).2 hk) with rfl | hk'
      · exact ⟨k, by simp, rfl⟩
      · rcases h5 k hk' with h | ⟨j, hj, hje⟩
        · exact ⟨i, by simp, by rw [h, hx]⟩
        · exact ⟨j, by simp [hj], hje⟩

/-- C15: `unique_ids` returns one index for each distinct value, in increasing order of value, for
vectors without NaN. -/
theorem C15_unique_ids_partial (v : List (Option α)) (hv : ∀ x ∈ v, x ≠ none) :
    ∃ r, uniqueIds v = .ok r ∧ Representatives v r := by
  obtain ⟨r, h1, h2, -⟩ := uniqueIdsFrom_ok v hv (sort v) (sort_perm v) (sort_le v)
  exact ⟨r, h1, h2⟩

/-- C15: `unique_ids_sorted` on sorted input. -/
theorem C15_unique_ids_sorted_partial (v : List (Option α)) (hv : ∀ x ∈ v, x ≠ none)
    (hs : v.Pairwise fun a b => FP.le a b = true) :
    ∃ r, uniqueIdsSorted v = .ok r ∧ Representatives v r ∧ r.Pairwise (· < ·) := by
  obtain ⟨r, h1, h2, h3⟩ := uniqueIdsFrom_ok v hv (List.range v.length) (List.Perm.refl _) (by
    rw [List.pairwise_iff_getElem]
    intro i j hi hj hij
    simp only [List.length_range] at hi hj
    simp only [List.getElem_range, elt]
    simp only [List.getD_eq_getElem?_getD, List.getElem?_eq_getElem hi, List.getElem?_eq_getElem hj,
      Option.getD_some]
    exact List.pairwise_iff_getElem.1 hs i j hi hj hij)
  exact ⟨r, h1, h2, List.Pairwise.sublist h3 List.pairwise_lt_range⟩

example : Representatives [some 2, some 5, some (2 : Nat)] [0, 1] := by
  unfold Representatives; decide

/-- C15: `unique_values` lists each value once, increasing. -/
theorem C15_unique_values_partial (v : List (Option α)) (hv : ∀ x ∈ v, x ≠ none) :
    ∃ w, uniqueValues v = .ok w ∧ (w.Pairwise fun a b => FP.less a b = true) ∧ ∀ x, x ∈ w ↔ x ∈ v := by
  obtain ⟨r, h1, h2, h3, h4⟩ := C15_unique_ids_partial v hv
  refine ⟨r.map (elt v), ?_, ?_, ?_⟩
  · simp only [uniqueValues, h1, Res.ok_bind]
    apply Res.mapM_ok
    intro i hi
    rw [Res.rd_eq_ok]; simp [elt, h2 i hi]
  · rw [List.pairwise_map]; exact h3
  · intro x
    rw [List.mem_map]
    constructor
    · rintro ⟨i, hi, rfl⟩; simp [elt, h2 i hi]
    · intro hx; obtain ⟨i, hi, he⟩ := h4 x hx; exact ⟨i, hi, he⟩

/-- Finding: NaN values are all different from each other, each one is reported. -/
theorem C15_nan_refuted : uniqueIds [none, some (1 : Nat), none] = .ok [1, 0, 2] := by
  have : sort [none, some (1 : Nat), none] = [1, 0, 2] := by
    symm; apply C14_sort_unique <;> decide
  simp only [uniqueIds, this]; decide

end Verif.Find
