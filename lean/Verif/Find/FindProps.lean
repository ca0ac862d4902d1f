import Verif.Find.Find
import Verif.Find.SortProps
/-!
# Properties C16, C17, C18, C19
-/
namespace Verif.Find
open Verif Verif.Core
variable {α : Type} [LinearOrder α]

/-! ## C16, C17 -/

theorem mem_whereFrom (k : Nat) (v : List Bool) (i : Nat) :
    i ∈ whereFrom k v ↔ k ≤ i ∧ v[i - k]? = some true := by
  induction v generalizing k with
  | nil => simp [whereFrom]
  | cons b v ih =>
    have key : i ∈ whereFrom (k + 1) v ↔ k < i ∧ (b :: v)[i - k]? = some true := by
      rw [ih]
      constructor
      · rintro ⟨h1, h2⟩
        refine ⟨by omega, ?_⟩
        rw [show i - k = i - (k + 1) + 1 by omega]; simpa using h2
      · rintro ⟨h1, h2⟩
        refine ⟨by omega, ?_⟩
        rw [show i - k = i - (k + 1) + 1 by omega] at h2; simpa using h2
    unfold whereFrom
    by_cases hb : b = true
    · rw [if_pos hb, List.mem_cons, key]
      constructor
      · rintro (rfl | ⟨h1, h2⟩)
        · simp [hb]
        · exact ⟨by omega, h2⟩
      · rintro ⟨h1, h2⟩
        by_cases h : i = k
        · exact .inl h
        · exact .inr ⟨by omega, h2⟩
    · rw [if_neg hb, key]
      constructor
      · rintro ⟨h1, h2⟩; exact ⟨by omega, h2⟩
      · rintro ⟨h1, h2⟩
        refine ⟨?_, h2⟩
        by_contra h
        have : i = k := by omega
        subst this
        simp [hb] at h2

theorem whereFrom_lt (k : Nat) (v : List Bool) : (whereFrom k v).Pairwise (· < ·) := by
  induction v generalizing k with
  | nil => simp [whereFrom]
  | cons b v ih =>
    unfold whereFrom
    split
    · rw [List.pairwise_cons]
      refine ⟨fun j hj => ?_, ih _⟩
      have := ((mem_whereFrom _ _ _).1 hj).1
      omega
    · exact ih _

/-- C16: `where` lists exactly the true positions, in increasing order. -/
theorem C16_where (v : List Bool) :
    (where_ v).Pairwise (· < ·) ∧ ∀ i, i ∈ where_ v ↔ v[i]? = some true := by
  refine ⟨whereFrom_lt 0 v, fun i => ?_⟩
  unfold where_; rw [mem_whereFrom]; simp

theorem markLoop_ok (sel : List Bool) (ids : List Nat) (h : ∀ i ∈ ids, i < sel.length) :
    ∃ s, markLoop sel ids = .ok s ∧ s.length = sel.length ∧
      ∀ i, s[i]? = some true ↔ sel[i]? = some true ∨ (i ∈ ids) := by
  induction ids generalizing sel with
  | nil => exact ⟨sel, rfl, rfl, by simp⟩
  | cons a is ih =>
    have ha := h a (by simp)
    obtain ⟨s, h1, h2, h3⟩ := ih (sel.set a true) (fun i hi => by simpa using h i (by simp [hi]))
    refine ⟨s, by simp [markLoop, ha, h1], by simpa using h2, fun i => ?_⟩
    rw [h3, List.mem_cons, List.getElem?_set]
    by_cases hia : a = i
    · subst hia; simp [ha]
    · simp [hia, Ne.symm hia, eq_comm]

theorem markLoop_abort (sel : List Bool) (ids : List Nat) (h : ∃ i ∈ ids, sel.length ≤ i) :
    markLoop sel ids = .abort := by
  induction ids generalizing sel with
  | nil => simp at h
  | cons a is ih =>
    unfold markLoop
    by_cases ha : a < sel.length
    · rw [Res.check_pos ha]
      apply ih
      obtain ⟨i, hi, hl⟩ := h
      rcases List.mem_cons.1 hi with rfl | hi
      · omega
      · exact ⟨i, hi, by simpa using hl⟩
    · rw [Res.check_neg ha]; rfl

/-- C16: `complement` lists in increasing order exactly the positions not in `ids`, when `ids` has
no repetition and stays in range. -/
theorem C16_complement_partial (n : Nat) (ids : List Nat) (hn : ids.Nodup) (h : ∀ i ∈ ids, i < n) :
    ∃ r, complement n ids = .ok r ∧ r.Pairwise (· < ·) ∧ ∀ i, i ∈ r ↔ i < n ∧ i ∉ ids := by
  have hsub : ids ⊆ List.range n := fun i hi => by simpa using h i hi
  have hsp := List.subperm_of_subset hn hsub
  have hlen := hsp.length_le
  simp only [List.length_range] at hlen
  unfold complement
  by_cases he : ids.length = n
  · rw [if_pos he]
    refine ⟨[], rfl, by simp, fun i => ?_⟩
    have hp := hsp.perm_of_length_le (by simp [he])
    simp only [List.not_mem_nil, false_iff, not_and, not_not]
    intro hi
    exact hp.mem_iff.2 (by simpa using hi)
  · rw [if_neg he, Res.check_pos (by omega)]
    obtain ⟨s, h1, h2, h3⟩ := markLoop_ok (List.replicate n false) ids (by simpa using h)
    refine ⟨whereFrom 0 (s.map (!·)), by simp [h1], whereFrom_lt _ _, fun i => ?_⟩
    rw [mem_whereFrom]
    have h3' := h3 i
    simp only [List.length_replicate] at h2
    have hf : ¬ (List.replicate n false)[i]? = some true := by
      simp [List.getElem?_replicate]
    simp only [hf, false_or] at h3'
    rw [← h3']
    simp only [Nat.zero_le, Nat.sub_zero, true_and, List.getElem?_map]
    by_cases hi : i < n
    · have : i < s.length := by omega
      simp [hi, this]
    · have : s.length ≤ i := by omega
      simp [hi, this]

example : complement 5 [4, 1] = .ok [0, 2, 3] := by decide

/-- C16: also with repetitions, as long as the list is shorter than the vector. -/
theorem C16_complement_short_partial (n : Nat) (ids : List Nat) (hl : ids.length < n)
    (h : ∀ i ∈ ids, i < n) :
    ∃ r, complement n ids = .ok r ∧ r.Pairwise (· < ·) ∧ ∀ i, i ∈ r ↔ i < n ∧ i ∉ ids := by
  unfold complement
  rw [if_neg (by omega), Res.check_pos (by omega)]
  obtain ⟨s, h1, h2, h3⟩ := markLoop_ok (List.replicate n false) ids (by simpa using h)
  refine ⟨whereFrom 0 (s.map (!·)), by simp [h1], whereFrom_lt _ _, fun i => ?_⟩
  rw [mem_whereFrom]
  have h3' := h3 i
  simp only [List.length_replicate] at h2
  have hf : ¬ (List.replicate n false)[i]? = some true := by
    simp [List.getElem?_replicate]
  simp only [hf, false_or] at h3'
  rw [← h3']
  simp only [Nat.zero_le, Nat.sub_zero, true_and, List.getElem?_map]
  by_cases hi : i < n
  · have : i < s.length := by omega
    simp [hi, this]
  · have : s.length ≤ i := by omega
    simp [hi, this]

example : complement 5 [4, 1, 4] = .ok [0, 2, 3] := by decide

/-- C16: an index outside the vector is reported (except when as many indices as elements are
given). -/
theorem C16_complement_abort (n : Nat) (ids : List Nat) (hl : ids.length ≠ n)
    (h : ids.length > n ∨ ∃ i ∈ ids, n ≤ i) : complement n ids = .abort := by
  unfold complement
  rw [if_neg hl]
  by_cases hc : ids.length < n
  · rw [Res.check_pos hc]
    have : ∃ i ∈ ids, n ≤ i := h.resolve_left (by omega)
    simp [markLoop_abort (List.replicate n false) ids (by simpa using this)]
  · rw [Res.check_neg hc]; rfl

/-- Finding: with as many indices as elements nothing is returned, whatever the indices. -/
theorem C16_complement_refuted : complement 2 [0, 0] = .ok [] ∧ complement 2 [7, 9] = .ok [] := by
  decide

/-- C16: `where(v)` and `complement(v, where(v))` partition the indices. -/
theorem C16_partition (v : List Bool) :
    ∃ c, complement v.length (where_ v) = .ok c ∧
      (where_ v ++ c).Perm (List.range v.length) ∧ ∀ i, i ∈ c ↔ v[i]? = some false := by
  have hw := C16_where v
  have hnd : (where_ v).Nodup := hw.1.imp (fun h => Nat.ne_of_lt h)
  have hlt : ∀ i ∈ where_ v, i < v.length := fun i hi => by
    have := (hw.2 i).1 hi
    exact (List.getElem?_eq_some_iff.1 this).1
  obtain ⟨c, h1, h2, h3⟩ := C16_complement_partial v.length (where_ v) hnd hlt
  have hc : ∀ i, i ∈ c ↔ v[i]? = some false := by
    intro i
    rw [h3, hw.2]
    by_cases hi : i < v.length
    · simp [hi]
    · simp [hi]
  refine ⟨c, h1, ?_, hc⟩
  have hcn : c.Nodup := h2.imp (fun h => Nat.ne_of_lt h)
  rw [List.perm_ext_iff_of_nodup]
  · intro i
    rw [List.mem_append, h3, List.mem_range]
    constructor
    · rintro (h | h)
      · exact hlt i h
      · exact h.1
    · intro hi
      by_cases hm : i ∈ where_ v
      · exact .inl hm
      · exact .inr ⟨hi, hm⟩
  · rw [List.nodup_append]
    refine ⟨hnd, hcn, ?_⟩
    rintro a ha b hb rfl
    exact ((h3 a).1 hb).2 ha
  · exact List.nodup_range

theorem firstFrom_spec (k : Nat) (v : List Bool) :
    (∀ i, firstFrom k v = some i ↔ k ≤ i ∧ v[i - k]? = some true ∧ ∀ j, k ≤ j → j < i → v[j - k]? ≠ some true) := by
  induction v generalizing k with
  | nil => simp [firstFrom]
  | cons b v ih =>
    intro i
    unfold firstFrom
    by_cases hb : b = true
    · rw [if_pos hb]
      subst hb
      constructor
      · rintro ⟨⟩
        refine ⟨le_refl _, by simp, fun j h1 h2 => by omega⟩
      · rintro ⟨h1, h2, h3⟩
        by_cases h : k = i
        · rw [h]
        · exact absurd (by simp) (h3 k (le_refl _) (by omega))
    · rw [if_neg hb, ih]
      have hb' : b = false := by simpa using hb
      subst hb'
      constructor
      · rintro ⟨h1, h2, h3⟩
        refine ⟨by omega, ?_, ?_⟩
        · rw [show i - k = i - (k + 1) + 1 by omega]; simpa using h2
        · intro j hj1 hj2
          by_cases h : j = k
          · subst h; simp
          · rw [show j - k = j - (k + 1) + 1 by omega]
            simpa using h3 j (by omega) hj2
      · rintro ⟨h1, h2, h3⟩
        have hik : i ≠ k := by rintro rfl; simp at h2
        refine ⟨by omega, ?_, ?_⟩
        · rw [show i - k = i - (k + 1) + 1 by omega] at h2; simpa using h2
        · intro j hj1 hj2
          have := h3 j (by omega) hj2
          rw [show j - k = j - (k + 1) + 1 by omega] at this
          simpa using this

theorem firstFrom_none (k : Nat) (v : List Bool) : firstFrom k v = none ↔ true ∉ v := by
  induction v generalizing k with
  | nil => simp [firstFrom]
  | cons b v ih =>
    unfold firstFrom
    cases b <;> simp [ih]

/-- C17: `where_first` is the smallest true index, `npos` exactly when there is none. -/
theorem C17_where_first (v : List Bool) :
    (∀ i, whereFirst v = some i ↔ v[i]? = some true ∧ ∀ j < i, v[j]? ≠ some true) ∧
    (whereFirst v = none ↔ true ∉ v) := by
  refine ⟨fun i => ?_, firstFrom_none 0 v⟩
  unfold whereFirst; rw [firstFrom_spec]; simp

theorem lastLoop_ok (v : List Bool) (n k : Nat) (hk : k + n = v.length) :
    lastLoop v ((List.range n).map (k + ·)) = .ok none ∧ (∀ j, j < n → v[j]? ≠ some true) ∨
    ∃ i, lastLoop v ((List.range n).map (k + ·)) = .ok (some i) ∧ i < n ∧ v[i]? = some true ∧
      ∀ j, i < j → j < n → v[j]? ≠ some true := by
  induction n generalizing k with
  | zero => exact .inl ⟨rfl, by simp⟩
  | succ n ih =>
    have hr : (List.range (n + 1)).map (k + ·) = k :: (List.range n).map (k + 1 + ·) := by
      rw [List.range_succ_eq_map]
      simp only [List.map_cons, List.map_map, Nat.add_zero]
      congr 1
      apply List.map_congr_left; intro j _; simp; omega
    rw [hr, lastLoop]
    have hpos : v.length - 1 - k = n := by omega
    have hn : n < v.length := by omega
    rw [hpos, Res.rd_lt hn, Res.ok_bind]
    by_cases hb : v[n] = true
    · rw [if_pos hb]
      exact .inr ⟨n, rfl, by omega, by simp [hn, hb], fun j h1 h2 => by omega⟩
    · rw [if_neg hb]
      have hvn : v[n]? ≠ some true := by simp [hn, hb]
      rcases ih (k + 1) (by omega) with ⟨h1, h2⟩ | ⟨i, h1, h2, h3, h4⟩
      · refine .inl ⟨h1, fun j hj => ?_⟩
        by_cases h : j = n
        · rw [h]; exact hvn
        · exact h2 j (by omega)
      · refine .inr ⟨i, h1, by omega, h3, fun j hj1 hj2 => ?_⟩
        by_cases h : j = n
        · rw [h]; exact hvn
        · exact h4 j hj1 (by omega)

/-- C17: `where_last` is the largest true index, `npos` exactly when there is none. -/
theorem C17_where_last (v : List Bool) :
    (whereLast v = .ok none ∧ true ∉ v) ∨
    ∃ i, whereLast v = .ok (some i) ∧ v[i]? = some true ∧ ∀ j, i < j → v[j]? ≠ some true := by
  unfold whereLast
  by_cases h0 : v = []
  · rw [if_pos h0]; exact .inl ⟨rfl, by simp [h0]⟩
  · rw [if_neg h0]
    have := lastLoop_ok v v.length 0 (by omega)
    simp only [Nat.zero_add, List.map_id'] at this
    rcases this with ⟨h1, h2⟩ | ⟨i, h1, h2, h3, h4⟩
    · refine .inl ⟨h1, fun hm => ?_⟩
      obtain ⟨j, hj, he⟩ := List.getElem_of_mem hm
      exact h2 j hj (by simp [hj, he])
    · refine .inr ⟨i, h1, h3, fun j hj => ?_⟩
      by_cases hjl : j < v.length
      · exact h4 j hj hjl
      · simp at hjl; simp [hjl]

example : whereLast [true, false, true, false] = .ok (some 2) ∧
  whereFirst [false, true, true] = some 1 := by decide

/-! ## C18 -/

theorem isAnyOf1_iff (x : Option α) (v : List (Option α)) :
    isAnyOf1 x v = true ↔ ∃ y ∈ v, FP.eq x y = true := by
  induction v with
  | nil => simp [isAnyOf1]
  | cons y v ih =>
    unfold isAnyOf1
    by_cases h : FP.eq x y = true <;> simp [h, ih]

/-- C18: `is_any_of` is membership under the C++ equality; same size as the first vector. -/
theorem C18_is_any_of (v1 v2 : List (Option α)) :
    (isAnyOf v1 v2).length = v1.length ∧
    ∀ (i : Nat) (x : Option α), v1[i]? = some x →
      ∃ b, (isAnyOf v1 v2)[i]? = some b ∧ (b = true ↔ ∃ a, x = some a ∧ some a ∈ v2) := by
  refine ⟨by simp [isAnyOf], fun i x hx => ?_⟩
  refine ⟨isAnyOf1 x v2, by simp [isAnyOf, hx], ?_⟩
  rw [isAnyOf1_iff]
  constructor
  · rintro ⟨y, hy, he⟩
    cases x <;> cases y <;> simp [FP.eq] at he
    subst he; exact ⟨_, rfl, hy⟩
  · rintro ⟨a, rfl, hm⟩
    exact ⟨some a, hm, by simp [FP.eq]⟩

example : isAnyOf [some 3, none, some (4 : Nat)] [some 1, none, some 3] = [true, false, false] := by decide

/-! ## C19 -/

/-- Spec: the documented result for one value: the first equal element. -/
def IsFirstMatch (v2 : List (Option α)) (x : Option α) (j : Nat) : Prop :=
  ∃ a, x = some a ∧ v2[j]? = some (some a) ∧ ∀ k < j, v2[k]? ≠ some (some a)

theorem matchInner_spec (x : Option α) (k : Nat) (v2 : List (Option α)) (j : Nat) :
    matchInner x k v2 = some j ↔ k ≤ j ∧ IsFirstMatch v2 x (j - k) := by
  induction v2 generalizing k with
  | nil => simp [matchInner, IsFirstMatch]
  | cons y v2 ih =>
    unfold matchInner
    by_cases h : FP.eq y x = true
    · rw [if_pos h]
      obtain ⟨a, rfl, rfl⟩ : ∃ a, x = some a ∧ y = some a := by
        cases x <;> cases y <;> simp [FP.eq] at h
        exact ⟨_, rfl, by rw [h]⟩
      constructor
      · rintro ⟨⟩
        exact ⟨le_refl _, a, rfl, by simp, fun i hi => by omega⟩
      · rintro ⟨h1, b, hb, h2, h3⟩
        obtain rfl : a = b := by simpa using hb
        by_cases h' : k = j
        · rw [h']
        · exact absurd (by simp) (h3 0 (by omega))
    · rw [if_neg h, ih]
      have hne : ∀ a, x = some a → y ≠ some a := by
        rintro a rfl rfl; simp [FP.eq] at h
      constructor
      · rintro ⟨h1, a, rfl, h2, h3⟩
        refine ⟨by omega, a, rfl, ?_, ?_⟩
        · rw [show j - k = j - (k + 1) + 1 by omega]; simpa using h2
        · intro i hi
          cases i with
          | zero => simpa using hne a rfl
          | succ i => simpa using h3 i (by omega)
      · rintro ⟨h1, a, rfl, h2, h3⟩
        have hjk : j ≠ k := by rintro rfl; simp at h2; exact hne a rfl h2
        refine ⟨by omega, a, rfl, ?_, ?_⟩
        · rw [show j - k = j - (k + 1) + 1 by omega] at h2; simpa using h2
        · intro i hi
          simpa using h3 (i + 1) (by omega)

theorem mem_matchBrute (v2 : List (Option α)) (k : Nat) (v1 : List (Option α)) (i j : Nat) :
    (i, j) ∈ matchBrute v2 k v1 ↔ k ≤ i ∧ ∃ x, v1[i - k]? = some x ∧ IsFirstMatch v2 x j := by
  induction v1 generalizing k with
  | nil => simp [matchBrute]
  | cons x v1 ih =>
    have key : (i, j) ∈ matchBrute v2 (k + 1) v1 ↔
        k < i ∧ ∃ y, (x :: v1)[i - k]? = some y ∧ IsFirstMatch v2 y j := by
      rw [ih]
      constructor
      · rintro ⟨h1, y, h2, h3⟩
        refine ⟨by omega, y, ?_, h3⟩
        rw [show i - k = i - (k + 1) + 1 by omega]; simpa using h2
      · rintro ⟨h1, y, h2, h3⟩
        refine ⟨by omega, y, ?_, h3⟩
        rw [show i - k = i - (k + 1) + 1 by omega] at h2; simpa using h2
    have hm : ∀ j, matchInner x 0 v2 = some j ↔ IsFirstMatch v2 x j := by
      intro j; rw [matchInner_spec]; simp
    unfold matchBrute
    cases hj : matchInner x 0 v2 with
    | none =>
      simp only [key]
      constructor
      · rintro ⟨h1, h2⟩; exact ⟨by omega, h2⟩
      · rintro ⟨h1, y, h2, h3⟩
        refine ⟨?_, y, h2, h3⟩
        by_contra h
        obtain rfl : i = k := by omega
        simp at h2; subst h2
        rw [← hm, hj] at h3; simp at h3
    | some j0 =>
      simp only [List.mem_cons, key, Prod.mk.injEq]
      constructor
      · rintro (⟨rfl, rfl⟩ | ⟨h1, h2⟩)
        · exact ⟨le_refl _, x, by simp, (hm _).1 hj⟩
        · exact ⟨by omega, h2⟩
      · rintro ⟨h1, y, h2, h3⟩
        by_cases h : i = k
        · subst h
          simp at h2; subst h2
          rw [← hm, hj] at h3
          exact .inl ⟨rfl, by simpa using h3.symm⟩
        · exact .inr ⟨by omega, y, h2, h3⟩

theorem matchBrute_lt (v2 : List (Option α)) (k : Nat) (v1 : List (Option α)) :
    (matchBrute v2 k v1).Pairwise fun p q => p.1 < q.1 := by
  induction v1 generalizing k with
  | nil => simp [matchBrute]
  | cons x v1 ih =>
    unfold matchBrute
    cases matchInner x 0 v2 with
    | none => exact ih _
    | some j =>
      simp only [List.pairwise_cons]
      refine ⟨fun p hp => ?_, ih _⟩
      obtain ⟨i', j'⟩ := p
      have := ((mem_matchBrute _ _ _ _ _).1 hp).1
      simp; omega

/-- C19, vectors one of which has less than 64 elements: for every element of `v1` that occurs in
`v2`, in order, its index with that of the first equal element of `v2`. -/
theorem C19_match_small (v1 v2 : List (Option α)) (h : min v1.length v2.length < 64) :
    ((matchIds v1 v2).Pairwise fun p q => p.1 < q.1) ∧
    ∀ i j, (i, j) ∈ matchIds v1 v2 ↔ ∃ x, v1[i]? = some x ∧ IsFirstMatch v2 x j := by
  unfold matchIds
  rw [if_pos h]
  refine ⟨matchBrute_lt _ _ _, fun i j => ?_⟩
  rw [mem_matchBrute]; simp

example : matchIds [some 5, none, some 3, some 5] [some (5 : Nat), some 3, some 5] =
    [(0, 0), (2, 1), (3, 0)] := by decide

theorem matchMerge_sub (v1 v2 : List (Option α)) (l1 l2 : List Nat) :
    ((matchMerge v1 v2 l1 l2).map Prod.fst).Sublist l1 ∧
    ((matchMerge v1 v2 l1 l2).map Prod.snd).Sublist l2 := by
  fun_induction matchMerge v1 v2 l1 l2 with
  | case1 i is j js h ih => exact ⟨ih.1.cons _, ih.2⟩
  | case2 i is j js h1 h2 ih => exact ⟨ih.1, ih.2.cons _⟩
  | case3 i is j js h1 h2 ih => exact ⟨ih.1.cons_cons _, ih.2.cons_cons _⟩
  | case4 => simp

theorem matchMerge_eq (v1 v2 : List (Option α)) (l1 l2 : List Nat)
    (h1 : ∀ i ∈ l1, elt v1 i ≠ none) (h2 : ∀ i ∈ l2, elt v2 i ≠ none) :
    ∀ p ∈ matchMerge v1 v2 l1 l2, elt v1 p.1 = elt v2 p.2 := by
  fun_induction matchMerge v1 v2 l1 l2 with
  | case1 i is j js h ih => exact ih (fun k hk => h1 k (by simp [hk])) h2
  | case2 i is j js h h' ih => exact ih h1 (fun k hk => h2 k (by simp [hk]))
  | case3 i is j js h h' ih =>
    intro p hp
    rcases List.mem_cons.1 hp with rfl | hp
    · have ha := h1 i (by simp)
      have hb := h2 j (by simp)
      simp only
      cases hx : elt v1 i <;> cases hy : elt v2 j <;> simp_all [FP.lt]
      exact le_antisymm h' h
    · exact ih (fun k hk => h1 k (by simp [hk])) (fun k hk => h2 k (by simp [hk])) p hp
  | case4 => simp

theorem lt_iff_le (a b : α) : FP.lt (some a) (some b) = true ↔ ¬ FP.le (some b) (some a) = true := by
  simp [FP.lt]

/-- completeness of the merge for strictly increasing values -/
theorem matchMerge_complete (v1 v2 : List (Option α)) (l1 l2 : List Nat)
    (h1 : ∀ i ∈ l1, elt v1 i ≠ none) (h2 : ∀ i ∈ l2, elt v2 i ≠ none)
    (s1 : l1.Pairwise fun i j => FP.less (elt v1 i) (elt v1 j) = true)
    (s2 : l2.Pairwise fun i j => FP.less (elt v2 i) (elt v2 j) = true) :
    ∀ i ∈ l1, ∀ j ∈ l2, elt v1 i = elt v2 j → (i, j) ∈ matchMerge v1 v2 l1 l2 := by
  fun_induction matchMerge v1 v2 l1 l2 with
  | case1 i is j js h ih =>
    intro i' hi' j' hj' he
    rw [List.pairwise_cons] at s1
    rcases List.mem_cons.1 hi' with rfl | hi'
    · exfalso
      obtain ⟨a, ha⟩ := Option.ne_none_iff_exists'.1 (h1 i' (by simp))
      obtain ⟨b, hb⟩ := Option.ne_none_iff_exists'.1 (h2 j (by simp))
      rw [ha, hb] at h
      rw [ha] at he
      rw [List.pairwise_cons] at s2
      rcases List.mem_cons.1 hj' with rfl | hj'
      · rw [hb] at he; simp [FP.lt] at h; simp at he; exact absurd he (ne_of_lt h)
      · have := s2.1 j' hj'
        rw [← he, hb] at this
        simp [FP.lt] at h this
        exact absurd (lt_trans h this) (lt_irrefl _)
    · exact ih (fun k hk => h1 k (by simp [hk])) h2 s1.2 s2 i' hi' j' hj' he
  | case2 i is j js h h' ih =>
    intro i' hi' j' hj' he
    rw [List.pairwise_cons] at s2
    rcases List.mem_cons.1 hj' with rfl | hj'
    · exfalso
      obtain ⟨a, ha⟩ := Option.ne_none_iff_exists'.1 (h1 i (by simp))
      obtain ⟨b, hb⟩ := Option.ne_none_iff_exists'.1 (h2 j' (by simp))
      rw [ha, hb] at h'
      rw [hb] at he
      rw [List.pairwise_cons] at s1
      rcases List.mem_cons.1 hi' with rfl | hi'
      · rw [ha] at he; simp [FP.lt] at h'; simp at he; exact absurd he.symm (ne_of_lt h')
      · have := s1.1 i' hi'
        rw [he, ha] at this
        simp [FP.lt] at h' this
        exact absurd (lt_trans h' this) (lt_irrefl _)
    · exact ih h1 (fun k hk => h2 k (by simp [hk])) s1 s2.2 i' hi' j' hj' he
  | case3 i is j js h h' ih =>
    intro i' hi' j' hj' he
    rw [List.pairwise_cons] at s1 s2
    obtain ⟨a, ha⟩ := Option.ne_none_iff_exists'.1 (h1 i (by simp))
    obtain ⟨b, hb⟩ := Option.ne_none_iff_exists'.1 (h2 j (by simp))
    have hab : a = b := by
      rw [ha, hb] at h h'
      simp [FP.lt] at h h'
      exact le_antisymm h' h
    subst hab
    rcases List.mem_cons.1 hi' with rfl | hi' <;> rcases List.mem_cons.1 hj' with rfl | hj'
    · simp
    · exfalso
      have := s2.1 j' hj'
      rw [← he, ha, hb] at this; simp at this
    · exfalso
      have := s1.1 i' hi'
      rw [he, ha, hb] at this; simp at this
    · rw [List.mem_cons]; right
      exact ih (fun k hk => h1 k (by simp [hk])) (fun k hk => h2 k (by simp [hk])) s1.2 s2.2 i' hi' j' hj' he
  | case4 l1 l2 h =>
    intro i hi j hj
    cases l1 with
    | nil => simp at hi
    | cons a l1 =>
      cases l2 with
      | nil => simp at hj
      | cons b l2 => exact absurd rfl (h a l1 b l2 rfl)

theorem elt_mem {v : List (Option α)} {i : Nat} (h : i < v.length) : elt v i ∈ v := by
  simp [elt, h]

theorem elt_eq {v : List (Option α)} {i : Nat} (h : i < v.length) : v[i]? = some (elt v i) := by
  simp [elt, h]

/-- C19, any size, without NaN: pairs are in range, have equal values, and indices of the second
vector are distinct when the sorted path is used. -/
theorem C19_match_sound_partial (v1 v2 : List (Option α)) (h1 : ∀ x ∈ v1, x ≠ none)
    (h2 : ∀ x ∈ v2, x ≠ none) :
    ∀ i j, (i, j) ∈ matchIds v1 v2 → ∃ a, v1[i]? = some (some a) ∧ v2[j]? = some (some a) := by
  intro i j hij
  by_cases hs : min v1.length v2.length < 64
  · obtain ⟨x, hx, a, rfl, ha, -⟩ := ((C19_match_small v1 v2 hs).2 i j).1 hij
    exact ⟨a, hx, ha⟩
  · unfold matchIds at hij
    rw [if_neg hs] at hij
    have hsub := matchMerge_sub v1 v2 (sort v1) (sort v2)
    have hi : i ∈ sort v1 := hsub.1.subset (List.mem_map.2 ⟨_, hij, rfl⟩)
    have hj : j ∈ sort v2 := hsub.2.subset (List.mem_map.2 ⟨_, hij, rfl⟩)
    rw [sort_lt] at hi hj
    have := matchMerge_eq v1 v2 _ _
      (fun k hk => h1 _ (elt_mem ((sort_lt v1 k).1 hk)))
      (fun k hk => h2 _ (elt_mem ((sort_lt v2 k).1 hk))) _ hij
    simp only at this
    obtain ⟨a, ha⟩ := Option.ne_none_iff_exists'.1 (h1 _ (elt_mem hi))
    exact ⟨a, by rw [elt_eq hi, ha], by rw [elt_eq hj, ← this, ha]⟩

theorem sort_strict (v : List (Option α)) (hd : v.Nodup) :
    (sort v).Pairwise fun i j => FP.less (elt v i) (elt v j) = true := by
  refine List.Pairwise.imp_of_mem (fun {i j} hi hj h => ?_) (C14_sort v).2
  rcases h with h | ⟨h1, h2⟩
  · exact h
  · by_contra hc
    have hi' := (sort_lt v i).1 hi
    have hj' := (sort_lt v j).1 hj
    have he : elt v i = elt v j := by
      cases hx : elt v i <;> cases hy : elt v j <;> simp_all [FP.less]
      exact le_antisymm h1 hc
    have : v[i] = v[j] := by
      have e1 := elt_eq hi'; have e2 := elt_eq hj'
      rw [he] at e1
      simp [hi'] at e1; simp [hj'] at e2
      rw [e1, e2]
    exact absurd ((List.Nodup.getElem_inj_iff hd).1 this) (by omega)

/-- C19, any size, both vectors without NaN and without repetition: exactly the pairs of positions
of equal values, each once. -/
theorem C19_match_unique_partial (v1 v2 : List (Option α)) (h1 : ∀ x ∈ v1, x ≠ none)
    (h2 : ∀ x ∈ v2, x ≠ none) (d1 : v1.Nodup) (d2 : v2.Nodup) :
    (matchIds v1 v2).Nodup ∧
    ∀ i j, (i, j) ∈ matchIds v1 v2 ↔ ∃ a, v1[i]? = some (some a) ∧ v2[j]? = some (some a) := by
  by_cases hs : min v1.length v2.length < 64
  · have hm := C19_match_small v1 v2 hs
    refine ⟨hm.1.imp (by rintro a b hab rfl; omega), fun i j => ⟨C19_match_sound_partial v1 v2 h1 h2 i j, ?_⟩⟩
    rintro ⟨a, ha, hb⟩
    rw [hm.2]
    refine ⟨some a, ha, a, rfl, hb, fun k hk hka => ?_⟩
    obtain ⟨hk1, hk2⟩ := List.getElem?_eq_some_iff.1 hka
    obtain ⟨hj1, hj2⟩ := List.getElem?_eq_some_iff.1 hb
    have := (List.Nodup.getElem_inj_iff d2).1 (hk2.trans hj2.symm)
    omega
  · refine ⟨?_, fun i j => ⟨C19_match_sound_partial v1 v2 h1 h2 i j, ?_⟩⟩
    · unfold matchIds
      rw [if_neg hs]
      have hsub := (matchMerge_sub v1 v2 (sort v1) (sort v2)).1
      exact List.Nodup.of_map _ (hsub.nodup (sort_nodup v1))
    · rintro ⟨a, ha, hb⟩
      obtain ⟨hi, hi'⟩ := List.getElem?_eq_some_iff.1 ha
      obtain ⟨hj, hj'⟩ := List.getElem?_eq_some_iff.1 hb
      unfold matchIds
      rw [if_neg hs]
      apply matchMerge_complete v1 v2 _ _
        (fun k hk => h1 _ (elt_mem ((sort_lt v1 k).1 hk)))
        (fun k hk => h2 _ (elt_mem ((sort_lt v2 k).1 hk))) (sort_strict v1 d1) (sort_strict v2 d2)
      · exact (sort_lt v1 i).2 hi
      · exact (sort_lt v2 j).2 hj
      · have e1 := elt_eq hi; have e2 := elt_eq hj
        rw [ha] at e1; rw [hb] at e2
        simp at e1 e2
        rw [← e1, ← e2]

/-- hypotheses met by two vectors of 100 values, so by the sorted path -/
example : ∃ v : List (Option Nat), ¬ min v.length v.length < 64 ∧ (∀ x ∈ v, x ≠ none) ∧ v.Nodup :=
  ⟨(List.range 100).map some, by simp, by simp, List.Nodup.map (Option.some_injective _) List.nodup_range⟩

/-- C19, sorted path: an element of the second vector is used at most once. -/
theorem C19_match_large_one_to_one (v1 v2 : List (Option α)) (h : ¬ min v1.length v2.length < 64) :
    ((matchIds v1 v2).map Prod.fst).Nodup ∧ ((matchIds v1 v2).map Prod.snd).Nodup := by
  unfold matchIds
  rw [if_neg h]
  have hsub := matchMerge_sub v1 v2 (sort v1) (sort v2)
  exact ⟨hsub.1.nodup (sort_nodup v1), hsub.2.nodup (sort_nodup v2)⟩

/-- Finding: with repeated values in the first vector the sorted path loses matches: 64 times the
value 0 against 0, 1, ..., 63 gives at most one pair, where the brute force path gives one for
every element of the first vector. -/
theorem C19_match_refuted :
    ∃ v1 v2 : List (Option Nat), ∃ i j x, v1[i]? = some x ∧ IsFirstMatch v2 x j ∧
      (i, j) ∉ matchIds v1 v2 := by
  let v1 : List (Option Nat) := List.replicate 64 (some 0)
  let v2 : List (Option Nat) := (List.range 64).map some
  have hl : ¬ min v1.length v2.length < 64 := by simp [v1, v2]
  have hf : IsFirstMatch v2 (some 0) 0 := ⟨0, rfl, by simp [v2], by simp⟩
  by_cases h0 : (0, 0) ∈ matchIds v1 v2
  · refine ⟨v1, v2, 1, 0, some 0, by simp [v1], hf, fun h1 => ?_⟩
    have hn := (C19_match_large_one_to_one v1 v2 hl).2
    have := List.inj_on_of_nodup_map hn h0 h1 rfl
    simp at this
  · exact ⟨v1, v2, 0, 0, some 0, by simp [v1], hf, h0⟩

theorem matchMerge_incomparable (v1 v2 : List (Option α))
    (h : ∀ i j, FP.lt (elt v1 i) (elt v2 j) = false ∧ FP.lt (elt v2 j) (elt v1 i) = false)
    (l1 l2 : List Nat) : matchMerge v1 v2 l1 l2 = l1.zip l2 := by
  fun_induction matchMerge v1 v2 l1 l2 with
  | case1 i is j js hc ih => simp [(h i j).1] at hc
  | case2 i is j js h1 hc ih => simp [(h i j).2] at hc
  | case3 i is j js h1 h2 ih => simp [ih]
  | case4 l1 l2 h' =>
    cases l1 with
    | nil => simp
    | cons a l1 =>
      cases l2 with
      | nil => simp
      | cons b l2 => exact absurd rfl (h' a l1 b l2 rfl)

/-- Finding: the sorted path pairs NaN with numbers. -/
theorem C19_match_nan_refuted :
    ∃ v1 v2 : List (Option Nat), (∀ x ∈ v1, x = none) ∧ (∀ x ∈ v2, x = some 0) ∧
      (matchIds v1 v2).length = 64 := by
  refine ⟨List.replicate 64 none, List.replicate 64 (some 0), by simp, by simp, ?_⟩
  unfold matchIds
  rw [if_neg (by simp), matchMerge_incomparable]
  · have h1 := (sort_perm (List.replicate 64 (none : Option Nat))).length_eq
    have h2 := (sort_perm (List.replicate 64 (some (0 : Nat)))).length_eq
    rw [List.length_zip, h1, h2]; simp
  · intro i j
    have : ∀ n, elt (List.replicate n (none : Option Nat)) i = none := by
      intro n
      unfold elt; rw [List.getD_eq_getElem?_getD, List.getElem?_replicate]; split <;> rfl
    rw [this]
    cases elt (List.replicate 64 (some (0 : Nat))) j <;> simp [FP.lt]

end Verif.Find
