import Verif.Core.Vec
import Mathlib.Data.List.Sort
import Mathlib.Data.List.Perm.Subperm
import Mathlib.Data.List.Nodup
import Mathlib.Tactic.Ring
/-!
# Property C10: `inplace_remove`
-/
namespace Verif.Core.Vec
open Verif Verif.Index
variable {α : Type}

/-! ## specification -/

/-- The `k`-th slice along the first dimension, `p` elements per slice. -/
def slice (p : Nat) (l : List α) (k : Nat) : List α := (l.drop (k * p)).take p

/-- The slices with the given numbers, one after the other. -/
def slices (p : Nat) (l : List α) (ks : List Nat) : List α := ks.flatMap (slice p l)

/-! ## lemmas -/

theorem slices_range' (p : Nat) (l : List α) (a n : Nat) (h : (a + n) * p ≤ l.length) :
    slices p l (List.range' a n) = (l.drop (a * p)).take (n * p) := by
  induction n generalizing a with
  | zero => simp [slices]
  | succ n ih =>
    rw [List.range'_succ]
    have := ih (a + 1) (by rw [Nat.add_right_comm]; exact h)
    simp only [slices, List.flatMap_cons] at this ⊢
    rw [this, slice]
    have e1 : (a + 1) * p = a * p + p := by ring
    have e2 : (n + 1) * p = p + n * p := by ring
    rw [e1, e2, List.take_add, List.drop_drop]

theorem removeBlock_spec (osize i1 i0 : Nat) (rest : List Nat) (hs : rest.Pairwise (· > ·))
    (hlt : ∀ x ∈ rest, x < i0) (h01 : i0 ≤ i1) (hi1 : i1 < osize) :
    ∃ i0' block rest', removeBlock osize i1 i0 rest = .ok (i0', rest') ∧ rest = block ++ rest' ∧
      i0' ≤ i0 ∧ (∀ x, x ∈ block ↔ i0' ≤ x ∧ x < i0) ∧ ∀ x ∈ rest', x < i0' := by
  induction rest generalizing i0 with
  | nil => exact ⟨i0, [], [], rfl, rfl, le_refl _, by intro x; simp, by simp⟩
  | cons x xs ih =>
    have hx := hlt x (by simp)
    rw [List.pairwise_cons] at hs
    by_cases hc : i0 - x ≤ 1
    · obtain ⟨i0', block, rest', h1, h2, h3, h4, h5⟩ := ih x hs.2 (fun y hy => hs.1 y hy) (by omega)
      refine ⟨i0', x :: block, rest', ?_, by simp [h2], by omega, ?_, h5⟩
      · simp only [removeBlock, if_pos hc]
        rw [if_neg (by omega), if_pos (by omega), h1]
      · intro y
        rw [List.mem_cons, h4]; omega
    · exact ⟨i0, [], x :: xs, by simp [removeBlock, hc], rfl, le_refl _,
        by intro y; simp, hlt⟩

theorem filter_range'_split (P : Nat → Bool) (a b n : Nat) (hab : a ≤ b) (hbn : b ≤ n) :
    (List.range n).filter P =
      (List.range a).filter P ++ (List.range' a (b - a)).filter P ++
        (List.range' b (n - b)).filter P := by
  rw [← List.filter_append, ← List.filter_append]
  congr 1
  rw [List.range_eq_range', List.range_eq_range', List.append_assoc]
  have e1 : List.range' a (b - a) ++ List.range' b (n - b) = List.range' a (n - a) := by
    have := List.range'_append_1 (s := a) (m := b - a) (n := n - b)
    rw [show a + (b - a) = b by omega] at this
    rw [this]; congr 1; omega
  rw [e1]
  have := List.range'_append_1 (s := 0) (m := a) (n := n - a)
  rw [Nat.zero_add] at this
  rw [this]; congr 1; omega

theorem removeLoop_spec (osize p : Nat) : ∀ (m : Nat) (ids : List Nat) (data tail : List α)
    (bound : Nat), ids.length ≤ m → ids.Pairwise (· > ·) → (∀ x ∈ ids, x < bound) →
    bound ≤ osize → data.length = bound * p →
    removeLoop osize p ids (data ++ tail) =
      .ok (slices p data ((List.range bound).filter (· ∉ ids)) ++ tail) := by
  intro m
  induction m with
  | zero =>
    intro ids data tail bound hm hs hlt hb hd
    have : ids = [] := List.length_eq_zero_iff.1 (by omega)
    subst this
    have := slices_range' p data 0 bound (by rw [hd]; simp)
    rw [removeLoop]
    simp only [List.not_mem_nil, not_false_iff, decide_true, List.filter_true]
    rw [List.range_eq_range', this, ← hd]; simp
  | succ m ih =>
    intro ids data tail bound hm hs hlt hb hd
    cases ids with
    | nil =>
      have := slices_range' p data 0 bound (by rw [hd]; simp)
      rw [removeLoop]
      simp only [List.not_mem_nil, not_false_iff, decide_true, List.filter_true]
      rw [List.range_eq_range', this, ← hd]; simp
    | cons i1 rest =>
      rw [List.pairwise_cons] at hs
      have hi1 := hlt i1 (by simp)
      obtain ⟨i0, block, rest', h1, h2, h3, h4, h5⟩ :=
        removeBlock_spec osize i1 i1 rest hs.2 hs.1 (le_refl _) (by omega)
      have hle : (i1 + 1) * p ≤ bound * p := Nat.mul_le_mul_right _ hi1
      have h0le : i0 * p ≤ bound * p := Nat.mul_le_mul_right _ (by omega)
      rw [removeLoop]
      rw [if_pos (by omega)]
      split
      · rename_i i0a resta heq
        rw [h1] at heq
        simp only [Res.ok.injEq, Prod.mk.injEq] at heq
        obtain ⟨rfl, rfl⟩ := heq
        rw [if_pos (by rw [List.length_append]; omega)]
        have et : (data ++ tail).take (i0 * p) = data.take (i0 * p) := by
          rw [List.take_append_of_le_length (by omega)]
        have ed : (data ++ tail).drop ((i1 + 1) * p) = data.drop ((i1 + 1) * p) ++ tail := by
          rw [List.drop_append_of_le_length (by omega)]
        rw [et, ed, ih rest' (data.take (i0 * p)) (data.drop ((i1 + 1) * p) ++ tail) i0]
        · rw [← List.append_assoc]
          congr 2
          rw [filter_range'_split (fun x => decide (x ∉ i1 :: rest)) i0 (i1 + 1) bound (by omega)
            (by omega)]
          have f1 : (List.range i0).filter (fun x => decide (x ∉ i1 :: rest)) =
              (List.range i0).filter (fun x => decide (x ∉ rest')) := by
            apply List.filter_congr
            intro x hx
            simp only [List.mem_range] at hx
            simp only [h2, List.mem_cons, List.mem_append, h4, decide_eq_decide]
            constructor
            · intro h hc; exact h (.inr (.inr hc))
            · rintro h (rfl | ⟨h6, -⟩ | h6)
              · omega
              · omega
              · exact h h6
          have f2 : (List.range' i0 (i1 + 1 - i0)).filter (fun x => decide (x ∉ i1 :: rest)) = [] := by
            rw [List.filter_eq_nil_iff]
            intro x hx
            rw [List.mem_range'_1] at hx
            simp only [h2, List.mem_cons, List.mem_append, h4, decide_eq_true_eq, not_not]
            by_cases hxi : x = i1
            · exact .inl hxi
            · exact .inr (.inl (by omega))
          have f3 : (List.range' (i1 + 1) (bound - (i1 + 1))).filter
              (fun x => decide (x ∉ i1 :: rest)) = List.range' (i1 + 1) (bound - (i1 + 1)) := by
            rw [List.filter_eq_self]
            intro x hx
            rw [List.mem_range'_1] at hx
            simp only [decide_eq_true_eq, List.mem_cons, not_or]
            refine ⟨by omega, fun hc => ?_⟩
            have := hs.1 x hc; omega
          rw [f1, f2, f3, List.append_nil]
          simp only [slices, List.flatMap_append]
          congr 1
          · have : ∀ k ∈ (List.range i0).filter (fun x => decide (x ∉ rest')),
                slice p (data.take (i0 * p)) k = slice p data k := by
              intro k hk
              have hk' : k < i0 := by
                have := List.mem_of_mem_filter hk; simpa using this
              unfold slice
              rw [List.drop_take, List.take_take]
              congr 1
              have : (k + 1) * p ≤ i0 * p := Nat.mul_le_mul_right _ hk'
              rw [Nat.add_mul, Nat.one_mul] at this
              omega
            rw [List.flatMap_def, List.flatMap_def, List.map_congr_left this]
          · have := slices_range' p data (i1 + 1) (bound - (i1 + 1))
              (by rw [hd, show i1 + 1 + (bound - (i1 + 1)) = bound by omega])
            simp only [slices] at this
            rw [this, List.take_of_length_le]
            rw [List.length_drop, hd, Nat.sub_mul]
        · have : rest'.length ≤ rest.length := by rw [h2]; simp
          simp at hm; omega
        · have := hs.2; rw [h2, List.pairwise_append] at this; exact this.2.1
        · exact h5
        · omega
        · rw [List.length_take]; omega
      all_goals (rename_i heq; rw [h1] at heq; simp at heq)

/-! ## C10 -/

/-- C10: for distinct indices below the first dimension, `inplace_remove` keeps exactly the other
slices, in their original order, and the first dimension shrinks accordingly. -/
theorem C10_remove_partial (v : Vec α) (d : Nat) (ds ids : List Nat) (hdim : v.dims = d :: ds)
    (hwf : v.data.length = d * ds.prod) (hW : d < W) (hp : 0 < ds.prod) (hnd : ids.Nodup)
    (hlt : ∀ x ∈ ids, x < d) :
    remove v ids = .ok ⟨slices ds.prod v.data ((List.range d).filter (· ∉ ids)),
      (d - ids.length) :: ds⟩ := by
  have hperm : (ids.mergeSort (· ≤ ·)).Perm ids := List.mergeSort_perm _ _
  have hsort : (ids.mergeSort (· ≤ ·)).reverse.Pairwise (· > ·) := by
    rw [List.pairwise_reverse]
    have h1 : (ids.mergeSort (· ≤ ·)).Pairwise (· ≤ ·) := by
      have := List.pairwise_mergeSort (le := fun a b => decide (a ≤ b))
        (by intro a b c; simp; omega) (by intro a b; simp; omega) ids
      exact this.imp (by simp)
    have h2 : (ids.mergeSort (· ≤ ·)).Nodup := hperm.nodup_iff.2 hnd
    exact (h1.and h2).imp fun ⟨a, b⟩ => by
      have : (_ : Nat) ≠ _ := b
      omega
  have hmem : ∀ x, x ∈ (ids.mergeSort (· ≤ ·)).reverse ↔ x ∈ ids := by
    intro x; rw [List.mem_reverse]; exact hperm.mem_iff
  have hle : d ≤ v.data.length := by rw [hwf]; exact Nat.le_mul_of_pos_right _ hp
  have key := removeLoop_spec v.data.length ds.prod _ (ids.mergeSort (· ≤ ·)).reverse v.data [] d
    (le_refl _) hsort (fun x hx => hlt x ((hmem x).1 hx)) hle hwf
  have hlen : ids.length ≤ d := by
    have : ids.length ≤ (List.range d).length :=
      (hnd.subperm fun x hx => by simpa using hlt x hx).length_le
    simpa using this
  simp only [remove, hdim]
  rw [List.append_nil, List.append_nil] at key
  rw [key, Res.ok_bind]
  have e1 : (List.range d).filter (fun x => decide (x ∉ (ids.mergeSort (· ≤ ·)).reverse)) =
      (List.range d).filter (fun x => decide (x ∉ ids)) := by
    apply List.filter_congr; intro x _; simp only [hmem]
  have e2 : sub64 d ids.length = d - ids.length := by
    unfold sub64
    have : ids.length % W = ids.length := Nat.mod_eq_of_lt (by omega)
    rw [this, show d + (W - ids.length) = W + (d - ids.length) by omega, Nat.add_mod_left,
      Nat.mod_eq_of_lt (by omega)]
  rw [e1, e2]

example : remove ⟨[10, 11, 20, 21, 30, 31, 40, 41], [4, 2]⟩ [3, 1] =
    .ok ⟨[10, 11, 30, 31], [2, 2]⟩ := by
  have := C10_remove_partial (α := Nat) ⟨[10, 11, 20, 21, 30, 31, 40, 41], [4, 2]⟩ 4 [2] [3, 1]
    rfl rfl (by decide) (by decide) (by decide) (by decide)
  rw [this]; decide

/-- In one dimension an index outside the vector aborts, whatever the other indices are. -/
theorem C10_outside_aborts (v : Vec α) (n : Nat) (ids : List Nat) (hdim : v.dims = [n])
    (hwf : v.data.length = n) (hx : ∃ x ∈ ids, n ≤ x) : remove v ids = .abort := by
  obtain ⟨x, hx, hnx⟩ := hx
  have hperm : (ids.mergeSort (· ≤ ·)).Perm ids := List.mergeSort_perm _ _
  have h1 : (ids.mergeSort (· ≤ ·)).Pairwise (· ≤ ·) := by
    have := List.pairwise_mergeSort (le := fun a b => decide (a ≤ b))
      (by intro a b c; simp; omega) (by intro a b; simp; omega) ids
    exact this.imp (by simp)
  have hxm : x ∈ (ids.mergeSort (· ≤ ·)).reverse := by rw [List.mem_reverse]; exact hperm.mem_iff.2 hx
  simp only [remove, hdim]
  have h2 : (ids.mergeSort (· ≤ ·)).reverse.Pairwise (fun a b => b ≤ a) := by
    rw [List.pairwise_reverse]; exact h1
  cases hl : (ids.mergeSort (· ≤ ·)).reverse with
  | nil => rw [hl] at hxm; simp at hxm
  | cons i1 rest =>
    rw [hl] at hxm h2
    rw [List.pairwise_cons] at h2
    have : n ≤ i1 := by
      rcases List.mem_cons.1 hxm with rfl | h
      · exact hnx
      · have := h2.1 x h; omega
    rw [removeLoop, if_neg (by omega)]; rfl

example : remove ⟨[10, 20, 30], [3]⟩ [1, 7] = .abort :=
  C10_outside_aborts (α := Nat) _ 3 _ rfl rfl ⟨7, by decide, by decide⟩

/-- C10: a repetition of the largest index is refused. (Other repetitions are not always detected, see
`C10_duplicates_refuted`.) -/
theorem C10_repeated_largest (v : Vec α) (d : Nat) (ds ids : List Nat) (hdim : v.dims = d :: ds) (x : Nat)
    (hmax : ∀ y ∈ ids, y ≤ x) (hdup : List.Sublist [x, x] ids) : remove v ids = .abort := by
  have hperm : (ids.mergeSort (· ≤ ·)).reverse.Perm ids := (List.reverse_perm _).trans (List.mergeSort_perm _ _)
  have h1 : (ids.mergeSort (· ≤ ·)).Pairwise (· ≤ ·) := by
    have := List.pairwise_mergeSort (le := fun a b => decide (a ≤ b))
      (by intro a b c; simp; omega) (by intro a b; simp; omega) ids
    exact this.imp (by simp)
  have h2 : (ids.mergeSort (· ≤ ·)).reverse.Pairwise (fun a b => b ≤ a) := by
    rw [List.pairwise_reverse]; exact h1
  have hcnt : 2 ≤ (ids.mergeSort (· ≤ ·)).reverse.count x := by
    rw [hperm.count_eq]
    have := hdup.count_le x
    simpa using this
  have hmax' : ∀ y ∈ (ids.mergeSort (· ≤ ·)).reverse, y ≤ x := fun y hy => hmax y (hperm.mem_iff.1 hy)
  simp only [remove, hdim]
  generalize (ids.mergeSort (· ≤ ·)).reverse = l at *
  have hshape : ∃ r, l = x :: x :: r := by
    match l, h2, hcnt, hmax' with
    | [], _, hcnt, _ => simp at hcnt
    | [a], _, hcnt, _ =>
      have := List.count_le_length (a := x) (l := [a])
      simp only [List.length_cons, List.length_nil] at this; omega
    | a :: b :: r, h2, hcnt, hmax' =>
      rw [List.pairwise_cons, List.pairwise_cons] at h2
      have ha := hmax' a (by simp)
      have hb := hmax' b (by simp)
      have hax : a = x := by
        have hm : x ∈ a :: b :: r := List.count_pos_iff.1 (by omega)
        rcases List.mem_cons.1 hm with h | h
        · exact h.symm
        · have := h2.1 x h; omega
      subst hax
      have hbx : b = a := by
        rw [List.count_cons_self] at hcnt
        have hm : a ∈ b :: r := List.count_pos_iff.1 (by omega)
        rcases List.mem_cons.1 hm with h | h
        · exact h.symm
        · have := h2.2.1 a h; omega
      exact ⟨r, by rw [hbx]⟩
  obtain ⟨r, rfl⟩ := hshape
  rw [removeLoop]
  split
  · have hb : removeBlock v.data.length x x (x :: r) = .abort := by simp [removeBlock]
    split
    all_goals first | rfl | (rename_i heq; rw [hb] at heq; simp at heq)
  · rfl

example : remove ⟨[10, 20, 30], [3]⟩ [1, 0, 1] = .abort :=
  C10_repeated_largest (α := Nat) _ 3 [] _ rfl 1 (by decide) (by decide)

theorem mergeSort_322 : ([3, 2, 2] : List Nat).mergeSort (· ≤ ·) = [2, 2, 3] := by
  simp [List.mergeSort]

/-- Finding: a repeated index is not always detected. Removing `{3,2,2}` from a vector of 5
elements removes two elements but reports a dimension of 2: the vector then holds 3 elements. -/
theorem C10_duplicates_refuted :
    remove ⟨[10, 20, 30, 40, 50], [5]⟩ [3, 2, 2] = .ok ⟨[10, 20, 50], [2]⟩ := by
  simp only [remove, mergeSort_322]
  simp [removeLoop, removeBlock]
  decide

/-- Finding: in several dimensions the bound check compares with the total number of elements, so
an index beyond the first dimension erases past the end. -/
theorem C10_multidim_refuted :
    remove ⟨[1, 2, 3, 4, 5, 6], [2, 3]⟩ [2] = .ub := by
  have : ([2] : List Nat).mergeSort (· ≤ ·) = [2] := by simp
  simp only [remove, this]
  simp [removeLoop, removeBlock]

end Verif.Core.Vec
