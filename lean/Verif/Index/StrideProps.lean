import Verif.Index.Stride
import Mathlib.Tactic.Ring
/-!
# Property C86 (strides)
-/
namespace Verif.Index
open Verif

theorem strideOffset_ids (pre dims ids : List Nat) (is : List Int) (p : Policy)
    (h : List.Forall₂ (fun (di : Nat × Int) k => toIdxSigned di.1 di.2 = .ok k) (dims.zip is) ids) (hl : is.length = dims.length) :
    strideOffset (pre ++ dims) pre.length p (is.map some) =
      .ok ⟨p.bo + rowMajor dims ids, p.eo + rowMajor dims ids, p.stride⟩ := by
  induction dims generalizing pre ids is p with
  | nil =>
    cases is with
    | nil =>
      cases h
      simp [strideOffset, rowMajor]
    | cons => simp at hl
  | cons d ds ih =>
    cases is with
    | nil => simp at hl
    | cons i is =>
      rw [List.zip_cons_cons] at h
      cases h with
      | @cons _ k _ ks hk hks =>
        simp only [List.length_cons, Nat.add_right_cancel_iff] at hl
        simp only at hk
        rw [List.map_cons, strideOffset]
        have hd : (pre ++ d :: ds)[pre.length]? = some d := by simp
        rw [hd]
        simp only
        rw [hk, Res.ok_bind]
        have := ih (pre ++ [d]) ks is ⟨p.bo + k * pitch (pre ++ d :: ds) pre.length, p.eo + k * pitch (pre ++ d :: ds) pre.length, p.stride⟩ hks hl
        rw [List.append_assoc, List.singleton_append, List.length_append, List.length_singleton] at this
        rw [this]
        have hp : pitch (pre ++ d :: ds) pre.length = ds.prod := by
          rw [pitch_eq]; simp
        rw [hp, rowMajor]
        simp [Nat.add_assoc]

theorem strideOffset_hole (pre dims ids ids' : List Nat) (is is' : List Int) (d : Nat) (dims' : List Nat) (p : Policy)
    (h : List.Forall₂ (fun (di : Nat × Int) k => toIdxSigned di.1 di.2 = .ok k) (dims.zip is) ids) (hl : is.length = dims.length)
    (h' : List.Forall₂ (fun (di : Nat × Int) k => toIdxSigned di.1 di.2 = .ok k) (dims'.zip is') ids') (hl' : is'.length = dims'.length) :
    strideOffset (pre ++ (dims ++ d :: dims')) pre.length p (is.map some ++ none :: is'.map some) =
      .ok ⟨p.bo + rowMajor (dims ++ d :: dims') (ids ++ 0 :: ids'), p.eo + rowMajor (dims ++ d :: dims') (ids ++ d :: ids'), dims'.prod⟩ := by
  induction dims generalizing pre ids is p with
  | nil =>
    cases is with
    | nil =>
      cases h
      simp only [List.map_nil, List.nil_append]
      rw [strideOffset]
      have hd : (pre ++ d :: dims')[pre.length]? = some d := by simp
      rw [hd]
      simp only
      have hp : pitch (pre ++ d :: dims') pre.length = dims'.prod := by
        rw [pitch_eq]; simp
      have := strideOffset_ids (pre ++ [d]) dims' ids' is' ⟨p.bo, p.eo + d * pitch (pre ++ d :: dims') pre.length, pitch (pre ++ d :: dims') pre.length⟩ h' hl'
      rw [List.append_assoc, List.singleton_append, List.length_append, List.length_singleton] at this
      rw [this, hp]
      simp [rowMajor, Nat.add_assoc]
    | cons => simp at hl
  | cons e ds ih =>
    cases is with
    | nil => simp at hl
    | cons i is =>
      rw [List.zip_cons_cons] at h
      cases h with
      | @cons _ k _ ks hk hks =>
        simp only [List.length_cons, Nat.add_right_cancel_iff] at hl
        simp only at hk
        rw [List.map_cons, List.cons_append (bs := none :: _), strideOffset]
        have hd : (pre ++ (e :: ds ++ d :: dims'))[pre.length]? = some e := by simp
        rw [hd]
        simp only
        rw [hk, Res.ok_bind]
        have hp : pitch (pre ++ (e :: ds ++ d :: dims')) pre.length = (ds ++ d :: dims').prod := by
          rw [pitch_eq]; simp
        rw [hp]
        have := ih (pre ++ [e]) ks is ⟨p.bo + k * (ds ++ d :: dims').prod, p.eo + k * (ds ++ d :: dims').prod, p.stride⟩ hks hl
        rw [List.append_assoc, List.singleton_append, List.length_append, List.length_singleton] at this
        rw [List.cons_append, this]
        simp [rowMajor, Nat.add_assoc]

theorem rowMajor_hole (dims ids ids' : List Nat) (d k : Nat) (dims' : List Nat) (hl : ids.length = dims.length) :
    rowMajor (dims ++ d :: dims') (ids ++ k :: ids') = rowMajor (dims ++ d :: dims') (ids ++ 0 :: ids') + k * dims'.prod := by
  induction dims generalizing ids with
  | nil =>
    cases ids with
    | nil => simp [rowMajor]; ring
    | cons => simp at hl
  | cons e ds ih =>
    cases ids with
    | nil => simp at hl
    | cons i is =>
      simp only [List.length_cons, Nat.add_right_cancel_iff] at hl
      simp only [List.cons_append, rowMajor, ih is hl]
      ring

theorem strideWalk_spec (stride b m n : Nat) (hs : 0 < stride) (hn : m < n) :
    strideWalk stride (b + m * stride) n b = .ok ((List.range m).map fun k => b + k * stride) := by
  induction m generalizing b n with
  | zero =>
    obtain ⟨n, rfl⟩ : ∃ k, n = k + 1 := ⟨n - 1, by omega⟩
    simp [strideWalk]
  | succ m ih =>
    obtain ⟨n, rfl⟩ : ∃ k, n = k + 1 := ⟨n - 1, by omega⟩
    have hne : ¬ b = b + (m + 1) * stride := by
      have : 0 < (m + 1) * stride := Nat.mul_pos (by omega) hs
      omega
    rw [strideWalk, if_neg hne, show b + (m + 1) * stride = (b + stride) + m * stride by ring, ih (b + stride) n (by omega), Res.ok_bind]
    rw [List.range_succ_eq_map, List.map_cons, List.map_map]
    simp only [Nat.zero_mul, Nat.add_zero, Res.ok.injEq, List.cons.injEq, true_and]
    apply List.map_congr_left
    intro k _
    simp only [Function.comp_apply, Nat.succ_eq_add_one]
    ring

/-- C86: with one placeholder at a dimension of size `d` and valid indices elsewhere, the loop visits in order exactly the `d`
elements whose other indices are the given ones (negative indices counting from the end, C04). -/
theorem C86_stride (dims dims' ids ids' : List Nat) (is is' : List Int) (d : Nat)
    (h : List.Forall₂ (fun (di : Nat × Int) k => toIdxSigned di.1 di.2 = .ok k) (dims.zip is) ids) (hl : is.length = dims.length)
    (h' : List.Forall₂ (fun (di : Nat × Int) k => toIdxSigned di.1 di.2 = .ok k) (dims'.zip is') ids') (hl' : is'.length = dims'.length) :
    strideLoop (dims ++ d :: dims') (is.map some ++ none :: is'.map some) =
      .ok ((List.range d).map fun k => rowMajor (dims ++ d :: dims') (ids ++ k :: ids')) ∧
    strideCount (dims ++ d :: dims') (is.map some ++ none :: is'.map some) = .ok d ∧
    ∀ k < d, rowMajor (dims ++ d :: dims') (ids ++ k :: ids') < (dims ++ d :: dims').prod := by
  have inr : ∀ (ds ks : List Nat) (is : List Int), List.Forall₂ (fun (di : Nat × Int) k => toIdxSigned di.1 di.2 = .ok k) (ds.zip is) ks →
      is.length = ds.length → InRange ds ks := by
    intro ds
    induction ds with
    | nil => intro ks is h _; simp at h; subst h; exact .nil
    | cons e ds ih =>
      intro ks is h hl
      cases is with
      | nil => simp at hl
      | cons i is =>
        rw [List.zip_cons_cons] at h
        cases h with
        | cons hk hks => exact .cons (toIdxSigned_lt hk) (ih _ is hks (by simpa using hl))
  have hr := inr dims ids is h hl
  have hr' := inr dims' ids' is' h' hl'
  have hpos : 0 < dims'.prod := by
    have := rowMajor_lt _ _ hr'; omega
  have hone : ((is.map some ++ none :: is'.map some).filter Option.isNone).length = 1 := by
    have hz : ∀ l : List Int, (l.map some).filter Option.isNone = [] := by
      intro l; rw [List.filter_eq_nil_iff]; intro a ha; obtain ⟨b, -, rfl⟩ := List.mem_map.1 ha; simp
    rw [List.filter_append, hz, List.filter_cons_of_pos rfl, hz]; rfl
  have hoff := strideOffset_hole [] dims ids ids' is is' d dims' ⟨0, 0, 1⟩ h hl h' hl'
  simp only [List.nil_append, List.length_nil, Nat.zero_add] at hoff
  have hlen := hr.length_eq
  refine ⟨?_, ?_, ?_⟩
  · unfold strideLoop
    rw [Res.check_pos hone, Res.ok_bind, hoff, Res.ok_bind]
    simp only
    rw [rowMajor_hole dims ids ids' d d dims' hlen, strideWalk_spec _ _ _ _ hpos (by simp; omega)]
    simp only [Res.ok.injEq]
    apply List.map_congr_left
    intro k _
    rw [rowMajor_hole dims ids ids' d k dims' hlen]
  · unfold strideCount
    rw [Res.check_pos hone, Res.ok_bind, hoff, Res.ok_bind]
    simp only
    rw [if_neg (by omega), rowMajor_hole dims ids ids' d d dims' hlen, Nat.add_sub_cancel_left, Nat.mul_div_cancel _ hpos]
  · intro k hk
    apply rowMajor_lt
    unfold InRange
    exact List.rel_append hr (.cons hk hr')

/-- the second column of a 3 by 2 vector, from the end -/
example : strideLoop [3, 2] [none, some (-1)] = .ok [1, 3, 5] := by
  have := (C86_stride [] [2] [] [1] [] [-1] 3 .nil rfl (.cons (by rw [toIdxSigned_eq]; decide) .nil) rfl).1
  simpa [rowMajor, List.range_succ] using this

/-- C86: an index out of range is refused. -/
theorem C86_bad (d e : Nat) (i : Int) (h : (e : Int) ≤ i) : strideLoop [d, e] [none, some i] = .abort := by
  unfold strideLoop
  rw [Res.check_pos (by rfl), Res.ok_bind]
  have : toIdxSigned e i = .abort := by
    rw [toIdxSigned_eq]
    split
    · rfl
    · rw [if_neg (by omega), if_neg (by omega)]
  simp [strideOffset, this]

end Verif.Index
