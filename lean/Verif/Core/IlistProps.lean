import Verif.Core.Ilist
import Verif.Index.Lemmas
/-!
# Property C72 (nested initializer lists)
-/
namespace Verif.Core
open Verif Verif.Index

/-- Spec: all the lists of a level have the size given for that level. -/
def Rect {α : Type} : (n : Nat) → List Nat → Nest α n → Prop
  | 0, dims, _ => dims = []
  | _ + 1, [], _ => False
  | n + 1, d :: ds, il => (Nest.items il).length = d ∧ ∀ x ∈ Nest.items il, Rect n ds x

/-- Spec: the leaf at the given position. -/
def leaf {α : Type} : (n : Nat) → Nest α n → List Nat → Option α
  | 0, a, _ => some a
  | _ + 1, _, [] => none
  | n + 1, il, i :: is =>
    match (Nest.items il)[i]? with
    | none => none
    | some x => leaf n x is

/-! ### helpers -/

/-- the leaves from left to right -/
def leaves {α : Type} : (n : Nat) → Nest α n → List α
  | 0, a => [a]
  | n + 1, il => (Nest.items il).flatMap (leaves n)

theorem leaves_length {α : Type} (n : Nat) (dims : List Nat) (il : Nest α n) (h : Rect n dims il) :
    (leaves n il).length = dims.prod := by
  induction n generalizing dims with
  | zero => simp only [Rect] at h; subst h; rfl
  | succ n ih =>
    cases dims with
    | nil => exact h.elim
    | cons d ds =>
      obtain ⟨h1, h2⟩ := h
      simp only [leaves]
      rw [List.prod_cons, ← h1]
      clear h1
      generalize hl : Nest.items il = l at *
      clear hl
      induction l with
      | nil => simp
      | cons x l ih2 =>
        rw [List.flatMap_cons, List.length_append, ih ds x (h2 x (by simp)), ih2 fun y hy => h2 y (by simp [hy])]
        rw [List.length_cons, Nat.add_mul]; omega

/-- the elements `ls` written over `data` at `idx` -/
def overwrite {α : Type} (data : List α) (idx : Nat) (ls : List α) : List α :=
  data.take idx ++ ls ++ data.drop (idx + ls.length)

theorem overwrite_length {α : Type} (data : List α) (idx : Nat) (ls : List α) (h : idx + ls.length ≤ data.length) :
    (overwrite data idx ls).length = data.length := by
  simp [overwrite]; omega

theorem overwrite_nil {α : Type} (data : List α) (idx : Nat) : overwrite data idx [] = data := by
  simp [overwrite]

theorem overwrite_append {α : Type} (data : List α) (idx : Nat) (a b : List α) (h : idx + a.length + b.length ≤ data.length) :
    overwrite (overwrite data idx a) (idx + a.length) b = overwrite data idx (a ++ b) := by
  unfold overwrite
  have hl : (data.take idx ++ a).length = idx + a.length := by simp; omega
  rw [← hl, List.take_left]
  have : (data.take idx ++ a ++ data.drop (data.take idx ++ a).length).drop ((data.take idx ++ a).length + b.length) =
      data.drop ((data.take idx ++ a).length + b.length) := by
    rw [← List.drop_drop, List.drop_left, List.drop_drop]
  rw [this, hl]
  simp [Nat.add_assoc]

theorem store_ok {α : Type} (a : α) (data : List α) (idx : Nat) (h : idx < data.length) :
    store a (data, idx) = .ok (overwrite data idx [a], idx + 1) := by
  unfold store
  rw [if_pos h]
  simp only [overwrite, Res.ok.injEq, Prod.mk.injEq, and_true]
  rw [List.set_eq_take_append_cons_drop, if_pos h]
  simp

theorem fillN_spec {α : Type} (n : Nat) : ∀ (dims : List Nat) (il : Nest α n) (data : List α) (idx : Nat),
    dims.length = n → idx + dims.prod ≤ data.length →
    (Rect n dims il → fillN n dims il (data, idx) = .ok (overwrite data idx (leaves n il), idx + dims.prod)) ∧
    (¬ Rect n dims il → fillN n dims il (data, idx) = .abort) := by
  induction n with
  | zero =>
    intro dims il data idx hd hle
    have : dims = [] := by simpa using hd
    subst this
    refine ⟨fun _ => ?_, fun h => absurd rfl h⟩
    rw [List.prod_nil] at hle ⊢
    exact store_ok (α := α) il data idx (Nat.lt_of_succ_le hle)
  | succ n ih =>
    intro dims il data idx hd hle
    cases dims with
    | nil => simp at hd
    | cons d ds =>
      have hds : ds.length = n := by simpa using hd
      have hf : fillN (n + 1) (d :: ds) il (data, idx) = (do
          Res.check ((Nest.items il).length = d)
          (Nest.items il).foldlM (fun s x => fillN n ds x s) (data, idx)) := rfl
      rw [hf]
      clear hf
      by_cases hlen : (Nest.items il).length = d
      · rw [Res.check_pos hlen, Res.ok_bind]
        rw [List.prod_cons, ← hlen] at hle
        simp only [Rect, hlen, true_and, leaves]
        rw [List.prod_cons, ← hlen]
        clear hlen hd
        generalize hl : Nest.items il = l at *
        clear hl
        induction l generalizing data idx with
        | nil =>
          refine ⟨fun _ => ?_, fun h => absurd (by simp) h⟩
          simp [overwrite_nil]
        | cons x l ih2 =>
          rw [List.length_cons, Nat.add_mul, Nat.one_mul] at hle
          obtain ⟨g1, g2⟩ := ih ds x data idx hds (by omega)
          rw [List.foldlM_cons]
          by_cases hx : Rect n ds x
          · have hxl := leaves_length n ds x hx
            rw [g1 hx, Res.ok_bind]
            have hle2 : idx + ds.prod + l.length * ds.prod ≤ (overwrite data idx (leaves n x)).length := by
              rw [overwrite_length _ _ _ (by omega)]; omega
            obtain ⟨k1, k2⟩ := ih2 (overwrite data idx (leaves n x)) (idx + ds.prod) hle2
            constructor
            · intro h
              have hl : ∀ y ∈ l, Rect n ds y := fun y hy => h y (by simp [hy])
              rw [k1 hl]
              have hll : (l.flatMap (leaves n)).length = l.length * ds.prod := by
                have := leaves_length (n + 1) (l.length :: ds) (show Nest α (n + 1) from l) ⟨rfl, hl⟩
                rw [List.prod_cons] at this
                exact this
              rw [← hxl, overwrite_append _ _ _ _ (by rw [hxl, hll]; omega)]
              simp only [List.flatMap_cons, Res.ok.injEq, Prod.mk.injEq, true_and]
              rw [List.length_cons, Nat.add_mul]; omega
            · intro h
              refine k2 fun hl => h ?_
              intro y hy
              rcases List.mem_cons.1 hy with rfl | hy
              · exact hx
              · exact hl y hy
          · rw [g2 hx]
            exact ⟨fun h => absurd (h x (by simp)) hx, fun _ => rfl⟩
      · rw [Res.check_neg hlen]
        exact ⟨fun h => absurd h.1 hlen, fun _ => rfl⟩

theorem overwrite_all {α : Type} (data ls : List α) (h : ls.length = data.length) : overwrite data 0 ls = ls := by
  simp [overwrite, h]

/-- the leaves are stored in row-major order -/
theorem leaves_getElem {α : Type} (n : Nat) : ∀ (dims : List Nat) (il : Nest α n) (ids : List Nat), Rect n dims il →
    InRange dims ids → (leaves n il)[rowMajor dims ids]? = leaf n il ids ∧ (leaf n il ids).isSome = true := by
  induction n with
  | zero =>
    intro dims il ids h hr
    simp only [Rect] at h
    subst h
    cases hr
    exact ⟨rfl, rfl⟩
  | succ n ih =>
    intro dims il ids h hr
    cases dims with
    | nil => exact h.elim
    | cons d ds =>
      cases hr with
      | @cons i _ is _ hi hr =>
        obtain ⟨h1, h2⟩ := h
        simp only [leaf, leaves, rowMajor]
        generalize hl : Nest.items il = l at *
        clear hl il
        have hil : i < l.length := by omega
        rw [List.getElem?_eq_getElem hil]
        simp only
        obtain ⟨g1, g2⟩ := ih ds l[i] is (h2 _ (List.getElem_mem hil)) hr
        refine ⟨?_, g2⟩
        rw [← g1]
        have hlt := rowMajor_lt ds is hr
        clear g1 g2 h1 hi
        induction l generalizing i with
        | nil => simp at hil
        | cons x l ih2 =>
          have hx := leaves_length n ds x (h2 x (by simp))
          rw [List.flatMap_cons]
          cases i with
          | zero =>
            rw [List.getElem?_append_left (by rw [hx]; omega)]
            simp
          | succ i =>
            rw [List.getElem?_append_right (by rw [hx, Nat.add_mul]; omega)]
            have := ih2 (fun y hy => h2 y (by simp [hy])) (by simpa using hil)
            rw [List.getElem_cons_succ, ← this, hx]
            congr 1
            rw [Nat.add_mul]; omega

theorem firstDims_rect {α : Type} (n : Nat) : ∀ (dims : List Nat) (il : Nest α n), Rect n dims il → (∀ d ∈ dims, d ≠ 0) →
    firstDims n il = some dims := by
  induction n with
  | zero => intro dims il h _; simp only [Rect] at h; subst h; rfl
  | succ n ih =>
    intro dims il h hp
    cases dims with
    | nil => exact h.elim
    | cons d ds =>
      obtain ⟨h1, h2⟩ := h
      simp only [firstDims]
      generalize Nest.items il = l at *
      cases l with
      | nil => exact absurd h1.symm (hp d (by simp))
      | cons x l =>
        simp only
        rw [ih ds x (h2 x (by simp)) fun e he => hp e (by simp [he]), h1]
        rfl

theorem firstDims_spec {α : Type} (n : Nat) : ∀ (dims : List Nat) (il : Nest α n), firstDims n il = some dims →
    dims.length = n ∧ ∀ d ∈ dims, d ≠ 0 := by
  induction n with
  | zero => intro dims il h; simp only [firstDims, Option.some.injEq] at h; subst h; simp
  | succ n ih =>
    intro dims il h
    simp only [firstDims] at h
    split at h
    · simp at h
    · rename_i x xs _
      rw [Option.map_eq_some_iff] at h
      obtain ⟨ds, h1, h2⟩ := h
      obtain ⟨h3, h4⟩ := ih ds x h1
      subst h2
      refine ⟨by simp [h3], ?_⟩
      intro d hd
      rcases List.mem_cons.1 hd with rfl | hd
      · simp
      · exact h4 d hd

theorem prod_ne_zero (l : List Nat) (h : ∀ d ∈ l, d ≠ 0) : l.prod ≠ 0 := by
  induction l with
  | nil => simp
  | cons a l ih =>
    rw [List.prod_cons]
    exact Nat.mul_ne_zero (h a (by simp)) (ih fun d hd => h d (by simp [hd]))

/-! ### C72 -/

/-- C72: a rectangular nested list without empty lists gives a vector with the dimensions of the nesting,
whose element at each position is the leaf at that position. -/
theorem C72_rect {α : Type} (dflt : α) (n : Nat) (dims : List Nat) (il : Nest α n) (h : Rect n dims il) (hp : ∀ d ∈ dims, d ≠ 0) :
    ∃ data, fromNest dflt n il = .ok (dims, data) ∧ data.length = dims.prod ∧
      ∀ ids, InRange dims ids → ∃ a, leaf n il ids = some a ∧ data[rowMajor dims ids]? = some a := by
  have h1 := firstDims_rect n dims il h hp
  have h2 := firstDims_spec n dims il h1
  have hlen := leaves_length n dims il h
  refine ⟨leaves n il, ?_, hlen, ?_⟩
  · have hd : setDim n il = dims := by simp [setDim, h1]
    unfold fromNest
    simp only [hd]
    rw [if_neg]
    · rw [(fillN_spec n dims il (List.replicate dims.prod dflt) 0 h2.1 (by simp)).1 h, Res.ok_bind,
        overwrite_all _ _ (by simp [hlen])]
    · have := prod_ne_zero dims hp
      simpa using this
  · intro ids hr
    obtain ⟨h3, h4⟩ := leaves_getElem n dims il ids h hr
    obtain ⟨a, ha⟩ := Option.isSome_iff_exists.1 h4
    exact ⟨a, ha, by rw [h3, ha]⟩

/-- C72, with the hypothesis that the first list of every level is not empty: if the lists of some level do not all
have the same size, the construction stops with an error. -/
theorem C72_ragged_partial {α : Type} (dflt : α) (n : Nat) (il : Nest α n) (hne : firstDims n il ≠ none)
    (h : ∀ dims, ¬ Rect n dims il) : fromNest dflt n il = .abort := by
  obtain ⟨dims, h1⟩ := Option.ne_none_iff_exists'.1 hne
  have h2 := firstDims_spec n dims il h1
  have hd : setDim n il = dims := by simp [setDim, h1]
  unfold fromNest
  simp only [hd]
  rw [if_neg]
  · rw [(fillN_spec n dims il (List.replicate dims.prod dflt) 0 h2.1 (by simp)).2 (h dims)]
    rfl
  · have := prod_ne_zero dims h2.2
    simpa using this

/-- C72 is false when the first list is empty: lists of different sizes are accepted and the elements of the others
are silently lost. -/
theorem C72_ragged_refuted : (∀ dims, ¬ Rect 2 dims ([[], [7]] : List (List Nat))) ∧
    fromNest 0 2 ([[], [7]] : List (List Nat)) = .ok ([0, 0], []) := by
  constructor
  · intro dims h
    match dims, h with
    | _ :: _ :: _, ⟨_, h⟩ =>
      obtain ⟨h1, -⟩ := h ([] : List Nat) (List.mem_cons_self ..)
      obtain ⟨h2, -⟩ := h ([7] : List Nat) (List.mem_cons_of_mem _ (List.mem_cons_self ..))
      have h3 := h1.trans h2.symm
      exact absurd (show 0 = 1 from h3) (by decide)
    | [_], ⟨_, h⟩ => exact h ([] : List Nat) (List.mem_cons_self ..)
  · decide

/-- C72 for views: the assignment of a nested list to a view needs lists of exactly the sizes of the view, and
then writes each leaf at its position; otherwise it stops with an error. -/
theorem C72_view {α : Type} (n : Nat) (dims : List Nat) (data : List α) (il : Nest α n) (hd : dims.length = n)
    (hl : data.length = dims.prod) :
    (Rect n dims il → ∃ r, assignNest n dims data il = .ok r ∧ r.length = data.length ∧
      ∀ ids, InRange dims ids → ∃ a, leaf n il ids = some a ∧ r[rowMajor dims ids]? = some a) ∧
    (¬ Rect n dims il → assignNest n dims data il = .abort) := by
  obtain ⟨h1, h2⟩ := fillN_spec n dims il data 0 hd (by omega)
  constructor
  · intro h
    have hlen := leaves_length n dims il h
    refine ⟨leaves n il, ?_, by omega, ?_⟩
    · unfold assignNest
      rw [h1 h, Res.ok_bind, overwrite_all _ _ (by omega)]
    · intro ids hr
      obtain ⟨h3, h4⟩ := leaves_getElem n dims il ids h hr
      obtain ⟨a, ha⟩ := Option.isSome_iff_exists.1 h4
      exact ⟨a, ha, by rw [h3, ha]⟩
  · intro h
    unfold assignNest
    rw [h2 h]
    rfl

example : fromNest 0 2 ([[1, 2, 3], [4, 5, 6]] : List (List Nat)) = .ok ([2, 3], [1, 2, 3, 4, 5, 6]) := by decide
example : fromNest 0 2 ([[1, 2, 3], [4]] : List (List Nat)) = .abort := by decide
example : Rect 2 [1, 2] ([[8, 9]] : List (List Nat)) := by
  refine ⟨rfl, ?_⟩
  intro x hx
  obtain rfl : x = ([8, 9] : List Nat) := List.mem_singleton.1 hx
  exact ⟨rfl, fun _ _ => rfl⟩

end Verif.Core
