import Verif.Math.Reduce
import Verif.Find.BoundProps
import Mathlib.Tactic.Linarith
/-!
# Properties C25, C26
-/
namespace Verif.Math
open Verif Verif.Core Verif.Find
variable {α : Type} [LinearOrder α]

/-! ## C25 -/

/-- Spec: `(i, x)` is the position and value of a smallest element, NaN only if all are NaN. -/
def IsMin (v : List (Option α)) (p : Nat × Option α) : Prop :=
  v[p.1]? = some p.2 ∧
  (∀ b, some b ∈ v → ∃ a, p.2 = some a ∧ a ≤ b)

/-- Spec: same for a largest element. -/
def IsMax (v : List (Option α)) (p : Nat × Option α) : Prop :=
  v[p.1]? = some p.2 ∧
  (∀ b, some b ∈ v → ∃ a, p.2 = some a ∧ b ≤ a)

/-- what `std::min_element` returns, for a comparator that is a strict weak order -/
theorem minElementLoop_spec (comp : Option α → Option α → Bool)
    (htr : ∀ a b c, comp a b = false → comp b c = false → comp a c = false)
    (hirr : ∀ a, comp a a = false) (hasym : ∀ a b, comp a b = true → comp b a = false)
    (v : List (Option α)) (res : Nat) (x : Option α) (pre ys : List (Option α))
    (hv : v = pre ++ ys) (hres : pre[res]? = some x) (hmin : ∀ y ∈ pre, comp y x = false)
    (hfirst : ∀ (j : Nat) (y : Option α), j < res → pre[j]? = some y → comp x y = true) :
    v[(minElementLoop comp res x pre.length ys).1]? = some (minElementLoop comp res x pre.length ys).2 ∧
    (∀ y ∈ v, comp y (minElementLoop comp res x pre.length ys).2 = false) ∧
    ∀ (j : Nat) (y : Option α), j < (minElementLoop comp res x pre.length ys).1 → v[j]? = some y →
      comp (minElementLoop comp res x pre.length ys).2 y = true := by
  induction ys generalizing res x pre with
  | nil =>
    simp only [minElementLoop]
    simp only [List.append_nil] at hv
    subst hv
    exact ⟨hres, hmin, hfirst⟩
  | cons y ys ih =>
    have hv' : v = (pre ++ [y]) ++ ys := by simp [hv]
    have hl : pre.length + 1 = (pre ++ [y]).length := by simp
    have hrl : res < pre.length := (List.getElem?_eq_some_iff.1 hres).1
    unfold minElementLoop
    rw [hl]
    by_cases hc : comp y x = true
    · rw [if_pos hc]
      apply ih pre.length y (pre ++ [y]) hv' (by simp)
      · intro z hz
        rcases List.mem_append.1 hz with hz | hz
        · by_contra hzy
          exact absurd (htr y z x (hasym _ _ (by simpa using hzy)) (hmin z hz)) (by simp [hc])
        · simp at hz; subst hz; exact hirr _
      · intro j z hj hz
        rw [List.getElem?_append_left hj] at hz
        by_contra hyz
        have hzm := List.mem_of_getElem? hz
        exact absurd (htr y z x (by simpa using hyz) (hmin z hzm)) (by simp [hc])
    · rw [if_neg hc]
      apply ih res x (pre ++ [y]) hv'
      · rw [List.getElem?_append_left hrl]; exact hres
      · intro z hz
        rcases List.mem_append.1 hz with hz | hz
        · exact hmin z hz
        · simp at hz; subst hz; simpa using hc
      · intro j z hj hz
        rw [List.getElem?_append_left (by omega)] at hz
        exact hfirst j z hj hz

theorem less_ntrans (a b c : Option α) (h1 : FP.less a b = false) (h2 : FP.less b c = false) :
    FP.less a c = false := by
  have := FP.le_trans c b a (by simp [FP.le, h2]) (by simp [FP.le, h1])
  simpa [FP.le] using this

theorem greater_ntrans (a b c : Option α) (h1 : greater a b = false) (h2 : greater b c = false) :
    greater a c = false := by
  cases a <;> cases b <;> cases c <;> simp_all [greater]
  exact le_trans h1 h2

theorem less_asymm (a b : Option α) (h : FP.less a b = true) : FP.less b a = false := by
  have := less_le h; simpa [FP.le] using this

theorem greater_asymm (a b : Option α) (h : greater a b = true) : greater b a = false := by
  cases a <;> cases b <;> simp_all [greater]
  exact le_of_lt h

theorem greater_irrefl (a : Option α) : greater a a = false := by cases a <;> simp [greater]

/-- C25: `min`, `min_id`: a smallest value (NaN only if there is nothing else) and the first
position holding it. -/
theorem C25_min (v : List (Option α)) (h : v ≠ []) :
    ∃ p, vmin v = .ok p ∧ IsMin v p ∧ ∀ (j : Nat) (a : Option α), j < p.1 → v[j]? = some a → a ≠ p.2 := by
  cases v with
  | nil => exact absurd rfl h
  | cons x v =>
    obtain ⟨h1, h2, h3⟩ := minElementLoop_spec FP.less less_ntrans less_irrefl less_asymm (x :: v) 0 x [x] v rfl
      rfl (by simp [less_irrefl]) (by simp)
    refine ⟨_, rfl, ⟨h1, fun b hb => ?_⟩, fun j a hj ha he => ?_⟩
    · have := h2 (some b) hb
      simp only [List.length_singleton] at this
      cases hm : (minElementLoop FP.less 0 x 1 v).2 with
      | none => rw [hm] at this; simp [FP.less] at this
      | some a => rw [hm] at this; exact ⟨a, rfl, by simpa using this⟩
    · have := h3 j a hj ha
      subst he
      rw [List.length_singleton, less_irrefl] at this; simp at this

/-- C25: `max`, `max_id`. -/
theorem C25_max (v : List (Option α)) (h : v ≠ []) :
    ∃ p, vmax v = .ok p ∧ IsMax v p ∧ ∀ (j : Nat) (a : Option α), j < p.1 → v[j]? = some a → a ≠ p.2 := by
  cases v with
  | nil => exact absurd rfl h
  | cons x v =>
    obtain ⟨h1, h2, h3⟩ := minElementLoop_spec greater greater_ntrans greater_irrefl greater_asymm (x :: v) 0 x [x] v rfl
      rfl (by simp [greater_irrefl]) (by simp)
    refine ⟨_, rfl, ⟨h1, fun b hb => ?_⟩, fun j a hj ha he => ?_⟩
    · have := h2 (some b) hb
      simp only [List.length_singleton] at this
      cases hm : (minElementLoop greater 0 x 1 v).2 with
      | none => rw [hm] at this; simp [greater] at this
      | some a => rw [hm] at this; exact ⟨a, rfl, by simpa [greater] using this⟩
    · have := h3 j a hj ha
      subst he
      rw [List.length_singleton, greater_irrefl] at this; simp at this

theorem minmaxLoop_spec (v : List (Option α)) (a b : Nat × α) (pre ys : List (Option α))
    (hv : v = pre ++ ys) (ha : pre[a.1]? = some (some a.2)) (hb : pre[b.1]? = some (some b.2))
    (hmin : ∀ y, some y ∈ pre → a.2 ≤ y ∧ y ≤ b.2)
    (hf : ∀ j, j < a.1 → pre[j]? ≠ some (some a.2)) (hl : ∀ j, b.1 < j → pre[j]? ≠ some (some b.2)) :
    let r := minmaxLoop a b pre.length ys
    v[r.1.1]? = some (some r.1.2) ∧ v[r.2.1]? = some (some r.2.2) ∧
    (∀ y, some y ∈ v → r.1.2 ≤ y ∧ y ≤ r.2.2) ∧
    (∀ j, j < r.1.1 → v[j]? ≠ some (some r.1.2)) ∧ (∀ j, r.2.1 < j → v[j]? ≠ some (some r.2.2)) := by
  induction ys generalizing a b pre with
  | nil =>
    simp only [minmaxLoop]
    simp only [List.append_nil] at hv
    subst hv
    exact ⟨ha, hb, hmin, hf, hl⟩
  | cons y ys ih =>
    have hv' : v = (pre ++ [y]) ++ ys := by simp [hv]
    have hlen : pre.length + 1 = (pre ++ [y]).length := by simp
    have hal := (List.getElem?_eq_some_iff.1 ha).1
    have hbl := (List.getElem?_eq_some_iff.1 hb).1
    have hget : ∀ j, (pre ++ [y])[j]? = if j < pre.length then pre[j]? else if j = pre.length then some y else none := by
      intro j
      by_cases h1 : j < pre.length
      · rw [if_pos h1, List.getElem?_append_left h1]
      · rw [if_neg h1, List.getElem?_append_right (by omega)]
        by_cases h2 : j = pre.length
        · simp [h2]
        · rw [if_neg h2]; simp; omega
    cases y with
    | none =>
      simp only [minmaxLoop]
      rw [hlen]
      apply ih a b (pre ++ [none]) hv'
      · rw [hget, if_pos hal]; exact ha
      · rw [hget, if_pos hbl]; exact hb
      · intro z hz; simp at hz; exact hmin z hz
      · intro j hj; rw [hget, if_pos (by omega)]; exact hf j hj
      · intro j hj; rw [hget]; split
        · exact hl j hj
        · split <;> simp
    | some y =>
      simp only [minmaxLoop]
      rw [hlen]
      have hab : a.2 ≤ b.2 := (hmin a.2 (List.mem_of_getElem? ha)).2
      by_cases h1 : y < a.2
      · rw [if_pos h1]
        apply ih (pre.length, y) b (pre ++ [some y]) hv'
        · simp
        · rw [hget, if_pos hbl]; exact hb
        · intro z hz
          rcases List.mem_append.1 hz with hz | hz
          · exact ⟨le_of_lt (lt_of_lt_of_le h1 (hmin z hz).1), (hmin z hz).2⟩
          · simp at hz; subst hz; exact ⟨le_refl _, le_of_lt (lt_of_lt_of_le h1 hab)⟩
        · intro j hj
          rw [hget, if_pos hj]
          intro he
          have := (hmin y (List.mem_of_getElem? he)).1
          exact absurd (lt_of_lt_of_le h1 this) (lt_irrefl _)
        · intro j hj; rw [hget]; split
          · exact hl j hj
          · split
            · intro he; simp at he; rw [he] at h1
              exact absurd (lt_of_lt_of_le h1 hab) (lt_irrefl _)
            · simp
      · rw [if_neg h1]
        by_cases h2 : ¬ y < b.2
        · rw [if_pos h2]
          have h2' : b.2 ≤ y := not_lt.1 h2
          have h1' : a.2 ≤ y := not_lt.1 h1
          apply ih a (pre.length, y) (pre ++ [some y]) hv'
          · rw [hget, if_pos hal]; exact ha
          · simp
          · intro z hz
            rcases List.mem_append.1 hz with hz | hz
            · exact ⟨(hmin z hz).1, le_trans (hmin z hz).2 h2'⟩
            · simp at hz; subst hz; exact ⟨h1', le_refl _⟩
          · intro j hj; rw [hget, if_pos (by omega)]; exact hf j hj
          · intro j hj
            simp only at hj
            rw [hget, if_neg (by omega), if_neg (by omega)]; simp
        · rw [if_neg h2]
          have h2' : y < b.2 := by simpa using h2
          have h1' : a.2 ≤ y := not_lt.1 h1
          apply ih a b (pre ++ [some y]) hv'
          · rw [hget, if_pos hal]; exact ha
          · rw [hget, if_pos hbl]; exact hb
          · intro z hz
            rcases List.mem_append.1 hz with hz | hz
            · exact hmin z hz
            · simp at hz; subst hz; exact ⟨h1', le_of_lt h2'⟩
          · intro j hj; rw [hget, if_pos (by omega)]; exact hf j hj
          · intro j hj; rw [hget]; split
            · exact hl j hj
            · split
              · intro he; simp at he; rw [he] at h2'; exact lt_irrefl _ h2'
              · simp

theorem minmaxSkip_spec (v : List (Option α)) (pre ys : List (Option α)) (hv : v = pre ++ ys)
    (hp : ∀ y ∈ pre, y = none) :
    match minmaxSkip pre.length ys with
    | none => ∀ y ∈ v, y = none
    | some r => v[r.1.1]? = some (some r.1.2) ∧ v[r.2.1]? = some (some r.2.2) ∧
      (∀ y, some y ∈ v → r.1.2 ≤ y ∧ y ≤ r.2.2) ∧
      (∀ j, j < r.1.1 → v[j]? ≠ some (some r.1.2)) ∧ (∀ j, r.2.1 < j → v[j]? ≠ some (some r.2.2)) := by
  induction ys generalizing pre with
  | nil => simp only [minmaxSkip]; simp at hv; subst hv; exact hp
  | cons y ys ih =>
    have hv' : v = (pre ++ [y]) ++ ys := by simp [hv]
    have hlen : pre.length + 1 = (pre ++ [y]).length := by simp
    cases y with
    | none =>
      simp only [minmaxSkip]
      rw [hlen]
      apply ih (pre ++ [none]) hv'
      intro z hz
      rcases List.mem_append.1 hz with hz | hz
      · exact hp z hz
      · simpa using hz
    | some y =>
      simp only [minmaxSkip]
      rw [hlen]
      apply minmaxLoop_spec v _ _ (pre ++ [some y]) ys hv' (by simp) (by simp)
      · intro z hz
        rcases List.mem_append.1 hz with hz | hz
        · exact absurd (hp _ hz) (by simp)
        · simp at hz; subst hz; exact ⟨le_refl _, le_refl _⟩
      · intro j hj he
        simp only at hj
        rw [List.getElem?_append_left hj] at he
        exact absurd (hp _ (List.mem_of_getElem? he)) (by simp)
      · intro j hj
        simp only at hj
        rw [List.getElem?_eq_none (by simp; omega)]; simp

/-- C25: `minmax` returns positions and values of a smallest and a largest element. -/
theorem C25_minmax (v : List (Option α)) (h : v ≠ []) :
    ∃ p q, minmax v = .ok (p, q) ∧ IsMin v p ∧ IsMax v q := by
  cases v with
  | nil => exact absurd rfl h
  | cons x v =>
    have hs := minmaxSkip_spec (x :: v) [] (x :: v) rfl (by simp)
    simp only [List.length_nil] at hs
    unfold minmax
    cases hm : minmaxSkip 0 (x :: v) with
    | none =>
      rw [hm] at hs
      refine ⟨(0, x), (0, x), by simp only [hm], ⟨rfl, fun b hb => ?_⟩, rfl, fun b hb => ?_⟩ <;>
        exact absurd (hs _ hb) (by simp)
    | some r =>
      obtain ⟨a, b⟩ := r
      rw [hm] at hs
      obtain ⟨h1, h2, h3, -, -⟩ := hs
      exact ⟨(a.1, some a.2), (b.1, some b.2), by simp only [hm], ⟨h1, fun y hy => ⟨_, rfl, (h3 y hy).1⟩⟩, h2, fun y hy => ⟨_, rfl, (h3 y hy).2⟩⟩

/-- the extreme value is unique -/
theorem isMin_unique {v : List (Option α)} {p q : Nat × Option α} (hp : IsMin v p) (hq : IsMin v q) :
    p.2 = q.2 := by
  have h1 := List.mem_of_getElem? hp.1
  have h2 := List.mem_of_getElem? hq.1
  cases hx : p.2 with
  | none =>
    cases hy : q.2 with
    | none => rfl
    | some b => rw [hy] at h2; obtain ⟨a, ha, -⟩ := hp.2 b h2; rw [hx] at ha; simp at ha
  | some a =>
    rw [hx] at h1
    obtain ⟨b, hb, hba⟩ := hq.2 a h1
    rw [hb] at h2
    obtain ⟨a', ha', hab⟩ := hp.2 b h2
    rw [hx] at ha'
    obtain rfl : a = a' := by simpa using ha'
    rw [hb, le_antisymm hab hba]

theorem isMax_unique {v : List (Option α)} {p q : Nat × Option α} (hp : IsMax v p) (hq : IsMax v q) :
    p.2 = q.2 := by
  have h1 := List.mem_of_getElem? hp.1
  have h2 := List.mem_of_getElem? hq.1
  cases hx : p.2 with
  | none =>
    cases hy : q.2 with
    | none => rfl
    | some b => rw [hy] at h2; obtain ⟨a, ha, -⟩ := hp.2 b h2; rw [hx] at ha; simp at ha
  | some a =>
    rw [hx] at h1
    obtain ⟨b, hb, hba⟩ := hq.2 a h1
    rw [hb] at h2
    obtain ⟨a', ha', hab⟩ := hp.2 b h2
    rw [hx] at ha'
    obtain rfl : a = a' := by simpa using ha'
    rw [hb, le_antisymm hba hab]

/-- C25: the values of `minmax` are those of `min` and `max`. -/
theorem C25_agree (v : List (Option α)) (h : v ≠ []) :
    ∃ p q i j, minmax v = .ok (p, q) ∧ vmin v = .ok (i, p.2) ∧ vmax v = .ok (j, q.2) := by
  obtain ⟨p, q, h1, h2, h3⟩ := C25_minmax v h
  obtain ⟨p', e1, e2, -⟩ := C25_min v h
  obtain ⟨q', f1, f2, -⟩ := C25_max v h
  exact ⟨p, q, p'.1, q'.1, h1, by rw [e1, isMin_unique h2 e2], by rw [f1, isMax_unique h3 f2]⟩

/-- Finding: `minmax_ids` gives the last position of the largest value, `max_id` the first. -/
theorem C25_ids_refuted :
    minmax [some 5, some 1, some (5 : Nat)] = .ok ((1, some 1), (2, some 5)) ∧
    vmax [some 5, some 1, some (5 : Nat)] = .ok (0, some 5) := by decide

/-- C25: an empty vector is refused. -/
theorem C25_empty : vmin ([] : List (Option α)) = .abort ∧ vmax ([] : List (Option α)) = .abort ∧
    minmax ([] : List (Option α)) = .abort := ⟨rfl, rfl, rfl⟩

example : vmin [none, some 4, some (2 : Nat), none] = .ok (2, some 2) ∧
  minmax [none, some 4, some (2 : Nat), none] = .ok ((2, some 2), (1, some 4)) ∧
  vmax [none, (none : Option Nat)] = .ok (0, none) := by decide

/-! ## C26 -/

/-- Spec: `a` is the `k`-th smallest (counting from 0) of the non-NaN values of `v`. -/
def IsOrderStat (v : List (Option α)) (k : Nat) (a : α) : Prop :=
  some a ∈ v ∧
  v.countP (fun x => match x with | some b => decide (b < a) | none => false) ≤ k ∧
  k < v.countP (fun x => match x with | some b => decide (b ≤ a) | none => false)

/-- number of non-NaN values -/
def numbers (v : List (Option α)) : Nat := v.countP Option.isSome

theorem isOrderStat_unique {v : List (Option α)} {k : Nat} {a b : α} (ha : IsOrderStat v k a)
    (hb : IsOrderStat v k b) : a = b := by
  have key : ∀ {a b : α}, IsOrderStat v k a → IsOrderStat v k b → ¬ a < b := by
    intro a b ha hb hab
    have : v.countP (fun x => match x with | some c => decide (c ≤ a) | none => false) ≤
        v.countP (fun x => match x with | some c => decide (c < b) | none => false) := by
      apply List.countP_mono_left
      intro x _ hx
      cases x with
      | none => simp at hx
      | some c => simp at hx ⊢; exact lt_of_le_of_lt hx hab
    have h1 := ha.2.2
    have h2 := hb.2.1
    omega
  exact le_antisymm (not_lt.1 (key hb ha)) (not_lt.1 (key ha hb))

theorem countNans_eq (v : List (Option α)) : countNans v + numbers v = v.length := by
  have : ∀ (n : Nat), v.foldl (fun n t => if t.isNone then n + 1 else n) n + numbers v = n + v.length := by
    induction v with
    | nil => simp [numbers]
    | cons x v ih =>
      intro n
      cases x with
      | none =>
        have := ih (n + 1)
        simp only [List.foldl_cons, Option.isNone_none, if_true, numbers, List.countP_cons,
          Option.isSome_none, List.length_cons] at this ⊢
        simp only [Bool.false_eq_true, if_false]
        omega
      | some a =>
        have := ih n
        simp only [List.foldl_cons, Option.isNone_some, numbers, List.countP_cons,
          Option.isSome_some, List.length_cons, Bool.false_eq_true, if_false, if_true] at this ⊢
        omega
  simpa [countNans] using this 0

theorem countP_take_le {β : Type} (p : β → Bool) (l : List β) (k : Nat)
    (h : ∀ i (hi : i < l.length), k ≤ i → p l[i] = false) : l.countP p ≤ k := by
  rw [← List.take_append_drop k l, List.countP_append]
  have h2 : (l.drop k).countP p = 0 := by
    rw [List.countP_eq_zero]
    intro x hx
    obtain ⟨i, hi, rfl⟩ := List.getElem_of_mem hx
    simp only [List.length_drop] at hi
    have := h (k + i) (by omega) (by omega)
    simpa using this
  have h1 : (l.take k).countP p ≤ (l.take k).length := List.countP_le_length
  simp only [List.length_take] at h1
  omega

theorem lt_countP_take {β : Type} (p : β → Bool) (l : List β) (k : Nat) (hk : k < l.length)
    (h : ∀ i (hi : i < l.length), i ≤ k → p l[i] = true) : k < l.countP p := by
  rw [← List.take_append_drop (k + 1) l, List.countP_append]
  have h1 : (l.take (k + 1)).countP p = (l.take (k + 1)).length := by
    rw [List.countP_eq_length]
    intro x hx
    obtain ⟨i, hi, rfl⟩ := List.getElem_of_mem hx
    simp only [List.length_take] at hi
    have := h i (by omega) (by omega)
    simpa using this
  rw [h1, List.length_take]; omega

/-- element `k` of the sorted vector, `k` below the number of non-NaN values -/
theorem nthElement_spec (v : List (Option α)) (k : Nat) (hk : k < numbers v) :
    ∃ a, nthElement v k = .ok (some a) ∧ IsOrderStat v k a := by
  have hp := (C14_inplace_sort v).1
  have hs := inplaceSort_sorted v
  set l := inplaceSort v with hl
  have hkl : k < l.length := by
    have : numbers v ≤ v.length := List.countP_le_length
    rw [hp.length_eq]; omega
  have hord : ∀ i j (hi : i < l.length) (hj : j < l.length), i ≤ j → FP.le l[i] l[j] = true := by
    intro i j hi hj hij
    rcases Nat.lt_or_eq_of_le hij with h | rfl
    · exact List.pairwise_iff_getElem.1 hs i j hi hj h
    · simp [FP.le, less_irrefl]
  have hnum : numbers v = l.countP Option.isSome := (hp.countP_eq _).symm
  cases hx : l[k] with
  | none =>
    exfalso
    have : l.countP Option.isSome ≤ k := by
      apply countP_take_le
      intro i hi hki
      have := hord k i hkl hi hki
      rw [hx] at this
      cases h : l[i] with
      | none => rfl
      | some b => rw [h] at this; simp [FP.le, FP.less] at this
    omega
  | some a =>
    refine ⟨a, by unfold nthElement; rw [← hl, Res.rd_lt hkl, hx], ?_, ?_, ?_⟩
    · exact hp.mem_iff.1 (hx ▸ List.getElem_mem hkl)
    · rw [← hp.countP_eq]
      apply countP_take_le
      intro i hi hki
      have := hord k i hkl hi hki
      rw [hx] at this
      cases h : l[i] with
      | none => simp
      | some b => rw [h] at this; simpa using this
    · rw [← hp.countP_eq]
      apply lt_countP_take _ _ _ hkl
      intro i hi hki
      have := hord i k hi hkl hki
      rw [hx] at this
      cases h : l[i] with
      | none => rw [h] at this; simp [FP.le, FP.less] at this
      | some b => rw [h] at this; simpa using this

theorem nan_iff (v : List (Option α)) : countNans v = v.length ↔ numbers v = 0 := by
  have := countNans_eq v; omega

/-- C26: `median` is element `m/2` of the `m` sorted non-NaN values; NaN iff `m = 0`. -/
theorem C26_median (v : List (Option α)) (h : v ≠ []) :
    (numbers v = 0 ∧ median v = .ok none) ∨
    (0 < numbers v ∧ ∃ a, median v = .ok (some a) ∧ IsOrderStat v (numbers v / 2) a) := by
  unfold median
  rw [Res.check_pos h, Res.ok_bind]
  simp only
  by_cases h0 : countNans v = v.length
  · rw [if_pos h0]; exact .inl ⟨(nan_iff v).1 h0, rfl⟩
  · rw [if_neg h0]
    have hc := countNans_eq v
    have hpos : 0 < numbers v := by omega
    rw [show v.length - countNans v = numbers v by omega]
    exact .inr ⟨hpos, nthElement_spec v _ (by omega)⟩

/-- C26: the order of the elements does not matter. -/
theorem C26_median_perm (v w : List (Option α)) (h : v.Perm w) : median v = median w := by
  have hn : numbers v = numbers w := h.countP_eq _
  by_cases hv : v = []
  · subst hv; rw [List.nil_perm.1 h]
  · have hw : w ≠ [] := by rintro rfl; exact hv (List.perm_nil.1 h)
    rcases C26_median v hv with ⟨h1, h2⟩ | ⟨h1, a, h2, h3⟩ <;>
    rcases C26_median w hw with ⟨g1, g2⟩ | ⟨g1, b, g2, g3⟩
    · rw [h2, g2]
    · omega
    · omega
    · have : IsOrderStat v (numbers v / 2) b := by
        refine ⟨h.mem_iff.2 g3.1, ?_, ?_⟩
        · rw [h.countP_eq, hn]; exact g3.2.1
        · rw [h.countP_eq, hn]; exact g3.2.2
      rw [h2, g2, isOrderStat_unique h3 this]

theorem rat_floor_eq {t : ℚ} {z : Int} : t.floor = z ↔ (z : ℚ) ≤ t ∧ t < ((z + 1 : Int) : ℚ) := by
  rw [← Rat.le_floor_iff, ← Rat.floor_lt_iff]; omega

theorem clampIndex_mid (t : ℚ) (hi k : Nat) (h1 : (k : ℚ) ≤ t) (h2 : t < k + 1) (h3 : k ≤ hi) :
    clampIndex t hi = k := by
  unfold clampIndex
  have h0 : (0 : ℚ) ≤ k := Nat.cast_nonneg k
  rw [if_neg (by linarith)]
  have hf : t.floor = (k : Int) := by
    rw [rat_floor_eq]
    constructor <;> push_cast <;> linarith
  by_cases hc : t > hi
  · rw [if_pos hc]
    have : (hi : ℚ) < k + 1 := lt_trans hc h2
    have hk : hi < k + 1 := by exact_mod_cast this
    have : hi = k := by omega
    subst this
    have : ((hi : ℚ)).floor = (hi : Int) := by
      rw [rat_floor_eq]; constructor <;> push_cast <;> linarith
    rw [this]; simp
  · rw [if_neg hc, hf]; simp

/-- C26: `percentile(v, u)` for `0 ≤ u < 1` is element `⌊m*u⌋` of the `m` sorted non-NaN values;
NaN iff `m = 0`. -/
theorem C26_percentile_partial (v : List (Option α)) (h : v ≠ []) (u : ℚ) (h0 : 0 ≤ u) (h1 : u < 1) :
    (numbers v = 0 ∧ percentile v u = .ok none) ∨
    (0 < numbers v ∧ ∃ (k : Nat) (a : α), (k : ℚ) ≤ numbers v * u ∧ (numbers v : ℚ) * u < k + 1 ∧
      percentile v u = .ok (some a) ∧ IsOrderStat v k a) := by
  unfold percentile
  rw [Res.check_pos h, Res.ok_bind]
  simp only
  by_cases hz : countNans v = v.length
  · rw [if_pos hz]; exact .inl ⟨(nan_iff v).1 hz, rfl⟩
  · rw [if_neg hz]
    have hc := countNans_eq v
    have hpos : 0 < numbers v := by omega
    rw [show v.length - countNans v = numbers v by omega]
    right
    refine ⟨hpos, ?_⟩
    have hmu : (0 : ℚ) ≤ (numbers v : ℚ) * u := mul_nonneg (Nat.cast_nonneg _) h0
    have hfl : (0 : Int) ≤ ((numbers v : ℚ) * u).floor := by
      rw [Rat.le_floor_iff]; simpa using hmu
    obtain ⟨k, hk⟩ := Int.eq_ofNat_of_zero_le hfl
    have hk1 : (k : ℚ) ≤ (numbers v : ℚ) * u := by
      have := (rat_floor_eq).1 hk; exact_mod_cast this.1
    have hk2 : (numbers v : ℚ) * u < k + 1 := by
      have := (rat_floor_eq).1 hk; exact_mod_cast this.2
    have hkm : k < numbers v := by
      have hp : (0 : ℚ) < numbers v := by exact_mod_cast hpos
      have : (k : ℚ) < numbers v := lt_of_le_of_lt hk1 (by nlinarith)
      exact_mod_cast this
    obtain ⟨a, ha1, ha2⟩ := nthElement_spec v k hkm
    refine ⟨k, a, hk1, hk2, ?_, ha2⟩
    rw [clampIndex_mid _ _ k hk1 hk2 (by omega)]
    exact ha1

/-- C26: `percentile(v, 1)` without NaN is the largest value. -/
theorem C26_percentile_one_partial (v : List (Option α)) (h : v ≠ []) (hn : numbers v = v.length) :
    ∃ a, percentile v 1 = .ok (some a) ∧ IsOrderStat v (numbers v - 1) a := by
  have hl := List.length_pos_iff.2 h
  unfold percentile
  rw [Res.check_pos h, Res.ok_bind]
  have hc := countNans_eq v
  have h0 : countNans v = 0 := by omega
  simp only [h0]
  rw [if_neg (by omega)]
  have : clampIndex (((v.length - 0 : Nat) : ℚ) * 1) (v.length - 1) = v.length - 1 := by
    unfold clampIndex
    have hp : (0 : ℚ) ≤ (v.length : ℚ) := Nat.cast_nonneg _
    have hgt : ((v.length - 1 : Nat) : ℚ) < (v.length : ℚ) := by exact_mod_cast (by omega : v.length - 1 < v.length)
    simp only [Nat.sub_zero, mul_one]
    rw [if_neg (by linarith), if_pos hgt]
    have : ((v.length - 1 : Nat) : ℚ).floor = ((v.length - 1 : Nat) : Int) := by
      rw [rat_floor_eq]; constructor <;> push_cast <;> linarith
    rw [this]; simp
  rw [this, hn]
  exact nthElement_spec v _ (by omega)

/-- Finding: with a NaN in the vector, `percentile(v, 1)` is NaN although numbers exist. -/
theorem C26_percentile_nan_refuted :
    percentile [some 3, (none : Option Nat)] 1 = .ok none := by
  have h1 : inplaceSort [some 3, (none : Option Nat)] = [some 3, none] := by
    simp [inplaceSort, List.mergeSort, List.merge, FP.le, FP.less]
  have h2 : countNans [some 3, (none : Option Nat)] = 1 := by decide
  have h3 : clampIndex 1 1 = 1 := by
    apply clampIndex_mid <;> norm_num
  unfold percentile nthElement
  rw [h1]
  simp [h2, h3, Res.rd]

/-- C26: an empty vector is refused. -/
theorem C26_empty (u : ℚ) (us : List ℚ) : median ([] : List (Option α)) = .abort ∧
    percentile ([] : List (Option α)) u = .abort ∧ percentiles ([] : List (Option α)) us = .abort :=
  ⟨rfl, rfl, rfl⟩

/-- C26: `percentiles` computes each one like `percentile`. -/
theorem C26_percentiles (v : List (Option α)) (h : v ≠ []) (us : List ℚ) :
    percentiles v us = us.mapM (percentile v) := by
  unfold percentiles
  rw [Res.check_pos h, Res.ok_bind]
  simp only
  congr 1
  funext u
  unfold percentile
  rw [Res.check_pos h, Res.ok_bind]
  simp only
  by_cases hz : countNans v = v.length
  · rw [if_pos hz]
    have hall : ∀ x ∈ v, x = none := by
      intro x hx
      have h0 := (nan_iff v).1 hz
      unfold numbers at h0
      rw [List.countP_eq_zero] at h0
      have := h0 x hx
      cases x with
      | none => rfl
      | some a => simp at this
    have hp := (C14_inplace_sort v).1
    have hl : clampIndex (((v.length - countNans v : Nat) : ℚ) * u) (v.length - 1) = 0 := by
      rw [hz]
      simp only [Nat.sub_self, Nat.cast_zero, zero_mul]
      apply clampIndex_mid <;> norm_num
    rw [hl]
    have hpos : 0 < (inplaceSort v).length := by rw [hp.length_eq]; exact List.length_pos_iff.2 h
    unfold nthElement
    rw [Res.rd_lt hpos, hall _ (hp.mem_iff.1 (List.getElem_mem hpos))]
  · rw [if_neg hz]

example : IsOrderStat [some 7, none, some 3, some (5 : Nat), none] 1 5 := by
  unfold IsOrderStat; decide

end Verif.Math
