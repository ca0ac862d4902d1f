import Verif.Math.MinMax
import Verif.Core.VectorizeProps
import Mathlib.Order.Defs.LinearOrder
import Mathlib.Tactic.NormNum
import Mathlib.Tactic.Linarith
/-!
# C170: smaller and larger of two values, element by element
-/
namespace Verif.Math
open Verif Verif.Core Verif.Core.Vectorize
variable {α β γ : Type}

theorem fillLoop_ok {e : Nat → Res α} {y : Nat → α} (n : Nat)
    (h : ∀ i < n, e i = .ok (y i)) (r : List α) (hr : r.length = n) :
    fillLoop e (List.range n) r = .ok ((List.range n).map y) := by
  have key : ∀ m k (r : List α), r.length = n → m + k = n →
      (∀ i, i < k → r[i]? = some (y i)) →
      fillLoop e (List.range' k m) r = .ok ((List.range n).map y) := by
    intro m
    induction m with
    | zero =>
      intro k r hl hk h2
      simp only [List.range'_zero, fillLoop]
      congr 1
      apply List.ext_getElem?
      intro i
      by_cases hi : i < k
      · rw [h2 i hi]; simp [show i < n by omega]
      · rw [List.getElem?_eq_none (by omega), List.getElem?_eq_none (by simp; omega)]
    | succ m ih =>
      intro k r hl hk h2
      rw [List.range'_succ]
      simp only [fillLoop]
      rw [h k (by omega), Res.ok_bind, wr, if_pos (by omega), Res.ok_bind]
      apply ih
      · simpa using hl
      · omega
      · intro i hi
        by_cases hik : i = k
        · subst hik; rw [List.getElem?_set_self (by omega)]
        · rw [List.getElem?_set_ne (by omega)]; exact h2 i (by omega)
  have := key n 0 r hr (by omega) (by omega)
  rwa [← List.range_eq_range'] at this

section general
variable [Inhabited α] {op : γ → γ → γ} {c1 : α → γ} {c2 : β → γ} {back : γ → Res α}

/-- The value computed for one pair of elements. -/
theorem pickVV_ok {v1 : Vec α} {v2 : Vec β} (g : α → β → α) (w1 : Whole v1) (w2 : Whole v2)
    (hd : v1.dims = v2.dims) (h : ∀ a ∈ v1.data, ∀ b ∈ v2.data, back (op (c1 a) (c2 b)) = .ok (g a b)) :
    pickVV op c1 c2 back v1 v2 = .ok ⟨List.zipWith g v1.data v2.data, v1.dims⟩ := by
  have hl : v1.data.length = v2.data.length := by rw [w1, w2, hd]
  unfold pickVV
  rw [Res.check_pos hd, Res.ok_bind]
  cases hv : v1.data with
  | nil =>
    have : v1.dims.prod = 0 := by rw [← w1, hv]; rfl
    simp [fillLoop, this]
  | cons a l1 =>
    cases hv2 : v2.data with
    | nil => rw [hv, hv2] at hl; simp at hl
    | cons b l2 =>
    rw [← hv, ← hv2]
    rw [fillLoop_ok (y := fun i => g (v1.data.getD i a) (v2.data.getD i b)) _ _ _ (by simpa using w1.symm),
      Res.ok_bind, zip_range hl]
    intro i hi
    have h2 : i < v2.data.length := by omega
    simp only [Res.rd_lt hi, Res.rd_lt h2, Res.ok_bind]
    rw [h _ (List.getElem_mem _) _ (List.getElem_mem _)]; simp [hi, h2]

theorem pickVS_ok {v1 : Vec α} {b : β} (g : α → β → α) (w1 : Whole v1)
    (h : ∀ a ∈ v1.data, back (op (c1 a) (c2 b)) = .ok (g a b)) :
    pickVS op c1 c2 back v1 b = .ok ⟨v1.data.map (g · b), v1.dims⟩ := by
  unfold pickVS
  cases hv : v1.data with
  | nil =>
    have : v1.dims.prod = 0 := by rw [← w1, hv]; rfl
    simp [fillLoop, this]
  | cons a l1 =>
    rw [← hv]
    rw [fillLoop_ok (y := fun i => g (v1.data.getD i a) b) _ _ _ (by simpa using w1.symm), Res.ok_bind]
    · congr 2
      apply List.ext_getElem?
      intro i
      by_cases hi : i < v1.data.length
      · simp [hi]
      · rw [List.getElem?_eq_none (by simp; omega), List.getElem?_eq_none (by simp; omega)]
    · intro i hi
      simp only [Res.rd_lt hi, Res.ok_bind]
      rw [h _ (List.getElem_mem _)]; simp [hi]

theorem pickSV_ok {a : α} {v2 : Vec β} (g : α → β → α) (w2 : Whole v2)
    (h : ∀ b ∈ v2.data, back (op (c1 a) (c2 b)) = .ok (g a b)) :
    pickSV op c1 c2 back a v2 = .ok ⟨v2.data.map (g a), v2.dims⟩ := by
  unfold pickSV
  cases hv : v2.data with
  | nil =>
    have : v2.dims.prod = 0 := by rw [← w2, hv]; rfl
    simp [fillLoop, this]
  | cons b l1 =>
    rw [← hv]
    rw [fillLoop_ok (y := fun i => g a (v2.data.getD i b)) _ _ _ (by simpa using w2.symm), Res.ok_bind]
    · congr 2
      apply List.ext_getElem?
      intro i
      by_cases hi : i < v2.data.length
      · simp [hi]
      · rw [List.getElem?_eq_none (by simp; omega), List.getElem?_eq_none (by simp; omega)]
    · intro i hi
      simp only [Res.rd_lt hi, Res.ok_bind]
      rw [h _ (List.getElem_mem _)]; simp [hi]

/-- **C170 (mismatch).** Vectors of different dimensions are refused. -/
theorem C170_mismatch {v1 : Vec α} {v2 : Vec β} (hd : v1.dims ≠ v2.dims) :
    pickVV op c1 c2 back v1 v2 = .abort := by
  unfold pickVV; rw [Res.check_neg hd]; rfl
end general

section same
variable {K : Type} [LinearOrder K]

/-- **C170 (numbers of one type).** For scalars, vectors and mixtures of them, of the same type and
without NaN, `min` and `max` give the smaller and the larger of the two numbers of each position,
with the dimensions of the vector(s). -/
theorem C170_same_partial [Inhabited K] :
    (∀ a b : K, scalarMin fltLt (some a) (some b) = some (min a b) ∧
      scalarMax fltLt (some a) (some b) = some (max a b)) ∧
    (∀ (x y : List K) (d : List Nat), x.length = d.prod → y.length = d.prod →
      pickVV (stdMin fltLt) id id .ok ⟨x.map some, d⟩ ⟨y.map some, d⟩ = .ok ⟨(List.zipWith min x y).map some, d⟩ ∧
      pickVV (stdMax fltLt) id id .ok ⟨x.map some, d⟩ ⟨y.map some, d⟩ = .ok ⟨(List.zipWith max x y).map some, d⟩) ∧
    (∀ (x : List K) (d : List Nat) (s : K), x.length = d.prod →
      pickVS (stdMin fltLt) id id .ok ⟨x.map some, d⟩ (some s) = .ok ⟨x.map fun t => some (min t s), d⟩ ∧
      pickVS (stdMax fltLt) id id .ok ⟨x.map some, d⟩ (some s) = .ok ⟨x.map fun t => some (max t s), d⟩ ∧
      pickSV (stdMin fltLt) id id .ok (some s) ⟨x.map some, d⟩ = .ok ⟨x.map fun t => some (min t s), d⟩ ∧
      pickSV (stdMax fltLt) id id .ok (some s) ⟨x.map some, d⟩ = .ok ⟨x.map fun t => some (max t s), d⟩) := by
  have e1 : ∀ a b : K, stdMin fltLt (some a) (some b) = some (min a b) := by
    intro a b; simp only [stdMin, fltLt, decide_eq_true_eq]
    split_ifs with h
    · rw [min_eq_right h.le]
    · rw [min_eq_left (not_lt.1 h)]
  have e2 : ∀ a b : K, stdMax fltLt (some a) (some b) = some (max a b) := by
    intro a b; simp only [stdMax, fltLt, decide_eq_true_eq]
    split_ifs with h
    · rw [max_eq_right h.le]
    · rw [max_eq_left (not_lt.1 h)]
  refine ⟨?_, ?_, ?_⟩
  · intro a b
    simp only [scalarMin, scalarMax, fltLt, decide_eq_true_eq]
    constructor
    · split_ifs with h
      · rw [min_eq_left h.le]
      · rw [min_eq_right (not_lt.1 h)]
    · split_ifs with h
      · rw [max_eq_left h.le]
      · rw [max_eq_right (not_lt.1 h)]
  · intro x y d hx hy
    have z : ∀ (o : Option K → Option K → Option K) (g : K → K → K), (∀ a b, o (some a) (some b) = some (g a b)) →
        pickVV o id id Res.ok ⟨x.map some, d⟩ ⟨y.map some, d⟩ = .ok ⟨(List.zipWith g x y).map some, d⟩ := by
      intro o g h
      rw [pickVV_ok (v1 := ⟨x.map some, d⟩) (v2 := ⟨y.map some, d⟩) (c1 := id) (c2 := id) (back := Res.ok) (op := o) o
        (by simpa [Whole] using hx) (by simpa [Whole] using hy) rfl (fun a _ b _ => rfl)]
      congr 2
      simp [List.map_zipWith, List.zipWith_map, h]
    exact ⟨z _ _ e1, z _ _ e2⟩
  · intro x d s hx
    refine ⟨?_, ?_, ?_, ?_⟩
    · rw [pickVS_ok (v1 := ⟨x.map some, d⟩) (c1 := id) (c2 := id) (back := Res.ok) (op := stdMin fltLt) (stdMin fltLt) (by simpa [Whole] using hx) (fun a _ => rfl)]
      simp [Function.comp_def, e1]
    · rw [pickVS_ok (v1 := ⟨x.map some, d⟩) (c1 := id) (c2 := id) (back := Res.ok) (op := stdMax fltLt) (stdMax fltLt) (by simpa [Whole] using hx) (fun a _ => rfl)]
      simp [Function.comp_def, e2]
    · rw [pickSV_ok (v2 := ⟨x.map some, d⟩) (c1 := id) (c2 := id) (back := Res.ok) (op := stdMin fltLt) (stdMin fltLt) (by simpa [Whole] using hx) (fun a _ => rfl)]
      simp [Function.comp_def, e1, min_comm]
    · rw [pickSV_ok (v2 := ⟨x.map some, d⟩) (c1 := id) (c2 := id) (back := Res.ok) (op := stdMax fltLt) (stdMax fltLt) (by simpa [Whole] using hx) (fun a _ => rfl)]
      simp [Function.comp_def, e2, max_comm]

example : pickVV (stdMin fltLt) id id .ok (⟨[some 1, some 5], [2]⟩ : Vec (Option ℚ)) ⟨[some 3, some 2], [2]⟩ =
    .ok ⟨[some 1, some 2], [2]⟩ := by decide +kernel

/-- **C170 (NaN).** The scalar functions return their second argument when either is NaN; the
functions of vectors keep the element of the first argument. -/
theorem C170_nan (a b : Option K) (h : a = none ∨ b = none) :
    scalarMin fltLt a b = b ∧ scalarMax fltLt a b = b ∧ stdMin fltLt a b = a ∧ stdMax fltLt a b = a := by
  rcases h with h | h <;> subst h
  · cases b <;> simp [scalarMin, scalarMax, stdMin, stdMax, fltLt]
  · cases a <;> simp [scalarMin, scalarMax, stdMin, stdMax, fltLt]
end same

/-- **C170 (integers and floating point numbers).** A vector of integers and one of floating point
numbers: a position where the chosen number is the integer is exact, elsewhere the floating point
number is cut towards zero; this is when its cut value is in range, else the conversion is
undefined. -/
theorem C170_mixed (x : List Int) (y : List ℚ) (d : List Nat) (hx : x.length = d.prod) (hy : y.length = d.prod)
    (hr : ∀ a ∈ x, -2 ^ 63 ≤ a ∧ a < 2 ^ 63) (hq : ∀ b ∈ y, -2 ^ 63 < b ∧ b < 2 ^ 63) :
    pickVV (stdMin fltLt) (fun a : Int => some (a : ℚ)) some toInt64 ⟨x, d⟩ ⟨y, d⟩ =
      .ok ⟨List.zipWith (fun (a : Int) (b : ℚ) => if b < a then (if 0 ≤ b then ⌊b⌋ else ⌈b⌉) else a) x y, d⟩ := by
  apply pickVV_ok (g := fun (a : Int) (b : ℚ) => if b < a then (if 0 ≤ b then ⌊b⌋ else ⌈b⌉) else a)
    (by simpa [Whole] using hx) (by simpa [Whole] using hy) rfl
  intro a ha b hb
  simp only at ha hb
  have hr := hr a ha
  obtain ⟨q1, q2⟩ := hq b hb
  simp only [stdMin, fltLt, decide_eq_true_eq]
  by_cases h : b < a
  · rw [if_pos h, if_pos h]
    simp only [toInt64]
    rw [if_pos]
    by_cases h0 : 0 ≤ b
    · rw [if_pos h0]
      constructor
      · have : (0 : Int) ≤ ⌊b⌋ := Int.floor_nonneg.2 h0
        omega
      · rw [Int.floor_lt]; push_cast; exact q2
    · rw [if_neg h0]
      constructor
      · rw [← Int.sub_one_lt_iff, Int.lt_ceil]; push_cast; linarith
      · have : ⌈b⌉ ≤ 0 := by rw [Int.ceil_le]; push_cast; linarith
        omega
  · rw [if_neg h, if_neg h]
    simp only [toInt64]
    have e1 : ⌊(a : ℚ)⌋ = a := Int.floor_intCast a
    have e2 : ⌈(a : ℚ)⌉ = a := Int.ceil_intCast a
    rw [e1, e2, ite_self, if_pos hr]

/-- **C170 (refuted).** Nothing makes the scalar and the vector functions agree, nor the order of the
arguments irrelevant: `min(NaN, 1)` is 1 but `min({NaN}, {1})` is NaN, and `min({1}, {NaN})` is 1;
`min({2}, {1.5})` on a vector of integers is 1, smaller than both; `min({-1}, {3u})` is 3. -/
theorem C170_refuted :
    (scalarMin fltLt none (some (1 : ℚ)) = some 1 ∧
      pickVV (stdMin fltLt) id id .ok (⟨[none], [1]⟩ : Vec (Option ℚ)) ⟨[some 1], [1]⟩ = .ok ⟨[none], [1]⟩ ∧
      pickVV (stdMin fltLt) id id .ok (⟨[some 1], [1]⟩ : Vec (Option ℚ)) ⟨[none], [1]⟩ = .ok ⟨[some 1], [1]⟩) ∧
    pickVV (stdMin fltLt) (fun a : Int => some (a : ℚ)) some toInt64 ⟨[2], [1]⟩ ⟨[3 / 2], [1]⟩ = .ok ⟨[1], [1]⟩ ∧
    pickVV (stdMin fun a b : Nat => decide (a < b)) toUInt64 id (fun n => .ok (n : Int)) ⟨[-1], [1]⟩ ⟨[3], [1]⟩ =
      .ok ⟨[3], [1]⟩ := by decide +kernel

end Verif.Math
