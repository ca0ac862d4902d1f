import Verif.Core.UnitTest
import Verif.Core.OpsProps
import Verif.Core.VectorizeProps
import Mathlib.Tactic.Linarith
import Mathlib.Algebra.Order.Ring.Rat
/-!
# C175: unit tests
-/
namespace Verif.UnitTest
open Verif Verif.Core Verif.Core.Vectorize Verif.StrConv

section
variable {K : Type} [Field K] [LinearOrder K]

/-- Spec: the numbers agree: both are NaN, or the same infinity, or finite and close -/
def Same (eps : K) : Fl K → Fl K → Prop
  | .nan, .nan => True
  | .inf a, .inf b => a = b
  | .fin x, .fin y => |x - y| ≤ eps
  | _, _ => False

/-- Spec: one of the numbers is NaN, the other is not -/
def OneNan : Fl K → Fl K → Prop
  | .nan, .fin _ | .nan, .inf _ | .fin _, .nan | .inf _, .nan => True
  | _, _ => False

/-- The comparison of floating point numbers accepts the numbers that agree — and every pair with one NaN (full statement: `Same` only). -/
theorem C175_same_partial (eps : K) (a b : Fl K) : isSame eps a b = true ↔ Same eps a b ∨ OneNan a b := by
  cases a with
  | nan => cases b <;> simp [isSame, sub, isNan, Same, OneNan]
  | fin x => cases b <;> simp [isSame, sub, isNan, Same, OneNan, fabs, fle]
  | inf p =>
    cases b with
    | nan => simp [isSame, sub, isNan, Same, OneNan]
    | fin x => simp [isSame, sub, isNan, Same, OneNan, fabs, fle]
    | inf q => cases p <;> cases q <;> simp [isSame, sub, isNan, Same, OneNan, fabs, fle]

theorem zip_of_pointwise {α β γ : Type} {f : α → β → γ} {v : Vec α} {u : Vec β} {r : Vec γ} (h : Ops.Pointwise f v u r)
    (hl : v.data.length = u.data.length) : r = zipVec f v u := by
  obtain ⟨h1, h2, h3⟩ := h
  have : r.data = List.zipWith f v.data u.data := by
    apply List.ext_getElem?
    intro i
    by_cases hi : i < v.data.length
    · rw [h3 i _ _ (List.getElem?_eq_getElem hi) (List.getElem?_eq_getElem (hl ▸ hi))]
      rw [List.getElem?_zipWith, List.getElem?_eq_getElem hi, List.getElem?_eq_getElem (hl ▸ hi)]
    · rw [List.getElem?_eq_none (by omega), List.getElem?_eq_none (by rw [List.length_zipWith]; omega)]
  cases r
  simp only at h1 this
  subst h1 this
  rfl

theorem binop_zip {α β γ : Type} (f : α → β → γ) (v : Vec α) (u : Vec β) (hv : Whole v) (hu : Whole u) (h : v.dims = u.dims) :
    Ops.binop f v u = .ok (zipVec f v u) := by
  obtain ⟨r, e, hp⟩ := Ops.C08_binop f v u hv hu h
  rw [e, zip_of_pointwise hp (by rw [hv, hu, h])]

theorem isSameVec_eq (eps : K) (v u : Vec (Fl K)) (hv : Whole v) (hu : Whole u) (h : v.dims = u.dims) : isSameVec eps v u = .ok (zipVec (isSame eps) v u) := by
  have hl : v.data.length = u.data.length := by rw [hv, hu, h]
  have w : ∀ {γ : Type} (d : List γ), d.length = v.data.length → Whole (⟨d, v.dims⟩ : Vec γ) := fun d hd => by rw [Whole, hd]; exact hv
  have lz : ∀ {γ : Type} (f : Fl K → Fl K → γ), (List.zipWith f v.data u.data).length = v.data.length := fun f => by rw [List.length_zipWith, hl, Nat.min_self]
  unfold isSameVec
  rw [binop_zip sub v u hv hu h, Res.ok_bind]
  rw [Vectorize.C169_unary _ fabs _ (fun _ _ => rfl), Res.ok_bind, Ops.C08_scalar, Res.ok_bind]
  rw [Vectorize.C169_unary _ isNan _ (fun _ _ => rfl), Res.ok_bind]
  rw [Vectorize.C169_unary _ isNan _ (fun _ _ => rfl), Res.ok_bind]
  have e1 : Ops.binop (· && ·) (⟨v.data.map isNan, v.dims⟩ : Vec Bool) ⟨u.data.map isNan, u.dims⟩ = .ok _ :=
    binop_zip _ _ _ (w _ (by simp)) (by rw [← h]; exact w _ (by simp [hl])) h
  rw [e1, Res.ok_bind, binop_zip, Res.ok_bind, Res.ok_bind]
  · rw [Vectorize.C169_unary _ isNan _ (fun _ _ => rfl), Res.ok_bind, binop_zip]
    · congr 1
      unfold zipVec
      congr 1
      apply List.ext_getElem?
      intro i
      simp only [List.getElem?_zipWith, List.getElem?_map]
      cases v.data[i]? <;> cases u.data[i]? <;> rfl
    · exact w _ (by simp [zipVec, hl])
    · exact w _ (by simp [zipVec, hl])
    · rfl
  · exact w _ (by simp [zipVec, hl])
  · exact w _ (by simp [hl])
  · rfl

theorem reduceAnd_iff (b : Vec Bool) : reduceAnd b = true ↔ ∀ x ∈ b.data, x = true := by
  have : ∀ (l : List Bool) (r : Bool), l.foldl (fun res v => res && v) r = true ↔ r = true ∧ ∀ x ∈ l, x = true := by
    intro l
    induction l with
    | nil => simp
    | cons a l ih => intro r; rw [List.foldl_cons, ih]; simp [and_assoc]
  unfold reduceAnd
  rw [this]
  simp

/-- A check of two vectors of the same dimensions passes when each pair of elements agrees or has one NaN (full statement: agrees). -/
theorem C175_vector_partial (eps : K) (v u : Vec (Fl K)) (hv : Whole v) (hu : Whole u) (h : v.dims = u.dims) :
    ∃ r, isSameVec eps v u = .ok r ∧ (reduceAnd r = true ↔ ∀ (i : Nat) (a b : Fl K), v.data[i]? = some a → u.data[i]? = some b → Same eps a b ∨ OneNan a b) := by
  refine ⟨_, isSameVec_eq eps v u hv hu h, ?_⟩
  rw [reduceAnd_iff]
  constructor
  · intro hall i a b ha hb
    rw [← C175_same_partial]
    apply hall
    apply List.mem_of_getElem? (i := i)
    simp [zipVec, List.getElem?_zipWith, ha, hb]
  · intro hall x hx
    obtain ⟨i, hi⟩ := List.mem_iff_getElem?.1 hx
    simp only [zipVec, List.getElem?_zipWith] at hi
    cases ha : v.data[i]? with
    | none => rw [ha] at hi; simp at hi
    | some a =>
      cases hb : u.data[i]? with
      | none => rw [ha, hb] at hi; simp at hi
      | some b =>
        rw [ha, hb] at hi
        simp only [Option.some.injEq] at hi
        rw [← hi, C175_same_partial]
        exact hall i a b ha hb

/-- A check of two vectors of different dimensions stops the program. -/
theorem C175_dims (eps : K) (v u : Vec (Fl K)) (h : v.dims ≠ u.dims) : isSameVec eps v u = .abort := by
  unfold isSameVec
  rw [(Ops.C08_mismatch sub (fun a _ => a) v u h).1]
  rfl

/-- Finding: a check of a number against NaN passes (0/0 where 1 is expected is not noticed). -/
theorem C175_refuted (eps x : K) : isSame eps .nan (.fin x) = true ∧ isSame eps (.fin x) .nan = true ∧
    ∃ r, isSameVec eps ⟨[.fin x, .nan], [2]⟩ ⟨[.fin x, .fin x], [2]⟩ = .ok r ∧ (0 ≤ eps → |x - x| ≤ eps → reduceAnd r = true) := by
  refine ⟨rfl, rfl, ?_⟩
  obtain ⟨r, h1, h2⟩ := C175_vector_partial eps ⟨[.fin x, .nan], [2]⟩ ⟨[.fin x, .fin x], [2]⟩ rfl rfl rfl
  refine ⟨r, h1, fun _ he => h2.2 fun i a b ha hb => ?_⟩
  match i with
  | 0 =>
    simp at ha hb
    subst ha hb
    exact .inl he
  | 1 =>
    simp at ha hb
    subst ha hb
    exact .inr trivial
  | i + 2 => simp at ha

end

/-- For other types a check passes when the elements are equal. -/
theorem C175_equal {α : Type} [DecidableEq α] (v u : Vec α) (hv : Whole v) (hu : Whole u) (h : v.dims = u.dims) :
    ∃ r, isEqVec v u = .ok r ∧ (reduceAnd r = true ↔ v = u) := by
  have hl : v.data.length = u.data.length := by rw [hv, hu, h]
  refine ⟨_, binop_zip _ v u hv hu h, ?_⟩
  rw [reduceAnd_iff]
  constructor
  · intro hall
    have : v.data = u.data := by
      apply List.ext_getElem hl
      intro i h1 h2
      have := hall (decide (v.data[i] = u.data[i])) (List.mem_of_getElem? (i := i) (by simp [zipVec, List.getElem?_zipWith, h1, h2]))
      simpa using this
    cases v
    cases u
    simp_all
  · rintro rfl x hx
    obtain ⟨i, hi⟩ := List.mem_iff_getElem?.1 hx
    simp only [zipVec, List.getElem?_zipWith] at hi
    cases ha : v.data[i]? with
    | none => rw [ha] at hi; simp at hi
    | some a => rw [ha] at hi; simp at hi; exact hi

/-- The checks of a program that is not stopped: `tested` counts them, `failed` counts those whose comparison has a false element, and the messages of
these, and only these, are printed in order. -/
theorem C175_counts (l : List Check) (r : Check → Vec Bool) (hr : ∀ c ∈ l, c.same = .ok (r c)) (s : Counts) :
    run false l s = .ok ⟨s.tested + l.length, s.failed + (l.filter fun c => decide (false ∈ (r c).data)).length,
      s.out ++ (l.filter fun c => decide (false ∈ (r c).data)).map Check.msg⟩ := by
  induction l generalizing s with
  | nil => simp [run]
  | cons c l ih =>
    have hc : reduceAnd (r c) = !decide (false ∈ (r c).data) := by
      rw [Bool.eq_iff_iff, reduceAnd_iff]
      simp only [Bool.not_eq_true', decide_eq_false_iff_not]
      constructor
      · intro h hf
        exact absurd (h false hf) (by simp)
      · intro h x hx
        cases x
        · exact absurd hx h
        · rfl
    unfold run
    rw [hr c (by simp), Res.ok_bind, ih fun c hc => hr c (by simp [hc]), hc]
    unfold checkBase
    by_cases hf : false ∈ (r c).data
    · simp [hf, Nat.add_comm, Nat.add_left_comm, Nat.add_assoc]
    · simp [hf, Nat.add_comm, Nat.add_left_comm]

/-- With the places shown, the numbers are the same. -/
theorem C175_places (l : List Check) (s s' : Counts) (hs : s.tested = s'.tested ∧ s.failed = s'.failed) :
    (∃ a b, run true l s = .ok a ∧ run false l s' = .ok b ∧ a.tested = b.tested ∧ a.failed = b.failed) ∨
    (∃ e : Res Unit, (∀ x, e ≠ .ok x) ∧ run true l s = e.bind (fun _ => .ok s) ∧ run false l s' = e.bind (fun _ => .ok s)) := by
  induction l generalizing s s' with
  | nil => exact .inl ⟨s, s', rfl, rfl, hs⟩
  | cons c l ih =>
    unfold run
    cases hc : c.same with
    | ok b =>
      rw [Res.ok_bind, Res.ok_bind]
      have hstep : (checkBase true c.place c.msg (reduceAnd b) s).tested = (checkBase false c.place c.msg (reduceAnd b) s').tested ∧
          (checkBase true c.place c.msg (reduceAnd b) s).failed = (checkBase false c.place c.msg (reduceAnd b) s').failed := by
        unfold checkBase
        cases reduceAnd b <;> simp [hs.1, hs.2]
      rcases ih _ _ hstep with h | ⟨e, h1, h2, h3⟩
      · exact .inl h
      · refine .inr ⟨e, h1, ?_, ?_⟩
        · rw [h2]
          cases e with
          | ok x => exact absurd rfl (h1 x)
          | _ => rfl
        · rw [h3]
          cases e with
          | ok x => exact absurd rfl (h1 x)
          | _ => rfl
    | abort => exact .inr ⟨.abort, by simp, rfl, rfl⟩
    | ub => exact .inr ⟨.ub, by simp, rfl, rfl⟩
    | diverge => exact .inr ⟨.diverge, by simp, rfl, rfl⟩

/-- checks with one failure and one NaN that is not noticed -/
example : run false [⟨isSameVec (1 / 8 : ℚ) ⟨[.fin 1, .inf true], [2]⟩ ⟨[.fin 1, .inf true], [2]⟩, "f:1", "a"⟩,
    ⟨isSameVec (1 / 8 : ℚ) ⟨[.fin 1, .fin 2], [2]⟩ ⟨[.fin 1, .fin 3], [2]⟩, "f:2", "b"⟩,
    ⟨isSameVec (1 / 8 : ℚ) ⟨[.nan], [1]⟩ ⟨[.fin 3], [1]⟩, "f:3", "c"⟩] ⟨0, 0, []⟩ = .ok ⟨3, 1, ["b"]⟩ := by decide +kernel

end Verif.UnitTest
