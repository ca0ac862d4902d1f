import Verif.Core.Ops
/-!
# Property C08: elementwise operators
-/
namespace Verif.Core.Ops
open Verif Verif.Core
variable {α β γ : Type}

/-- Spec: `r` has the shape of `v` and its element at every position is `f (v[i]) (u[i])`. -/
def Pointwise (f : α → β → γ) (v : Vec α) (u : Vec β) (r : Vec γ) : Prop :=
  r.dims = v.dims ∧ r.data.length = v.data.length ∧
  ∀ (i : Nat) (a : α) (b : β), v.data[i]? = some a → u.data[i]? = some b → r.data[i]? = some (f a b)

theorem pushLoop_ok (f : α → β → γ) (v : List α) (u : List β) (n : Nat) (k : Nat) (tv : List γ)
    (hv : k + n ≤ v.length) (hu : k + n ≤ u.length) :
    pushLoop f v u (List.range' k n) tv =
      .ok (tv ++ (List.zipWith f (v.drop k) (u.drop k)).take n) := by
  induction n generalizing k tv with
  | zero => simp [pushLoop]
  | succ n ih =>
    rw [List.range'_succ, pushLoop, Res.rd_lt (show k < v.length by omega),
      Res.rd_lt (show k < u.length by omega), Res.ok_bind, Res.ok_bind, ih (k + 1) _ (by omega) (by omega),
      List.drop_eq_getElem_cons (show k < v.length by omega),
      List.drop_eq_getElem_cons (show k < u.length by omega), List.zipWith_cons_cons,
      List.take_succ_cons, List.append_assoc]
    rfl

theorem inplaceLoop_ok (f : α → β → α) (u : List β) (n k : Nat) (v : List α)
    (hv : v.length = k + n) (hu : k + n ≤ u.length) :
    inplaceLoop f u (List.range' k n) v =
      .ok (v.take k ++ List.zipWith f (v.drop k) (u.drop k)) := by
  induction n generalizing k v with
  | zero =>
    have : v.drop k = [] := List.drop_of_length_le (by omega)
    simp [inplaceLoop, this, List.take_of_length_le (show v.length ≤ k by omega)]
  | succ n ih =>
    have hk : k < v.length := by omega
    rw [List.range'_succ, inplaceLoop, Res.rd_lt hk, Res.rd_lt (show k < u.length by omega),
      Res.ok_bind, Res.ok_bind, ih (k + 1) _ (by simp; omega) (by omega),
      List.drop_eq_getElem_cons hk, List.drop_eq_getElem_cons (show k < u.length by omega)]
    congr 1
    rw [List.drop_set_of_lt (by omega), List.take_add_one, List.take_set_of_le (by omega),
      List.getElem?_set_self hk, List.zipWith_cons_cons, List.append_assoc]
    rfl

theorem selfLoop_ok (f : α → α → α) (n k : Nat) (v : List α) (hv : v.length = k + n) :
    selfLoop f (List.range' k n) v = .ok (v.take k ++ (v.drop k).map fun a => f a a) := by
  induction n generalizing k v with
  | zero =>
    have : v.drop k = [] := List.drop_of_length_le (by omega)
    simp [selfLoop, this, List.take_of_length_le (show v.length ≤ k by omega)]
  | succ n ih =>
    have hk : k < v.length := by omega
    rw [List.range'_succ, selfLoop, Res.rd_lt hk, Res.ok_bind, Res.ok_bind,
      ih (k + 1) _ (by simp; omega), List.drop_eq_getElem_cons hk]
    congr 1
    rw [List.drop_set_of_lt (by omega), List.take_add_one, List.take_set_of_le (by omega),
      List.getElem?_set_self hk, List.map_cons, List.append_assoc]
    rfl

theorem zipWith_pointwise (f : α → β → γ) (v : Vec α) (u : Vec β) (h : v.data.length = u.data.length) :
    Pointwise f v u ⟨List.zipWith f v.data u.data, v.dims⟩ := by
  refine ⟨rfl, by simp [h], ?_⟩
  intro i a b ha hb
  simp [ha, hb, List.getElem?_zipWith]

/-- C08: on equal shapes the binary operator is pointwise (the vectors are well shaped). -/
theorem C08_binop (f : α → β → γ) (v : Vec α) (u : Vec β) (hv : v.data.length = v.dims.prod)
    (hu : u.data.length = u.dims.prod) (h : v.dims = u.dims) :
    ∃ r, binop f v u = .ok r ∧ Pointwise f v u r := by
  have hl : v.data.length = u.data.length := by rw [hv, hu, h]
  refine ⟨_, ?_, zipWith_pointwise f v u hl⟩
  have := pushLoop_ok f v.data u.data v.data.length 0 [] (by omega) (by omega)
  rw [List.range_eq_range'.symm] at this
  simp only [binop, Res.check_pos h, Res.ok_bind, this]
  rw [List.drop_zero, List.drop_zero, List.nil_append, List.take_of_length_le (by simp)]

example : binop (· + ·) (⟨[1, 2], [2]⟩ : Vec Nat) ⟨[10, 20], [2]⟩ = .ok ⟨[11, 22], [2]⟩ := by decide

/-- C08: the in-place forms (`op=`, rvalue operators) give the same values. -/
theorem C08_inplace (f : α → β → α) (v : Vec α) (u : Vec β) (hv : v.data.length = v.dims.prod)
    (hu : u.data.length = u.dims.prod) (h : v.dims = u.dims) :
    binopInplace f v u = binop f v u := by
  have hl : v.data.length = u.data.length := by rw [hv, hu, h]
  have h1 := pushLoop_ok f v.data u.data v.data.length 0 [] (by omega) (by omega)
  have h2 := inplaceLoop_ok f u.data v.data.length 0 v.data (by omega) (by omega)
  rw [List.range_eq_range'.symm] at h1 h2
  have h3 : (List.zipWith f v.data u.data).take v.data.length = List.zipWith f v.data u.data :=
    List.take_of_length_le (by simp)
  simp only [binop, binopInplace, h1, h2, List.drop_zero, List.nil_append, h3, List.take_zero]

/-- C08: `v op= v` gives the values of `v op v`. -/
theorem C08_self (f : α → α → α) (v : Vec α) :
    ∃ r, compoundSelf f v = .ok r ∧ Pointwise f v v r := by
  have h2 := selfLoop_ok f v.data.length 0 v.data (by omega)
  rw [List.range_eq_range'.symm] at h2
  refine ⟨⟨v.data.map fun a => f a a, v.dims⟩, by simp [compoundSelf, h2], rfl, by simp, ?_⟩
  intro i a b ha hb
  rw [ha, Option.some.injEq] at hb
  simp [ha, hb]

example : compoundSelf (· * ·) (⟨[2, 3], [2]⟩ : Vec Nat) = .ok ⟨[4, 9], [2]⟩ := by decide

/-- C08: different shapes abort, in every form, nothing is changed. -/
theorem C08_mismatch (f : α → β → γ) (g : α → β → α) (v : Vec α) (u : Vec β) (h : v.dims ≠ u.dims) :
    binop f v u = .abort ∧ binopInplace g v u = .abort := by
  simp [binop, binopInplace, Res.check, h]

example : binop (· + ·) (⟨[1, 2], [2, 1]⟩ : Vec Nat) ⟨[10, 20], [1, 2]⟩ = .abort :=
  (C08_mismatch _ (· + ·) _ _ (by decide)).1

/-- C08: vector-scalar operators apply the scalar to every element. -/
theorem C08_scalar (f : α → β → γ) (v : Vec α) (u : β) :
    scalarOp f v u = .ok ⟨v.data.map fun a => f a u, v.dims⟩ := by
  have h1 := pushLoop_ok f v.data (List.replicate v.data.length u) v.data.length 0 [] (by omega)
    (by simp)
  rw [List.range_eq_range'.symm] at h1
  simp only [scalarOp, h1, Res.ok_bind]
  congr 2
  apply List.ext_getElem?
  intro i
  by_cases hi : i < v.data.length
  · simp [hi]
  · simp [hi]

example : scalarOp (· - ·) (⟨[5, 7], [2]⟩ : Vec Nat) 2 = .ok ⟨[3, 5], [2]⟩ := C08_scalar _ _ _

end Verif.Core.Ops
