import Verif.Math.Reduce
import Verif.Core.RearrangeProps
/-!
# Property C24
-/
namespace Verif.Math
open Verif Verif.Core Verif.Index
variable {α β : Type}

theorem foldl_mul (l : List Nat) (a : Nat) : l.foldl (· * ·) a = a * l.prod := by
  induction l generalizing a with
  | nil => simp
  | cons d l ih => simp [ih, Nat.mul_assoc]

/-- Spec: the elements of `v` at `(a.., j, b..)` for `j = 0, 1, ..., n-1`. -/
def IsSlice (v : Vec α) (A B a b : List Nat) (n : Nat) (s : List α) : Prop :=
  s.length = n ∧ ∀ j, j < n → v.data[rowMajor (A ++ n :: B) (a ++ j :: b)]? = s[j]?

/-- Spec of C24: `r` has the dimensions of `v` without the reduced one, and each element is the
function of the corresponding slice. -/
def IsReduction (f : List α → Res β) (v : Vec α) (A B : List Nat) (n : Nat) (r : Vec β) : Prop :=
  r.dims = A ++ B ∧ r.data.length = (A ++ B).prod ∧
  ∀ a b, InRange A a → InRange B b → ∃ s y, IsSlice v A B a b n s ∧ f s = .ok y ∧
    r.data[rowMajor (A ++ B) (a ++ b)]? = some y

theorem sliceOf_ok (v : Vec α) (A B a b : List Nat) (n : Nat) (hd : v.dims = A ++ n :: B)
    (hv : v.data.length = v.dims.prod) (ha : InRange A a) (hb : InRange B b) :
    ∃ s, sliceOf v.data n B.prod (rowMajor (A ++ B) (a ++ b)) = .ok s ∧ IsSlice v A B a b n s := by
  have hbl := rowMajor_lt B b hb
  have hal := rowMajor_lt A a ha
  have hpos : 0 < B.prod := by omega
  have e0 : rowMajor (A ++ B) (a ++ b) = rowMajor B b + B.prod * rowMajor A a := by
    rw [Vec.rowMajor_append A B a b ha.length_eq]; ring
  have e1 : rowMajor (A ++ B) (a ++ b) % B.prod = rowMajor B b := by
    rw [e0, Nat.add_mul_mod_self_left, Nat.mod_eq_of_lt hbl]
  have e2 : rowMajor (A ++ B) (a ++ b) / B.prod = rowMajor A a := by
    rw [e0, Nat.add_mul_div_left _ _ hpos, Nat.div_eq_of_lt hbl, Nat.zero_add]
  have hpos' : ∀ j, j < n → rowMajor B b + rowMajor A a * n * B.prod + j * B.prod =
      rowMajor (A ++ n :: B) (a ++ j :: b) := by
    intro j hj
    rw [Vec.rowMajor_append A (n :: B) a (j :: b) ha.length_eq]
    simp only [rowMajor, List.prod_cons]; ring
  have hlt : ∀ j, j < n → rowMajor (A ++ n :: B) (a ++ j :: b) < v.data.length := by
    intro j hj
    rw [hv, hd]
    apply rowMajor_lt
    exact List.rel_append ha (.cons hj hb)
  refine ⟨(List.range n).pmap (fun j hj => v.data[rowMajor (A ++ n :: B) (a ++ j :: b)]'(hlt j hj))
    (fun j hj => by simpa using hj), ?_, by simp, ?_⟩
  · unfold sliceOf
    rw [if_neg (by omega)]
    apply Res.mapM_getElem (by simp)
    intro i hi hr
    have hin : i < n := by simpa using hi
    simp only [List.getElem_range, List.getElem_pmap, e1, e2]
    rw [hpos' i hin, Res.rd_lt (hlt i hin)]
  · intro j hj
    have := hlt j hj
    simp [hj, this]

/-- an output position is a pair of index lists -/
theorem split_index (A B : List Nat) (i : Nat) (h : i < (A ++ B).prod) :
    ∃ a b, InRange A a ∧ InRange B b ∧ rowMajor (A ++ B) (a ++ b) = i := by
  obtain ⟨ids, h1, h2⟩ := rowMajor_surj (A ++ B) i h
  have hl := h1.length_eq
  have hs := List.forall₂_take_append (R := (· < ·)) ids A B h1
  have hs' := List.forall₂_drop_append (R := (· < ·)) ids A B h1
  exact ⟨ids.take A.length, ids.drop A.length, hs, hs', by rw [List.take_append_drop]; exact h2⟩

theorem mapM_all {γ δ : Type} {f : γ → Res δ} {l : List γ} (h : ∀ i ∈ l, ∃ y, f i = .ok y) :
    ∃ r : List δ, l.mapM f = .ok r ∧ r.length = l.length ∧
      ∀ (i : Nat) (x : γ), l[i]? = some x → ∃ y, f x = .ok y ∧ r[i]? = some y := by
  induction l with
  | nil => exact ⟨[], rfl, rfl, by simp⟩
  | cons a l ih =>
    obtain ⟨y, hy⟩ := h a (by simp)
    obtain ⟨r, h1, h2, h3⟩ := ih (fun i hi => h i (by simp [hi]))
    refine ⟨y :: r, by simp only [List.mapM_cons, hy, h1, Res.ok_bind, Res.pure_def], by simp [h2], ?_⟩
    intro i x hx
    cases i with
    | zero => simp at hx; subst hx; exact ⟨y, hy, by simp⟩
    | succ i => simp at hx; simpa using h3 i x hx

/-- C24 for `partial_total`, `partial_median`, ...: every element is the function of its slice. -/
theorem C24_partial_functions (f : List α → Res β) (v : Vec α) (A B : List Nat) (n : Nat)
    (hd : v.dims = A ++ n :: B) (hv : v.data.length = v.dims.prod)
    (hf : ∀ s : List α, s.length = n → ∃ y, f s = .ok y) :
    ∃ r, runIndex f A.length v = .ok r ∧ IsReduction f v A B n r := by
  unfold runIndex
  have hlen : A.length < v.dims.length := by rw [hd]; simp
  have e1 : v.dims.take A.length = A := by rw [hd]; simp
  have e2 : v.dims.drop (A.length + 1) = B := by
    rw [hd, List.drop_append]; simp
  have e3 : v.dims.getD A.length 0 = n := by rw [hd]; simp
  rw [Res.check_pos hlen]
  simp only [Res.ok_bind, e1, e2, e3, foldl_mul, Nat.one_mul]
  have key : ∀ i, i < (A ++ B).prod → ∃ a b s y, InRange A a ∧ InRange B b ∧
      rowMajor (A ++ B) (a ++ b) = i ∧ IsSlice v A B a b n s ∧ f s = .ok y ∧
      (sliceOf v.data n B.prod i >>= f) = .ok y := by
    intro i hi
    obtain ⟨a, b, ha, hb, hab⟩ := split_index A B i hi
    obtain ⟨s, hs1, hs2⟩ := sliceOf_ok v A B a b n hd hv ha hb
    obtain ⟨y, hy⟩ := hf s hs2.1
    exact ⟨a, b, s, y, ha, hb, hab, hs2, hy, by rw [← hab, hs1, Res.ok_bind, hy]⟩
  obtain ⟨r, h1, h2, h3⟩ := mapM_all (f := fun i => sliceOf v.data n B.prod i >>= f)
    (l := List.range (A ++ B).prod) (fun i hi => by
      obtain ⟨a, b, s, y, -, -, -, -, -, h⟩ := key i (by simpa using hi)
      exact ⟨y, h⟩)
  refine ⟨⟨r, A ++ B⟩, by rw [h1]; rfl, rfl, by simpa using h2, fun a b ha hb => ?_⟩
  have hi : rowMajor (A ++ B) (a ++ b) < (A ++ B).prod := rowMajor_lt _ _ (List.rel_append ha hb)
  obtain ⟨s, hs1, hs2⟩ := sliceOf_ok v A B a b n hd hv ha hb
  obtain ⟨y, hy, hr⟩ := h3 _ _ (show (List.range (A ++ B).prod)[rowMajor (A ++ B) (a ++ b)]? =
    some (rowMajor (A ++ B) (a ++ b)) by rw [List.getElem?_range hi])
  refine ⟨s, y, hs2, ?_, hr⟩
  rw [hs1, Res.ok_bind] at hy
  exact hy

theorem runDimSizes_spec (dim : Nat) (ds : List Nat) (i : Nat) :
    (dim < i → runDimSizes dim i ds = (ds.prod, ds.prod)) ∧
    (i ≤ dim → ∀ A n B, ds = A ++ n :: B → A.length + i = dim →
      runDimSizes dim i ds = ((A ++ B).prod, B.prod)) := by
  induction ds generalizing i with
  | nil => exact ⟨fun _ => rfl, fun _ A n B h => by simp at h⟩
  | cons d ds ih =>
    constructor
    · intro h
      simp only [runDimSizes, (ih (i + 1)).1 (by omega), List.prod_cons]
      rw [if_pos (by omega), if_pos h]
    · intro h A n B he hl
      cases A with
      | nil =>
        simp only [List.nil_append, List.cons.injEq] at he
        obtain ⟨rfl, rfl⟩ := he
        have hi : i = dim := by simpa using hl
        simp only [runDimSizes, (ih (i + 1)).1 (by omega), List.nil_append]
        rw [if_neg (by omega), if_neg (by omega)]
      | cons a A =>
        simp only [List.cons_append, List.cons.injEq] at he
        obtain ⟨rfl, he⟩ := he
        simp only [List.length_cons] at hl
        simp only [runDimSizes, (ih (i + 1)).2 (by omega) A n B he (by omega), List.cons_append,
          List.prod_cons]
        rw [if_pos (by omega), if_neg (by omega)]

theorem reduceLoop_ok (f : List α → Res β) (data : List α) (n mp : Nat) (is : List Nat) (hn : is.Nodup)
    (r : List β) (hlt : ∀ i ∈ is, i < r.length)
    (h : ∀ i ∈ is, ∃ y, (sliceOf data n mp i >>= f) = .ok y) :
    ∃ r', reduceLoop f data n mp is r = .ok r' ∧ r'.length = r.length ∧
      (∀ i ∈ is, ∃ y, (sliceOf data n mp i >>= f) = .ok y ∧ r'[i]? = some y) ∧
      ∀ i, i ∉ is → r'[i]? = r[i]? := by
  induction is generalizing r with
  | nil => exact ⟨r, rfl, rfl, by simp, by simp⟩
  | cons i is ih =>
    rw [List.nodup_cons] at hn
    obtain ⟨y, hy⟩ := h i (by simp)
    obtain ⟨s, hs1, hs2⟩ := Res.bind_eq_ok.1 hy
    obtain ⟨r', h1, h2, h3, h4⟩ := ih hn.2 (r.set i y) (fun j hj => by simpa using hlt j (by simp [hj]))
      (fun j hj => h j (by simp [hj]))
    have hil := hlt i (by simp)
    refine ⟨r', by simp only [reduceLoop, hs1, hs2, Res.ok_bind, if_pos hil, h1], by simpa using h2, ?_, ?_⟩
    · intro j hj
      rcases List.mem_cons.1 hj with rfl | hj
      · exact ⟨y, hy, by rw [h4 j hn.1]; simp [hil]⟩
      · exact h3 j hj
    · intro j hj
      rw [List.mem_cons, not_or] at hj
      rw [h4 j hj.2, List.getElem?_set_ne (Ne.symm hj.1)]

/-- C24 for `reduce(dim, v, func)`: same result as the `partial_` functions. -/
theorem C24_reduce [Inhabited β] (f : List α → Res β) (v : Vec α) (A B : List Nat) (n : Nat)
    (hd : v.dims = A ++ n :: B) (hv : v.data.length = v.dims.prod)
    (hf : ∀ s : List α, s.length = n → ∃ y, f s = .ok y) :
    ∃ r, reduce f A.length v = .ok r ∧ IsReduction f v A B n r := by
  unfold reduce
  have hlen : A.length < v.dims.length := by rw [hd]; simp
  have e1 : v.dims.take A.length = A := by rw [hd]; simp
  have e2 : v.dims.drop (A.length + 1) = B := by
    rw [hd, List.drop_append]; simp
  have e3 : v.dims.getD A.length 0 = n := by rw [hd]; simp
  have e4 := (runDimSizes_spec A.length v.dims 0).2 (by omega) A n B hd (by omega)
  rw [Res.check_pos hlen]
  simp only [Res.ok_bind, e1, e2, e3, e4]
  obtain ⟨r', h1, h2, h3, -⟩ := reduceLoop_ok f v.data n B.prod (List.range (A ++ B).prod)
    List.nodup_range (List.replicate (A ++ B).prod default) (by simp) (by
      intro i hi
      obtain ⟨a, b, ha, hb, hab⟩ := split_index A B i (by simpa using hi)
      obtain ⟨s, hs1, hs2⟩ := sliceOf_ok v A B a b n hd hv ha hb
      obtain ⟨y, hy⟩ := hf s hs2.1
      exact ⟨y, by rw [← hab, hs1, Res.ok_bind, hy]⟩)
  refine ⟨⟨r', A ++ B⟩, by rw [h1]; rfl, rfl, by simpa using h2, fun a b ha hb => ?_⟩
  have hi : rowMajor (A ++ B) (a ++ b) < (A ++ B).prod := rowMajor_lt _ _ (List.rel_append ha hb)
  obtain ⟨s, hs1, hs2⟩ := sliceOf_ok v A B a b n hd hv ha hb
  obtain ⟨y, hy, hr⟩ := h3 _ (List.mem_range.2 hi)
  refine ⟨s, y, hs2, ?_, hr⟩
  rw [hs1, Res.ok_bind] at hy
  exact hy

/-- C24: a dimension that does not exist is refused. -/
theorem C24_bad_dim (f : List α → Res β) (v : Vec α) (dim : Nat) (h : v.dims.length ≤ dim) :
    runIndex f dim v = .abort := by
  unfold runIndex; rw [Res.check_neg (by omega)]; rfl

/-- sums of a 2x3x2 vector along the middle dimension -/
example : runIndex (fun s => .ok s.sum) 1 ⟨[1, 2, 3, 4, 5, 6, 7, 8, 9, 10, 11, 12], [2, 3, 2]⟩ =
    .ok (⟨[9, 12, 27, 30], [2, 2]⟩ : Vec Nat) := by decide
example : reduce (fun s => .ok s.sum) 1 ⟨[1, 2, 3, 4, 5, 6, 7, 8, 9, 10, 11, 12], [2, 3, 2]⟩ =
    .ok (⟨[9, 12, 27, 30], [2, 2]⟩ : Vec Nat) := by decide

end Verif.Math
