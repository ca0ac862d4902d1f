import Verif.Core.Vec
import Verif.Core.AppendProps
import Mathlib.Data.List.Rotate
import Mathlib.Tactic.Linarith
/-!
# Properties C11, C12, C13: `reverse`, `shift`, `transpose`, `replicate`
-/
namespace Verif.Core.Vec
open Verif Verif.Index
variable {α : Type}

/-! ## C11 -/

/-- C11: reversing. -/
theorem C11_reverse (v : Vec α) :
    reverse (reverse v) = v ∧ (reverse v).dims = v.dims ∧
      (reverse v).data.length = v.data.length ∧
      ∀ i, i < v.data.length → (reverse v).data[i]? = v.data[v.data.length - 1 - i]? := by
  refine ⟨by simp [reverse], rfl, by simp [reverse], fun i hi => ?_⟩
  simp [reverse, List.getElem?_reverse hi]

example : (reverse (⟨[1, 2, 3], [3]⟩ : Vec Nat)).data = [3, 2, 1] := by decide

/-- the rotation offset computed by `inplace_shift` -/
theorem shift_eq (v : Vec α) (n : Int) (h : v.data ≠ []) :
    shift v n = .ok ⟨v.data.rotate (((-n) % (v.data.length : Int)).toNat), v.dims⟩ := by
  have hl : 0 < v.data.length := List.length_pos_iff.2 h
  have hm : (if (-n).tmod v.data.length < 0 then (v.data.length : Int) + (-n).tmod v.data.length
      else (-n).tmod v.data.length) = (-n) % (v.data.length : Int) := by
    rcases Int.lt_or_le (-n) 0 with hn | hn
    · have e : (-n).tmod v.data.length = -(n % (v.data.length : Int)) := by
        rw [Int.neg_tmod, Int.tmod_eq_emod_of_nonneg (by omega)]
      rw [e]
      have h1 := Int.emod_nonneg n (b := v.data.length) (by omega)
      have h2 := Int.emod_lt_of_pos n (b := (v.data.length : Int)) (by omega)
      have h3 := Int.mul_ediv_add_emod n v.data.length
      split
      · have h5 : (-n) = (v.data.length + -(n % (v.data.length : Int))) +
            v.data.length * (-(n / v.data.length) - 1) := by linarith
        generalize n % (v.data.length : Int) = r at *
        rw [h5, Int.add_mul_emod_self_left, Int.emod_eq_of_lt (by omega) (by omega)]
      · have h4 : n % (v.data.length : Int) = 0 := by omega
        rw [h4]; symm
        exact Int.emod_eq_zero_of_dvd ((Int.dvd_neg).2 (Int.dvd_of_emod_eq_zero h4))
    · rw [Int.tmod_eq_emod_of_nonneg hn, if_neg]
      have := Int.emod_nonneg (-n) (b := v.data.length) (by omega)
      omega
  have h1 := Int.emod_nonneg (-n) (b := v.data.length) (by omega)
  have h2 := Int.emod_lt_of_pos (-n) (b := (v.data.length : Int)) (by omega)
  simp only [shift, if_neg (show ¬ v.data.length = 0 by omega), hm]
  rw [List.rotate_eq_drop_append_take (by omega)]

/-- C11: `shift(v,k)[(i+k) mod n] = v[i]` on a non-empty vector. -/
theorem C11_shift (v : Vec α) (n : Int) (h : v.data ≠ []) :
    ∃ r, shift v n = .ok r ∧ r.dims = v.dims ∧ r.data.length = v.data.length ∧
      ∀ i : Nat, i < v.data.length →
        r.data[(((i : Int) + n) % (v.data.length : Int)).toNat]? = v.data[i]? := by
  have hl : 0 < v.data.length := List.length_pos_iff.2 h
  refine ⟨_, shift_eq v n h, rfl, by simp, fun i hi => ?_⟩
  have b1 := Int.emod_nonneg ((i : Int) + n) (b := v.data.length) (by omega)
  have b2 := Int.emod_lt_of_pos ((i : Int) + n) (b := (v.data.length : Int)) (by omega)
  have c1 := Int.emod_nonneg (-n) (b := v.data.length) (by omega)
  rw [List.getElem?_rotate (by omega)]
  congr 1
  have : ((((((i : Int) + n) % (v.data.length : Int)).toNat + ((-n) % (v.data.length : Int)).toNat) %
      v.data.length : Nat) : Int) = i := by
    rw [Int.natCast_mod, Int.natCast_add, Int.toNat_of_nonneg b1, Int.toNat_of_nonneg c1,
      ← Int.add_emod, show (i : Int) + n + -n = i by omega, Int.emod_eq_of_lt (by omega) (by omega)]
  omega

example : shift (⟨[1, 2, 3, 4], [4]⟩ : Vec Nat) (-5) = .ok ⟨[2, 3, 4, 1], [4]⟩ := by decide

/-- C11: shifts compose additively. -/
theorem C11_shift_add (v : Vec α) (j k : Int) (h : v.data ≠ []) :
    (shift v j >>= fun r => shift r k) = shift v (j + k) := by
  have hl : 0 < v.data.length := List.length_pos_iff.2 h
  rw [shift_eq v j h, Res.ok_bind, shift_eq _ k (by simpa using h), shift_eq v (j + k) h]
  simp only [List.rotate_rotate, List.length_rotate, Res.ok.injEq, mk.injEq, and_true]
  have b1 := Int.emod_nonneg (-j) (b := v.data.length) (by omega)
  have b2 := Int.emod_nonneg (-k) (b := v.data.length) (by omega)
  have b3 := Int.emod_nonneg (-(j + k)) (b := v.data.length) (by omega)
  have b4 := Int.emod_lt_of_pos (-(j + k)) (b := (v.data.length : Int)) (by omega)
  rw [← List.rotate_mod]
  congr 1
  have : (((((-j) % (v.data.length : Int)).toNat + ((-k) % (v.data.length : Int)).toNat) %
      v.data.length : Nat) : Int) = (-(j + k)) % (v.data.length : Int) := by
    rw [Int.natCast_mod, Int.natCast_add, Int.toNat_of_nonneg b1, Int.toNat_of_nonneg b2,
      ← Int.add_emod, show -j + -k = -(j + k) by ring]
  omega

/-- C11: shifting by a multiple of the length is the identity, and `k` then `-k` restores. -/
theorem C11_shift_identity (v : Vec α) (k : Int) (h : v.data ≠ []) :
    shift v 0 = .ok v ∧ shift v v.data.length = .ok v ∧
      (shift v k >>= fun r => shift r (-k)) = .ok v := by
  have h0 : shift v 0 = .ok v := by rw [shift_eq v 0 h]; simp
  refine ⟨h0, ?_, ?_⟩
  · rw [shift_eq _ _ h, Int.emod_eq_zero_of_dvd (by simp)]; simp
  · rw [C11_shift_add v k (-k) h, Int.add_right_neg, h0]

/-- Finding: shifting an empty vector computes a remainder by zero. -/
theorem C11_empty_refuted : shift (⟨[], [0]⟩ : Vec Nat) 1 = .ub := by decide

/-! ## C12 -/

theorem transpose_pos {n m i : Nat} (h : i < n * m) : (i % n) * m + i / n < n * m := by
  have hn : 0 < n := Nat.pos_of_ne_zero (by rintro rfl; simp at h)
  have h1 : i % n < n := Nat.mod_lt _ hn
  have h2 : i / n < m := Nat.div_lt_of_lt_mul h
  calc (i % n) * m + i / n < (i % n) * m + m := by omega
    _ = (i % n + 1) * m := by ring
    _ ≤ n * m := Nat.mul_le_mul_right _ h1

theorem transpose_eq (data : List α) (n m : Nat) (h : data.length = n * m) :
    ∃ d, transpose ⟨data, [n, m]⟩ = .ok ⟨d, [m, n]⟩ ∧ d.length = n * m ∧
      ∀ i, i < n * m → d[i]? = data[(i % n) * m + i / n]? := by
  let d := (List.range data.length).attach.map fun i =>
    data[(i.1 % n) * m + i.1 / n]'(by
      have := List.mem_range.1 i.2; exact lt_of_lt_of_eq (transpose_pos (lt_of_lt_of_eq this h)) h.symm)
  refine ⟨d, ?_, by simp [d, h], ?_⟩
  · have : (List.range data.length).mapM (fun i =>
        if n = 0 then Res.ub else Res.rd data ((i % n) * m + i / n)) = .ok d := by
      apply Res.mapM_getElem (by simp [d])
      intro i hi hr
      simp only [List.length_range] at hi
      have hn : n ≠ 0 := by rintro rfl; simp [h] at hi
      simp only [List.getElem_range, if_neg hn, d, List.getElem_map, List.getElem_attach]
      rw [Res.rd_lt]
    simp only [transpose, this, Res.ok_bind]
  · intro i hi
    have hi' : i < data.length := by omega
    have hp : (i % n) * m + i / n < data.length := by rw [h]; exact transpose_pos hi
    rw [List.getElem?_eq_getElem hp]
    simp [d, hi']

/-- C12: `transpose(v)` swaps the dimensions and `transpose(v)(j,i) = v(i,j)`. -/
theorem C12_transpose (v : Vec α) (n m : Nat) (hd : v.dims = [n, m])
    (hw : v.data.length = v.dims.prod) :
    ∃ t, transpose v = .ok t ∧ t.dims = [m, n] ∧ t.data.length = t.dims.prod ∧
      (∀ i j, i < n → j < m →
        t.data[rowMajor t.dims [j, i]]? = v.data[rowMajor v.dims [i, j]]?) ∧
      transpose t = .ok v := by
  obtain ⟨data, dims⟩ := v
  simp only at hd hw
  subst hd
  simp only [List.prod_cons, List.prod_nil, Nat.mul_one] at hw
  obtain ⟨d, h1, h2, h3⟩ := transpose_eq data n m hw
  have key : ∀ i j, i < n → j < m → d[j * n + i]? = data[i * m + j]? := by
    intro i j hi hj
    have hlt : j * n + i < n * m := by
      calc j * n + i < j * n + n := by omega
        _ = n * (j + 1) := by ring
        _ ≤ n * m := Nat.mul_le_mul_left _ hj
    rw [h3 _ hlt]
    congr 2
    · rw [Nat.mul_comm j n, Nat.mul_add_mod, Nat.mod_eq_of_lt hi]
    · rw [Nat.mul_comm j n, Nat.mul_add_div (by omega), Nat.div_eq_of_lt hi, Nat.add_zero]
  refine ⟨⟨d, [m, n]⟩, h1, rfl, by simp [h2, Nat.mul_comm], ?_, ?_⟩
  · intro i j hi hj
    simpa [rowMajor] using key i j hi hj
  · obtain ⟨d', g1, g2, g3⟩ := transpose_eq d m n (by rw [h2, Nat.mul_comm])
    rw [g1]
    congr 2
    apply List.ext_getElem?
    intro p
    by_cases hp : p < m * n
    · have hm : 0 < m := Nat.pos_of_ne_zero (by rintro rfl; simp at hp)
      rw [g3 p hp, key (p / m) (p % m) (Nat.div_lt_of_lt_mul hp) (Nat.mod_lt _ hm)]
      congr 1
      rw [Nat.mul_comm]; exact Nat.div_add_mod p m
    · rw [List.getElem?_eq_none (by omega), List.getElem?_eq_none (by rw [hw, Nat.mul_comm]; omega)]

example : transpose (⟨[1, 2, 3, 4, 5, 6], [2, 3]⟩ : Vec Nat) = .ok ⟨[1, 4, 2, 5, 3, 6], [3, 2]⟩ := by
  decide

/-! ## C13 -/

theorem ofDims_ok [Inhabited α] (dims : List Nat) (h : dims.prod < 2 ^ 63) :
    ofDims (α := α) dims = .ok ⟨List.replicate dims.prod default, dims⟩ := by
  simp only [ofDims, resize0, resizeData, foldl_prod]
  rw [Nat.mod_eq_of_lt (lt_trans h (by decide)), if_pos h]
  simp

/-- C13, scalar argument. -/
theorem C13_replicate_scalar [Inhabited α] (t : α) (args : List Nat) (h : args.prod < 2 ^ 63) :
    ∃ r, replicateScalar t args = .ok r ∧ r.dims = args ∧ r.data.length = args.prod ∧
      ∀ i, i < args.prod → r.data[i]? = some t := by
  refine ⟨⟨List.replicate args.prod t, args⟩, by simp [replicateScalar, ofDims_ok args h], rfl, by simp, ?_⟩
  intro i hi
  simp [hi]

theorem rowMajor_append (A B a b : List Nat) (hl : a.length = A.length) :
    rowMajor (A ++ B) (a ++ b) = rowMajor A a * B.prod + rowMajor B b := by
  induction A generalizing a with
  | nil => cases a with
    | nil => simp [rowMajor]
    | cons => simp at hl
  | cons d A ih =>
    cases a with
    | nil => simp at hl
    | cons i a =>
      simp only [List.cons_append, rowMajor, List.prod_append, ih a (by simpa using hl)]
      ring

theorem replicateData_get (t : List α) (n q j : Nat) (hq : q < n) (hj : j < t.length) :
    (replicateData t n)[q * t.length + j]? = t[j]? := by
  unfold replicateData
  induction n generalizing q with
  | zero => omega
  | succ n ih =>
    rw [List.range_succ, List.flatMap_append]
    have hlen : ((List.range n).flatMap fun _ => t).length = n * t.length := by
      simp
    by_cases hqn : q < n
    · rw [List.getElem?_append_left, ih q hqn]
      rw [hlen]
      calc q * t.length + j < q * t.length + t.length := by omega
        _ = (q + 1) * t.length := by ring
        _ ≤ _ := Nat.mul_le_mul_right _ hqn
    · have : q = n := by omega
      subst this
      rw [List.getElem?_append_right (by rw [hlen]; omega), hlen]
      simp

/-- C13, vector argument: element `(i.., j..)` of the result is `t(j..)`. -/
theorem C13_replicate [Inhabited α] (t : Vec α) (args : List Nat) (hw : t.data.length = t.dims.prod)
    (ht : t.data ≠ []) (h : (args ++ t.dims).prod < 2 ^ 63) :
    ∃ r, replicate t args = .ok r ∧ r.dims = args ++ t.dims ∧ r.data.length = r.dims.prod ∧
      ∀ is js, InRange args is → InRange t.dims js →
        r.data[rowMajor r.dims (is ++ js)]? = t.data[rowMajor t.dims js]? := by
  have hl : 0 < t.data.length := List.length_pos_iff.2 ht
  have hn : (args ++ t.dims).prod / t.data.length = args.prod := by
    rw [List.prod_append, hw, Nat.mul_div_cancel _ (by omega)]
  have hlen : (replicateData t.data args.prod).length = args.prod * t.data.length := by
    simp [replicateData]
  refine ⟨⟨replicateData t.data args.prod, args ++ t.dims⟩, ?_, rfl, ?_, ?_⟩
  · simp only [replicate, ofDims_ok _ h, Res.ok_bind, if_neg (show ¬ t.data.length = 0 by omega),
      List.length_replicate, hn]
    rw [List.drop_of_length_le, List.append_nil]
    rw [List.length_replicate, List.prod_append, hw]
  · simp only [hlen, List.prod_append, hw]
  · intro is js hi hj
    simp only
    rw [rowMajor_append _ _ _ _ hi.length_eq, ← hw]
    exact replicateData_get _ _ _ _ (rowMajor_lt _ _ hi) (by rw [hw]; exact rowMajor_lt _ _ hj)

example : replicate (⟨[7, 8], [2]⟩ : Vec Nat) [3] = .ok ⟨[7, 8, 7, 8, 7, 8], [3, 2]⟩ := by decide

/-- Finding: replicating an empty vector divides by zero. -/
theorem C13_empty_refuted : replicate (⟨[], [0]⟩ : Vec Nat) [3] = .ub := by decide

end Verif.Core.Vec
