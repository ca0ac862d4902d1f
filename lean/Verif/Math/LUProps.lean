import Verif.Math.LUInv
import Mathlib.Algebra.Order.Ring.Rat
import Mathlib.Algebra.Field.Rat
/-!
# C51–C53: the LU decomposition

Specifications: `∑ j, A i j * x j` is the product of the matrix and the vector; the determinant is that of Mathlib.
-/
namespace Verif.Mat
open Verif

variable {n : Nat} {K : Type} [Field K] [LinearOrder K] [IsStrictOrderedRing K]

/-- after a successful decomposition, the two substitutions applied to the permuted right-hand side give the solution -/
theorem subst_solves (A : M n K) (np : Bool) (hb : (luDecompose np A).bad = false) (b y z : Fin n → K)
    (hy : ∀ i, ∑ t, (if t ≤ i then (luDecompose np A).lu i t else 0) * y t = b (prm (luDecompose np A).ipiv n i))
    (hz : ∀ i, ∑ t, (if i < t then (luDecompose np A).lu i t else if i = t then 1 else 0) * z t = y i) (i : Fin n) :
    ∑ j, A i j * z j = b i := by
  obtain ⟨i', rfl⟩ := (prm (luDecompose np A).ipiv n).surjective i
  rw [← hy i']
  simp only [← hz, Finset.mul_sum]
  rw [Finset.sum_comm]
  refine Finset.sum_congr rfl fun j _ => ?_
  rw [lu_eq A np hb, Finset.sum_mul]
  refine Finset.sum_congr rfl fun t _ => ?_
  ring

omit [IsStrictOrderedRing K] in
theorem fwd_sum (a : M n K) (r : Fin n → K) (k : Fin n) (v : K) (h0 : a k k ≠ 0) :
    ∑ t, (if t ≤ k then a k t else 0) * fwdRow a r k v t = v := by
  have e : ∀ t, (if t ≤ k then a k t else 0) * fwdRow a r k v t =
      (if t < k then r t * a k t else 0) + if t = k then (v - ∑ i ∈ Finset.univ.filter (· < k), r i * a k i) else 0 := by
    intro t
    rw [fwdRow_apply]
    rcases lt_trichotomy t k with h | h | h
    · simp [h, le_of_lt h, ne_of_lt h, mul_comm]
    · subst h; simp; field_simp
    · simp [not_le.2 h, ne_of_gt h, not_lt.2 (le_of_lt h)]
  rw [Finset.sum_congr rfl fun t _ => e t, Finset.sum_add_distrib, ← Finset.sum_filter]
  simp

omit [IsStrictOrderedRing K] in
/-- rows already done do not see later changes -/
theorem fwd_keep (a : M n K) (r r' : Fin n → K) (i : Fin n) (h : ∀ t, t ≤ i → r' t = r t) :
    ∑ t, (if t ≤ i then a i t else 0) * r' t = ∑ t, (if t ≤ i then a i t else 0) * r t := by
  refine Finset.sum_congr rfl fun t _ => ?_
  by_cases ht : t ≤ i
  · rw [h t ht]
  · simp [ht]

omit [IsStrictOrderedRing K] in
theorem bwd_sum (a : M n K) (r : Fin n → K) (k : Fin n) :
    ∑ t, (if k < t then a k t else if k = t then 1 else 0) * bwdRow a r k t = r k := by
  have e : ∀ t, (if k < t then a k t else if k = t then 1 else 0) * bwdRow a r k t =
      (if k < t then r t * a k t else 0) + if t = k then (r k - ∑ i ∈ Finset.univ.filter (k < ·), r i * a k i) else 0 := by
    intro t
    rw [bwdRow_apply]
    rcases lt_trichotomy t k with h | h | h
    · simp [not_lt.2 (le_of_lt h), ne_of_lt h, ne_of_gt h]
    · subst h; simp
    · simp [h, ne_of_gt h, mul_comm]
  rw [Finset.sum_congr rfl fun t _ => e t, Finset.sum_add_distrib, ← Finset.sum_filter]
  simp

omit [IsStrictOrderedRing K] in
theorem bwd_keep (a : M n K) (r r' : Fin n → K) (i : Fin n) (h : ∀ t, i ≤ t → r' t = r t) :
    ∑ t, (if i < t then a i t else if i = t then 1 else 0) * r' t =
      ∑ t, (if i < t then a i t else if i = t then 1 else 0) * r t := by
  refine Finset.sum_congr rfl fun t _ => ?_
  by_cases ht : i ≤ t
  · rw [h t ht]
  · simp [not_lt.2 (le_of_lt (not_le.1 ht)), ne_of_gt (not_le.1 ht)]

omit [IsStrictOrderedRing K] in
theorem bwd_spec (a : M n K) (y : Fin n → K) :
    ∀ i, ∑ t, (if i < t then a i t else if i = t then 1 else 0) *
      ((List.finRange n).reverse.foldl (fun r k => bwdRow a r k) y) t = y i := by
  have := foldl_down (fun r k => bwdRow a r k)
    (fun k r => (∀ i : Fin n, (i : Nat) < k → r i = y i) ∧
      ∀ i : Fin n, k ≤ i → ∑ t, (if i < t then a i t else if i = t then 1 else 0) * r t = y i) y
    ⟨fun _ _ => rfl, fun i hi => absurd i.2 (by omega)⟩ (by
      rintro k r ⟨h1, h2⟩
      refine ⟨fun i hi => ?_, fun i hi => ?_⟩
      · rw [bwdRow_apply, if_neg (by rintro rfl; omega)]
        exact h1 i (by omega)
      · by_cases e : i = k
        · subst e
          rw [bwd_sum, h1 i (by omega)]
        · have hki : (k : Nat) ≠ i := fun h => e (Fin.ext h.symm)
          rw [bwd_keep a r _ i]
          · exact h2 i (by omega)
          · intro t ht
            rw [bwdRow_apply, if_neg (by rintro rfl; rw [Fin.le_def] at ht; omega)])
  exact fun i => this.2 i (by omega)

theorem vswap_apply (x : Fin n → K) (k p i : Fin n) : vswap x k p i = x (Equiv.swap k p i) := by
  unfold vswap vset
  by_cases h1 : i = p
  · subst h1; simp
  · by_cases h2 : i = k
    · subst h2; simp [h1]
    · simp [h1, h2, Equiv.swap_apply_of_ne_of_ne]

/-- **C51** if the decomposition (with or without pivoting) succeeds, `solve` returns the solution of the system -/
theorem C51_solve (A : M n K) (np : Bool) (b : Fin n → K) (h : (luDecompose np A).bad = false) (i : Fin n) :
    ∑ j, A i j * luSolve (luDecompose np A) b j = b i := by
  have hi := linv_final A np
  set s := luDecompose np A with hs
  have hf := foldl_up (fun (xr : (Fin n → K) × (Fin n → K)) k =>
      let x := if s.noPivot then xr.1 else if s.ipiv k ≠ k then vswap xr.1 k (s.ipiv k) else xr.1
      (x, fwdRow s.lu xr.2 k (x k)))
    (fun k xr => (∀ i, xr.1 i = b (prm s.ipiv k i)) ∧
      ∀ i : Fin n, (i : Nat) < k → ∑ t, (if t ≤ i then s.lu i t else 0) * xr.2 t = b (prm s.ipiv n i))
    (b, fun _ => 0) ⟨fun _ => rfl, fun _ h => absurd h (by omega)⟩ (by
      rintro k ⟨x, r⟩ ⟨h1, h2⟩
      simp only at h1 h2 ⊢
      have hx : ∀ i, (if s.noPivot then x else if s.ipiv k ≠ k then vswap x k (s.ipiv k) else x) i = b (prm s.ipiv (k + 1) i) := by
        intro i
        rw [prm_succ, Equiv.Perm.mul_apply, ← h1]
        by_cases hn : s.noPivot = true
        · rw [if_pos hn, hi.idn (hi.npv ▸ hn)]; simp
        · rw [if_neg hn]
          by_cases e : s.ipiv k = k
          · rw [if_neg (not_not.2 e), e]; simp
          · rw [if_pos e, vswap_apply]
      refine ⟨hx, fun i hik => ?_⟩
      by_cases e : i = k
      · subst e
        rw [fwd_sum _ _ _ _ (hi.diag h i i.2), hx, prm_fix s.ipiv hi.le i n i.2]
      · have hki : (i : Nat) ≠ k := fun h => e (Fin.ext h)
        rw [fwd_keep s.lu r _ i]
        · exact h2 i (by omega)
        · intro t ht
          rw [fwdRow_apply, if_neg (by rintro rfl; rw [Fin.le_def] at ht; omega)])
  refine subst_solves A np h b _ (luSolve s b) (fun i => hf.2 i i.2) ?_ i
  intro i
  exact bwd_spec s.lu _ i

/-- **C51** with pivoting, the decomposition fails exactly for the singular matrices; the free functions `solve` and `invert`
return `false` for them -/
theorem C51_fails_iff (A : M n K) : (luDecompose false A).bad = true ↔ (Matrix.of A).det = 0 := by
  constructor
  · exact fun h => (linv_final A false).sing h rfl
  · intro hd
    by_contra hb
    have hb : (luDecompose false A).bad = false := by simpa using hb
    rw [det_lu A false hb, luDet_eq] at hd
    rcases mul_eq_zero.1 hd with h | h
    · split at h <;> simp at h
    · obtain ⟨i, _, h⟩ := Finset.prod_eq_zero_iff.1 h
      exact (linv_final A false).diag hb i i.2 h

/-- **C51** the free function `solve`: it returns the solution, or reports a singular matrix -/
theorem C51_free_solve (A : M n K) (b : Fin n → K) :
    match solve A b with
    | some x => (Matrix.of A).det ≠ 0 ∧ ∀ i, ∑ j, A i j * x j = b i
    | none => (Matrix.of A).det = 0 := by
  unfold solve
  simp only
  by_cases hb : (luDecompose false A).bad = true
  · rw [if_pos hb]
    exact (C51_fails_iff A).1 hb
  · rw [if_neg hb]
    exact ⟨fun h => hb ((C51_fails_iff A).2 h), C51_solve A false b (by simpa using hb)⟩

/-- **C51** without pivoting the decomposition also fails on invertible matrices -/
theorem C51_no_pivot_fails_refuted :
    let A : M 2 ℚ := fun i j => if i = j then 0 else 1
    (luDecompose true A).bad = true ∧ (Matrix.of A).det ≠ 0 := by
  refine ⟨by decide +kernel, ?_⟩
  rw [Matrix.det_fin_two]
  decide +kernel

/-- a system of three equations whose first two pivots need an exchange of rows -/
example :
    let A : M 3 ℚ := fun i j => ((#v[0, 2, 1, 1, 1, 0, 3, 0, 1] : Vector ℚ 9)[3 * i.1 + j.1]'(by omega))
    let b : Fin 3 → ℚ := fun i => i.1 + 1
    (luDecompose false A).bad = false ∧ (luDecompose false A).ns = 2 ∧
      luSolve (luDecompose false A) b 0 = 6 / 5 := by decide +kernel

/-- **C52** `determinant` of a successful decomposition is the determinant of the matrix -/
theorem C52_determinant (A : M n K) (np : Bool) (h : (luDecompose np A).bad = false) :
    luDet (luDecompose np A) = (Matrix.of A).det := (det_lu A np h).symm

/-- **C52** the free function `determinant` returns the determinant of every square matrix, singular or not -/
theorem C52_free_determinant (A : M n K) : determinant A = (Matrix.of A).det := by
  unfold determinant
  simp only
  by_cases hb : (luDecompose false A).bad = true
  · rw [if_pos hb, (C51_fails_iff A).1 hb]
  · rw [if_neg hb, det_lu A false (by simpa using hb)]

example :
    let A : M 3 ℚ := fun i j => ((#v[0, 2, 1, 1, 1, 0, 3, 0, 1] : Vector ℚ 9)[3 * i.1 + j.1]'(by omega))
    determinant A = -5 := by decide +kernel

/-- **C53** (without pivoting the claim is false, see `C53_no_pivot_refuted`): if the decomposition with pivoting succeeds, `invert`
returns the inverse of the matrix, on both sides. Missing from the full statement: decompositions with `no_pivot`. -/
theorem C53_invert_partial (A : M n K) (h : (luDecompose false A).bad = false) :
    Matrix.of A * Matrix.of (luInvert (luDecompose false A)) = 1 ∧ Matrix.of (luInvert (luDecompose false A)) * Matrix.of A = 1 := by
  have hmain : Matrix.of A * Matrix.of (luInvert (luDecompose false A)) = 1 := by
    have hi := linv_final A false
    set s := luDecompose false A with hs
    have hnp : s.noPivot = false := hi.npv
    have hf := foldl_up (fun (st : M n K × (Fin n → K)) c =>
      let (_, r) := (List.finRange n).foldl (fun (ir : Fin n × (Fin n → K)) k =>
        let i1 := if s.noPivot then ir.1 else if k = ir.1 then s.ipiv k else if s.ipiv k = ir.1 then k else ir.1
        (i1, fwdRow s.lu ir.2 k (if s.noPivot then 1 else if i1 = k then 1 else 0))) (c, st.2)
      (List.finRange n).reverse.foldl (fun (st : M n K × (Fin n → K)) k =>
        let r := bwdRow s.lu st.2 k
        (upd st.1 k c (r k), r)) (st.1, r))
      (fun m st => ∀ c : Fin n, (c : Nat) < m → ∀ i, ∑ j, A i j * st.1 j c = if i = c then 1 else 0)
      (fun _ _ => 0, fun _ => 0) (fun _ h => absurd h (by omega)) (by
        rintro c ⟨B, r0⟩ hB
        simp only at hB ⊢
        have hfw := foldl_up (fun (ir : Fin n × (Fin n → K)) k =>
            let i1 := if s.noPivot then ir.1 else if k = ir.1 then s.ipiv k else if s.ipiv k = ir.1 then k else ir.1
            (i1, fwdRow s.lu ir.2 k (if s.noPivot then 1 else if i1 = k then 1 else 0)))
          (fun k ir => prm s.ipiv k ir.1 = c ∧
            ∀ i : Fin n, (i : Nat) < k → ∑ t, (if t ≤ i then s.lu i t else 0) * ir.2 t = if prm s.ipiv n i = c then 1 else 0)
          (c, r0) ⟨rfl, fun _ h => absurd h (by omega)⟩ (by
            rintro k ⟨i1, r⟩ ⟨h1, h2⟩
            simp only [hnp, Bool.false_eq_true, if_false] at h1 h2 ⊢
            have he : (if k = i1 then s.ipiv k else if s.ipiv k = i1 then k else i1) = Equiv.swap k (s.ipiv k) i1 := by
              by_cases e1 : k = i1
              · subst e1; simp
              · by_cases e2 : s.ipiv k = i1
                · rw [if_neg e1, if_pos e2, ← e2, Equiv.swap_apply_right]
                · rw [if_neg e1, if_neg e2, Equiv.swap_apply_of_ne_of_ne (Ne.symm e1) (Ne.symm e2)]
            rw [he]
            have hp : prm s.ipiv (k + 1) (Equiv.swap k (s.ipiv k) i1) = c := by
              rw [prm_succ, Equiv.Perm.mul_apply, Equiv.swap_apply_self, h1]
            refine ⟨hp, fun i hik => ?_⟩
            by_cases e : i = k
            · subst e
              rw [fwd_sum _ _ _ _ (hi.diag h i i.2), prm_fix s.ipiv hi.le i n i.2]
              have : Equiv.swap i (s.ipiv i) i1 = i ↔ prm s.ipiv (i + 1) i = c := by
                constructor
                · intro e; rw [← hp, e]
                · intro e; rw [← hp] at e; exact ((prm s.ipiv (i + 1)).injective e).symm
              simp only [this]
            · have hki : (i : Nat) ≠ k := fun h => e (Fin.ext h)
              rw [fwd_keep s.lu r _ i]
              · exact h2 i (by omega)
              · intro t ht
                rw [fwdRow_apply, if_neg (by rintro rfl; rw [Fin.le_def] at ht; omega)])
        generalize (List.finRange n).foldl (fun (ir : Fin n × (Fin n → K)) k =>
            let i1 := if s.noPivot then ir.1 else if k = ir.1 then s.ipiv k else if s.ipiv k = ir.1 then k else ir.1
            (i1, fwdRow s.lu ir.2 k (if s.noPivot then 1 else if i1 = k then 1 else 0))) (c, r0) = ir at hfw ⊢
        obtain ⟨i1, y⟩ := ir
        simp only at hfw ⊢
        have hbw := foldl_down (fun (st : M n K × (Fin n → K)) k =>
            (upd st.1 k c (bwdRow s.lu st.2 k k), bwdRow s.lu st.2 k))
          (fun k st => (∀ i : Fin n, (i : Nat) < k → st.2 i = y i) ∧
            (∀ i : Fin n, k ≤ i → ∑ t, (if i < t then s.lu i t else if i = t then 1 else 0) * st.2 t = y i) ∧
            (∀ i : Fin n, k ≤ i → st.1 i c = st.2 i) ∧ ∀ i d, d ≠ c → st.1 i d = B i d) (B, y)
          ⟨fun _ _ => rfl, fun i hi => absurd i.2 (by omega), fun i hi => absurd i.2 (by omega), fun _ _ _ => rfl⟩ (by
            rintro k ⟨B', r⟩ ⟨h1, h2, h3, h4⟩
            simp only at h1 h2 h3 h4 ⊢
            refine ⟨fun i hi => ?_, fun i hi => ?_, fun i hi => ?_, fun i d hd => ?_⟩
            · rw [bwdRow_apply, if_neg (by rintro rfl; omega)]
              exact h1 i (by omega)
            · by_cases e : i = k
              · subst e
                rw [bwd_sum, h1 i (by omega)]
              · have hki : (k : Nat) ≠ i := fun h => e (Fin.ext h.symm)
                rw [bwd_keep s.lu r _ i]
                · exact h2 i (by omega)
                · intro t ht
                  rw [bwdRow_apply, if_neg (by rintro rfl; rw [Fin.le_def] at ht; omega)]
            · by_cases e : i = k
              · subst e; simp [upd]
              · have hki : (k : Nat) ≠ i := fun h => e (Fin.ext h.symm)
                rw [bwdRow_apply s.lu r k i, if_neg e, ← h3 i (by omega)]
                simp [upd, e]
            · simp only [upd, hd, and_false, if_false]
              exact h4 i d hd)
        obtain ⟨-, hz, hc, hk⟩ := hbw
        intro d hd i
        by_cases e : d = c
        · subst e
          simp only [hc _ (Nat.zero_le _)]
          exact subst_solves A false h (fun i => if i = d then 1 else 0) y _ (fun i => hfw.2 i i.2) (fun i => hz i (by omega)) i
        · have hne : (d : Nat) ≠ c := fun h => e (Fin.ext h)
          simp only [hk _ d e]
          exact hB d (by omega) i)
    ext i j
    rw [Matrix.mul_apply, Matrix.one_apply]
    exact hf j j.2 i
  exact ⟨hmain, mul_eq_one_comm.1 hmain⟩

/-- **C53** the free function `invert` (without LAPACK): it returns the inverse, or reports a singular matrix -/
theorem C53_free_invert (A : M n K) :
    match invert A with
    | some B => Matrix.of A * Matrix.of B = 1 ∧ Matrix.of B * Matrix.of A = 1
    | none => (Matrix.of A).det = 0 := by
  unfold invert
  simp only
  by_cases hb : (luDecompose false A).bad = true
  · rw [if_pos hb]
    exact (C51_fails_iff A).1 hb
  · rw [if_neg hb]
    exact C53_invert_partial A (by simpa using hb)

/-- **C53** without pivoting `invert` is wrong: the right-hand side is 1 in every row, so that the inverse of the identity is
reported to be the matrix full of ones -/
theorem C53_no_pivot_refuted :
    let A : M 2 ℚ := fun i j => if i = j then 1 else 0
    (luDecompose true A).bad = false ∧ luInvert (luDecompose true A) 0 1 = 1 ∧ Matrix.of A * Matrix.of (luInvert (luDecompose true A)) ≠ 1 := by
  refine ⟨by decide +kernel, by decide +kernel, ?_⟩
  intro h
  have := congrFun (congrFun h 0) 1
  rw [Matrix.mul_apply, Fin.sum_univ_two] at this
  revert this
  decide +kernel

example :
    let A : M 3 ℚ := fun i j => ((#v[0, 2, 1, 1, 1, 0, 3, 0, 1] : Vector ℚ 9)[3 * i.1 + j.1]'(by omega))
    (luDecompose false A).bad = false ∧ luInvert (luDecompose false A) 0 0 = -1/5 := by decide +kernel

end Verif.Mat
