import Verif.Math.LapackSym
import Verif.Math.LapackProps
/-!
# C166: `solve_symmetric`, `eigen_symmetric` and `decompose_svd`
-/
namespace Verif.Mat
open Verif Verif.Linfit

variable {n : Nat} {K : Type} [Field K]

theorem upperOf_raw (a : M n K) (i j : Fin n) : upperOf n (raw a) i j = if j ≤ i then a i j else a j i := by
  unfold upperOf
  rw [raw_colMajor, raw_colMajor]
  by_cases h : i ≤ j
  · by_cases h' : j ≤ i
    · have := le_antisymm h h'
      subst this; simp
    · rw [if_pos h, if_neg h']
  · rw [if_neg h, if_pos (le_of_not_ge h)]

theorem upperOf_symm (a : M n K) (ha : ∀ i j, a i j = a j i) (i j : Fin n) : upperOf n (raw a) i j = a i j := by
  rw [upperOf_raw]
  split
  · rfl
  · exact ha j i

/-- **C166** `solve_symmetric` with LAPACK solves the system of the matrix made of the part of `a` below its diagonal -/
theorem C166_solve_lower (sysv : (Nat → K) → (Fin n → K) → Option (Fin n → K)) (hs : IsSysv n sysv) (a : M n K) (b x : Fin n → K)
    (h : lapackSolveSymmetric sysv a b = some x) (i : Fin n) : ∑ j, (if j ≤ i then a i j else a j i) * x j = b i := by
  rw [← hs _ _ _ h i]
  exact Finset.sum_congr rfl fun j _ => by rw [upperOf_raw]

/-- **C166** for a symmetric matrix, `solve_symmetric` solves the system; when LAPACK is not used and `solve_symmetric` also succeeds, the
solution is the same. -/
theorem C166_solve [LinearOrder K] [IsStrictOrderedRing K] (sysv : (Nat → K) → (Fin n → K) → Option (Fin n → K)) (hs : IsSysv n sysv) (a : M n K)
    (ha : ∀ i j, a i j = a j i) (b x : Fin n → K) (h : lapackSolveSymmetric sysv a b = some x) :
    (∀ i, ∑ j, a i j * x j = b i) ∧ ∀ y, plainSolveSymmetric a b = some y → y = x := by
  have hx : ∀ i, ∑ j, a i j * x j = b i := by
    intro i
    rw [← hs _ _ _ h i]
    exact Finset.sum_congr rfl fun j _ => by rw [upperOf_symm a ha]
  refine ⟨hx, fun y hy => ?_⟩
  have := C51_free_solve a b
  unfold plainSolveSymmetric at hy
  rw [hy] at this
  have hy' : (Matrix.of a).mulVec y = b := by
    funext i
    exact this.2 i
  have hx' : (Matrix.of a).mulVec x = b := by
    funext i
    exact hx i
  have hd : IsUnit (Matrix.of a) := by
    rw [Matrix.isUnit_iff_isUnit_det, isUnit_iff_ne_zero]
    exact this.1
  exact Matrix.mulVec_injective_of_isUnit hd (hy'.trans hx'.symm)

/-- **C166** `eigen_symmetric` on a symmetric matrix: each row of the result is an eigenvector of its value, the rows are orthonormal, the values
ascend, and together they give the matrix back -/
theorem C166_eigen [LE K] (syev : (Nat → K) → Option ((Nat → K) × (Fin n → K))) (hs : IsSyev n syev) (a : M n K) (ha : ∀ i j, a i j = a j i)
    (v : M n K) (w : Fin n → K) (h : eigenSymmetric syev a = some (v, w)) :
    (∀ k i, ∑ j, a i j * v k j = w k * v k i) ∧ (∀ k l, ∑ i, v k i * v l i = if k = l then 1 else 0) ∧ (∀ k l, k ≤ l → w k ≤ w l) ∧
    ∀ i j, ∑ k, w k * v k i * v k j = a i j := by
  unfold eigenSymmetric at h
  rw [Option.map_eq_some_iff] at h
  obtain ⟨⟨r, w'⟩, hr, he⟩ := h
  simp only [Prod.mk.injEq] at he
  obtain ⟨rfl, rfl⟩ := he
  obtain ⟨h1, h2, h3⟩ := hs _ _ _ hr
  have e1 : ∀ k i, ∑ j, a i j * ofRaw r k j = w' k * ofRaw r k i := by
    intro k i
    have := h1 k i
    simp only [upperOf_symm a ha] at this
    simp only [ofRaw, Nat.add_comm ((k : Nat) * n)]
    exact this
  have e2 : ∀ k l : Fin n, ∑ i, ofRaw r k i * ofRaw r l i = if k = l then 1 else 0 := by
    intro k l
    rw [← h2 k l]
    simp only [ofRaw, Nat.add_comm (_ * n)]
  refine ⟨e1, e2, h3, ?_⟩
  have hV : Matrix.of (ofRaw (n := n) r) * (Matrix.of (ofRaw (n := n) r)).transpose = 1 := by
    ext k l
    rw [Matrix.mul_apply, Matrix.one_apply]
    exact e2 k l
  have hV' := mul_eq_one_comm.1 hV
  have hV2 : ∀ j i : Fin n, ∑ k, ofRaw r k j * ofRaw r k i = if j = i then 1 else 0 := by
    intro j i
    have := congrFun (congrFun hV' j) i
    rw [Matrix.mul_apply, Matrix.one_apply] at this
    exact this
  intro i j
  calc ∑ k, w' k * ofRaw r k i * ofRaw r k j = ∑ k, (∑ l, a i l * ofRaw r k l) * ofRaw r k j := by simp only [e1]
    _ = ∑ l, a i l * ∑ k, ofRaw r k l * ofRaw r k j := by
      simp only [Finset.sum_mul, Finset.mul_sum]
      rw [Finset.sum_comm]
      simp only [mul_assoc]
    _ = a i j := by simp [hV2]

/-- **C166** `decompose_svd`: the product `u * diag(s) * vt` is the matrix, `u` and `vt` are orthogonal, and the singular values are
non-negative and descend -/
theorem C166_svd [LE K] (gesdd : (Nat → K) → Option (Gesdd n K)) (hs : IsGesdd n gesdd) (a : M n K) (d : Svd n K) (h : decomposeSvd gesdd a = some d) :
    (∀ i j, ∑ k, d.u i k * d.s k * d.vt k j = a i j) ∧ (∀ k l, ∑ i, d.u i k * d.u i l = if k = l then 1 else 0) ∧
    (∀ k l, ∑ i, d.vt k i * d.vt l i = if k = l then 1 else 0) ∧ (∀ k, 0 ≤ d.s k) ∧ ∀ k l, k ≤ l → d.s l ≤ d.s k := by
  unfold decomposeSvd at h
  rw [Option.map_eq_some_iff] at h
  obtain ⟨r, hr, rfl⟩ := h
  obtain ⟨h1, h2, h3, h4, h5⟩ := hs _ _ hr
  refine ⟨fun i j => ?_, fun k l => ?_, fun k l => ?_, h4, h5⟩
  · have := h1 j i
    rw [raw_colMajor] at this
    rw [← this]
    refine Finset.sum_congr rfl fun k _ => ?_
    simp only [ofRaw, Nat.add_comm (_ * n)]
    ring
  · rw [← h3 k l]
    simp only [ofRaw, Nat.add_comm (_ * n)]
  · rw [← h2 k l]
    simp only [ofRaw, Nat.add_comm (_ * n)]

/-- a driver that knows only one matrix, `[[41, -12], [-12, 34]] / 25` -/
def syevEx (a : Nat → ℚ) : Option ((Nat → ℚ) × (Fin 2 → ℚ)) :=
  if a 0 = 41 / 25 ∧ a 2 = -12 / 25 ∧ a 3 = 34 / 25 then
    some (fun k => if k = 0 then 3 / 5 else if k = 1 then 4 / 5 else if k = 2 then -4 / 5 else 3 / 5, fun k => if k = 0 then 1 else 2) else none

example : IsSyev 2 syevEx ∧ ((eigenSymmetric syevEx (fun i j => if i = j then (if i = 0 then 41 / 25 else 34 / 25) else -12 / 25)).map fun r => (r.1 1 0, r.2 1)) =
    some (-4 / 5, 2) := by
  constructor
  · intro a r w h
    unfold syevEx at h
    split at h
    · rename_i hc
      obtain ⟨h0, h2, h3⟩ := hc
      simp only [Option.some.injEq, Prod.mk.injEq] at h
      obtain ⟨rfl, rfl⟩ := h
      refine ⟨?_, ?_, ?_⟩
      · intro k i
        fin_cases k <;> fin_cases i <;> simp [Fin.sum_univ_two, upperOf, h0, h2, h3] <;> norm_num
      · intro k l
        fin_cases k <;> fin_cases l <;> simp [Fin.sum_univ_two] <;> norm_num
      · intro k l hkl
        fin_cases k <;> fin_cases l <;> simp at hkl ⊢
    · exact absurd h (by simp)
  · decide +kernel

/-- a driver that solves with the LU decomposition of this library the system that LAPACK sees -/
def sysvEx (n : Nat) (a : Nat → ℚ) (b : Fin n → ℚ) : Option (Fin n → ℚ) := solve (upperOf n a) b

example : IsSysv n (sysvEx n) := by
  intro a b x h i
  have := C51_free_solve (upperOf n a) b
  unfold sysvEx at h
  rw [h] at this
  exact this.2 i

example : ((lapackSolveSymmetric (sysvEx 2) (fun i j => if i = j then 2 else 1) fun i => if i = 0 then 1 else 0).map fun x => (x 0, x 1)) =
    some (2 / 3, -1 / 3) := by decide +kernel

/-- a driver that knows only one matrix, `[[0, 2], [-1, 0]]` as LAPACK sees it -/
def gesddEx (a : Nat → ℚ) : Option (Gesdd 2 ℚ) :=
  if a 0 = 0 ∧ a 1 = -1 ∧ a 2 = 2 ∧ a 3 = 0 then
    some { u := fun k => if k = 0 then 1 else if k = 3 then -1 else 0, vt := fun k => if k = 1 ∨ k = 2 then 1 else 0, s := fun k => if k = 0 then 2 else 1 } else none

example : IsGesdd 2 gesddEx ∧ ((decomposeSvd gesddEx (fun i j => if i = j then 0 else if i = 0 then -1 else 2)).map fun r => (r.vt 1 1, r.s 0)) =
    some (-1, 2) := by
  constructor
  · intro a r h
    unfold gesddEx at h
    split at h
    · rename_i hc
      obtain ⟨h0, h1, h2, h3⟩ := hc
      simp only [Option.some.injEq] at h
      subst h
      refine ⟨?_, ?_, ?_, ?_, ?_⟩
      · intro k i
        fin_cases k <;> fin_cases i <;> simp [Fin.sum_univ_two, h0, h1, h2, h3]
      · intro k l
        fin_cases k <;> fin_cases l <;> simp [Fin.sum_univ_two]
      · intro k l
        fin_cases k <;> fin_cases l <;> simp [Fin.sum_univ_two]
      · intro k
        fin_cases k <;> simp
      · intro k l hkl
        fin_cases k <;> fin_cases l <;> simp at hkl ⊢
    · exact absurd h (by simp)
  · decide +kernel

end Verif.Mat
