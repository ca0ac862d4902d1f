import Verif.Math.Lapack
import Verif.Math.LinfitProps
/-!
# C90: `solve`, `invert` and `invert_symmetric` when LAPACK is used
-/
namespace Verif.Mat
open Verif Verif.Linfit

variable {n : Nat} {K : Type} [Field K]

theorem raw_rowMajor (a : M n K) (i j : Fin n) : raw a (i * n + j) = a i j := by
  have hj := j.2
  have hi := i.2
  have hn : 0 < n := by omega
  have hlt : (i : Nat) * n + j < n * n := by
    have : ((i : Nat) + 1) * n ≤ n * n := Nat.mul_le_mul_right n hi
    rw [Nat.succ_mul] at this
    omega
  have h1 : ((i : Nat) * n + j) / n = i := by
    rw [Nat.mul_comm, Nat.mul_add_div hn, Nat.div_eq_of_lt hj, Nat.add_zero]
  have h2 : ((i : Nat) * n + j) % n = j := by
    rw [Nat.mul_comm, Nat.mul_add_mod, Nat.mod_eq_of_lt hj]
  unfold raw
  rw [dif_pos hlt]
  have e1 : ∀ h, (⟨((i : Nat) * n + j) / n, h⟩ : Fin n) = i := fun h => Fin.ext h1
  have e2 : ∀ h, (⟨((i : Nat) * n + j) % n, h⟩ : Fin n) = j := fun h => Fin.ext h2
  rw [e1, e2]

/-- LAPACK sees the transpose -/
theorem raw_colMajor (a : M n K) (i j : Fin n) : raw a (i + j * n) = a j i := by
  rw [Nat.add_comm, raw_rowMajor]

/-- **C90** (the full statement, `A x = b` for every square matrix, is false with LAPACK, see `C90_solve_refuted`): the solution returned by
`solve` with LAPACK is that of the system of the transposed matrix -/
theorem C90_solve_transpose (gesv : (Nat → K) → (Fin n → K) → Option (Fin n → K)) (hg : IsGesv n gesv) (a : M n K) (b x : Fin n → K)
    (h : lapackSolve gesv a b = some x) (i : Fin n) : ∑ j, a j i * x j = b i := by
  rw [← hg _ _ _ h i]
  exact Finset.sum_congr rfl fun j _ => by rw [raw_colMajor]

/-- **C90** for symmetric matrices it is the solution of the system -/
theorem C90_solve_symmetric_partial (gesv : (Nat → K) → (Fin n → K) → Option (Fin n → K)) (hg : IsGesv n gesv) (a : M n K)
    (ha : ∀ i j, a i j = a j i) (b x : Fin n → K) (h : lapackSolve gesv a b = some x) (i : Fin n) : ∑ j, a i j * x j = b i := by
  rw [← C90_solve_transpose gesv hg a b x h i]
  exact Finset.sum_congr rfl fun j _ => by rw [ha]

/-- **C90** the solution with LAPACK is not that of the system for the matrix `[[1, 1], [0, 1]]`, whatever the implementation of LAPACK -/
theorem C90_solve_refuted (gesv : (Nat → ℚ) → (Fin 2 → ℚ) → Option (Fin 2 → ℚ)) (hg : IsGesv 2 gesv) (x : Fin 2 → ℚ) :
    let a : M 2 ℚ := fun i j => if i ≤ j then 1 else 0
    let b : Fin 2 → ℚ := fun i => if i = 0 then 1 else 0
    lapackSolve gesv a b = some x → ∑ j, a 0 j * x j ≠ b 0 := by
  intro a b h
  have h0 := C90_solve_transpose gesv hg a b x h 0
  have h1 := C90_solve_transpose gesv hg a b x h 1
  rw [Fin.sum_univ_two] at h0 h1 ⊢
  simp [a, b] at h0 h1 ⊢
  linarith

/-- an implementation of `dgesv_` that meets the contract (the LU decomposition of this library, applied to the matrix that LAPACK sees) and
does solve the system above -/
def gesvEx (n : Nat) (a : Nat → ℚ) (b : Fin n → ℚ) : Option (Fin n → ℚ) := solve (fun i j : Fin n => a (i + j * n)) b

theorem gesvEx_ok (n : Nat) : IsGesv n (gesvEx n) := by
  intro a b x h i
  have := C51_free_solve (fun i j : Fin n => a (i + j * n)) b
  unfold gesvEx at h
  rw [h] at this
  exact this.2 i

example : ((lapackSolve (gesvEx 2) (fun i j => if i ≤ j then 1 else 0) fun i => if i = 0 then 1 else 0).map fun x => (x 0, x 1)) =
    some (1, -1) := by decide +kernel

/-- **C90** `invert` with LAPACK gives the inverse: the two transpositions cancel -/
theorem C90_invert (getri : (Nat → K) → Option (Nat → K)) (hg : IsGetri n getri) (a b : M n K) (h : lapackInvert getri a = some b) :
    Matrix.of a * Matrix.of b = 1 ∧ Matrix.of b * Matrix.of a = 1 := by
  unfold lapackInvert at h
  rw [Option.map_eq_some_iff] at h
  obtain ⟨r, hr, rfl⟩ := h
  have hm : Matrix.of (ofRaw (n := n) r) * Matrix.of a = 1 := by
    ext i j
    rw [Matrix.mul_apply, Matrix.one_apply]
    have := hg _ _ hr j i
    simp only [raw_colMajor, eq_comm (a := j) (b := i)] at this
    rw [← this]
    refine Finset.sum_congr rfl fun k _ => ?_
    simp only [Matrix.of_apply, ofRaw, Nat.add_comm (k : Nat)]
    ring
  exact ⟨mul_eq_one_comm.1 hm, hm⟩

/-- closed form of `inplace_symmetrize` -/
theorem symmetrize_apply (a : M n K) (i j : Fin n) : symmetrize a i j = if i < j then a j i else a i j := by
  have inner : ∀ (L : List (Fin n)) (a : M n K) (i r c : Fin n), (∀ t ∈ L, i < t) →
      (L.foldl (fun a j => upd a i j (a j i)) a) r c = if r = i ∧ c ∈ L then a c r else a r c := by
    intro L
    induction L with
    | nil => intro a i r c _; simp
    | cons t L ih =>
      intro a i r c hL
      rw [List.foldl_cons, ih _ _ _ _ fun u hu => hL u (List.mem_cons_of_mem _ hu)]
      have hit : i < t := hL t (by simp)
      by_cases hr : r = i
      · subst hr
        by_cases hc : c ∈ L
        · have hrc : r < c := hL c (List.mem_cons_of_mem _ hc)
          simp [hc, upd, ne_of_gt hrc]
        · by_cases hct : c = t
          · subst hct; simp [hc, upd]
          · simp [hc, hct, upd]
      · simp [hr, upd]
  have := foldl_up (fun a i => (above i).foldl (fun a j => upd a i j (a j i)) a)
    (fun k b => (∀ i : Fin n, (i : Nat) < k → ∀ j, b i j = if i < j then a j i else a i j) ∧ ∀ i : Fin n, k ≤ i → ∀ j, b i j = a i j)
    a ⟨fun _ h => absurd h (by omega), fun _ _ _ => rfl⟩ (by
      rintro k b ⟨h1, h2⟩
      have e : ∀ r c, ((above k).foldl (fun a j => upd a k j (a j k)) b) r c = if r = k ∧ k < c then b c r else b r c := by
        intro r c
        rw [inner _ _ _ _ _ (fun t ht => mem_above.1 ht)]
        simp only [mem_above]
      refine ⟨fun i hi j => ?_, fun i hi j => ?_⟩
      · rw [e]
        by_cases hik : i = k
        · subst hik
          simp only [true_and]
          split
          · rename_i hlt; exact h2 j (by rw [Fin.lt_def] at hlt; omega) i
          · exact h2 i le_rfl j
        · have : (i : Nat) ≠ k := fun h => hik (Fin.ext h)
          rw [if_neg (fun h => hik h.1)]
          exact h1 i (by omega) j
      · have : i ≠ k := by rintro rfl; omega
        rw [e, if_neg (fun h => this h.1)]
        exact h2 i (by omega) j)
  exact this.1 i i.2 j

/-- **C90** `invert_symmetric` with LAPACK followed by `inplace_symmetrize` (as in `linfit`) gives the inverse of a symmetric matrix. Without
`inplace_symmetrize` only the lower triangle is that of the inverse; the upper one is that of the input (`C90_invert_symmetric_refuted`). -/
theorem C90_invert_symmetric_partial (sytri : (Nat → K) → Option (Nat → K)) (hs : IsSytri n sytri) (a b : M n K) (ha : ∀ i j, a i j = a j i)
    (h : lapackInvertSymmetric sytri a = some b) :
    Matrix.of a * Matrix.of (symmetrize b) = 1 ∧ (∀ i j, i < j → b i j = a i j) := by
  unfold lapackInvertSymmetric at h
  rw [Option.map_eq_some_iff] at h
  obtain ⟨r, hr, rfl⟩ := h
  obtain ⟨c, h1, h2, h3⟩ := hs _ _ hr
  have hac : Matrix.of a * Matrix.of c = 1 := by
    ext i j
    rw [Matrix.mul_apply, Matrix.one_apply, ← h1 i j]
    refine Finset.sum_congr rfl fun k _ => ?_
    simp only [raw_colMajor, Matrix.of_apply]
    split
    · rw [ha]
    · rfl
  have hcs : ∀ i j, c i j = c j i := by
    have ht : (Matrix.of a).transpose = Matrix.of a := by
      ext r c; exact ha c r
    have h3 : (Matrix.of c).transpose * Matrix.of a = 1 := by
      have := congrArg Matrix.transpose hac
      rwa [Matrix.transpose_mul, ht, Matrix.transpose_one] at this
    have h4 : (Matrix.of c).transpose = Matrix.of c := by
      have h5 : ((Matrix.of c).transpose * Matrix.of a) * Matrix.of c = Matrix.of c := by rw [h3, Matrix.one_mul]
      rwa [Matrix.mul_assoc, hac, Matrix.mul_one] at h5
    exact fun i j => congrFun (congrFun h4 j) i
  refine ⟨?_, fun i j hij => ?_⟩
  · have : symmetrize (ofRaw (n := n) r) = c := by
      funext i j
      rw [symmetrize_apply]
      simp only [ofRaw]
      split
      · rename_i hlt
        rw [Nat.add_comm, h2 i j (le_of_lt hlt)]
      · rename_i hlt
        rw [Nat.add_comm, h2 j i (not_lt.1 hlt), hcs]
    rw [this]; exact hac
  · simp only [ofRaw]
    rw [Nat.add_comm, h3 j i hij, raw_colMajor]

/-- **C90** `invert_symmetric` with LAPACK does not return the inverse of `[[2, 1], [1, 1]]`: the upper entry is still 1 instead of -1 -/
theorem C90_invert_symmetric_refuted (sytri : (Nat → ℚ) → Option (Nat → ℚ)) (hs : IsSytri 2 sytri) (b : M 2 ℚ) :
    let a : M 2 ℚ := fun i j => if i = 0 ∧ j = 0 then 2 else 1
    lapackInvertSymmetric sytri a = some b → Matrix.of a * Matrix.of b ≠ 1 := by
  intro a h hm
  have ha : ∀ i j, a i j = a j i := by decide +kernel
  obtain ⟨-, h2⟩ := C90_invert_symmetric_partial sytri hs a b ha h
  have e := h2 0 1 (by decide)
  have m0 := congrFun (congrFun hm 0) 1
  have m1 := congrFun (congrFun hm 1) 1
  rw [Matrix.mul_apply, Fin.sum_univ_two, Matrix.one_apply] at m0 m1
  simp [a] at e m0 m1
  rw [e] at m0 m1
  linarith

/-- an implementation that meets the contract -/
def sytriEx (n : Nat) (a : Nat → ℚ) : Option (Nat → ℚ) :=
  (invert (fun i k : Fin n => if i ≤ k then a (i + k * n) else a (k + i * n))).map fun b k =>
    if h : k < n * n then
      if k % n ≤ k / n then raw (fun i j => b j i) k else a k
    else 0

example : ((lapackInvertSymmetric (sytriEx 2) fun i j : Fin 2 => if i = 0 ∧ j = 0 then 2 else 1).map fun b => (b 0 0, b 0 1, b 1 0, b 1 1)) =
    some (1, 1, -1, 2) := by decide +kernel

end Verif.Mat
