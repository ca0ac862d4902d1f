import Verif.Math.Linfit
import Verif.Math.LUProps
import Verif.Math.CholProps
import Mathlib.Algebra.BigOperators.Field
import Mathlib.LinearAlgebra.Matrix.ToLinearEquiv
/-!
# C55, C91, C92: linear fits

Specification: `chi2 y ye x v` is the weighted sum of the squared residuals of the model `∑ v i * x i`.
-/
namespace Verif.Linfit
open Verif Verif.Mat

variable {p q : Nat} {K : Type} [Field K] [LinearOrder K] [IsStrictOrderedRing K]

/-- weighted sum of squared residuals -/
def chi2 (y ye : Fin q → K) (x : Fin p → Fin q → K) (v : Fin p → K) : K := ∑ m, ((y m - ∑ i, v i * x i m) / ye m) ^ 2

/-- the templates are linearly independent -/
def Indep (x : Fin p → Fin q → K) : Prop := ∀ v : Fin p → K, (∀ m, ∑ i, v i * x i m = 0) → v = 0

omit [LinearOrder K] [IsStrictOrderedRing K] in
theorem accum_eq (f : Fin q → K) : accum f = ∑ m, f m := by
  unfold accum
  rw [fold_add, zero_add, ← List.ofFn_eq_map, List.sum_ofFn]

omit [LinearOrder K] [IsStrictOrderedRing K] in
theorem makeAlpha_eq (c : Fin p → Fin q → K) (i j : Fin p) : makeAlpha c i j = ∑ m, c i m * c j m := by
  have h := foldl_up (fun a i => (List.finRange p).foldl (fun a j =>
      if i ≤ j then upd a i j (accum fun m => c i m * c j m) else upd a i j (a j i)) a)
    (fun k a => ∀ i : Fin p, (i : Nat) < k → ∀ j, a i j = ∑ m, c i m * c j m) (fun _ _ => (0 : K))
    (fun _ h => absurd h (by omega)) (by
      intro i a ha
      have := foldl_up (fun a j => if i ≤ j then upd a i j (accum fun m => c i m * c j m) else upd a i j (a j i))
        (fun k a => (∀ r : Fin p, r < i → ∀ j, a r j = ∑ m, c r m * c j m) ∧
          ∀ j : Fin p, (j : Nat) < k → a i j = ∑ m, c i m * c j m) a
        ⟨fun r hr => ha r hr, fun _ h => absurd h (by omega)⟩ (by
          rintro j a ⟨h1, h2⟩
          refine ⟨fun r hr t => ?_, fun t ht => ?_⟩
          · split <;> (simp only [upd, ne_of_lt hr, false_and, if_false]; exact h1 r hr t)
          · by_cases e : t = j
            · subst e
              by_cases hij : i ≤ t
              · simp only [hij, if_true, upd, and_self, accum_eq]
              · simp only [hij, if_false, upd, and_self, if_true]
                rw [h1 t (not_le.1 hij)]
                exact Finset.sum_congr rfl fun m _ => mul_comm _ _
            · have : (t : Nat) ≠ j := fun h => e (Fin.ext h)
              split <;> (simp only [upd, e, and_false, if_false]; exact h2 t (by omega)))
      obtain ⟨g1, g2⟩ := this
      intro r hr j
      by_cases e : r = i
      · subst e; exact g2 j j.2
      · have : (r : Nat) ≠ i := fun h => e (Fin.ext h)
        exact g1 r (by rw [Fin.lt_def]; omega) j)
  exact h i i.2 j

omit [LinearOrder K] [IsStrictOrderedRing K] in
theorem makeBeta_eq (c : Fin p → Fin q → K) (ny : Fin q → K) (i : Fin p) : makeBeta c ny i = ∑ m, c i m * ny m := accum_eq _

omit [LinearOrder K] [IsStrictOrderedRing K] in
theorem mulVec_eq (a : M p K) (b : Fin p → K) (i : Fin p) : mulVec a b i = ∑ j, a i j * b j := accum_eq _

omit [LinearOrder K] [IsStrictOrderedRing K] in
theorem chi2Of_eq (c : Fin p → Fin q → K) (ny : Fin q → K) (v : Fin p → K) :
    chi2Of c ny v = ∑ m, (ny m - ∑ i, v i * c i m) ^ 2 := by
  unfold chi2Of
  rw [accum_eq]
  refine Finset.sum_congr rfl fun m _ => ?_
  simp only [accum_eq]
  ring

omit [LinearOrder K] [IsStrictOrderedRing K] in
theorem chi2Of_spec (y ye : Fin q → K) (x : Fin p → Fin q → K) (v : Fin p → K) :
    chi2Of (fun i m => x i m / ye m) (fun m => y m / ye m) v = chi2 y ye x v := by
  rw [chi2Of_eq]
  refine Finset.sum_congr rfl fun m _ => ?_
  congr 1
  rw [sub_div, Finset.sum_div]
  congr 1
  exact Finset.sum_congr rfl fun i _ => (mul_div_assoc _ _ _).symm

omit [LinearOrder K] [IsStrictOrderedRing K] in
theorem symmetrize_eq (a : M p K) (ha : ∀ i j, a i j = a j i) : symmetrize a = a := by
  unfold symmetrize
  have : ∀ (L : List (Fin p)) (i : Fin p), L.foldl (fun a j => upd a i j (a j i)) a = a := by
    intro L i
    induction L with
    | nil => rfl
    | cons j L ih =>
      rw [List.foldl_cons]
      have : upd a i j (a j i) = a := by
        funext r c
        unfold upd
        split
        · rename_i h; rw [h.1, h.2, ha]
        · rfl
      rw [this, ih]
  have h2 : ∀ L : List (Fin p), L.foldl (fun a i => (above i).foldl (fun a j => upd a i j (a j i)) a) a = a := by
    intro L
    induction L with
    | nil => rfl
    | cons i L ih => rw [List.foldl_cons, this, ih]
  exact h2 _

/-- what `invert` gives for the matrix of the fit: the inverse, unchanged by `inplace_symmetrize` -/
theorem invert_alpha (a b : M p K) (ha : ∀ i j, a i j = a j i) (h : invert a = some b) :
    symmetrize b = b ∧ (∀ i j, b i j = b j i) ∧ (∀ i j, ∑ k, a i k * b k j = if i = j then 1 else 0) ∧
      ∀ i j, ∑ k, b i k * a k j = if i = j then 1 else 0 := by
  have := C53_free_invert a
  rw [h] at this
  obtain ⟨h1, h2⟩ := this
  have e1 : ∀ i j, ∑ k, a i k * b k j = if i = j then 1 else 0 := by
    intro i j
    have := congrFun (congrFun h1 i) j
    rwa [Matrix.mul_apply, Matrix.one_apply] at this
  have e2 : ∀ i j, ∑ k, b i k * a k j = if i = j then 1 else 0 := by
    intro i j
    have := congrFun (congrFun h2 i) j
    rwa [Matrix.mul_apply, Matrix.one_apply] at this
  have hs : ∀ i j, b i j = b j i := by
    intro i j
    have ht : (Matrix.of a).transpose = Matrix.of a := by
      ext r c; exact ha c r
    have h3 : (Matrix.of b).transpose * Matrix.of a = 1 := by
      have := congrArg Matrix.transpose h1
      rwa [Matrix.transpose_mul, ht, Matrix.transpose_one] at this
    have h4 : (Matrix.of b).transpose = Matrix.of b := by
      have h5 : ((Matrix.of b).transpose * Matrix.of a) * Matrix.of b = Matrix.of b := by rw [h3, Matrix.one_mul]
      rwa [Matrix.mul_assoc, h1, Matrix.mul_one] at h5
    have := congrFun (congrFun h4 j) i
    exact this
  exact ⟨symmetrize_eq b hs, hs, e1, e2⟩

theorem alpha_symm (c : Fin p → Fin q → K) (i j : Fin p) : makeAlpha c i j = makeAlpha c j i := by
  rw [makeAlpha_eq, makeAlpha_eq]
  exact Finset.sum_congr rfl fun m _ => mul_comm _ _

/-- the parameters solve the normal equations -/
theorem normal_eq (c : Fin p → Fin q → K) (ny : Fin q → K) (b : M p K) (h : invert (makeAlpha c) = some b) (i : Fin p) :
    ∑ m, c i m * (ny m - ∑ j, mulVec b (makeBeta c ny) j * c j m) = 0 := by
  obtain ⟨-, -, h1, -⟩ := invert_alpha _ b (alpha_symm c) h
  have e : ∑ m, c i m * ∑ j, mulVec b (makeBeta c ny) j * c j m = ∑ j, makeAlpha c i j * mulVec b (makeBeta c ny) j := by
    simp only [Finset.mul_sum, makeAlpha_eq, Finset.sum_mul]
    rw [Finset.sum_comm]
    exact Finset.sum_congr rfl fun j _ => Finset.sum_congr rfl fun m _ => by ring
  have e2 : ∑ j, makeAlpha c i j * mulVec b (makeBeta c ny) j = makeBeta c ny i := by
    simp only [mulVec_eq, Finset.mul_sum]
    rw [Finset.sum_comm]
    have : ∀ k, ∑ j, makeAlpha c i j * (b j k * makeBeta c ny k) = (if i = k then 1 else 0) * makeBeta c ny k := by
      intro k
      rw [← h1 i k, Finset.sum_mul]
      exact Finset.sum_congr rfl fun j _ => by ring
    simp [this]
  simp only [mul_sub, Finset.sum_sub_distrib]
  rw [e, e2, makeBeta_eq, sub_self]

omit [LinearOrder K] [IsStrictOrderedRing K] in
/-- the chi-square of other parameters, when the normal equations hold -/
theorem chi2_split (c : Fin p → Fin q → K) (ny : Fin q → K) (v w : Fin p → K)
    (h : ∀ i, ∑ m, c i m * (ny m - ∑ j, v j * c j m) = 0) :
    chi2Of c ny w = chi2Of c ny v + ∑ m, (∑ i, (w i - v i) * c i m) ^ 2 := by
  rw [chi2Of_eq, chi2Of_eq]
  have e : ∀ m, (ny m - ∑ i, w i * c i m) ^ 2 = (ny m - ∑ i, v i * c i m) ^ 2 + (∑ i, (w i - v i) * c i m) ^ 2 -
      2 * ∑ i, (w i - v i) * (c i m * (ny m - ∑ j, v j * c j m)) := by
    intro m
    have e1 : ∑ i, (w i - v i) * c i m = ∑ i, w i * c i m - ∑ i, v i * c i m := by
      simp only [sub_mul, Finset.sum_sub_distrib]
    have e2 : ∑ i, (w i - v i) * (c i m * (ny m - ∑ j, v j * c j m)) = (∑ i, (w i - v i) * c i m) * (ny m - ∑ j, v j * c j m) := by
      rw [Finset.sum_mul]
      exact Finset.sum_congr rfl fun i _ => by ring
    rw [e2, e1]
    ring
  have z : ∑ m, ∑ i, (w i - v i) * (c i m * (ny m - ∑ j, v j * c j m)) = 0 := by
    rw [Finset.sum_comm]
    simp only [← Finset.mul_sum, h, mul_zero, Finset.sum_const_zero]
  rw [Finset.sum_congr rfl fun m _ => e m, Finset.sum_sub_distrib, Finset.sum_add_distrib, ← Finset.mul_sum, z]
  ring

/-- the matrix of the fit is invertible exactly when the templates are independent -/
theorem alpha_det (c : Fin p → Fin q → K) : (Matrix.of (makeAlpha c)).det ≠ 0 ↔ Indep c := by
  rw [Ne, ← Matrix.exists_mulVec_eq_zero_iff]
  have hq : ∀ v : Fin p → K, (∀ i, ∑ j, makeAlpha c i j * v j = 0) ↔ ∀ m, ∑ i, v i * c i m = 0 := by
    intro v
    constructor
    · intro hv
      have h0 : ∑ m, (∑ i, v i * c i m) ^ 2 = 0 := by
        have : ∑ m, (∑ i, v i * c i m) ^ 2 = ∑ i, v i * ∑ j, makeAlpha c i j * v j := by
          simp only [sq, Finset.sum_mul, Finset.mul_sum, makeAlpha_eq]
          rw [Finset.sum_comm]
          refine Finset.sum_congr rfl fun i _ => ?_
          rw [Finset.sum_comm]
          exact Finset.sum_congr rfl fun j _ => Finset.sum_congr rfl fun m _ => by ring
        rw [this]; simp [hv]
      intro m
      have := (Finset.sum_eq_zero_iff_of_nonneg fun m _ => sq_nonneg _).1 h0 m (Finset.mem_univ m)
      exact pow_eq_zero_iff (by norm_num) |>.1 this
    · intro hm i
      simp only [makeAlpha_eq, Finset.sum_mul]
      rw [Finset.sum_comm]
      refine Finset.sum_eq_zero fun m _ => ?_
      have : ∑ j, c i m * c j m * v j = c i m * ∑ j, v j * c j m := by
        rw [Finset.mul_sum]; exact Finset.sum_congr rfl fun j _ => by ring
      rw [this, hm, mul_zero]
  constructor
  · intro h v hv
    by_contra hne
    refine h ⟨v, hne, ?_⟩
    funext i
    exact (hq v).2 hv i
  · rintro h ⟨v, hne, hv⟩
    exact hne (h v ((hq v).1 fun i => congrFun hv i))

omit [LinearOrder K] [IsStrictOrderedRing K] in
theorem indep_scale (x : Fin p → Fin q → K) (ye : Fin q → K) (he : ∀ m, ye m ≠ 0) : Indep (fun i m => x i m / ye m) ↔ Indep x := by
  have e : ∀ (v : Fin p → K) m, ∑ i, v i * (x i m / ye m) = (∑ i, v i * x i m) / ye m := by
    intro v m
    rw [Finset.sum_div]
    exact Finset.sum_congr rfl fun i _ => (mul_div_assoc _ _ _).symm
  constructor
  · intro h v hv
    exact h v fun m => by rw [e, hv, zero_div]
  · intro h v hv
    refine h v fun m => ?_
    have := hv m
    rw [e] at this
    exact (div_eq_zero_iff.1 this).resolve_right (he m)

/-- **C55** when the fit succeeds, the chi-square that is returned is that of the returned parameters, and no other parameters have a
smaller one or the same one -/
theorem C55_linfit_minimises (sq : K → K) (y ye : Fin q → K) (x : Fin p → Fin q → K) (he : ∀ m, ye m ≠ 0) (r : Result p K)
    (h : linfit sq y ye x = some r) :
    r.chi2 = chi2 y ye x r.params ∧ (∀ v, chi2 y ye x r.params ≤ chi2 y ye x v) ∧
      ∀ v, chi2 y ye x v = chi2 y ye x r.params → v = r.params := by
  unfold linfit fitDo at h
  rw [Option.map_eq_some_iff] at h
  obtain ⟨b, hb, rfl⟩ := h
  obtain ⟨hs, -, -, -⟩ := invert_alpha _ b (alpha_symm _) hb
  simp only [hs, chi2Of_spec]
  have hsp := fun w => chi2_split (fun i m => x i m / ye m) (fun m => y m / ye m) _ w (normal_eq _ _ b hb)
  simp only [chi2Of_spec] at hsp
  refine ⟨trivial, fun v => ?_, fun v hv => ?_⟩
  · rw [hsp v]
    exact le_add_of_nonneg_right (Finset.sum_nonneg fun m _ => sq_nonneg _)
  · have hd : (Matrix.of (makeAlpha fun i m => x i m / ye m)).det ≠ 0 := by
      intro h0
      have := (C51_fails_iff _).2 h0
      unfold invert at hb
      simp [this] at hb
    have hi : Indep fun i m => x i m / ye m := (alpha_det _).1 hd
    rw [hsp v] at hv
    have h0 := (Finset.sum_eq_zero_iff_of_nonneg fun m _ => sq_nonneg _).1 (by linarith : (∑ m, (∑ i, (v i -
      mulVec b (makeBeta (fun i m => x i m / ye m) fun m => y m / ye m) i) * (x i m / ye m)) ^ 2) = 0)
    have := hi (fun i => v i - mulVec b (makeBeta (fun i m => x i m / ye m) fun m => y m / ye m) i)
      fun m => pow_eq_zero_iff (by norm_num) |>.1 (h0 m (Finset.mem_univ m))
    funext i
    exact sub_eq_zero.1 (congrFun this i)

/-- **C55** the fit succeeds exactly when the templates are linearly independent -/
theorem C55_linfit_succeeds_iff (sq : K → K) (y ye : Fin q → K) (x : Fin p → Fin q → K) (he : ∀ m, ye m ≠ 0) :
    (linfit sq y ye x).isSome = true ↔ Indep x := by
  rw [← indep_scale x ye he, ← alpha_det]
  unfold linfit fitDo invert
  simp only [Option.isSome_map]
  rw [Ne, ← C51_fails_iff]
  split <;> simp_all

/-- **C55** the covariance is the inverse of the matrix of the weighted products of the templates, and the errors are the square roots of its
diagonal, which is positive -/
theorem C55_linfit_errors (sq : K → K) (hsq : IsSqrt sq) (y ye : Fin q → K) (x : Fin p → Fin q → K) (he : ∀ m, ye m ≠ 0)
    (r : Result p K) (h : linfit sq y ye x = some r) :
    (∀ i j, ∑ k, r.cov i k * (∑ m, x k m * x j m / ye m ^ 2) = if i = j then 1 else 0) ∧
      ∀ i, 0 < r.errors i ∧ r.errors i * r.errors i = r.cov i i := by
  unfold linfit fitDo at h
  rw [Option.map_eq_some_iff] at h
  obtain ⟨b, hb, rfl⟩ := h
  obtain ⟨hs, hsym, h1, h2⟩ := invert_alpha _ b (alpha_symm _) hb
  simp only [hs]
  have hal : ∀ i j, makeAlpha (fun i m => x i m / ye m) i j = ∑ m, x i m * x j m / ye m ^ 2 := by
    intro i j
    rw [makeAlpha_eq]
    refine Finset.sum_congr rfl fun m _ => ?_
    have := he m
    field_simp
  refine ⟨fun i j => ?_, fun i => ?_⟩
  · simp only [← hal]
    exact h2 i j
  · have hpos : 0 < b i i := by
      have e : b i i = ∑ m, (∑ j, b j i * (x j m / ye m)) ^ 2 := by
        have e1 : b i i = ∑ k, b i k * ∑ j, makeAlpha (fun i m => x i m / ye m) k j * b j i := by
          simp only [h1]; simp
        rw [e1]
        simp only [_root_.sq, Finset.sum_mul, Finset.mul_sum, makeAlpha_eq]
        rw [Finset.sum_congr rfl fun k _ => Finset.sum_comm, Finset.sum_comm]
        refine Finset.sum_congr rfl fun m _ => Finset.sum_congr rfl fun k _ => Finset.sum_congr rfl fun j _ => ?_
        rw [hsym i k]; ring
      have h0 : 0 ≤ b i i := by rw [e]; exact Finset.sum_nonneg fun m _ => sq_nonneg _
      refine lt_of_le_of_ne h0 fun hz => ?_
      have hm : ∀ m, ∑ j, b j i * (x j m / ye m) = 0 := by
        intro m
        rw [e] at hz
        have := (Finset.sum_eq_zero_iff_of_nonneg fun m _ => sq_nonneg _).1 hz.symm m (Finset.mem_univ m)
        exact pow_eq_zero_iff (by norm_num) |>.1 this
      have : ∑ j, makeAlpha (fun i m => x i m / ye m) i j * b j i = 0 := by
        simp only [makeAlpha_eq, Finset.sum_mul]
        rw [Finset.sum_comm]
        refine Finset.sum_eq_zero fun m _ => ?_
        have e3 : ∑ j, x i m / ye m * (x j m / ye m) * b j i = x i m / ye m * ∑ j, b j i * (x j m / ye m) := by
          rw [Finset.mul_sum]; exact Finset.sum_congr rfl fun j _ => by ring
        rw [e3, hm, mul_zero]
      rw [h1] at this
      simp at this
    exact hsq _ hpos

/-- a straight line through three points -/
example :
    let x : Fin 2 → Fin 3 → ℚ := fun i m => if i = 0 then 1 else m.1
    let y : Fin 3 → ℚ := fun m => if m = 2 then 5 else m.1 + 1
    ((linfit (fun s => s) y (fun _ => 1) x).map fun r => (r.params 0, r.params 1, r.chi2)) = some (2 / 3, 2, 2 / 3) := by
  decide +kernel

/-! ### C91: `linfit_batch` -/

/-- invariant of the batch object -/
def Batch.Inv (b : Batch p q K) (x : Fin p → Fin q → K) : Prop :=
  (∀ i m, b.cache i m = x i m / b.ye m) ∧ ∀ i j, b.alpha i j = ∑ m, b.cache i m * b.cache j m

omit [LinearOrder K] [IsStrictOrderedRing K] in
theorem updateMatrix_eq (c : Fin p → Fin q → K) (a : M p K) (i : Fin p)
    (h : ∀ r s, r ≠ i → s ≠ i → a r s = ∑ m, c r m * c s m) (r s : Fin p) : updateMatrix c a i r s = ∑ m, c r m * c s m := by
  have := foldl_up (fun a j =>
      let a := upd a i j (accum fun m => c i m * c j m)
      upd a j i (a i j))
    (fun k a => (∀ r s, r ≠ i → s ≠ i → a r s = ∑ m, c r m * c s m) ∧
      ∀ j : Fin p, (j : Nat) < k → a i j = ∑ m, c i m * c j m ∧ a j i = ∑ m, c i m * c j m) a
    ⟨h, fun _ h => absurd h (by omega)⟩ (by
      rintro j a ⟨h1, h2⟩
      refine ⟨fun r s hr hs => ?_, fun t ht => ?_⟩
      · simp only [upd, hr, hs, false_and, and_false, if_false]
        exact h1 r s hr hs
      · by_cases e : t = j
        · subst e
          simp only [upd, and_self, if_true, accum_eq]
          by_cases hit : i = t
          · subst hit; simp
          · simp [Ne.symm hit, hit]
        · have : (t : Nat) ≠ j := fun h => e (Fin.ext h)
          obtain ⟨g1, g2⟩ := h2 t (by omega)
          simp only [upd, e, and_false, false_and, and_true, true_and, if_false]
          refine ⟨?_, ?_⟩
          · by_cases hij : i = j ∧ t = i
            · exact absurd (hij.2.trans hij.1) e
            · rw [if_neg hij]; exact g1
          · by_cases hti : t = i ∧ i = j
            · exact absurd (hti.1.trans hti.2) e
            · rw [if_neg hti]; exact g2)
  obtain ⟨g1, g2⟩ := this
  by_cases hr : r = i
  · subst hr; exact (g2 s s.2).1
  · by_cases hs : s = i
    · subst hs
      rw [show updateMatrix c a s r s = ∑ m, c s m * c r m from (g2 r r.2).2]
      exact Finset.sum_congr rfl fun m _ => mul_comm _ _
    · exact g1 r s hr hs

/-- the templates after an update -/
def setModel (x : Fin p → Fin q → K) (i : Fin p) (t : Fin q → K) : Fin p → Fin q → K := fun r m => if r = i then t m else x r m

omit [LinearOrder K] [IsStrictOrderedRing K] in
theorem inv_update (b : Batch p q K) (x : Fin p → Fin q → K) (i : Fin p) (t : Fin q → K) (h : b.Inv x) :
    (b.updateModel_ i t).Inv (setModel x i t) ∧ (b.updateModel_ i t).ye = b.ye := by
  refine ⟨⟨fun r m => ?_, fun r s => ?_⟩, rfl⟩
  · simp only [Batch.updateModel_, setModel]
    split
    · rfl
    · exact h.1 r m
  · simp only [Batch.updateModel_]
    rw [updateMatrix_eq]
    intro r s hr hs
    simp only [hr, hs, if_false]
    exact h.2 r s

/-- a history of calls to `update_model` and `update_models`: each call is a list of replaced models -/
def Batch.run (b : Batch p q K) (calls : List (List (Fin p × (Fin q → K)))) : Batch p q K := calls.foldl Batch.updateModels b

/-- the templates after such a history -/
def models (x : Fin p → Fin q → K) (calls : List (List (Fin p × (Fin q → K)))) : Fin p → Fin q → K :=
  calls.flatten.foldl (fun x it => setModel x it.1 it.2) x

omit [IsStrictOrderedRing K] in
theorem inv_run (ye : Fin q → K) (x : Fin p → Fin q → K) (calls : List (List (Fin p × (Fin q → K)))) :
    ((Batch.make ye x).run calls).Inv (models x calls) ∧ ((Batch.make ye x).run calls).ye = ye ∧
      ((Batch.make ye x).run calls).cov = (invert ((Batch.make ye x).run calls).alpha).map symmetrize := by
  have hstep : ∀ (l : List (Fin p × (Fin q → K))) (b : Batch p q K) (x : Fin p → Fin q → K), b.Inv x → b.ye = ye →
      (l.foldl (fun b ix => b.updateModel_ ix.1 ix.2) b).Inv (l.foldl (fun x it => setModel x it.1 it.2) x) ∧
        (l.foldl (fun b ix => b.updateModel_ ix.1 ix.2) b).ye = ye := by
    intro l
    induction l with
    | nil => intro b x h1 h2; exact ⟨h1, h2⟩
    | cons it l ih =>
      intro b x h1 h2
      obtain ⟨g1, g2⟩ := inv_update b x it.1 it.2 h1
      exact ih _ _ g1 (g2.trans h2)
  have hrun : ∀ (calls : List (List (Fin p × (Fin q → K)))) (b : Batch p q K) (x : Fin p → Fin q → K), b.Inv x → b.ye = ye →
      b.cov = (invert b.alpha).map symmetrize →
      (b.run calls).Inv (models x calls) ∧ (b.run calls).ye = ye ∧ (b.run calls).cov = (invert (b.run calls).alpha).map symmetrize := by
    intro calls
    induction calls with
    | nil => intro b x h1 h2 h3; exact ⟨h1, h2, h3⟩
    | cons l calls ih =>
      intro b x h1 h2 h3
      obtain ⟨g1, g2⟩ := hstep l b x h1 h2
      have := ih (b.updateModels l) (l.foldl (fun x (it : Fin p × (Fin q → K)) => setModel x it.1 it.2) x) (show Batch.Inv _ _ from ⟨g1.1, g1.2⟩) g2 rfl
      simpa only [Batch.run, models, List.foldl_cons, List.flatten_cons, List.foldl_append] using this
  refine hrun calls _ x ⟨fun _ _ => rfl, fun i j => ?_⟩ rfl rfl
  simp only [Batch.make, Batch.invertMatrix]
  exact makeAlpha_eq _ i j

/-- **C91** after any history of updates, `fit` gives the same parameters and the same chi-square as `linfit` with the current templates,
and fails when it fails -/
theorem C91_batch_fit (sq : K → K) (ye y : Fin q → K) (x : Fin p → Fin q → K) (calls : List (List (Fin p × (Fin q → K)))) :
    ((Batch.make ye x).run calls).fit y = (linfit sq y ye (models x calls)).map fun r => (r.params, r.chi2) := by
  obtain ⟨⟨h1, h2⟩, h3, h4⟩ := inv_run ye x calls
  generalize (Batch.make ye x).run calls = b at h1 h2 h3 h4 ⊢
  subst h3
  have hc : b.cache = fun i m => models x calls i m / b.ye m := by funext i m; exact h1 i m
  have ha : b.alpha = makeAlpha b.cache := by funext i j; rw [h2, makeAlpha_eq]
  unfold Batch.fit linfit fitDo
  rw [h4, ha, hc]
  simp only [Option.map_map]
  rfl

/-- the first model is replaced, then the second and the first again -/
example :
    let b : Batch 2 3 ℚ := Batch.make (fun _ => 1) fun i m => if i = 0 then 1 else if m = 0 then 1 else 0
    let calls : List (List (Fin 2 × (Fin 3 → ℚ))) := [[(0, fun _ => 2)], [(1, fun m => m.1), (0, fun _ => 1)]]
    ((b.run calls).fit fun m => if m = 2 then 5 else m.1 + 1).map (fun r => (r.1 0, r.1 1, r.2)) = some (2 / 3, 2, 2 / 3) := by
  decide +kernel

/-! ### C92: `linfit_nn` -/

/-- the effect of one update, when it does not divide by zero -/
theorem nnUpdate_spec (c : Fin p → Fin q → K) (ny : Fin q → K) (v v' : Fin p → K) (m0 : Fin p)
    (ha : ∀ i j, 0 ≤ ∑ m, c i m * c j m) (hv : ∀ i, 0 ≤ v i) (hb : ∀ i, makeBeta c ny i ≤ 0 → v i = 0)
    (h : nnUpdate (makeAlpha c) (makeBeta c ny) v m0 = some v') :
    (∀ i, 0 ≤ v' i) ∧ (∀ i, makeBeta c ny i ≤ 0 → v' i = 0) ∧ chi2Of c ny v' ≤ chi2Of c ny v := by
  unfold nnUpdate at h
  simp only at h
  split at h
  · simp at h
  rename_i hne
  simp only [Option.some.injEq] at h
  rw [accum_eq] at h hne
  set av := ∑ m1, makeAlpha c m0 m1 * v m1 with hav
  have hav0 : 0 ≤ av := Finset.sum_nonneg fun j _ => mul_nonneg (by rw [makeAlpha_eq]; exact ha m0 j) (hv j)
  have hpos : 0 < av := lt_of_le_of_ne hav0 (Ne.symm hne)
  have e0 : ∀ i, v' i = if i = m0 then v m0 * (makeBeta c ny m0 / av) else v i := by
    intro i; rw [← h]; rfl
  refine ⟨fun i => ?_, fun i hi => ?_, ?_⟩
  · rw [e0]
    split
    · by_cases hbm : makeBeta c ny m0 ≤ 0
      · rw [hb m0 hbm, zero_mul]
      · exact mul_nonneg (hv m0) (div_nonneg (le_of_lt (not_le.1 hbm)) hav0)
    · exact hv i
  · rw [e0]
    split
    · rename_i e; subst e; rw [hb i hi, zero_mul]
    · exact hb i hi
  · -- the change of the chi-square, a quadratic function of the step `d`
    set b := makeBeta c ny m0 with hbdef
    set d := v m0 * (b / av) - v m0 with hd
    have hm : ∀ m, ∑ i, v' i * c i m = ∑ i, v i * c i m + d * c m0 m := by
      intro m
      have : ∀ i, v' i * c i m = v i * c i m + if i = m0 then d * c m0 m else 0 := by
        intro i
        rw [e0]
        by_cases e : i = m0
        · subst e; simp only [if_true]; ring
        · simp [e]
      rw [Finset.sum_congr rfl fun i _ => this i, Finset.sum_add_distrib]
      simp
    have hchi : chi2Of c ny v' = chi2Of c ny v - 2 * d * (b - av) + d ^ 2 * makeAlpha c m0 m0 := by
      rw [chi2Of_eq, chi2Of_eq]
      have e1 : b - av = ∑ m, c m0 m * (ny m - ∑ i, v i * c i m) := by
        rw [hbdef, hav, makeBeta_eq]
        simp only [mul_sub, Finset.sum_sub_distrib]
        congr 1
        simp only [makeAlpha_eq, Finset.sum_mul, Finset.mul_sum]
        rw [Finset.sum_comm]
        exact Finset.sum_congr rfl fun m _ => Finset.sum_congr rfl fun j _ => by ring
      rw [e1, makeAlpha_eq, Finset.mul_sum, Finset.mul_sum, ← Finset.sum_sub_distrib, ← Finset.sum_add_distrib]
      refine Finset.sum_congr rfl fun m _ => ?_
      rw [hm]
      ring
    have hle : v m0 * makeAlpha c m0 m0 ≤ av := by
      rw [hav, ← Finset.add_sum_erase _ _ (Finset.mem_univ m0), mul_comm]
      exact le_add_of_nonneg_right (Finset.sum_nonneg fun j _ => mul_nonneg (by rw [makeAlpha_eq]; exact ha m0 j) (hv j))
    have hd2 : d * av = v m0 * (b - av) := by
      rw [hd]; field_simp
    rw [hchi]
    have hnum : d ^ 2 * makeAlpha c m0 m0 ≤ d * (b - av) := by
      have e : d = v m0 * ((b - av) / av) := by rw [hd]; field_simp
      rw [e]
      have h1 : (v m0 * ((b - av) / av)) ^ 2 * makeAlpha c m0 m0 =
          ((b - av) / av) ^ 2 * v m0 * (v m0 * makeAlpha c m0 m0) := by ring
      have h2 : v m0 * ((b - av) / av) * (b - av) = ((b - av) / av) ^ 2 * v m0 * av := by field_simp
      rw [h1, h2]
      exact mul_le_mul_of_nonneg_left hle (mul_nonneg (sq_nonneg _) (hv m0))
    have hnn : 0 ≤ d * (b - av) := by
      have e : d = v m0 * ((b - av) / av) := by rw [hd]; field_simp
      rw [e]
      have h2 : v m0 * ((b - av) / av) * (b - av) = ((b - av) / av) ^ 2 * (v m0 * av) := by field_simp
      rw [h2]
      exact mul_nonneg (sq_nonneg _) (mul_nonneg (hv m0) hav0)
    linarith

/-- state kept by the iterations -/
def NNInv (c : Fin p → Fin q → K) (ny : Fin q → K) (v0 v : Fin p → K) : Prop :=
  (∀ i, 0 ≤ v i) ∧ (∀ i, makeBeta c ny i ≤ 0 → v i = 0) ∧ chi2Of c ny v ≤ chi2Of c ny v0

theorem nnSweep_spec (c : Fin p → Fin q → K) (ny : Fin q → K) (v0 v : Fin p → K) (ha : ∀ i j, 0 ≤ ∑ m, c i m * c j m)
    (h : NNInv c ny v0 v) (s : (Fin p → K) × K × K) (hs : nnSweep (makeAlpha c) (makeBeta c ny) v = some s) : NNInv c ny v0 s.1 := by
  unfold nnSweep at hs
  have : ∀ (L : List (Fin p)) (st : Option ((Fin p → K) × K × K)), (∀ s, st = some s → NNInv c ny v0 s.1) →
      ∀ s, L.foldl (fun (s : Option ((Fin p → K) × K × K)) m0 => s.bind fun s =>
        (nnUpdate (makeAlpha c) (makeBeta c ny) s.1 m0).map fun v' => (v', s.2.1 + |v' m0 - s.1 m0|, s.2.2 + s.1 m0)) st = some s →
      NNInv c ny v0 s.1 := by
    intro L
    induction L with
    | nil => intro st h s hs; exact h s hs
    | cons m0 L ih =>
      intro st h s hs
      refine ih _ ?_ s hs
      intro s1 hs1
      rw [Option.bind_eq_some_iff] at hs1
      obtain ⟨s0, hs0, hs1⟩ := hs1
      rw [Option.map_eq_some_iff] at hs1
      obtain ⟨v', hv', rfl⟩ := hs1
      obtain ⟨g1, g2, g3⟩ := h s0 hs0
      obtain ⟨k1, k2, k3⟩ := nnUpdate_spec c ny s0.1 v' m0 ha g1 g2 hv'
      exact ⟨k1, k2, le_trans k3 g3⟩
  refine this _ (some (v, 0, 0)) ?_ s hs
  rintro s0 hs0
  simp only [Option.some.injEq] at hs0
  subst hs0
  exact h

theorem nnLoop_spec (tol : K) (c : Fin p → Fin q → K) (ny : Fin q → K) (v0 : Fin p → K) (ha : ∀ i j, 0 ≤ ∑ m, c i m * c j m)
    (fuel : Nat) (v : Fin p → K) (t : Nat) (h : NNInv c ny v0 v) (r : (Fin p → K) × Nat)
    (hr : nnLoop tol (makeAlpha c) (makeBeta c ny) fuel v t = some r) : NNInv c ny v0 r.1 := by
  induction fuel generalizing v t with
  | zero => simp only [nnLoop, Option.some.injEq] at hr; subst hr; exact h
  | succ fuel ih =>
    rw [nnLoop, Option.bind_eq_some_iff] at hr
    obtain ⟨s, hs, hr⟩ := hr
    have hi := nnSweep_spec c ny v0 v ha h s hs
    split at hr
    · exact ih _ _ hi hr
    · simp only [Option.some.injEq] at hr; subst hr; exact hi

/-- **C92** (the full statement, that the parameters are the best among the non-negative ones and that success is reported, is false, see the
refutations): if the products of any two templates are not negative and no division by zero happens, the parameters are not negative, those of
templates that are not positively correlated with the data are zero, and the chi-square is at most that of the starting point and is that of the
parameters. -/
theorem C92_linfit_nn_partial (y ye : Fin q → K) (x : Fin p → Fin q → K) (he : ∀ m, ye m ≠ 0)
    (ha : ∀ i j, 0 ≤ ∑ m, x i m * x j m / ye m ^ 2) (r : NNResult p K) (h : linfitNN y ye x = some r) :
    (∀ i, 0 ≤ r.params i) ∧ r.chi2 = chi2 y ye x r.params ∧
      (∀ i, ∑ m, x i m * y m / ye m ^ 2 ≤ 0 → r.params i = 0) ∧
      r.chi2 ≤ chi2 y ye x fun i => if 0 < ∑ m, x i m * y m / ye m ^ 2 then 1 else 0 := by
  unfold linfitNN fitNN at h
  simp only [Option.map_eq_some_iff] at h
  obtain ⟨w, hw, rfl⟩ := h
  have hbeta : ∀ i, makeBeta (fun i m => x i m / ye m) (fun m => y m / ye m) i = ∑ m, x i m * y m / ye m ^ 2 := by
    intro i
    rw [makeBeta_eq]
    refine Finset.sum_congr rfl fun m _ => ?_
    have := he m
    field_simp
  have ha' : ∀ i j, 0 ≤ ∑ m, x i m / ye m * (x j m / ye m) := by
    intro i j
    have := ha i j
    rwa [show ∑ m, x i m / ye m * (x j m / ye m) = ∑ m, x i m * x j m / ye m ^ 2 from
      Finset.sum_congr rfl fun m _ => by have := he m; field_simp]
  obtain ⟨g1, g2, g3⟩ := nnLoop_spec _ _ _ (fun m => if 0 < makeBeta (fun i m => x i m / ye m) (fun m => y m / ye m) m then 1 else 0)
    ha' 10000 _ 0 ⟨fun i => by split <;> simp, fun i hi => if_neg (not_lt.2 hi), le_rfl⟩ w hw
  simp only [chi2Of_spec, hbeta] at g2 g3 ⊢
  exact ⟨g1, trivial, g2, g3⟩

omit [IsStrictOrderedRing K] in
/-- **C92** `success` is never true -/
theorem C92_never_successful (y ye : Fin q → K) (x : Fin p → Fin q → K) (r : NNResult p K) (h : linfitNN y ye x = some r) :
    r.success = false := by
  unfold linfitNN fitNN at h
  simp only [Option.map_eq_some_iff] at h
  obtain ⟨w, -, rfl⟩ := h
  simp

omit [IsStrictOrderedRing K] in
/-- with all parameters at zero, the sweep divides by zero -/
theorem nnSweep_zero (a : M (p + 1) K) (b : Fin (p + 1) → K) : nnSweep a b (fun _ => 0) = none := by
  unfold nnSweep
  rw [List.finRange_succ, List.foldl_cons]
  have h0 : nnUpdate a b (fun _ => 0) 0 = none := by
    unfold nnUpdate
    simp [accum_eq]
  simp only [Option.bind_some, h0, Option.map_none]
  have : ∀ L : List (Fin (p + 1)), L.foldl (fun (s : Option ((Fin (p + 1) → K) × K × K)) m0 => s.bind fun s =>
      (nnUpdate a b s.1 m0).map fun v' => (v', s.2.1 + |v' m0 - s.1 m0|, s.2.2 + s.1 m0)) none = none := by
    intro L
    induction L with
    | nil => rfl
    | cons m L ih => rw [List.foldl_cons]; exact ih
  exact this _

omit [IsStrictOrderedRing K] in
/-- **C92** when no template is positively correlated with the data, where zero is the best non-negative solution, the result is not a number -/
theorem C92_nan_refuted (y ye : Fin q → K) (x : Fin (p + 1) → Fin q → K) (h : ∀ i, makeBeta (fun i m => x i m / ye m) (fun m => y m / ye m) i ≤ 0) :
    linfitNN y ye x = none := by
  unfold linfitNN fitNN
  have : (fun m => if 0 < makeBeta (fun i m => x i m / ye m) (fun m => y m / ye m) m then (1 : K) else 0) = fun _ => 0 := by
    funext m; exact if_neg (not_lt.2 (h m))
  simp only [this]
  rw [show (10000 : Nat) = 9999 + 1 from rfl, nnLoop, nnSweep_zero]
  rfl

/-- one sweep from the starting point can already give a negative parameter, when two templates are anticorrelated -/
theorem C92_negative_refuted :
    let c : Fin 2 → Fin 2 → ℚ := fun i m => if i = 0 then (if m = 0 then 1 else 0) else (if m = 0 then -2 else 1)
    let ny : Fin 2 → ℚ := fun m => if m = 0 then 1 else 3
    ((nnSweep (makeAlpha c) (makeBeta c ny) fun i => if 0 < makeBeta c ny i then 1 else 0).map fun s => decide (s.1 0 < 0)) = some true := by
  decide +kernel

/-- two overlapping templates: the hypotheses of the theorem hold and the loop ends -/
example :
    let x : Fin 2 → Fin 2 → ℚ := fun i m => if i = m then 2 else 0
    let y : Fin 2 → ℚ := fun m => m.1 + 1
    (∀ i j, 0 ≤ ∑ m, x i m * x j m / (1 : ℚ) ^ 2) ∧
      (fitNN 5 (1 / 10000) y x).map (fun r => (r.params 0, r.params 1, r.chi2)) = some (1 / 2, 1, 0) := by
  decide +kernel

end Verif.Linfit
