import Verif.Math.LULemmas
/-!
# Invariant of the LU decomposition
-/
namespace Verif.Mat
open Verif

variable {n : Nat} {K : Type} [Field K] [LinearOrder K] [IsStrictOrderedRing K]

/-- lower factor after `k` steps (the columns from `k` on are the part not decomposed yet) -/
def lowF (lu : M n K) (k : Nat) (i t : Fin n) : K := if min (t : Nat) k ≤ i then lu i t else 0

/-- upper factor after `k` steps -/
def upF (lu : M n K) (k : Nat) (t j : Fin n) : K := if (t : Nat) < k ∧ t < j then lu t j else if t = j then 1 else 0

/-- the rows of `A`, permuted, are the product of the two factors -/
def Fac (A : M n K) (k : Nat) (σ : Equiv.Perm (Fin n)) (lu : M n K) : Prop :=
  ∀ i j, A (σ i) j = ∑ t, lowF lu k i t * upF lu k t j

theorem fac_zero (A : M n K) : Fac A 0 1 A := by
  intro i j
  simp [lowF, upF]

theorem fac_swap (A : M n K) (k p : Fin n) (hkp : k ≤ p) (σ : Equiv.Perm (Fin n)) (lu : M n K) (h : Fac A k σ lu) :
    Fac A k (σ * Equiv.swap k p) (swapRows lu p k) := by
  intro i j
  rw [Equiv.Perm.mul_apply, h]
  refine Finset.sum_congr rfl fun t _ => ?_
  congr 1
  · unfold lowF
    rw [swapRows_apply]
    by_cases hi : i < k
    · rw [Equiv.swap_apply_of_ne_of_ne (ne_of_lt hi) (ne_of_lt (lt_of_lt_of_le hi hkp))]
    · have h1 : min (t : Nat) k ≤ i := by
        rw [not_lt, Fin.le_def] at hi
        exact le_trans (min_le_right _ _) hi
      have h2 : min (t : Nat) k ≤ (Equiv.swap k p i) := by
        refine le_trans (min_le_right _ _) ?_
        rw [← Fin.le_def]
        by_cases e1 : i = k
        · rw [e1, Equiv.swap_apply_left]; exact hkp
        · by_cases e2 : i = p
          · rw [e2, Equiv.swap_apply_right]
          · rw [Equiv.swap_apply_of_ne_of_ne e1 e2]; exact not_lt.1 hi
      rw [if_pos h1, if_pos h2]
  · unfold upF
    by_cases ht : (t : Nat) < k
    · have htk : t < k := ht
      rw [swapRows_apply, Equiv.swap_apply_of_ne_of_ne (ne_of_lt htk) (ne_of_lt (lt_of_lt_of_le htk hkp))]
    · simp [ht]

theorem lowF_step (lu : M n K) (k i t : Fin n) (h0 : lu k k ≠ 0) :
    lowF lu k i t = lowF (eliminate (scaleRow lu k) k) (k + 1) i t +
      if k < t then lowF (eliminate (scaleRow lu k) k) (k + 1) i k * (lu k t / lu k k) else 0 := by
  have e : ∀ i j, eliminate (scaleRow lu k) k i j =
      if k < j then (if i = k then lu k j / lu k k else if k < i then lu i j - lu i k * (lu k j / lu k k) else lu i j) else lu i j := by
    intro i j
    simp only [eliminate_apply, scaleRow_apply]
    by_cases hj : k < j
    · by_cases hi : k < i
      · simp [hi, hj, ne_of_gt hi]
      · by_cases hik : i = k
        · subst hik; simp [hj]
        · simp [hi, hik]
    · simp [hj]
  unfold lowF
  rw [e, e]
  by_cases ht : k < t
  · have h1 : ¬ (t : Nat) ≤ k := by rw [Fin.lt_def] at ht; omega
    have m1 : min (t : Nat) k = k := by omega
    have m2 : min (t : Nat) (k + 1) = k + 1 := by rw [Fin.lt_def] at ht; omega
    have m3 : min (k : Nat) (k + 1) = k := by omega
    rw [m1, m2, m3]
    rcases lt_trichotomy i k with hi | hi | hi
    · have a1 : ¬ (k : Nat) ≤ i := by rw [Fin.lt_def] at hi; omega
      have a2 : ¬ (k : Nat) + 1 ≤ i := by omega
      rw [if_neg a1, if_neg a2, if_pos ht]; simp only [if_neg a1]; simp
    · subst hi
      simp only [le_refl, if_true, ht, lt_irrefl, if_false]
      rw [if_neg (by omega)]
      field_simp
      ring
    · have a1 : (k : Nat) ≤ i := by rw [Fin.lt_def] at hi; omega
      have a2 : (k : Nat) + 1 ≤ i := by rw [Fin.lt_def] at hi; omega
      rw [if_pos a2]
      simp only [if_pos a1, ht, if_true, ne_of_gt hi, if_false, hi, lt_irrefl]
      ring
  · have m1 : min (t : Nat) k = t := by rw [Fin.lt_def] at ht; omega
    have m2 : min (t : Nat) (k + 1) = t := by rw [Fin.lt_def] at ht; omega
    rw [m1, m2]
    simp [ht]

theorem upF_step (lu : M n K) (k t j : Fin n) :
    upF (eliminate (scaleRow lu k) k) (k + 1) t j = upF lu k t j + if t = k ∧ k < j then lu k j / lu k k else 0 := by
  unfold upF
  simp only [eliminate_apply, scaleRow_apply]
  by_cases ht : t = k
  · subst ht
    by_cases hj : t < j
    · simp [hj, ne_of_lt hj]
    · simp [hj]
  · by_cases h1 : t < k
    · have h2 : (t : Nat) < k + 1 := by rw [Fin.lt_def] at h1; omega
      have h3 : (t : Nat) < k := h1
      have h4 : ¬ k < t := not_lt.2 (le_of_lt h1)
      simp [ht, h4, h2, h1]
    · have h2 : ¬ (t : Nat) < k + 1 := by
        intro h
        have : (t : Nat) ≠ k := fun e => ht (Fin.ext e)
        rw [Fin.lt_def] at h1; omega
      simp [ht, h1, h2]

theorem fac_step (A : M n K) (k : Fin n) (σ : Equiv.Perm (Fin n)) (lu : M n K) (h : Fac A k σ lu) (h0 : lu k k ≠ 0) :
    Fac A (k + 1) σ (eliminate (scaleRow lu k) k) := by
  intro i j
  rw [h]
  have hr : ∀ t, lowF (eliminate (scaleRow lu k) k) (k + 1) i t * upF (eliminate (scaleRow lu k) k) (k + 1) t j =
      lowF (eliminate (scaleRow lu k) k) (k + 1) i t * upF lu k t j +
        if t = k then lowF (eliminate (scaleRow lu k) k) (k + 1) i k * (if k < j then lu k j / lu k k else 0) else 0 := by
    intro t
    rw [upF_step]
    by_cases ht : t = k
    · subst ht; simp only [true_and, if_true]; ring
    · simp [ht]
  have hl : ∀ t, lowF lu k i t * upF lu k t j = lowF (eliminate (scaleRow lu k) k) (k + 1) i t * upF lu k t j +
      if t = j then lowF (eliminate (scaleRow lu k) k) (k + 1) i k * (if k < j then lu k j / lu k k else 0) else 0 := by
    intro t
    rw [lowF_step lu k i t h0, add_mul]
    congr 1
    by_cases ht : k < t
    · have : ¬ (t : Nat) < k := by rw [Fin.lt_def] at ht; omega
      rw [if_pos ht]
      unfold upF
      simp only [this, false_and, if_false]
      by_cases hj : t = j
      · subst hj; simp [ht]
      · simp [hj]
    · rw [if_neg ht]
      by_cases hj : t = j
      · subst hj; simp [ht]
      · simp [hj]
  rw [Finset.sum_congr rfl fun t _ => hr t, Finset.sum_congr rfl fun t _ => hl t, Finset.sum_add_distrib, Finset.sum_add_distrib]
  simp

/-- the column of the pivot is zero: the matrix is singular -/
theorem fac_det_zero (A : M n K) (k : Fin n) (σ : Equiv.Perm (Fin n)) (lu : M n K) (h : Fac A k σ lu)
    (h0 : ∀ i, k ≤ i → lu i k = 0) : (Matrix.of A).det = 0 := by
  have hm : (Matrix.of A).submatrix σ id = Matrix.of (lowF lu k) * Matrix.of (upF lu k) := by
    ext i j
    simp only [Matrix.submatrix_apply, Matrix.of_apply, id, Matrix.mul_apply]
    exact h i j
  have hd := congrArg Matrix.det hm
  rw [Matrix.det_mul, Matrix.det_permute, Matrix.det_eq_zero_of_column_eq_zero (A := Matrix.of (lowF lu k)) k, zero_mul] at hd
  · rcases mul_eq_zero.1 hd with h | h
    · exfalso
      rcases Int.units_eq_one_or (Equiv.Perm.sign σ) with hs | hs <;> simp [hs] at h
    · exact h
  · intro i
    simp only [Matrix.of_apply, lowF, min_self]
    split
    · exact h0 i ‹_›
    · rfl

/-- invariant of `decompose` after `k` steps -/
structure LInv (A : M n K) (np : Bool) (k : Nat) (s : LU n K) : Prop where
  npv : s.noPivot = np
  le : ∀ j, j ≤ s.ipiv j
  idv : ∀ j : Fin n, k ≤ j → s.ipiv j = j
  idn : np = true → s.ipiv = id
  sgn : ((Equiv.Perm.sign (prm s.ipiv k) : ℤˣ) : ℤ) = if s.ns % 2 = 0 then 1 else -1
  fac : s.bad = false → Fac A k (prm s.ipiv k) s.lu
  diag : s.bad = false → ∀ t : Fin n, (t : Nat) < k → s.lu t t ≠ 0
  sing : s.bad = true → np = false → (Matrix.of A).det = 0

theorem linv_init (A : M n K) (np : Bool) : LInv A np 0 ⟨np, A, id, false, 0⟩ where
  npv := rfl
  le := fun _ => le_rfl
  idv := fun _ _ => rfl
  idn := fun _ => rfl
  sgn := by simp [prm]
  fac := fun _ => fac_zero A
  diag := fun _ _ h => absurd h (by omega)
  sing := fun h => by simp at h

/-- the part of the step after the pivot -/
theorem linv_tail (A : M n K) (np : Bool) (k : Fin n) (s : LU n K) (hnp : s.noPivot = np)
    (le : ∀ j, j ≤ s.ipiv j) (idv : ∀ j : Fin n, (k : Nat) + 1 ≤ j → s.ipiv j = j) (idn : np = true → s.ipiv = id)
    (sgn : ((Equiv.Perm.sign (prm s.ipiv (k + 1)) : ℤˣ) : ℤ) = if s.ns % 2 = 0 then 1 else -1)
    (fac : s.bad = false → Fac A k (prm s.ipiv (k + 1)) s.lu)
    (diag : s.bad = false → ∀ t : Fin n, (t : Nat) < k → s.lu t t ≠ 0)
    (sing : s.bad = true → np = false → (Matrix.of A).det = 0)
    (big : np = false → s.lu k k = 0 → ∀ i, k ≤ i → s.lu i k = 0) :
    LInv A np (k + 1)
      (let s := if s.lu k k = 0 then { s with bad := true } else s
       { s with lu := eliminate (scaleRow s.lu k) k }) := by
  simp only
  by_cases h0 : s.lu k k = 0
  · rw [if_pos h0]
    exact { npv := hnp, le := le, idv := idv, idn := idn, sgn := sgn,
            fac := fun h => by simp at h, diag := fun h => by simp at h,
            sing := fun _ hp => by
              by_cases hb : s.bad = true
              · exact sing hb hp
              · exact fac_det_zero A k _ s.lu (fac (by simpa using hb)) (big hp h0) }
  · rw [if_neg h0]
    exact { npv := hnp, le := le, idv := idv, idn := idn, sgn := sgn,
            fac := fun h => fac_step A k _ s.lu (fac h) h0,
            diag := fun h t ht => by
              simp only [eliminate_apply, scaleRow_apply]
              by_cases e : t = k
              · subst e; simpa using h0
              · have : (t : Nat) ≠ k := fun h => e (Fin.ext h)
                have h1 : ¬ k < t := by rw [Fin.lt_def]; omega
                simp only [h1, false_and, and_false, if_false]
                exact diag h t (by omega),
            sing := sing }

theorem linv_step (A : M n K) (np : Bool) (k : Fin n) (s : LU n K) (h : LInv A np k s) : LInv A np (k + 1) (luStep s k) := by
  unfold luStep
  have hk : s.ipiv k = k := h.idv k le_rfl
  have hid : prm s.ipiv (k + 1) = prm s.ipiv k := by
    rw [prm_succ, hk, Equiv.swap_self]; exact mul_one _
  cases hn : np with
  | true =>
    rw [h.npv, hn, if_pos rfl]
    exact linv_tail A true k s (h.npv.trans hn) h.le (fun j hj => h.idv j (by omega)) (fun _ => h.idn hn)
      (by rw [hid]; exact h.sgn) (by rw [hid]; exact h.fac) h.diag (fun _ h => by simp at h) (fun h => by simp at h)
  | false =>
    rw [h.npv, hn, if_neg (by simp)]
    set p := (findPivot s.lu k).2 with hp
    obtain ⟨hkp, hmax⟩ := findPivot_spec s.lu k
    rw [← hp] at hkp hmax
    have hle : ∀ j, j ≤ Function.update s.ipiv k p j := by
      intro j
      by_cases e : j = k
      · rw [e, Function.update_self]; exact hkp
      · rw [Function.update_of_ne e]; exact h.le j
    have hidv : ∀ j : Fin n, (k : Nat) + 1 ≤ j → Function.update s.ipiv k p j = j := by
      intro j hj
      rw [Function.update_of_ne (by rintro rfl; omega)]
      exact h.idv j (by omega)
    have hc : prm (Function.update s.ipiv k p) k = prm s.ipiv k :=
      prm_congr _ _ _ fun j hj => Function.update_of_ne (by rintro rfl; omega) _ _
    have hprm : prm (Function.update s.ipiv k p) (k + 1) = prm s.ipiv k * Equiv.swap k p := by
      rw [prm_succ, hc, Function.update_self]
    by_cases hpk : p = k
    · rw [if_neg (not_not.2 hpk)]
      have hu : prm (Function.update s.ipiv k p) (k + 1) = prm s.ipiv k := by
        rw [hprm, hpk, Equiv.swap_self]; exact mul_one _
      refine linv_tail A false k _ rfl hle hidv (fun h => by simp at h) ?_ ?_ h.diag (fun hb _ => h.sing hb hn) ?_
      · simp only [hu]; exact h.sgn
      · simp only [hu]; exact h.fac
      · intro _ h0 i hi
        have := hmax i hi
        rw [hpk] at this
        simp only at h0
        rw [h0, abs_zero] at this
        exact abs_nonpos_iff.1 this
    · rw [if_pos hpk]
      refine linv_tail A false k _ rfl hle hidv (fun h => by simp at h) ?_ ?_ ?_ (fun hb _ => h.sing hb hn) ?_
      · simp only [hprm, Equiv.Perm.sign_mul, Equiv.Perm.sign_swap (Ne.symm hpk), Units.val_mul, h.sgn]
        rcases Nat.mod_two_eq_zero_or_one s.ns with e | e
        · rw [if_pos e, if_neg (by omega)]; rfl
        · rw [if_neg (by omega), if_pos (by omega)]; rfl
      · intro hb
        simp only [hprm]
        exact fac_swap A k p hkp _ _ (h.fac hb)
      · intro hb t ht
        simp only [swapRows_apply]
        have htk : t < k := ht
        rw [Equiv.swap_apply_of_ne_of_ne (ne_of_lt htk) (ne_of_lt (lt_of_lt_of_le htk hkp))]
        exact h.diag hb t ht
      · intro _ h0 i hi
        simp only [swapRows_apply, Equiv.swap_apply_left] at h0 ⊢
        have hall : ∀ j, k ≤ j → s.lu j k = 0 := by
          intro j hj
          have := hmax j hj
          rw [h0, abs_zero] at this
          exact abs_nonpos_iff.1 this
        refine hall _ ?_
        by_cases e1 : i = k
        · rw [e1, Equiv.swap_apply_left]; exact hkp
        · by_cases e2 : i = p
          · rw [e2, Equiv.swap_apply_right]
          · rw [Equiv.swap_apply_of_ne_of_ne e1 e2]; exact hi

theorem linv_final (A : M n K) (np : Bool) : LInv A np n (luDecompose np A) :=
  foldl_up luStep (fun k s => LInv A np k s) _ (linv_init A np) (fun k s h => linv_step A np k s h)

/-! ### What the decomposition gives -/

theorem lu_eq (A : M n K) (np : Bool) (hb : (luDecompose np A).bad = false) (i j : Fin n) :
    A (prm (luDecompose np A).ipiv n i) j =
      ∑ t, (if t ≤ i then (luDecompose np A).lu i t else 0) *
        (if t < j then (luDecompose np A).lu t j else if t = j then 1 else 0) := by
  rw [(linv_final A np).fac hb i j]
  refine Finset.sum_congr rfl fun t _ => ?_
  have ht := t.2
  unfold lowF upF
  rw [min_eq_left (by omega)]
  simp only [ht, true_and, ← Fin.le_def]

theorem luDet_eq (s : LU n K) : luDet s = (if s.ns % 2 = 0 then 1 else -1) * ∏ i, s.lu i i := by
  unfold luDet
  have : ∀ (l : List (Fin n)) (d : K), l.foldl (fun d i => d * s.lu i i) d = d * (l.map fun i => s.lu i i).prod := by
    intro l
    induction l with
    | nil => intro d; simp
    | cons a l ih => intro d; simp only [List.foldl_cons, ih, List.map_cons, List.prod_cons, mul_assoc]
  rw [this]
  congr 1

theorem det_lu (A : M n K) (np : Bool) (hb : (luDecompose np A).bad = false) :
    (Matrix.of A).det = luDet (luDecompose np A) := by
  set s := luDecompose np A with hs
  have hi := linv_final A np
  rw [← hs] at hi
  let L : Matrix (Fin n) (Fin n) K := Matrix.of fun i t => if t ≤ i then s.lu i t else 0
  let U : Matrix (Fin n) (Fin n) K := Matrix.of fun t j => if t < j then s.lu t j else if t = j then 1 else 0
  have hm : (Matrix.of A).submatrix (prm s.ipiv n) id = L * U := by
    ext i j
    simp only [Matrix.submatrix_apply, Matrix.of_apply, id, Matrix.mul_apply, L, U]
    exact lu_eq A np hb i j
  have hL : L.det = ∏ i, s.lu i i := by
    rw [Matrix.det_of_lowerTriangular]
    · simp [L]
    · intro i j hij
      have hij : i < j := hij
      simp [L, not_le.2 hij]
  have hU : U.det = 1 := by
    rw [Matrix.det_of_upperTriangular]
    · simp [U]
    · intro i j hij
      have hij : j < i := hij
      simp [U, not_lt.2 (le_of_lt hij), ne_of_gt hij]
  have hd := congrArg Matrix.det hm
  rw [Matrix.det_mul, Matrix.det_permute, hL, hU, mul_one] at hd
  rw [luDet_eq, ← hd]
  have hsg := hi.sgn
  rcases Nat.mod_two_eq_zero_or_one s.ns with e | e
  · rw [if_pos e] at hsg ⊢
    rw [hsg]; simp
  · rw [if_neg (by omega)] at hsg ⊢
    rw [hsg]; simp

end Verif.Mat
