import Verif.Tools.ExtractFit
import Mathlib.Analysis.Matrix.Order
import Mathlib.Analysis.SpecialFunctions.Sqrt
/-!
# The approximate errors of `pixfit-extract` (C240)

The option `cell_approx` computes the error of a source from the part of the matrix that belongs to its neighbours. The numbers are real, without rounding; the inversion of a
symmetric matrix is exact (C54, C90). The matrix is that of C200.
-/
namespace Verif.ExtractFit
open Verif Finset

/-! ### Model -/

open Classical in
/-- the neighbours of a source (`pixfit-extract.cpp:710-718`) -/
noncomputable def neighbours {n : Nat} {free : Bool} (alpha : Matrix (Comp n free) (Comp n free) ℝ) (i : Fin n) : List (Fin n) :=
  (List.finRange n).filter fun j => decide (1e-3 * √(alpha (.inl i) (.inl i) * alpha (.inl j) (.inl j)) < alpha (.inl i) (.inl j))

/-- the matrix of the neighbours (`pixfit-extract.cpp:720-738`): the entries are read on one side -/
def cell {n : Nat} {free : Bool} (alpha : Matrix (Comp n free) (Comp n free) ℝ) (idn : List (Fin n)) : Matrix (Comp idn.length free) (Comp idn.length free) ℝ :=
  Matrix.of fun a b => match a, b with
    | .inl s, .inl t => alpha (.inl (idn.get (max s t))) (.inl (idn.get (min s t)))
    | .inl s, .inr u => alpha (.inr u) (.inl (idn.get s))
    | .inr u, .inl t => alpha (.inr u) (.inl (idn.get t))
    | .inr u, .inr v => alpha (.inr u) (.inr v)

open Classical in
/-- the error of a source in the matrix of its neighbours (`pixfit-extract.cpp:740-750`): `none` if the matrix is singular; the source has to be among its neighbours -/
noncomputable def cellErrOn {n : Nat} {free : Bool} (alpha : Matrix (Comp n free) (Comp n free) ℝ) (idn : List (Fin n)) (i : Fin n) : Res (Option ℝ) :=
  if (cell alpha idn).det = 0 then .ok none
  else match idn.finIdxOf? i with
    | none => .abort
    | some ii => .ok (some √((cell alpha idn)⁻¹ (.inl ii) (.inl ii)))

/-- the approximate error of a source (`pixfit-extract.cpp:709-750`) -/
noncomputable def cellErr {n : Nat} {free : Bool} (alpha : Matrix (Comp n free) (Comp n free) ℝ) (i : Fin n) : Res (Option ℝ) := cellErrOn alpha (neighbours alpha i) i

/-- the errors with `cell_approx` (`pixfit-extract.cpp:702-751`): `none` if one of the matrices is singular -/
noncomputable def cellErrs {n : Nat} (d : Data ℝ) (srcs : Fin n → Src ℝ) (prior : Option (Fin n → ℝ × ℝ)) (free : Bool) : Res (Fin n → Option ℝ) := do
  let (alpha, _) ← system d srcs prior free
  seqFin fun i => cellErr alpha i

/-! ### Lemmas -/

open Matrix in
/-- the error from a part of a matrix is at most that from the whole matrix; they are equal if the rest does not overlap -/
theorem part_le {ι κ : Type} [Fintype ι] [Fintype κ] [DecidableEq ι] [DecidableEq κ] (A : Matrix ι ι ℝ) (hA : A.PosDef) (τ : κ → ι) (hτ : Function.Injective τ) (k : κ) :
    (A.submatrix τ τ).det ≠ 0 ∧ 0 < (A.submatrix τ τ)⁻¹ k k ∧ (A.submatrix τ τ)⁻¹ k k ≤ A⁻¹ (τ k) (τ k) ∧
    ((∀ a, (∀ j, τ j ≠ a) → ∀ j, A a (τ j) = 0) → (A.submatrix τ τ)⁻¹ k k = A⁻¹ (τ k) (τ k)) := by
  classical
  have hB := hA.submatrix hτ
  have hBu : IsUnit (A.submatrix τ τ).det := (Matrix.isUnit_iff_isUnit_det _).1 hB.isUnit
  have hAu : IsUnit A.det := (Matrix.isUnit_iff_isUnit_det _).1 hA.isUnit
  refine ⟨isUnit_iff_ne_zero.1 hBu, hB.inv.diag_pos, ?_⟩
  set x : κ → ℝ := fun j => (A.submatrix τ τ)⁻¹ j k with hx
  set y : ι → ℝ := fun a => A⁻¹ a (τ k) with hy
  have hxe : ∀ j, ∑ l, A (τ j) (τ l) * x l = if j = k then 1 else 0 := by
    intro j
    have := congrFun (congrFun (Matrix.mul_nonsing_inv (A.submatrix τ τ) hBu) j) k
    rw [Matrix.mul_apply, Matrix.one_apply] at this
    exact this
  have hye : ∀ a, ∑ b, A a b * y b = if a = τ k then 1 else 0 := by
    intro a
    have := congrFun (congrFun (Matrix.mul_nonsing_inv A hAu) a) (τ k)
    rw [Matrix.mul_apply, Matrix.one_apply] at this
    exact this
  -- the extension of `x` by zero
  set X : ι → ℝ := fun a => ∑ j, if τ j = a then x j else 0 with hX
  have hXτ : ∀ j, X (τ j) = x j := by
    intro j
    simp only [hX, hτ.eq_iff]
    simp
  have hsum : ∀ f : ι → ℝ, ∑ a, f a * X a = ∑ j, f (τ j) * x j := by
    intro f
    simp only [hX, Finset.mul_sum]
    rw [Finset.sum_comm]
    refine Finset.sum_congr rfl fun j _ => ?_
    simp
  have hsym : ∀ a b, A a b = A b a := fun a b => by simpa using (hA.isHermitian.apply a b).symm
  have hXX : ∑ a, X a * ∑ b, A a b * X b = x k := by
    have : ∀ a, X a * ∑ b, A a b * X b = (∑ b, A a b * X b) * X a := fun a => mul_comm _ _
    simp only [this]
    rw [hsum]
    simp only [hsum, hxe]
    simp
  have hXy : ∑ a, X a * ∑ b, A a b * y b = x k := by
    simp only [hye]
    simp [hXτ]
  have hyy : ∑ a, y a * ∑ b, A a b * y b = y (τ k) := by
    simp only [hye]
    simp
  have hyX : ∑ a, y a * ∑ b, A a b * X b = x k := by
    rw [← hXy]
    simp only [Finset.mul_sum]
    rw [Finset.sum_comm]
    exact Finset.sum_congr rfl fun a _ => Finset.sum_congr rfl fun b _ => by rw [hsym a b]; ring
  refine ⟨?_, ?_⟩
  · have h0 := hA.posSemidef.dotProduct_mulVec_nonneg (fun a => y a - X a)
    have e : star (fun a => y a - X a) ⬝ᵥ (A *ᵥ fun a => y a - X a) = (∑ a, y a * ∑ b, A a b * y b) - (∑ a, y a * ∑ b, A a b * X b) -
        (∑ a, X a * ∑ b, A a b * y b) + ∑ a, X a * ∑ b, A a b * X b := by
      simp only [dotProduct, mulVec, star_trivial, ← Finset.sum_sub_distrib, ← Finset.sum_add_distrib, ← mul_sub]
      refine Finset.sum_congr rfl fun a _ => ?_
      simp only [mul_sub, Finset.sum_sub_distrib]
      ring
    rw [e, hyy, hyX, hXy, hXX] at h0
    show x k ≤ y (τ k)
    linarith
  · intro hz
    have hAX : A *ᵥ X = A *ᵥ y := by
      funext a
      simp only [mulVec, dotProduct]
      rw [hye, hsum]
      by_cases ha : ∃ j, τ j = a
      · obtain ⟨j, rfl⟩ := ha
        rw [hxe]
        simp [hτ.eq_iff]
      · have ha' : ∀ j, τ j ≠ a := fun j hj => ha ⟨j, hj⟩
        rw [if_neg fun h => ha' k h.symm]
        exact Finset.sum_eq_zero fun j _ => by rw [hz a ha' j, zero_mul]
    have hXy' : X = y := by
      have := congrArg (A⁻¹ *ᵥ ·) hAX
      simpa [Matrix.mulVec_mulVec, Matrix.nonsing_inv_mul A hAu] using this
    show x k = y (τ k)
    rw [← hXτ, hXy']

/-- the components of a cell in the whole fit -/
def cellMap {n : Nat} {free : Bool} (idn : List (Fin n)) : Comp idn.length free → Comp n free
  | .inl s => .inl (idn.get s)
  | .inr u => .inr u

theorem cellMap_inj {n : Nat} {free : Bool} (idn : List (Fin n)) (h : idn.Nodup) : Function.Injective (cellMap (free := free) idn) := by
  rintro (a | a) (b | b) hab
  · rw [List.nodup_iff_injective_get.1 h (Sum.inl.inj hab)]
  · cases hab
  · cases hab
  · rw [Sum.inr.inj hab]

theorem cell_eq {n : Nat} {free : Bool} (alpha : Matrix (Comp n free) (Comp n free) ℝ) (hs : ∀ a b, alpha a b = alpha b a) (idn : List (Fin n)) :
    cell alpha idn = alpha.submatrix (cellMap idn) (cellMap idn) := by
  ext a b
  rcases a with a | a <;> rcases b with b | b
  · simp only [cell, Matrix.of_apply, Matrix.submatrix_apply, cellMap]
    rcases le_total a b with h | h
    · rw [max_eq_right h, min_eq_left h, hs]
    · rw [max_eq_left h, min_eq_right h]
  · exact hs _ _
  · rfl
  · rfl

theorem neighbours_nodup {n : Nat} {free : Bool} (alpha : Matrix (Comp n free) (Comp n free) ℝ) (i : Fin n) : (neighbours alpha i).Nodup :=
  (List.nodup_finRange n).filter _

theorem mem_neighbours {n : Nat} {free : Bool} (alpha : Matrix (Comp n free) (Comp n free) ℝ) (i j : Fin n) :
    j ∈ neighbours alpha i ↔ 1e-3 * √(alpha (.inl i) (.inl i) * alpha (.inl j) (.inl j)) < alpha (.inl i) (.inl j) := by
  unfold neighbours
  rw [List.mem_filter]
  simp

theorem self_neighbour {n : Nat} {free : Bool} (alpha : Matrix (Comp n free) (Comp n free) ℝ) (i : Fin n) (h : 0 < alpha (.inl i) (.inl i)) : i ∈ neighbours alpha i := by
  rw [mem_neighbours, Real.sqrt_mul_self h.le]
  norm_num
  linarith

open Matrix in
theorem gram_psd {n : Nat} {free : Bool} (d : Data ℝ) (srcs : Fin n → Src ℝ) (prior : Option (Fin n → ℝ × ℝ)) :
    (Matrix.of (gram (free := free) d srcs prior)).PosSemidef := by
  refine PosSemidef.of_dotProduct_mulVec_nonneg ?_ fun v => ?_
  · ext a b
    simp only [conjTranspose_apply, star_trivial, Matrix.of_apply, gram]
    congr 1
    · exact Finset.sum_congr rfl fun p _ => mul_comm _ _
    · cases prior with
      | none => rfl
      | some q => exact Finset.sum_congr rfl fun p _ => mul_comm _ _
  · have : star v ⬝ᵥ (Matrix.of (gram (free := free) d srcs prior) *ᵥ v) = ∑ p ∈ d.pixels, (∑ a, v a * (shape d srcs a p / d.e p.1 p.2)) ^ 2 + match prior with
        | some q => ∑ i, (∑ a : Comp n free, v a * (if a = Sum.inl i then 1 / (q i).2 else 0)) ^ 2
        | none => 0 := by
      have gen : ∀ {τ : Type} (S : Finset τ) (c : Comp n free → τ → ℝ), ∑ a, v a * ∑ b, (∑ p ∈ S, c a p * c b p) * v b = ∑ p ∈ S, (∑ a, v a * c a p) ^ 2 := by
        intro τ S c
        simp only [Finset.mul_sum, Finset.sum_mul, sq]
        rw [Finset.sum_comm' (t' := univ) (s' := fun _ => univ) (by simp)]
        rw [Finset.sum_congr rfl fun b _ => Finset.sum_comm]
        rw [Finset.sum_comm]
        refine Finset.sum_congr rfl fun p _ => ?_
        exact Finset.sum_congr rfl fun a _ => Finset.sum_congr rfl fun b _ => by ring
      simp only [dotProduct, mulVec, star_trivial, Matrix.of_apply, gram, add_mul, Finset.sum_add_distrib, mul_add]
      congr 1
      · exact gen d.pixels fun a p => shape d srcs a p / d.e p.1 p.2
      · cases prior with
        | none => simp
        | some q => exact gen univ fun a i => if a = Sum.inl i then 1 / (q i).2 else 0
    rw [this]
    apply add_nonneg (Finset.sum_nonneg fun _ _ => sq_nonneg _)
    cases prior with
    | none => exact le_rfl
    | some q => exact Finset.sum_nonneg fun _ _ => sq_nonneg _

/-! ### C240 -/

/-- **C240**: whatever the map and the sources, if the whole fit succeeds then so does the approximation, for every source, and its errors are positive and never larger than those of the whole fit. They are
the same for a source such that the sources that are left out overlap none of those that are kept (nor the background, if it is free). -/
theorem C240_cells {n : Nat} (d : Data ℝ) (srcs : Fin n → Src ℝ) (prior : Option (Fin n → ℝ × ℝ)) (free : Bool)
    (h : ∀ i, Ok d (srcs i)) (hs : d.snr.length = d.nx * d.ny) (he' : d.err.length = d.nx * d.ny) (he : ∀ p ∈ d.pixels, d.e p.1 p.2 ≠ 0)
    (v : Comp n free → ℝ) (cov : Matrix (Comp n free) (Comp n free) ℝ) (hf : fit d srcs prior free = .ok (some (v, cov))) :
    ∃ er, cellErrs d srcs prior free = .ok er ∧ ∀ i, ∃ e, er i = some e ∧ 0 < e ∧ e ≤ √(cov (.inl i) (.inl i)) ∧
      ((∀ k, k ∉ neighbours (Matrix.of (gram (free := free) d srcs prior)) i → (∀ u, gram d srcs prior (.inl k : Comp n free) (.inr u) = 0) ∧
        ∀ j ∈ neighbours (Matrix.of (gram (free := free) d srcs prior)) i, gram d srcs prior (.inl k : Comp n free) (.inl j) = 0) → e = √(cov (.inl i) (.inl i))) := by
  unfold fit at hf
  unfold cellErrs
  rw [C200_system d srcs prior free h hs he' he, Res.ok_bind] at hf ⊢
  dsimp only at hf ⊢
  set A : Matrix (Comp n free) (Comp n free) ℝ := Matrix.of (gram d srcs prior) with hA
  by_cases hdet : A.det ≠ 0
  swap
  · rw [if_neg hdet] at hf; cases hf
  rw [if_pos hdet] at hf
  simp only [Res.ok.injEq, Option.some.injEq, Prod.mk.injEq] at hf
  obtain ⟨-, rfl⟩ := hf
  have hpd : A.PosDef := (gram_psd d srcs prior).posDef_iff_det_ne_zero.2 hdet
  have hsym : ∀ a b, A a b = A b a := fun a b => by simpa using (hpd.isHermitian.apply a b).symm
  have key : ∀ i, ∃ e, cellErr A i = .ok (some e) ∧ 0 < e ∧ e ≤ √(A⁻¹ (.inl i) (.inl i)) ∧
      ((∀ k, k ∉ neighbours A i → (∀ u, A (.inl k) (.inr u) = 0) ∧ ∀ j ∈ neighbours A i, A (.inl k) (.inl j) = 0) → e = √(A⁻¹ (.inl i) (.inl i))) := by
    intro i
    have hmem := self_neighbour A i hpd.diag_pos
    unfold cellErr cellErrOn
    rw [cell_eq A hsym]
    obtain ⟨ii, hii⟩ : ∃ ii, (neighbours A i).finIdxOf? i = some ii := by
      rw [← Option.isSome_iff_exists, List.isSome_finIdxOf?]
      simpa using hmem
    have hget : (neighbours A i).get ii = i := by
      have := (List.finIdxOf?_eq_some_iff.1 hii).1
      simpa using this
    obtain ⟨p1, p2, p3, p4⟩ := part_le A hpd (cellMap (neighbours A i)) (cellMap_inj _ (neighbours_nodup A i)) (.inl ii)
    have hcm : cellMap (free := free) (neighbours A i) (.inl ii) = .inl i := by simp only [cellMap, hget]
    rw [hcm] at p3 p4
    rw [if_neg p1, hii]
    refine ⟨_, rfl, Real.sqrt_pos.2 p2, Real.sqrt_le_sqrt p3, fun hz => ?_⟩
    congr 1
    apply p4
    rintro (k | u) hk j
    · have hk' : k ∉ neighbours A i := by
        intro hm
        obtain ⟨s, hs⟩ := List.get_of_mem hm
        exact hk (.inl s) (by simp only [cellMap, hs])
      rcases j with s | u
      · exact (hz k hk').2 _ (List.get_mem _ _)
      · exact (hz k hk').1 u
    · exact absurd rfl (hk (.inr u))
  choose e h1 h2 h3 h4 using key
  exact ⟨fun i => some (e i), seqFin_ok h1, fun i => ⟨e i, rfl, h2 i, h3 i, h4 i⟩⟩

/-- **C240**: a source that weighs nothing (its image is zero wherever there are data, without prior) is not among its own neighbours: the program stops, unless the matrix of the others is singular. -/
theorem C240_dark {n : Nat} {free : Bool} (alpha : Matrix (Comp n free) (Comp n free) ℝ) (i : Fin n) (h : alpha (.inl i) (.inl i) = 0)
    (hd : (cell alpha (neighbours alpha i)).det ≠ 0) : cellErr alpha i = .abort := by
  have hmem : i ∉ neighbours alpha i := by
    rw [mem_neighbours, h]
    simp
  unfold cellErr cellErrOn
  have hn : (neighbours alpha i).finIdxOf? i = none := by
    rw [← Option.not_isSome_iff_eq_none, List.isSome_finIdxOf?]
    simpa using hmem
  rw [if_neg hd, hn]

/-- the hypotheses of `C240_dark` can be met: a single source -/
example : (cell (0 : Matrix (Comp 1 false) (Comp 1 false) ℝ) (neighbours (0 : Matrix (Comp 1 false) (Comp 1 false) ℝ) 0)).det ≠ 0 := by
  have hemp : IsEmpty {_u : Unit // false = true} := ⟨fun u => by cases u.2⟩
  have h0 : neighbours (0 : Matrix (Comp 1 false) (Comp 1 false) ℝ) 0 = [] := by
    unfold neighbours
    simp
  rw [h0]
  have : IsEmpty (Comp ([] : List (Fin 1)).length false) := ⟨fun a => a.elim (fun x => x.elim0) fun u => hemp.elim u⟩
  rw [Matrix.det_isEmpty]
  exact one_ne_zero

/-! three sources in a row, each overlaps the next one -/

/-- the map -/
noncomputable def cellMapEx : Data ℝ := ⟨1, 4, [1, 1, 1, 1], [1, 1, 1, 1], 1⟩

/-- the sources -/
noncomputable def cellSrcEx (i : Fin 3) : Src ℝ := ⟨0, i.val + 1, [0, 0, 0, 1, 1, 0, 0, 0, 0]⟩

theorem cellEx_ok (i : Fin 3) : Ok cellMapEx (cellSrcEx i) := by
  fin_cases i <;> exact ⟨rfl, rfl, rfl, by decide, by decide, by decide, by decide⟩

theorem cellEx_err : ∀ p ∈ cellMapEx.pixels, cellMapEx.e p.1 p.2 ≠ 0 := by
  intro p hp
  simp only [Data.pixels, cellMapEx, Finset.mem_product, Finset.mem_range] at hp
  obtain ⟨h1, h2⟩ := hp
  obtain ⟨a, b⟩ := p
  simp only at h1 h2
  interval_cases a; interval_cases b <;> simp [Data.e, cellMapEx]

/-- the matrix -/
def cellEx : Matrix (Fin 3) (Fin 3) ℝ := !![2, 1, 0; 1, 2, 1; 0, 1, 2]

theorem cellEx_gram (i j : Fin 3) : gram (free := false) cellMapEx cellSrcEx none (.inl i) (.inl j) = cellEx i j := by
  have t3 : Int.toNat 3 = 3 := rfl
  have t4 : Int.toNat 4 = 4 := rfl
  have t5 : Int.toNat 5 = 5 := rfl
  have hp : cellMapEx.pixels = {(0, 0), (0, 1), (0, 2), (0, 3)} := by decide +kernel
  unfold gram
  rw [hp]
  fin_cases i <;> fin_cases j <;> norm_num [shape, Src.at, cellSrcEx, cellMapEx, Data.e, cellEx, t3, t4, t5]

/-- the first column of an inverse -/
theorem inv_at {ι : Type} [Fintype ι] [DecidableEq ι] (A : Matrix ι ι ℝ) (hd : A.det ≠ 0) (k : ι) (x : ι → ℝ) (hx : A.mulVec x = Pi.single k 1) : A⁻¹ k k = x k := by
  have h := congrArg (A⁻¹.mulVec ·) hx
  simp only [Matrix.mulVec_mulVec, Matrix.nonsing_inv_mul A (isUnit_iff_ne_zero.2 hd), Matrix.one_mulVec] at h
  rw [h]
  simp

/-- **C240**: the approximate error can be strictly smaller than the error of the whole fit: here the neighbour of a neighbour is left out, and the variance is 2/3 in place of 3/4. -/
theorem C240_smaller : ∃ v cov er, fit cellMapEx cellSrcEx none false = .ok (some (v, cov)) ∧ cov (.inl 0) (.inl 0) = 3 / 4 ∧
    cellErrs cellMapEx cellSrcEx none false = .ok er ∧ er 0 = some √(2 / 3) := by
  unfold fit cellErrs
  rw [C200_system cellMapEx cellSrcEx none false cellEx_ok rfl rfl cellEx_err, Res.ok_bind, Res.ok_bind]
  dsimp only
  set A : Matrix (Comp 3 false) (Comp 3 false) ℝ := Matrix.of (gram cellMapEx cellSrcEx none) with hA
  have hAe : ∀ i j, A (.inl i) (.inl j) = cellEx i j := cellEx_gram
  have hemp : IsEmpty {_u : Unit // false = true} := ⟨fun u => by cases u.2⟩
  have hmul : ∀ (x : Comp 3 false → ℝ) (i : Fin 3), A.mulVec x (.inl i) = ∑ j, cellEx i j * x (.inl j) := by
    intro x i
    simp [Matrix.mulVec, dotProduct, hAe]
  have hdet : A.det ≠ 0 := by
    intro h0
    obtain ⟨x, hx, hz⟩ := Matrix.exists_mulVec_eq_zero_iff.2 h0
    apply hx
    have e : ∀ i : Fin 3, ∑ j, cellEx i j * x (.inl j) = 0 := fun i => by rw [← hmul, hz]; rfl
    have e0 := e 0
    have e1 := e 1
    have e2 := e 2
    simp [Fin.sum_univ_three, cellEx] at e0 e1 e2
    funext a
    rcases a with a | a
    · fin_cases a
      · show x (.inl 0) = 0; linarith
      · show x (.inl 1) = 0; linarith
      · show x (.inl 2) = 0; linarith
    · exact hemp.elim a
  have hpd : A.PosDef := (gram_psd cellMapEx cellSrcEx none).posDef_iff_det_ne_zero.2 hdet
  have hsym : ∀ a b, A a b = A b a := fun a b => (hpd.isHermitian.apply a b).symm
  have t2 : ∀ a b c : ℝ, ![a, b, c] 2 = c := fun _ _ _ => rfl
  obtain ⟨er, her, hall⟩ := C240_cells cellMapEx cellSrcEx none false cellEx_ok rfl rfl cellEx_err (A⁻¹.mulVec (rhs cellMapEx cellSrcEx none)) A⁻¹ (by
    unfold fit
    rw [C200_system cellMapEx cellSrcEx none false cellEx_ok rfl rfl cellEx_err, Res.ok_bind]
    exact congrArg Res.ok (if_pos hdet))
  unfold cellErrs at her
  rw [C200_system cellMapEx cellSrcEx none false cellEx_ok rfl rfl cellEx_err, Res.ok_bind] at her
  dsimp only at her
  refine ⟨_, A⁻¹, er, congrArg Res.ok (if_pos hdet), ?_, her, ?_⟩
  · rw [inv_at A hdet (.inl 0) (fun a => match a with | .inl i => ![3/4, -1/2, 1/4] i | .inr _ => 0)]
    · simp
    · funext a
      rcases a with a | a
      · rw [hmul]
        fin_cases a <;> norm_num [Fin.sum_univ_three, cellEx, Pi.single_apply, t2]
      · exact hemp.elim a
  · have hn : neighbours A 0 = [0, 1] := by
      unfold neighbours
      have : List.finRange 3 = [0, 1, 2] := rfl
      rw [this]
      have s4 : √(4 : ℝ) = 2 := by rw [show (4 : ℝ) = 2 ^ 2 by norm_num]; exact Real.sqrt_sq (by norm_num)
      norm_num [List.filter_cons, hAe, cellEx, s4, t2]
    have h0 : cellErr A 0 = .ok (er 0) := seqFin_inv her 0
    have hc : cellErr A 0 = .ok (some √(2 / 3)) := by
      unfold cellErr
      rw [hn]
      unfold cellErrOn
      rw [cell_eq A hsym]
      have hdc : (A.submatrix (cellMap [0, 1]) (cellMap [0, 1])).det ≠ 0 :=
        (part_le A hpd (cellMap (free := false) [0, 1]) (cellMap_inj _ (by decide)) (.inl ⟨0, by decide⟩)).1
      rw [if_neg hdc]
      have hix : List.finIdxOf? (0 : Fin 3) [0, 1] = some ⟨0, by decide⟩ := by decide
      rw [hix]
      dsimp only
      rw [inv_at _ hdc (.inl ⟨0, by decide⟩) (fun a => match a with | .inl i => ![2/3, -1/3] i | .inr _ => 0)]
      · simp
      · funext a
        rcases a with a | a
        · have : ∀ x : Comp 2 false → ℝ, (A.submatrix (cellMap [0, 1]) (cellMap [0, 1])).mulVec x (.inl a) = ∑ j : Fin 2, cellEx ([0, 1].get a) ([0, 1].get j) * x (.inl j) := by
            intro x
            simp [Matrix.mulVec, dotProduct, hAe, cellMap]
          rw [this]
          fin_cases a <;> norm_num [Fin.sum_univ_two, cellEx, Pi.single_apply]
        · exact hemp.elim a
    rw [hc] at h0
    exact (Res.ok.inj h0).symm

end Verif.ExtractFit
