import Verif.Astro.RegridProps
/-!
# C141: regridding by drizzling, for any map of positions
-/
namespace Verif.Astro
open Verif Verif.Bil

variable {K : Type} [Field K] [LinearOrder K] [IsStrictOrderedRing K] [FloorRing K]

/-- Spec: the area of the quadrilateral with the given corners, as two triangles with the first corner in common -/
def quadArea (q : (K × K) × (K × K) × (K × K) × (K × K)) : K :=
  |(q.2.1.1 - q.1.1) * (q.2.2.1.2 - q.1.2) - (q.2.1.2 - q.1.2) * (q.2.2.1.1 - q.1.1)| / 2 +
  |(q.2.2.1.1 - q.1.1) * (q.2.2.2.2 - q.1.2) - (q.2.2.1.2 - q.1.2) * (q.2.2.2.1 - q.1.1)| / 2

omit [FloorRing K] [IsStrictOrderedRing K] in
theorem polyArea_quad (p0 p1 p2 p3 : K × K) : polyArea [p0, p1, p2, p3] = quadArea (p0, p1, p2, p3) := by
  unfold polyArea quadArea
  rw [if_neg (by simp)]
  simp only [fanArea]
  have a : ∀ x y z w : K, x = z → y = w → 1 / 2 * |x| + (1 / 2 * |y| + 0) = |z| / 2 + |w| / 2 := by
    rintro x y _ _ rfl rfl; ring
  apply a <;> ring

theorem regrid_any (tol : K) (sqrt : K → K) (s2d : K → K → K × K) (o : DrzOpts K) {ny nx dny dnx : Nat} (hl : o.linearize = false)
    (hf : ∀ iy ix, iy < ny → ix < nx → QuadFinite s2d o iy ix) (ha : ∀ iy ix, iy < ny → ix < nx → quadArea (quad s2d o iy ix) ≠ 0)
    (img : Img (Option K)) (hw : img.WF) (hy : img.nx = ny) (hx : img.ny = nx) (hfin : ∀ iy ix, iy < ny → ix < nx → pixv img iy ix ≠ none) :
    ∃ res wei, regridDrizzle tol sqrt s2d img ny nx dny dnx o = .ok (res, wei) ∧ Sized dny dnx (res, wei) ∧ ∀ i j, i < dny → j < dnx →
      wei.at i j = some (∑ iy ∈ Finset.range ny, ∑ ix ∈ Finset.range nx, (coverOf tol s2d o (areaOf s2d o 0) dny dnx i j iy ix).getD 0) ∧
      res.at i j = some (divO (some (∑ iy ∈ Finset.range ny, ∑ ix ∈ Finset.range nx,
          (pixv img iy ix).getD 0 * (o.pixfrac ^ 2 * ((coverOf tol s2d o (areaOf s2d o 0) dny dnx i j iy ix).getD 0 / quadArea (quad s2d o iy ix)))))
        (some (∑ iy ∈ Finset.range ny, ∑ ix ∈ Finset.range nx, (coverOf tol s2d o (areaOf s2d o 0) dny dnx i j iy ix).getD 0))) := by
  have har : ∀ iy ix, areaOf s2d o 0 iy ix = quadArea (quad s2d o iy ix) := by
    intro iy ix
    unfold areaOf
    rw [hl]
    exact polyArea_quad _ _ _ _
  obtain ⟨res, wei, e1, e2, e3⟩ := drizzleAll_gather tol s2d img o 0 (dny := dny) (dnx := dnx) hw hy hx hf
    (fun iy ix h1 h2 => by rw [har]; exact ha iy ix h1 h2)
  refine ⟨res, wei, ?_, e2, ?_⟩
  · unfold regridDrizzle
    rw [Res.check_pos hy, Res.ok_bind, Res.check_pos hx, Res.ok_bind, hl]
    exact e1
  · intro i j hi hj
    obtain ⟨g1, g2⟩ := e3 i j hi hj
    have hW := gatherW_eq (coverOf tol s2d o (areaOf s2d o 0) dny dnx i j) (allPix ny nx)
    rw [sum_allPix (fun a b => (coverOf tol s2d o (areaOf s2d o 0) dny dnx i j a b).getD 0)] at hW
    rw [hW] at g1 g2
    refine ⟨g1, ?_⟩
    rw [g2, gather_eq, if_pos, sum_allPix (fun a b => (pixv img a b).getD 0 * (o.pixfrac ^ 2 *
        ((coverOf tol s2d o (areaOf s2d o 0) dny dnx i j a b).getD 0 / areaOf s2d o 0 a b)))]
    · simp only [har]
    · intro p hp _
      obtain ⟨h1, h2⟩ := mem_allPix.1 hp
      exact Option.isSome_iff_ne_none.2 (hfin _ _ h1 h2)

/-- C141: for any map whose projected pixels have an area, there are weights, not negative and the same for all images, such that the
result for any image of finite pixels is the weighted mean of the source pixels, each of them times `pixfrac^2` and divided by the area
of its projection. The destination pixels of weight zero are not finite, and all others are. -/
theorem C141_mean (tol : K) (sqrt : K → K) (s2d : K → K → K × K) (o : DrzOpts K) {ny nx dny dnx : Nat} (hl : o.linearize = false)
    (hf : ∀ iy ix, iy < ny → ix < nx → QuadFinite s2d o iy ix) (ha : ∀ iy ix, iy < ny → ix < nx → quadArea (quad s2d o iy ix) ≠ 0) :
    ∃ w : Nat → Nat → Nat → Nat → K, (∀ i j iy ix, 0 ≤ w i j iy ix) ∧
      ∀ img : Img (Option K), img.WF → img.nx = ny → img.ny = nx → (∀ iy ix, iy < ny → ix < nx → pixv img iy ix ≠ none) →
      ∃ res wei, regridDrizzle tol sqrt s2d img ny nx dny dnx o = .ok (res, wei) ∧ Sized dny dnx (res, wei) ∧ ∀ i j, i < dny → j < dnx →
        let tot := ∑ iy ∈ Finset.range ny, ∑ ix ∈ Finset.range nx, w i j iy ix
        wei.at i j = some tot ∧ (tot = 0 → res.at i j = some none) ∧ (tot ≠ 0 → res.at i j = some (some
          ((∑ iy ∈ Finset.range ny, ∑ ix ∈ Finset.range nx, w i j iy ix * ((pixv img iy ix).getD 0 * o.pixfrac ^ 2 / quadArea (quad s2d o iy ix))) / tot))) := by
  refine ⟨fun i j iy ix => (coverOf tol s2d o (areaOf s2d o 0) dny dnx i j iy ix).getD 0, ?_, ?_⟩
  · intro i j iy ix
    have h0 : 0 ≤ areaOf s2d o 0 iy ix := by
      unfold areaOf
      simp only [hl, Bool.false_eq_true, if_false]
      exact polyArea_nonneg (K := K) _
    exact cover_nonneg h0 dny dnx i j
  · intro img hw hy hx hfin
    obtain ⟨res, wei, e1, e2, e3⟩ := regrid_any tol sqrt s2d o (dny := dny) (dnx := dnx) hl hf ha img hw hy hx hfin
    refine ⟨res, wei, e1, e2, ?_⟩
    intro i j hi hj tot
    obtain ⟨g1, g2⟩ := e3 i j hi hj
    refine ⟨g1, ?_, ?_⟩
    · intro h0
      rw [g2]
      have h0' : ∑ iy ∈ Finset.range ny, ∑ ix ∈ Finset.range nx, (coverOf tol s2d o (areaOf s2d o 0) dny dnx i j iy ix).getD 0 = 0 := h0
      rw [h0']
      simp [divO]
    · intro h0
      rw [g2]
      have h0' : ∑ iy ∈ Finset.range ny, ∑ ix ∈ Finset.range nx, (coverOf tol s2d o (areaOf s2d o 0) dny dnx i j iy ix).getD 0 ≠ 0 := h0
      simp only [divO, if_neg h0', Option.some.injEq]
      congr 1
      apply Finset.sum_congr rfl
      intro iy _
      apply Finset.sum_congr rfl
      intro ix _
      ring

/-- C141: so if all source pixels, times `pixfrac^2` and divided by the area of their projection, are between `lo` and `hi`, then all
finite pixels of the result are between `lo` and `hi`. -/
theorem C141_range (tol : K) (sqrt : K → K) (s2d : K → K → K × K) (o : DrzOpts K) {ny nx dny dnx : Nat} (hl : o.linearize = false)
    (hf : ∀ iy ix, iy < ny → ix < nx → QuadFinite s2d o iy ix) (ha : ∀ iy ix, iy < ny → ix < nx → quadArea (quad s2d o iy ix) ≠ 0)
    (img : Img (Option K)) (hw : img.WF) (hy : img.nx = ny) (hx : img.ny = nx) (lo hi : K)
    (hb : ∀ iy ix, iy < ny → ix < nx → ∃ v, pixv img iy ix = some v ∧ lo ≤ v * o.pixfrac ^ 2 / quadArea (quad s2d o iy ix) ∧
      v * o.pixfrac ^ 2 / quadArea (quad s2d o iy ix) ≤ hi) :
    ∃ res wei, regridDrizzle tol sqrt s2d img ny nx dny dnx o = .ok (res, wei) ∧
      ∀ i j v, res.at i j = some (some v) → lo ≤ v ∧ v ≤ hi := by
  obtain ⟨w, hw0, hall⟩ := C141_mean tol sqrt s2d o (dny := dny) (dnx := dnx) hl hf ha
  obtain ⟨res, wei, e1, e2, e3⟩ := hall img hw hy hx (fun iy ix h1 h2 => by
    obtain ⟨v, hv, _⟩ := hb iy ix h1 h2
    rw [hv]; simp)
  refine ⟨res, wei, e1, ?_⟩
  intro i j v hv
  have hlt := at_lt hv
  have hi' : i < dny := by have := e2.y1; simp only at this; omega
  have hj' : j < dnx := by have := e2.x1; simp only at this; omega
  obtain ⟨_, g2, g3⟩ := e3 i j hi' hj'
  have hne : ∑ iy ∈ Finset.range ny, ∑ ix ∈ Finset.range nx, w i j iy ix ≠ 0 := by
    intro h0
    rw [g2 h0] at hv
    simp at hv
  rw [g3 hne] at hv
  simp only [Option.some.injEq] at hv
  have hpos : 0 < ∑ iy ∈ Finset.range ny, ∑ ix ∈ Finset.range nx, w i j iy ix :=
    lt_of_le_of_ne (Finset.sum_nonneg fun iy _ => Finset.sum_nonneg fun ix _ => hw0 i j iy ix) (Ne.symm hne)
  rw [← hv, le_div_iff₀ hpos, div_le_iff₀ hpos, Finset.mul_sum, Finset.mul_sum]
  constructor
  · apply Finset.sum_le_sum
    intro iy h1
    rw [Finset.mul_sum]
    apply Finset.sum_le_sum
    intro ix h2
    obtain ⟨v, hv, hlo, _⟩ := hb iy ix (Finset.mem_range.1 h1) (Finset.mem_range.1 h2)
    rw [hv, Option.getD_some, mul_comm]
    exact mul_le_mul_of_nonneg_left hlo (hw0 i j iy ix)
  · apply Finset.sum_le_sum
    intro iy h1
    rw [Finset.mul_sum]
    apply Finset.sum_le_sum
    intro ix h2
    obtain ⟨v, hv, _, hhi⟩ := hb iy ix (Finset.mem_range.1 h1) (Finset.mem_range.1 h2)
    rw [hv, Option.getD_some, mul_comm hi]
    exact mul_le_mul_of_nonneg_left hhi (hw0 i j iy ix)

/-! ### Affine maps -/

/-- Spec: an affine map of the positions -/
def affine (a b c d e f : K) (x y : K) : K × K := (a * x + b * y + e, c * x + d * y + f)

omit [FloorRing K] in
/-- for an affine map, all the ways to reduce the pixels by `pixfrac` are the same -/
theorem quad_affine (a b c d e f : K) (o : DrzOpts K) (iy ix : Nat) :
    quad (affine a b c d e f) o iy ix = (affine a b c d e f (ix - 1 / 2 * o.pixfrac) (iy - 1 / 2 * o.pixfrac),
      affine a b c d e f (ix + 1 / 2 * o.pixfrac) (iy - 1 / 2 * o.pixfrac), affine a b c d e f (ix + 1 / 2 * o.pixfrac) (iy + 1 / 2 * o.pixfrac),
      affine a b c d e f (ix - 1 / 2 * o.pixfrac) (iy + 1 / 2 * o.pixfrac)) := by
  unfold quad
  by_cases h1 : o.pixfrac = 1
  · rw [h1]
    simp
  · by_cases h2 : o.destPixfrac = true
    · simp only [h1, h2, or_true, if_true, ne_eq, not_false_eq_true, and_self, shrinkQuad, affine, Prod.mk.injEq]
      refine ⟨⟨?_, ?_⟩, ⟨?_, ?_⟩, ⟨?_, ?_⟩, ?_, ?_⟩ <;> ring
    · simp [h1, h2]

omit [FloorRing K] in
theorem area_affine (a b c d e f : K) (o : DrzOpts K) (iy ix : Nat) :
    quadArea (quad (affine a b c d e f) o iy ix) = o.pixfrac ^ 2 * |a * d - b * c| := by
  rw [quad_affine]
  unfold quadArea affine
  have h : ∀ z w : K, z = o.pixfrac ^ 2 * (a * d - b * c) → w = o.pixfrac ^ 2 * (a * d - b * c) → |z| / 2 + |w| / 2 = o.pixfrac ^ 2 * |a * d - b * c| := by
    rintro z w rfl rfl
    rw [abs_mul, abs_of_nonneg (sq_nonneg o.pixfrac)]
    ring
  apply h <;> simp only <;> ring

/-- C141: for an affine map (shift, rotation, change of scale, shear), with any `pixfrac`, each finite pixel of the result is between the
smallest and the largest source pixel, both divided by the area of a projected source pixel: the brightness per unit of area is kept.
A uniform image stays uniform. -/
theorem C141_affine (tol : K) (sqrt : K → K) (a b c d e f : K) (o : DrzOpts K) {ny nx dny dnx : Nat} (hl : o.linearize = false)
    (hf : ∀ iy ix, iy < ny → ix < nx → QuadFinite (affine a b c d e f) o iy ix) (hdet : a * d - b * c ≠ 0) (hp : o.pixfrac ≠ 0)
    (img : Img (Option K)) (hw : img.WF) (hy : img.nx = ny) (hx : img.ny = nx) (lo hi : K)
    (hb : ∀ iy ix, iy < ny → ix < nx → ∃ v, pixv img iy ix = some v ∧ lo ≤ v ∧ v ≤ hi) :
    ∃ res wei, regridDrizzle tol sqrt (affine a b c d e f) img ny nx dny dnx o = .ok (res, wei) ∧
      ∀ i j v, res.at i j = some (some v) → lo / |a * d - b * c| ≤ v ∧ v ≤ hi / |a * d - b * c| := by
  have hd : 0 < |a * d - b * c| := abs_pos.2 hdet
  have hp2 : 0 < o.pixfrac ^ 2 := lt_of_le_of_ne (sq_nonneg _) (Ne.symm (pow_ne_zero 2 hp))
  apply C141_range tol sqrt _ o hl hf _ img hw hy hx
  · intro iy ix h1 h2
    obtain ⟨v, hv, hlo, hhi⟩ := hb iy ix h1 h2
    refine ⟨v, hv, ?_⟩
    rw [area_affine]
    have e : v * o.pixfrac ^ 2 / (o.pixfrac ^ 2 * |a * d - b * c|) = v / |a * d - b * c| := by
      rw [mul_comm v, mul_div_mul_left _ _ hp2.ne']
    rw [e]
    exact ⟨div_le_div_of_nonneg_right hlo hd.le, div_le_div_of_nonneg_right hhi hd.le⟩
  · intro iy ix _ _
    rw [area_affine]
    exact (mul_pos hp2 hd).ne'

/-! ### The linear approximation -/

omit [LinearOrder K] [IsStrictOrderedRing K] [FloorRing K] in
theorem linMatrix_affine (a b c d e f : K) (nx ny : Nat) : linMatrix (affine a b c d e f) nx ny =
    (affine a b c d e f ((nx / 2 : Nat) : K) ((ny / 2 : Nat) : K), (a, c), (b, d)) := by
  unfold linMatrix affine
  simp only [Prod.mk.injEq, true_and]
  refine ⟨⟨?_, ?_⟩, ?_, ?_⟩ <;> ring

omit [LinearOrder K] [IsStrictOrderedRing K] [FloorRing K] in
theorem linMap_affine (a b c d e f : K) (nx ny : Nat) : linMap nx ny (linMatrix (affine a b c d e f) nx ny) = affine a b c d e f := by
  funext x y
  rw [linMatrix_affine]
  unfold linMap affine
  simp only [Prod.mk.injEq]
  constructor <;> ring

/-- C141: when the map is affine with perpendicular axes, is not close to a shift by whole pixels, and `pixfrac=1`, the option
`linearize` gives the same result. -/
theorem C141_linearize_partial (tol : K) (sqrt : K → K) (a b c d e f : K) (img : Img (Option K)) (dp : Bool) {ny nx dny dnx : Nat}
    (hf : ∀ iy ix, iy < ny → ix < nx → QuadFinite (affine a b c d e f) ⟨1, false, dp⟩ iy ix) (hdet : a * d - b * c ≠ 0)
    (hperp : a * b + c * d = 0) (hs : ∀ z, 0 ≤ z → 0 ≤ sqrt z ∧ sqrt z ^ 2 = z)
    (hns : isShift (linMatrix (affine a b c d e f) nx ny) = false) (hw : img.WF) (hy : img.nx = ny) (hx : img.ny = nx) :
    regridDrizzle tol sqrt (affine a b c d e f) img ny nx dny dnx ⟨1, true, dp⟩ =
      regridDrizzle tol sqrt (affine a b c d e f) img ny nx dny dnx ⟨1, false, dp⟩ := by
  have hla : linArea sqrt (linMatrix (affine a b c d e f) nx ny) = |a * d - b * c| := by
    rw [linMatrix_affine]
    unfold linArea
    simp only
    obtain ⟨p1, q1⟩ := hs (a ^ 2 + c ^ 2) (add_nonneg (sq_nonneg _) (sq_nonneg _))
    obtain ⟨p2, q2⟩ := hs (b ^ 2 + d ^ 2) (add_nonneg (sq_nonneg _) (sq_nonneg _))
    have h2 : (sqrt (a ^ 2 + c ^ 2) * sqrt (b ^ 2 + d ^ 2)) ^ 2 = |a * d - b * c| ^ 2 := by
      rw [mul_pow, q1, q2, sq_abs]
      linear_combination (a * b + c * d) * hperp
    exact (pow_left_inj₀ (mul_nonneg p1 p2) (abs_nonneg _) two_ne_zero).1 h2
  have ar : ∀ iy ix, areaOf (affine a b c d e f) ⟨1, true, dp⟩ |a * d - b * c| iy ix = areaOf (affine a b c d e f) ⟨1, false, dp⟩ 0 iy ix := by
    intro iy ix
    unfold areaOf
    simp only [if_true, Bool.false_eq_true, if_false]
    rw [polyArea_quad]
    have := area_affine a b c d e f (⟨1, false, dp⟩ : DrzOpts K) iy ix
    simp only [one_pow, one_mul] at this
    exact this.symm
  have arf : areaOf (affine a b c d e f) ⟨1, true, dp⟩ |a * d - b * c| = areaOf (affine a b c d e f) ⟨1, false, dp⟩ 0 := by
    funext iy ix; exact ar iy ix
  have hne : ∀ iy ix, iy < ny → ix < nx → areaOf (affine a b c d e f) ⟨1, true, dp⟩ |a * d - b * c| iy ix ≠ 0 := by
    intro iy ix _ _
    unfold areaOf
    simp only [if_true]
    exact (abs_pos.2 hdet).ne'
  obtain ⟨res, wei, e1, e2, e3⟩ := drizzleAll_gather tol (affine a b c d e f) img ⟨1, true, dp⟩ |a * d - b * c| (dny := dny) (dnx := dnx) hw hy hx hf hne
  obtain ⟨res', wei', e1', e2', e3'⟩ := drizzleAll_gather tol (affine a b c d e f) img ⟨1, false, dp⟩ 0 (dny := dny) (dnx := dnx) hw hy hx hf
    (fun iy ix h1 h2 => by rw [← ar]; exact hne iy ix h1 h2)
  have hr : res = res' := by
    apply img_ext e2.w1 e2'.w1 (e2.y1.trans e2'.y1.symm) (e2.x1.trans e2'.x1.symm)
    intro i j hi hj
    have hi' : i < dny := e2.y1 ▸ hi
    have hj' : j < dnx := e2.x1 ▸ hj
    rw [(e3 i j hi' hj').2, (e3' i j hi' hj').2, arf]
    rfl
  have hwe : wei = wei' := by
    apply img_ext e2.w2 e2'.w2 (e2.y2.trans e2'.y2.symm) (e2.x2.trans e2'.x2.symm)
    intro i j hi hj
    have hi' : i < dny := e2.y2 ▸ hi
    have hj' : j < dnx := e2.x2 ▸ hj
    rw [(e3 i j hi' hj').1, (e3' i j hi' hj').1, arf]
    rfl
  subst hr hwe
  unfold regridDrizzle
  rw [Res.check_pos hy, Res.ok_bind, Res.check_pos hx, Res.ok_bind]
  simp only [if_true, Bool.false_eq_true, if_false, hns]
  rw [linMap_affine, hla, e1, e1']
  rfl

/-! ### Shifts by whole pixels -/

omit [LinearOrder K] [IsStrictOrderedRing K] [FloorRing K] in
theorem setOnes_spec (l : List Nat) : ∀ v : List K, (∀ i ∈ l, i < v.length) →
    ∃ r, setOnes v l = .ok r ∧ r.length = v.length ∧ ∀ i, r[i]? = if i ∈ l then some 1 else v[i]? := by
  induction l with
  | nil => intro v _; exact ⟨v, rfl, rfl, fun i => by simp⟩
  | cons a l ih =>
    intro v h
    have ha := h a (by simp)
    obtain ⟨r, h1, h2, h3⟩ := ih (v.set a 1) (fun i hi => by simpa using h i (by simp [hi]))
    refine ⟨r, by rw [setOnes, if_pos ha, h1], by simpa using h2, ?_⟩
    intro i
    rw [h3]
    by_cases hi : i ∈ l
    · simp [hi]
    · by_cases e : i = a
      · subst e
        simp [hi, List.getElem?_set_self ha]
      · simp [hi, e, List.getElem?_set_ne (Ne.symm e)]

omit [IsStrictOrderedRing K] in
theorem roundI_int [IsStrictOrderedRing K] (n : Int) : roundI ((n : Int) : K) = n := by
  unfold roundI
  split
  · rw [Int.floor_eq_iff]
    constructor <;> linarith
  · rw [Int.ceil_eq_iff]
    constructor <;> linarith

/-- C141: with the option `linearize`, a map that is a shift by `tx` columns and `ty` rows gives the image shifted by as many columns
and rows: the pixels of the result that have no source pixel are not finite, with weight 0, and the others have weight 1. -/
theorem C141_shift (tol : K) (sqrt : K → K) (tx ty : Int) (img : Img (Option K)) (pf : K) (dp : Bool) {ny nx dny dnx : Nat}
    (hw : img.WF) (hy : img.nx = ny) (hx : img.ny = nx) (bx : |tx| < 2 ^ 60) (byy : |ty| < 2 ^ 60) (hnx : nx < 2 ^ 60) (hny : ny < 2 ^ 60)
    (hs : ny * nx < 2 ^ 63) (hd : dny * dnx < 2 ^ 63) :
    ∃ res wei, regridDrizzle tol sqrt (fun x y => (x + (tx : K), y + (ty : K))) img ny nx dny dnx ⟨pf, true, dp⟩ = .ok (res, wei) ∧
      Sized dny dnx (res, wei) ∧ ∀ i j : Nat, i < dny → j < dnx →
        if 0 ≤ (i : Int) - ty ∧ (i : Int) - ty < ny ∧ 0 ≤ (j : Int) - tx ∧ (j : Int) - tx < nx
        then res.at i j = img.at ((i : Int) - ty).toNat ((j : Int) - tx).toNat ∧ wei.at i j = some 1
        else res.at i j = some none ∧ wei.at i j = some 0 := by
  rw [abs_lt] at bx byy
  have hm : linMatrix (fun x y => (x + (tx : K), y + (ty : K))) nx ny =
      ((((((nx / 2 : Nat) : Int) + tx : Int) : K), ((((ny / 2 : Nat) : Int) + ty : Int) : K)), ((1 : K), (0 : K)), ((0 : K), (1 : K))) := by
    unfold linMatrix
    simp only [Prod.mk.injEq]
    refine ⟨⟨by rw [Int.cast_add, Int.cast_natCast], by rw [Int.cast_add, Int.cast_natCast]⟩, ⟨?_, ?_⟩, ?_, ?_⟩ <;> ring
  have hsh : isShift (linMatrix (fun x y => (x + (tx : K), y + (ty : K))) nx ny) = true := by
    rw [hm]
    unfold isShift
    simp only [roundI_int, sub_self, abs_zero]
    norm_num
  have hids : shiftIds nx ny dnx dny (linMatrix (fun x y => (x + (tx : K), y + (ty : K))) nx ny) =
      subregion dny dnx [ty, tx, ty + ny - 1, tx + nx - 1] := by
    rw [hm]
    unfold shiftIds
    simp only [roundI_int]
    rw [s64, if_pos (by omega), Res.ok_bind, s64, if_pos (by omega), Res.ok_bind]
    congr 1
    simp only [List.cons.injEq, and_true]
    omega
  have hfit : Fits dny dnx ty tx (ty + ny - 1) (tx + nx - 1) := by
    refine ⟨by omega, by omega, by omega, by omega, hd, ?_⟩
    have e1 : ty + (ny : Int) - 1 - ty + 1 = ny := by ring
    have e2 : tx + (nx : Int) - 1 - tx + 1 = nx := by ring
    rw [e1, e2]
    exact_mod_cast hs
  obtain ⟨idd, ids, g1, g2, g3, g4, g5⟩ := C64_indices dny dnx ty tx (ty + ny - 1) (tx + nx - 1) hfit
  have hlen : ids.length = idd.length := g2.symm
  have hbd : ∀ p ∈ idd.zip ids, p.1 < dny * dnx ∧ p.2 < ny * nx := by
    intro p hp
    have := C64_bounds _ _ _ _ _ _ _ ((g4 p).1 hp)
    have e1 : ty + (ny : Int) - 1 - ty + 1 = ny := by ring
    have e2 : tx + (nx : Int) - 1 - tx + 1 = nx := by ring
    rw [e1, e2] at this
    exact ⟨this.1, by exact_mod_cast this.2⟩
  have himg : img.px.length = ny * nx := by rw [hw, hy, hx]
  obtain ⟨px, k1, k2, k3, k4⟩ := copyIds_spec img.px (idd.zip ids) (Img.fill dny dnx none).px (by
    intro p hp
    obtain ⟨b1, b2⟩ := hbd p hp
    exact ⟨by simpa [Img.fill] using b1, by rw [himg]; exact b2⟩) (g5.imp fun h => h.ne)
  have hmem : ∀ a, a ∈ idd ↔ ∃ b, (a, b) ∈ idd.zip ids := by
    intro a
    have e : (idd.zip ids).map Prod.fst = idd := List.map_fst_zip (by omega)
    constructor
    · intro h
      rw [← e, List.mem_map] at h
      obtain ⟨p, hp, rfl⟩ := h
      exact ⟨p.2, hp⟩
    · rintro ⟨b, hb⟩
      rw [← e, List.mem_map]
      exact ⟨_, hb, rfl⟩
  obtain ⟨wx, l1, l2, l3⟩ := setOnes_spec idd (Img.fill dny dnx (0 : K)).px (by
    intro a ha
    obtain ⟨b, hb⟩ := (hmem a).1 ha
    simpa [Img.fill] using (hbd _ hb).1)
  have hpl : px.length = dny * dnx := by rw [k2]; simp [Img.fill]
  have hwl : wx.length = dny * dnx := by rw [l2]; simp [Img.fill]
  refine ⟨⟨dny, dnx, px⟩, ⟨dny, dnx, wx⟩, ?_, ⟨hpl, hwl, rfl, rfl, rfl, rfl⟩, ?_⟩
  · unfold regridDrizzle
    rw [Res.check_pos hy, Res.ok_bind, Res.check_pos hx, Res.ok_bind]
    simp only [if_true]
    rw [if_pos hsh, hids, g1, Res.ok_bind]
    simp only
    rw [k1, Res.ok_bind, l1, Res.ok_bind]
  · intro i j hi hj
    have hfl := flat_lt hi hj
    have hat1 : (⟨dny, dnx, px⟩ : Img (Option K)).at i j = px[i * dnx + j]? := if_pos ⟨hi, hj⟩
    have hat2 : (⟨dny, dnx, wx⟩ : Img K).at i j = wx[i * dnx + j]? := if_pos ⟨hi, hj⟩
    rw [hat1, hat2]
    split
    · rename_i hin
      obtain ⟨h1, h2, h3, h4⟩ := hin
      obtain ⟨a, ha⟩ : ∃ n : Nat, (i : Int) - ty = n := ⟨((i : Int) - ty).toNat, by omega⟩
      obtain ⟨b, hb⟩ : ∃ n : Nat, (j : Int) - tx = n := ⟨((j : Int) - tx).toNat, by omega⟩
      have hov : (i * dnx + j, a * nx + b) ∈ idd.zip ids := by
        rw [g4]
        refine ⟨i, j, hi, hj, by omega, by omega, by omega, by omega, rfl, ?_⟩
        simp only
        rw [ha, hb]
        have e2 : tx + (nx : Int) - 1 - tx + 1 = nx := by ring
        rw [e2]
        push_cast
        rfl
      constructor
      · rw [k3 _ hov, ha, hb]
        unfold Img.at
        rw [if_pos (by omega), hx]
        rfl
      · rw [l3, if_pos ((hmem _).2 ⟨_, hov⟩)]
    · rename_i hout
      have hno : ∀ b, (i * dnx + j, b) ∉ idd.zip ids := by
        intro b hb
        obtain ⟨x, y, h1, h2, h3, h4, h5, h6, h7, _⟩ := (g4 _).1 hb
        obtain ⟨rfl, rfl⟩ := flat_inj hj h2 h7
        omega
      constructor
      · rw [k4 _ (fun p hp e => hno p.2 (by rw [← e]; exact hp))]
        simp [Img.fill, hfl]
      · rw [l3, if_neg (fun h => by obtain ⟨b, hb⟩ := (hmem _).1 h; exact hno b hb)]
        simp [Img.fill, hfl]

/-! ### Where C141 fails -/

/-- C141 fails for `linearize` with `pixfrac≠1`: the area used is that of the whole pixel, so the result is too small by a factor
`pixfrac^2`. -/
theorem C141_pixfrac_refuted :
    regridDrizzle (1 / 1000 : ℚ) (fun x => if x = 4 then 2 else x) (affine 2 0 0 2 (1 / 2) (1 / 2)) ⟨1, 1, [some 4]⟩ 1 1 2 2 ⟨1 / 2, false, false⟩ =
      .ok (⟨2, 2, [some 1, some 1, some 1, some 1]⟩, ⟨2, 2, [1 / 4, 1 / 4, 1 / 4, 1 / 4]⟩) ∧
    regridDrizzle (1 / 1000 : ℚ) (fun x => if x = 4 then 2 else x) (affine 2 0 0 2 (1 / 2) (1 / 2)) ⟨1, 1, [some 4]⟩ 1 1 2 2 ⟨1 / 2, true, false⟩ =
      .ok (⟨2, 2, [some (1 / 4), some (1 / 4), some (1 / 4), some (1 / 4)]⟩, ⟨2, 2, [1 / 4, 1 / 4, 1 / 4, 1 / 4]⟩) := by decide +kernel

/-- C141 fails for `linearize` with axes that are not perpendicular: the product of the lengths of the sides is used for the area.
The map is linear here, so nothing is lost in the approximation. -/
theorem C141_shear_refuted :
    (regridDrizzle (1 / 1000 : ℚ) (fun x => if x = 25 then 5 else x) (affine 3 0 4 1 0 0) ⟨1, 1, [some 15]⟩ 1 1 2 2 ⟨1, false, false⟩).map
      (fun p => p.1.px) = .ok [some 5, some 5, some 5, some 5] ∧
    (regridDrizzle (1 / 1000 : ℚ) (fun x => if x = 25 then 5 else x) (affine 3 0 4 1 0 0) ⟨1, 1, [some 15]⟩ 1 1 2 2 ⟨1, true, false⟩).map
      (fun p => p.1.px) = .ok [some 3, some 3, some 3, some 3] := by decide +kernel

/-! ### Cases that meet the hypotheses -/

example : QuadFinite (affine (3 : ℚ) 4 (-4) 3 5 5) ⟨1, false, false⟩ 0 0 := by
  unfold QuadFinite
  rw [quad_affine]
  refine ⟨⟨?_, ?_⟩, ⟨?_, ?_⟩, ⟨?_, ?_⟩, ?_, ?_⟩ <;> rw [abs_le] <;> norm_num [affine]

example : isShift (linMatrix (affine (3 : ℚ) 4 (-4) 3 5 5) 1 1) = false ∧ (3 : ℚ) * 4 + -4 * 3 = 0 ∧ (3 : ℚ) * 3 - 4 * -4 ≠ 0 := by decide +kernel

example : (regridDrizzle (1 / 1000 : ℚ) (fun x => x) (fun x y => (x + ((1 : Int) : ℚ), y + ((-1 : Int) : ℚ))) ⟨2, 2, [some 1, some 2, some 3, none]⟩ 2 2 2 3 ⟨1, true, false⟩) =
    .ok (⟨2, 3, [none, some 3, none, none, none, none]⟩, ⟨2, 3, [0, 1, 1, 0, 0, 0]⟩) := by decide +kernel

end Verif.Astro
