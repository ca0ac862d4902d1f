import Verif.Astro.RegridCover
import Verif.Astro.RegionProps
import Mathlib.Algebra.Order.BigOperators.Group.Finset
import Mathlib.Algebra.BigOperators.Ring.Finset
import Mathlib.Data.Rat.Floor
import Mathlib.Algebra.Field.Rat
import Mathlib.Algebra.Order.Ring.Unbundled.Rat
/-!
# C140, C141: regridding by drizzling
-/
namespace Verif.Astro
open Verif Verif.Bil

variable {K : Type} [Field K] [LinearOrder K] [IsStrictOrderedRing K] [FloorRing K]

/-- Spec: the projection of every source pixel is a rectangle with sides along the axes, `[x0,x1] × [y0,y1]`, large enough for the
intersections to be computed. -/
structure AlignedMap (tol : K) (s2d : K → K → K × K) (o : DrzOpts K) (ny nx : Nat) (x0 x1 y0 y1 : Nat → Nat → K) : Prop where
  al : ∀ iy ix, iy < ny → ix < nx → Aligned (quad s2d o iy ix).1 (quad s2d o iy ix).2.1 (quad s2d o iy ix).2.2.1 (quad s2d o iy ix).2.2.2
    (x0 iy ix) (x1 iy ix) (y0 iy ix) (y1 iy ix)
  t1 : ∀ iy ix, iy < ny → ix < nx → tol ≤ x1 iy ix - x0 iy ix
  t2 : ∀ iy ix, iy < ny → ix < nx → tol ≤ y1 iy ix - y0 iy ix
  t3 : ∀ iy ix, iy < ny → ix < nx → tol ≤ (x1 iy ix - x0 iy ix) * (y1 iy ix - y0 iy ix)
  fin : ∀ iy ix, iy < ny → ix < nx → QuadFinite s2d o iy ix

theorem mem_sum_zero {f : Nat → Nat → K} (h0 : ∀ y x, 0 ≤ f y x) {ny nx : Nat} (h : ∑ y ∈ Finset.range ny, ∑ x ∈ Finset.range nx, f y x = 0)
    {y x : Nat} (hy : y < ny) (hx : x < nx) : f y x = 0 := by
  have h1 := (Finset.sum_eq_zero_iff_of_nonneg (fun y _ => Finset.sum_nonneg fun x _ => h0 y x)).1 h y (Finset.mem_range.2 hy)
  exact (Finset.sum_eq_zero_iff_of_nonneg (fun x _ => h0 y x)).1 h1 x (Finset.mem_range.2 hx)

open Classical in
/-- C140: when the projections of the source pixels are rectangles with sides along the axes, and each of them is inside the destination
image, or does not touch it, or has a part in two of its pixels at least, the weight of a destination pixel is the total area of its
common parts with the projections. Its value is the mean of the source pixels that it has a part in common with, for these areas; each
source pixel enters with its value times `pixfrac^2` divided by the area of its projection. A pixel that meets no projection, or one of
a source pixel that is not finite, is not finite. -/
theorem C140_overlap_partial (tol : K) (sqrt : K → K) (s2d : K → K → K × K) (img : Img (Option K)) (o : DrzOpts K) {ny nx dny dnx : Nat}
    (hl : o.linearize = false) (hw : img.WF) (hy : img.nx = ny) (hx : img.ny = nx) (x0 x1 y0 y1 : Nat → Nat → K)
    (hA : AlignedMap tol s2d o ny nx x0 x1 y0 y1)
    (hc : ∀ iy ix, iy < ny → ix < nx → InsideD dny dnx (x0 iy ix) (x1 iy ix) (y0 iy ix) (y1 iy ix) ∨
      AwayD dny dnx (x0 iy ix) (x1 iy ix) (y0 iy ix) (y1 iy ix) ∨ TwoD dny dnx (x0 iy ix) (x1 iy ix) (y0 iy ix) (y1 iy ix)) :
    ∃ res wei, regridDrizzle tol sqrt s2d img ny nx dny dnx o = .ok (res, wei) ∧ Sized dny dnx (res, wei) ∧ ∀ i j, i < dny → j < dnx →
      let w : Nat → Nat → K := fun iy ix => ov (x0 iy ix) (x1 iy ix) j * ov (y0 iy ix) (y1 iy ix) i
      let tot := ∑ iy ∈ Finset.range ny, ∑ ix ∈ Finset.range nx, w iy ix
      wei.at i j = some tot ∧
      (tot = 0 → res.at i j = some none) ∧
      ((∃ iy ix, iy < ny ∧ ix < nx ∧ 0 < w iy ix ∧ pixv img iy ix = none) → res.at i j = some none) ∧
      (tot ≠ 0 → (∀ iy ix, iy < ny → ix < nx → 0 < w iy ix → pixv img iy ix ≠ none) → res.at i j = some (some
        ((∑ iy ∈ Finset.range ny, ∑ ix ∈ Finset.range nx,
          (pixv img iy ix).getD 0 * (o.pixfrac ^ 2 * (w iy ix / ((x1 iy ix - x0 iy ix) * (y1 iy ix - y0 iy ix))))) / tot))) := by
  have har : ∀ iy ix, iy < ny → ix < nx → areaOf s2d o 0 iy ix = (x1 iy ix - x0 iy ix) * (y1 iy ix - y0 iy ix) := by
    intro iy ix h1 h2
    unfold areaOf
    rw [hl]
    exact aligned_area (hA.al iy ix h1 h2)
  have hne : ∀ iy ix, iy < ny → ix < nx → areaOf s2d o 0 iy ix ≠ 0 := by
    intro iy ix h1 h2
    rw [har iy ix h1 h2]
    exact (mul_pos (sub_pos.2 (hA.al iy ix h1 h2).1) (sub_pos.2 (hA.al iy ix h1 h2).2.1)).ne'
  obtain ⟨res, wei, e1, e2, e3⟩ := drizzleAll_gather tol s2d img o 0 (dny := dny) (dnx := dnx) hw hy hx hA.fin hne
  refine ⟨res, wei, ?_, e2, ?_⟩
  · unfold regridDrizzle
    rw [Res.check_pos hy, Res.ok_bind, Res.check_pos hx, Res.ok_bind, hl]
    exact e1
  · intro i j hi hj
    obtain ⟨g1, g2⟩ := e3 i j hi hj
    have hcov : ∀ iy ix, iy < ny → ix < nx → coverOf tol s2d o (areaOf s2d o 0) dny dnx i j iy ix =
        if 0 < ov (x0 iy ix) (x1 iy ix) j * ov (y0 iy ix) (y1 iy ix) i then some (ov (x0 iy ix) (x1 iy ix) j * ov (y0 iy ix) (y1 iy ix) i) else none := by
      intro iy ix h1 h2
      unfold coverOf
      rw [har iy ix h1 h2]
      exact cover_aligned (hA.al iy ix h1 h2) (hA.t1 iy ix h1 h2) (hA.t2 iy ix h1 h2) (hA.t3 iy ix h1 h2) (hc iy ix h1 h2) hi hj
    have hnn : ∀ iy ix, 0 ≤ ov (x0 iy ix) (x1 iy ix) j * ov (y0 iy ix) (y1 iy ix) i := fun iy ix => mul_nonneg (ov_nonneg _ _ _) (ov_nonneg _ _ _)
    have hgd : ∀ iy ix, iy < ny → ix < nx → (coverOf tol s2d o (areaOf s2d o 0) dny dnx i j iy ix).getD 0 =
        ov (x0 iy ix) (x1 iy ix) j * ov (y0 iy ix) (y1 iy ix) i := by
      intro iy ix h1 h2
      rw [hcov iy ix h1 h2]
      split
      · rfl
      · rename_i h
        exact le_antisymm (hnn iy ix) (not_lt.1 h)
    have hW : gatherW (coverOf tol s2d o (areaOf s2d o 0) dny dnx i j) (allPix ny nx) =
        ∑ iy ∈ Finset.range ny, ∑ ix ∈ Finset.range nx, ov (x0 iy ix) (x1 iy ix) j * ov (y0 iy ix) (y1 iy ix) i := by
      rw [gatherW_eq, sum_allPix (fun a b => (coverOf tol s2d o (areaOf s2d o 0) dny dnx i j a b).getD 0)]
      apply Finset.sum_congr rfl
      intro iy h1
      apply Finset.sum_congr rfl
      intro ix h2
      exact hgd iy ix (Finset.mem_range.1 h1) (Finset.mem_range.1 h2)
    have hS : ((allPix ny nx).map fun p => (pixv img p.1 p.2).getD 0 * (o.pixfrac ^ 2 *
        ((coverOf tol s2d o (areaOf s2d o 0) dny dnx i j p.1 p.2).getD 0 / areaOf s2d o 0 p.1 p.2))).sum =
        ∑ iy ∈ Finset.range ny, ∑ ix ∈ Finset.range nx, (pixv img iy ix).getD 0 * (o.pixfrac ^ 2 *
          ((ov (x0 iy ix) (x1 iy ix) j * ov (y0 iy ix) (y1 iy ix) i) / ((x1 iy ix - x0 iy ix) * (y1 iy ix - y0 iy ix)))) := by
      rw [sum_allPix (fun a b => (pixv img a b).getD 0 * (o.pixfrac ^ 2 *
        ((coverOf tol s2d o (areaOf s2d o 0) dny dnx i j a b).getD 0 / areaOf s2d o 0 a b)))]
      apply Finset.sum_congr rfl
      intro iy h1
      apply Finset.sum_congr rfl
      intro ix h2
      rw [hgd iy ix (Finset.mem_range.1 h1) (Finset.mem_range.1 h2), har iy ix (Finset.mem_range.1 h1) (Finset.mem_range.1 h2)]
    have hall : (∀ p ∈ allPix ny nx, (coverOf tol s2d o (areaOf s2d o 0) dny dnx i j p.1 p.2).isSome → (pixv img p.1 p.2).isSome) ↔
        ∀ iy ix, iy < ny → ix < nx → 0 < ov (x0 iy ix) (x1 iy ix) j * ov (y0 iy ix) (y1 iy ix) i → pixv img iy ix ≠ none := by
      constructor
      · intro h iy ix h1 h2 h3
        have := h (iy, ix) (mem_allPix.2 ⟨h1, h2⟩) (by simp only; rw [hcov iy ix h1 h2, if_pos h3]; rfl)
        exact Option.isSome_iff_ne_none.1 this
      · intro h p hp hs
        obtain ⟨h1, h2⟩ := mem_allPix.1 hp
        rw [hcov _ _ h1 h2] at hs
        by_cases h3 : 0 < ov (x0 p.1 p.2) (x1 p.1 p.2) j * ov (y0 p.1 p.2) (y1 p.1 p.2) i
        · exact Option.isSome_iff_ne_none.2 (h _ _ h1 h2 h3)
        · rw [if_neg h3] at hs; simp at hs
    rw [hW] at g1 g2
    rw [gather_eq, hS] at g2
    intro w tot
    refine ⟨g1, ?_, ?_, ?_⟩
    · intro h0
      have h0' : ∑ iy ∈ Finset.range ny, ∑ ix ∈ Finset.range nx, ov (x0 iy ix) (x1 iy ix) j * ov (y0 iy ix) (y1 iy ix) i = 0 := h0
      rw [g2, h0']
      split <;> simp [divO]
    · rintro ⟨iy, ix, h1, h2, h3, h4⟩
      rw [g2, if_neg]
      · rfl
      · intro h
        exact hall.1 h iy ix h1 h2 h3 h4
    · intro h0 h
      have h0' : ∑ iy ∈ Finset.range ny, ∑ ix ∈ Finset.range nx, ov (x0 iy ix) (x1 iy ix) j * ov (y0 iy ix) (y1 iy ix) i ≠ 0 := h0
      rw [g2, if_pos (hall.2 h)]
      simp only [divO, if_neg h0']
      rfl

/-- C140: when moreover all projections are inside the destination image and all source pixels are finite, the flux is conserved: the sum
of the values of the regridded image times their weights is `pixfrac^2` times the sum of the source pixels. -/
theorem C140_flux (tol : K) (sqrt : K → K) (s2d : K → K → K × K) (img : Img (Option K)) (o : DrzOpts K) {ny nx dny dnx : Nat}
    (hl : o.linearize = false) (hw : img.WF) (hy : img.nx = ny) (hx : img.ny = nx) (x0 x1 y0 y1 : Nat → Nat → K)
    (hA : AlignedMap tol s2d o ny nx x0 x1 y0 y1)
    (hc : ∀ iy ix, iy < ny → ix < nx → InsideD dny dnx (x0 iy ix) (x1 iy ix) (y0 iy ix) (y1 iy ix))
    (hf : ∀ iy ix, iy < ny → ix < nx → pixv img iy ix ≠ none) :
    ∃ res wei, regridDrizzle tol sqrt s2d img ny nx dny dnx o = .ok (res, wei) ∧
      ∑ i ∈ Finset.range dny, ∑ j ∈ Finset.range dnx, (pixv res i j).getD 0 * (wei.at i j).getD 0 =
        o.pixfrac ^ 2 * ∑ iy ∈ Finset.range ny, ∑ ix ∈ Finset.range nx, (pixv img iy ix).getD 0 := by
  obtain ⟨res, wei, e1, _, e3⟩ := C140_overlap_partial tol sqrt s2d img o (dny := dny) (dnx := dnx) hl hw hy hx x0 x1 y0 y1 hA
    (fun iy ix h1 h2 => Or.inl (hc iy ix h1 h2))
  refine ⟨res, wei, e1, ?_⟩
  have hpix : ∀ i ∈ Finset.range dny, ∀ j ∈ Finset.range dnx, (pixv res i j).getD 0 * (wei.at i j).getD 0 =
      ∑ iy ∈ Finset.range ny, ∑ ix ∈ Finset.range nx, (pixv img iy ix).getD 0 * (o.pixfrac ^ 2 *
        ((ov (x0 iy ix) (x1 iy ix) j * ov (y0 iy ix) (y1 iy ix) i) / ((x1 iy ix - x0 iy ix) * (y1 iy ix - y0 iy ix)))) := by
    intro i hi j hj
    obtain ⟨g1, g2, _, g4⟩ := e3 i j (Finset.mem_range.1 hi) (Finset.mem_range.1 hj)
    rw [g1, Option.getD_some]
    by_cases h0 : ∑ iy ∈ Finset.range ny, ∑ ix ∈ Finset.range nx, ov (x0 iy ix) (x1 iy ix) j * ov (y0 iy ix) (y1 iy ix) i = 0
    · rw [h0, mul_zero]
      symm
      apply Finset.sum_eq_zero
      intro iy h1
      apply Finset.sum_eq_zero
      intro ix h2
      have := mem_sum_zero (f := fun iy ix => ov (x0 iy ix) (x1 iy ix) j * ov (y0 iy ix) (y1 iy ix) i)
        (fun _ _ => mul_nonneg (ov_nonneg _ _ _) (ov_nonneg _ _ _)) h0 (Finset.mem_range.1 h1) (Finset.mem_range.1 h2)
      rw [this]
      simp
    · have := g4 h0 (fun iy ix h1 h2 _ => hf iy ix h1 h2)
      unfold pixv at this ⊢
      rw [this]
      simp only [Option.getD_some]
      rw [div_mul_cancel₀ _ h0]
  rw [Finset.sum_congr rfl fun i hi => Finset.sum_congr rfl (hpix i hi)]
  rw [Finset.mul_sum]
  have sw : ∀ f : Nat → Nat → Nat → Nat → K, ∑ i ∈ Finset.range dny, ∑ j ∈ Finset.range dnx, ∑ iy ∈ Finset.range ny, ∑ ix ∈ Finset.range nx, f i j iy ix =
      ∑ iy ∈ Finset.range ny, ∑ ix ∈ Finset.range nx, ∑ i ∈ Finset.range dny, ∑ j ∈ Finset.range dnx, f i j iy ix := by
    intro f
    calc _ = ∑ i ∈ Finset.range dny, ∑ iy ∈ Finset.range ny, ∑ j ∈ Finset.range dnx, ∑ ix ∈ Finset.range nx, f i j iy ix :=
          Finset.sum_congr rfl fun i _ => Finset.sum_comm
      _ = ∑ iy ∈ Finset.range ny, ∑ i ∈ Finset.range dny, ∑ j ∈ Finset.range dnx, ∑ ix ∈ Finset.range nx, f i j iy ix := Finset.sum_comm
      _ = ∑ iy ∈ Finset.range ny, ∑ i ∈ Finset.range dny, ∑ ix ∈ Finset.range nx, ∑ j ∈ Finset.range dnx, f i j iy ix :=
          Finset.sum_congr rfl fun iy _ => Finset.sum_congr rfl fun i _ => Finset.sum_comm
      _ = _ := Finset.sum_congr rfl fun iy _ => Finset.sum_comm
  rw [sw]
  apply Finset.sum_congr rfl
  intro iy h1
  rw [Finset.mul_sum]
  apply Finset.sum_congr rfl
  intro ix h2
  have h1' := Finset.mem_range.1 h1
  have h2' := Finset.mem_range.1 h2
  obtain ⟨c1, c2, c3, c4⟩ := hc iy ix h1' h2'
  have sx := sum_ov c1 (hA.al iy ix h1' h2').1 c2
  have sy := sum_ov c3 (hA.al iy ix h1' h2').2.1 c4
  have dx := (sub_pos.2 (hA.al iy ix h1' h2').1).ne'
  have dy := (sub_pos.2 (hA.al iy ix h1' h2').2.1).ne'
  have e : ∀ i j, (pixv img iy ix).getD 0 * (o.pixfrac ^ 2 *
        ((ov (x0 iy ix) (x1 iy ix) j * ov (y0 iy ix) (y1 iy ix) i) / ((x1 iy ix - x0 iy ix) * (y1 iy ix - y0 iy ix)))) =
      (o.pixfrac ^ 2 * (pixv img iy ix).getD 0 / ((x1 iy ix - x0 iy ix) * (y1 iy ix - y0 iy ix))) *
        (ov (y0 iy ix) (y1 iy ix) i * ov (x0 iy ix) (x1 iy ix) j) := by
    intro i j; field_simp
  simp only [e]
  rw [← Finset.sum_congr rfl fun i _ => Finset.mul_sum _ _ _, ← Finset.mul_sum, ← Finset.sum_congr rfl fun i _ => Finset.mul_sum _ _ _,
    ← Finset.sum_mul, sx, sy]
  field_simp

/-- the part of one pixel of the grid in another -/
theorem ov_grid (a n : Nat) : ov ((a : K) - 1 / 2) ((a : K) + 1 / 2) n = if n = a then 1 else 0 := by
  unfold ov
  rcases lt_trichotomy n a with h | h | h
  · have : (n : K) + 1 ≤ a := by exact_mod_cast h
    rw [min_eq_left (by linarith), max_eq_right (by linarith : (n : K) - 1 / 2 ≤ a - 1 / 2), max_eq_left (by linarith), if_neg (by omega)]
  · subst h
    rw [min_self, max_self, max_eq_right (by linarith), if_pos rfl]
    ring
  · have : (a : K) + 1 ≤ n := by exact_mod_cast h
    rw [min_eq_right (by linarith), max_eq_left (by linarith : (a : K) - 1 / 2 ≤ n - 1 / 2), max_eq_left (by linarith), if_neg (by omega)]

/-- C140: an image projected on its own grid, with `pixfrac=1`, is unchanged, and all weights are 1. -/
theorem C140_identity (tol : K) (sqrt : K → K) (img : Img (Option K)) {ny nx : Nat} (hw : img.WF) (hy : img.nx = ny) (hx : img.ny = nx)
    (ht : tol ≤ 1) (hny : ny ≤ 2 ^ 61) (hnx : nx ≤ 2 ^ 61) :
    ∃ wei, regridDrizzle tol sqrt (fun x y => (x, y)) img ny nx ny nx ⟨1, false, false⟩ = .ok (img, wei) ∧ wei.WF ∧ wei.nx = ny ∧ wei.ny = nx ∧
      ∀ i j, i < ny → j < nx → wei.at i j = some 1 := by
  have hq : ∀ iy ix : Nat, quad (fun x y => (x, y)) (⟨1, false, false⟩ : DrzOpts K) iy ix =
      (((ix : K) - 1 / 2, (iy : K) - 1 / 2), ((ix : K) + 1 / 2, (iy : K) - 1 / 2), ((ix : K) + 1 / 2, (iy : K) + 1 / 2), ((ix : K) - 1 / 2, (iy : K) + 1 / 2)) := by
    intro iy ix
    simp [quad]
  have hbnd : ∀ n m : Nat, n < m → m ≤ 2 ^ 61 → |(n : K) - 1 / 2| ≤ 2 ^ 62 ∧ |(n : K) + 1 / 2| ≤ 2 ^ 62 := by
    intro n m h1 h2
    have a0 : (0 : K) ≤ n := Nat.cast_nonneg n
    have a1 : (n : K) ≤ 2 ^ 61 := by exact_mod_cast (h1.le.trans h2)
    constructor <;> rw [abs_le] <;> constructor <;> linarith
  have hA : AlignedMap tol (fun x y => (x, y)) (⟨1, false, false⟩ : DrzOpts K) ny nx (fun _ ix => (ix : K) - 1 / 2) (fun _ ix => (ix : K) + 1 / 2)
      (fun iy _ => (iy : K) - 1 / 2) (fun iy _ => (iy : K) + 1 / 2) := by
    have e : ∀ n : Nat, (n : K) + 1 / 2 - ((n : K) - 1 / 2) = 1 := fun n => by ring
    refine ⟨?_, ?_, ?_, ?_, ?_⟩
    · intro iy ix _ _
      rw [hq]
      exact ⟨by linarith, by linarith, _, _, _, _, Or.inl ⟨rfl, rfl⟩, Or.inl ⟨rfl, rfl⟩, rfl, rfl, Or.inl ⟨rfl, rfl⟩⟩
    · intro iy ix _ _; rw [e]; exact ht
    · intro iy ix _ _; rw [e]; exact ht
    · intro iy ix _ _; rw [e, e, mul_one]; exact ht
    · intro iy ix h1 h2
      unfold QuadFinite
      rw [hq]
      obtain ⟨a1, a2⟩ := hbnd iy ny h1 hny
      obtain ⟨a3, a4⟩ := hbnd ix nx h2 hnx
      exact ⟨⟨a3, a1⟩, ⟨a4, a1⟩, ⟨a4, a2⟩, ⟨a3, a2⟩⟩
  obtain ⟨res, wei, e1, e2, e3⟩ := C140_overlap_partial tol sqrt (fun x y => (x, y)) img ⟨1, false, false⟩ (dny := ny) (dnx := nx) rfl hw hy hx
    _ _ _ _ hA (fun iy ix h1 h2 => Or.inl (by
      have a1 : ((iy : K)) + 1 ≤ ny := by exact_mod_cast h1
      have a2 : ((ix : K)) + 1 ≤ nx := by exact_mod_cast h2
      have b1 : (0 : K) ≤ iy := Nat.cast_nonneg iy
      have b2 : (0 : K) ≤ ix := Nat.cast_nonneg ix
      exact ⟨by linarith, by linarith, by linarith, by linarith⟩))
  simp only [ov_grid, one_pow, one_mul] at e3
  have pick : ∀ (f : Nat → Nat → K) i j, i < ny → j < nx → ∑ iy ∈ Finset.range ny, ∑ ix ∈ Finset.range nx,
      f iy ix * ((if j = ix then 1 else 0) * (if i = iy then 1 else 0)) = f i j := by
    intro f i j hi hj
    rw [Finset.sum_eq_single i, Finset.sum_eq_single j]
    · simp
    · intro b _ hb; rw [if_neg (Ne.symm hb)]; simp
    · intro h; exact absurd (Finset.mem_range.2 hj) h
    · intro b _ hb
      apply Finset.sum_eq_zero
      intro c _
      rw [if_neg (Ne.symm hb)]; simp
    · intro h; exact absurd (Finset.mem_range.2 hi) h
  have tot : ∀ i j, i < ny → j < nx → ∑ iy ∈ Finset.range ny, ∑ ix ∈ Finset.range nx,
      ((if j = ix then 1 else 0) * (if i = iy then 1 else 0) : K) = 1 := by
    intro i j hi hj
    have := pick (fun _ _ => 1) i j hi hj
    simpa only [one_mul] using this
  have hres : res = img := by
    apply img_ext e2.w1 hw (by rw [e2.y1, hy]) (by rw [e2.x1, hx])
    intro i j hi hj
    rw [e2.y1] at hi
    rw [e2.x1] at hj
    obtain ⟨g1, g2, g3, g4⟩ := e3 i j hi hj
    obtain ⟨a, ha⟩ := at_isSome hw (x := i) (y := j) (by omega) (by omega)
    have hpv : pixv img i j = a := by unfold pixv; rw [ha]; rfl
    rw [ha]
    cases a with
    | none =>
      apply g3
      exact ⟨i, j, hi, hj, by simp, hpv⟩
    | some v =>
      rw [g4 (by rw [tot i j hi hj]; exact one_ne_zero)]
      · rw [tot i j hi hj, div_one]
        have e : ∀ n : Nat, (n : K) + 1 / 2 - ((n : K) - 1 / 2) = 1 := fun n => by ring
        simp only [e, mul_one, div_one]
        rw [pick (fun iy ix => (pixv img iy ix).getD 0) i j hi hj, hpv]
        rfl
      · intro iy ix _ _ hp
        have : j = ix ∧ i = iy := by
          by_contra hc
          rw [not_and_or] at hc
          rcases hc with hc | hc
          · rw [if_neg hc, zero_mul] at hp; exact lt_irrefl _ hp
          · rw [if_neg hc, mul_zero] at hp; exact lt_irrefl _ hp
        rw [← this.1, ← this.2, hpv]
        simp
  subst hres
  refine ⟨wei, e1, e2.w2, e2.y2, e2.x2, ?_⟩
  intro i j hi hj
  rw [(e3 i j hi hj).1, tot i j hi hj]

/-! ### Where C140 fails -/

/-- C140 fails for a pixel that only touches the image from outside: here the grid moves by one column, the source pixel 0 goes to
`[-3/2,-1/2]` and the source pixel 1 to `[-1/2,1/2]`, that is exactly on the only destination pixel. The result is the mean of both
source pixels and not the value of the second one. -/
theorem C140_touch_refuted : regridDrizzle (1 / 1000 : ℚ) (fun x => x) (fun x y => (x - 1, y)) ⟨1, 2, [some 2, some 4]⟩ 1 2 1 1 ⟨1, false, false⟩ =
      .ok (⟨1, 1, [some 3]⟩, ⟨1, 1, [2]⟩) ∧
    ov (-3 / 2 : ℚ) (-1 / 2) 0 = 0 ∧ ov (-1 / 2 : ℚ) (1 / 2) 0 = 1 := by decide +kernel

/-- C140 fails for a pixel partly outside that has a part in one destination pixel only: it gets its whole area as weight. Here the
first destination pixel has one half of each of the source pixels 0 and 1, so its value should be their mean, 3/2, and its weight 1. -/
theorem C140_border_refuted : regridDrizzle (1 / 1000 : ℚ) (fun x => x) (fun x y => (x - 1 / 2, y)) ⟨1, 2, [some 0, some 3]⟩ 1 2 1 2 ⟨1, false, false⟩ =
      .ok (⟨1, 2, [some 1, some 3]⟩, ⟨1, 2, [3 / 2, 1 / 2]⟩) ∧
    ov (-1 : ℚ) 0 0 = 1 / 2 ∧ ov (0 : ℚ) 1 0 = 1 / 2 := by decide +kernel

/-! ### Cases that meet the hypotheses -/

example : AlignedMap (1 / 1000 : ℚ) (fun x y => (2 * x + 1 / 2, 2 * y + 1 / 2)) ⟨1, false, false⟩ 2 1 (fun _ _ => -1 / 2) (fun _ _ => 3 / 2)
    (fun iy _ => 2 * iy - 1 / 2) (fun iy _ => 2 * iy + 3 / 2) := by
  have hq : ∀ iy ix : Nat, quad (fun x y => (2 * x + 1 / 2, 2 * y + 1 / 2)) (⟨1, false, false⟩ : DrzOpts ℚ) iy ix =
      ((2 * (ix : ℚ) - 1 / 2, 2 * (iy : ℚ) - 1 / 2), (2 * (ix : ℚ) + 3 / 2, 2 * (iy : ℚ) - 1 / 2),
       (2 * (ix : ℚ) + 3 / 2, 2 * (iy : ℚ) + 3 / 2), (2 * (ix : ℚ) - 1 / 2, 2 * (iy : ℚ) + 3 / 2)) := by
    intro iy ix
    simp only [quad, true_or, if_true, Bool.false_eq_true, false_and, if_false, Prod.mk.injEq]
    refine ⟨⟨?_, ?_⟩, ⟨?_, ?_⟩, ⟨?_, ?_⟩, ?_, ?_⟩ <;> ring
  refine ⟨?_, ?_, ?_, ?_, ?_⟩
  · intro iy ix h1 h2
    obtain rfl : ix = 0 := by omega
    rw [hq]
    refine ⟨by norm_num, by linarith, -1 / 2, 2 * iy - 1 / 2, 3 / 2, 2 * iy + 3 / 2, Or.inl ⟨rfl, rfl⟩, Or.inl ⟨rfl, rfl⟩, ?_, ?_, Or.inl ⟨?_, ?_⟩⟩ <;>
      norm_num
  · intro iy ix _ _; norm_num
  · intro iy ix _ _; norm_num
  · intro iy ix _ _; norm_num
  · intro iy ix h1 h2
    obtain rfl : ix = 0 := by omega
    unfold QuadFinite
    rw [hq]
    rcases (by omega : iy = 0 ∨ iy = 1) with rfl | rfl <;>
      refine ⟨⟨?_, ?_⟩, ⟨?_, ?_⟩, ⟨?_, ?_⟩, ?_, ?_⟩ <;> rw [abs_le] <;> norm_num

example : regridDrizzle (1 / 1000 : ℚ) (fun x => x) (fun x y => (2 * x + 1 / 2, 2 * y + 1 / 2)) ⟨2, 1, [some 4, some 8]⟩ 2 1 4 2 ⟨1, false, false⟩ =
    .ok (⟨4, 2, [some 1, some 1, some 1, some 1, some 2, some 2, some 2, some 2]⟩, ⟨4, 2, [1, 1, 1, 1, 1, 1, 1, 1]⟩) := by decide +kernel

example : regridDrizzle (1 / 1000 : ℚ) (fun x => x) (fun x y => (y, x)) ⟨2, 2, [some 1, some 2, some 3, none]⟩ 2 2 2 2 ⟨1, false, false⟩ =
    .ok (⟨2, 2, [some 1, some 3, some 2, none]⟩, ⟨2, 2, [1, 1, 1, 1]⟩) := by decide +kernel

example : TwoD (K := ℚ) 1 2 (-1 / 4) (3 / 4) (-3) 9 := ⟨0, 0, 0, 1, by decide, by decide, by decide, by decide, Or.inr (by decide), by decide +kernel, by decide +kernel⟩

end Verif.Astro
