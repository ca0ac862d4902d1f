import Verif.Astro.RegridInterp
import Verif.Astro.RegridMapProps
import Verif.Math.BilinearProps
/-!
# C139: regridding by interpolation
-/
namespace Verif.Astro
open Verif Verif.Bil

variable {K : Type} [Field K] [LinearOrder K] [IsStrictOrderedRing K] [FloorRing K]

omit [IsStrictOrderedRing K] in
theorem linearAt_strict (m : Map K) (x y : K) (r : Option K) (h : linearAt m x y = .ok r) (dflt : K) : bilinearStrict m y x dflt = .ok (r.getD dflt) := by
  unfold linearAt at h
  unfold bilinearStrict
  obtain ⟨a, h1, h⟩ := Res.bind_eq_ok.1 h
  obtain ⟨b, h2, h⟩ := Res.bind_eq_ok.1 h
  rw [h1, Res.ok_bind, h2, Res.ok_bind]
  split
  · rename_i hc
    rw [if_pos hc] at h
    cases h
    rfl
  · rename_i hc
    rw [if_neg hc] at h
    cases hf : fromCell m a.toNat b.toNat (y - ((a : Int) : K)) (x - ((b : Int) : K)) with
    | ok v => rw [hf] at h; cases h; rfl
    | abort => rw [hf] at h; cases h
    | ub => rw [hf] at h; cases h
    | diverge => rw [hf] at h; cases h

omit [IsStrictOrderedRing K] in
theorem cubicAt_strict (m : Map K) (x y : K) (r : Option K) (h : cubicAt m x y = .ok r) (dflt : K) : bicubicStrict m y x dflt = .ok (r.getD dflt) := by
  unfold cubicAt at h
  unfold bicubicStrict
  obtain ⟨a, h1, h⟩ := Res.bind_eq_ok.1 h
  obtain ⟨b, h2, h⟩ := Res.bind_eq_ok.1 h
  rw [h1, Res.ok_bind, h2, Res.ok_bind]
  split
  · rename_i hc
    rw [if_pos hc] at h
    cases h
    rfl
  · rename_i hc
    rw [if_neg hc] at h
    obtain ⟨t, h3, h⟩ := Res.bind_eq_ok.1 h
    rw [h3, Res.ok_bind]
    cases hf : Spline.splineReg t (y - ((a : Int) : K) + 1) with
    | ok v => rw [hf] at h; cases h; rfl
    | abort => rw [hf] at h; cases h
    | ub => rw [hf] at h; cases h
    | diverge => rw [hf] at h; cases h

/-- the position of a destination pixel: the mean of its projected corners -/
def midPos (s2d : K → K → K × K) (iy ix : Nat) : K × K :=
  let p0 := s2d ((ix : K) - 1 / 2) ((iy : K) - 1 / 2)
  let p1 := s2d ((ix : K) + 1 / 2) ((iy : K) - 1 / 2)
  let p2 := s2d ((ix : K) + 1 / 2) ((iy : K) + 1 / 2)
  let p3 := s2d ((ix : K) - 1 / 2) ((iy : K) + 1 / 2)
  (1 / 4 * (p0.1 + p1.1 + p2.1 + p3.1), 1 / 4 * (p0.2 + p1.2 + p2.2 + p3.2))

/-- the area of the projection of a destination pixel -/
def destArea (s2d : K → K → K × K) (o : InterpOpts) (larea : K) (iy ix : Nat) : K :=
  if o.linearize then larea else quadArea (quad s2d ⟨1, false, false⟩ iy ix)

omit [FloorRing K] in
theorem midPos_affine (a b c d e f : K) (iy ix : Nat) : midPos (affine a b c d e f) iy ix = affine a b c d e f ix iy := by
  unfold midPos affine
  simp only [Prod.mk.injEq]
  constructor <;> ring

theorem interpAll_spec (s2d : K → K → K × K) (m : Map K) (o : InterpOpts) (larea : K) (ny nx : Nat) (val : Nat → Nat → Option K)
    (hv : ∀ iy ix, iy < ny → ix < nx → interpAt o.method m (midPos s2d iy ix).1 (midPos s2d iy ix).2 = .ok (val iy ix)) :
    ∃ res, interpAll s2d m o larea ny nx = .ok res ∧ res.WF ∧ res.nx = ny ∧ res.ny = nx ∧ ∀ i j, i < ny → j < nx →
      res.at i j = some ((val i j).map fun v => if o.conserveFlux then v * destArea s2d o larea i j else v) := by
  let F : Nat → Nat → Option K := fun i j => (val i j).map fun v => if o.conserveFlux then v * destArea s2d o larea i j else v
  let Q : Nat → Nat → Img (Option K) → Prop := fun iy ix r => r.WF ∧ r.nx = ny ∧ r.ny = nx ∧ ∀ i j, i < ny → j < nx →
    r.at i j = some (if i < iy ∨ i = iy ∧ j < ix then F i j else none)
  have one : ∀ iy ix r, iy < ny → ix < nx → Q iy ix r → ∃ r', interpPixel m o larea (gridRow s2d nx ((iy : K) - 1 / 2))
      (gridRow s2d nx ((iy : K) + 1 / 2)) iy ix r = .ok r' ∧ Q iy (ix + 1) r' := by
    rintro iy ix r hiy hix ⟨q1, q2, q3, q4⟩
    have e : ((ix + 1 : Nat) : K) - 1 / 2 = (ix : K) + 1 / 2 := by push_cast; ring
    unfold interpPixel
    rw [gridRow_rd _ _ (by omega), Res.ok_bind, gridRow_rd _ _ (by omega), Res.ok_bind, gridRow_rd _ _ (by omega), Res.ok_bind,
      gridRow_rd _ _ (by omega), Res.ok_bind, e]
    have h := hv iy ix hiy hix
    simp only [midPos] at h
    simp only
    rw [h, Res.ok_bind]
    cases hval : val iy ix with
    | none =>
      refine ⟨r, rfl, q1, q2, q3, ?_⟩
      intro i j hi hj
      rw [q4 i j hi hj]
      by_cases hij : i = iy ∧ j = ix
      · obtain ⟨rfl, rfl⟩ := hij
        rw [if_neg (by omega), if_pos (by omega)]
        simp only [F]
        rw [hval]
        rfl
      · congr 1
        apply if_congr _ rfl rfl
        omega
    | some v =>
      simp only
      obtain ⟨r', p1, p2, p3, p4, p5⟩ := put_spec q1 (x := iy) (y := ix) (by omega) (by omega) (F iy ix)
      refine ⟨r', ?_, p2, p3.trans q2, p4.trans q3, ?_⟩
      · rw [← p1]
        congr 1
        simp only [F, hval, Option.map_some, destArea, quad]
        simp only [true_or, if_true, Bool.false_eq_true, false_and, if_false]
        rw [polyArea_quad]
      · intro i j hi hj
        rw [p5]
        by_cases hij : i = iy ∧ j = ix
        · obtain ⟨rfl, rfl⟩ := hij
          rw [if_pos ⟨rfl, rfl⟩, if_pos (by omega)]
        · rw [if_neg hij, q4 i j hi hj]
          congr 1
          apply if_congr _ rfl rfl
          omega
  obtain ⟨st, h1, _, h2, h3, h4, h5⟩ := foldlM_range (n := ny)
    (f := fun (st : List (K × K) × Img (Option K)) (iy : Nat) => do
      let pu := gridRow s2d nx ((iy : K) + 1 / 2)
      let r ← (List.range nx).foldlM (fun r ix => interpPixel m o larea st.1 pu iy ix r) st.2
      .ok (pu, r))
    (fun iy st => st.1 = gridRow s2d nx ((iy : K) - 1 / 2) ∧ Q iy 0 st.2)
    (gridRow s2d nx (-1 / 2), Img.fill ny nx none) (by
      refine ⟨by norm_num, fill_wf _ _ _, rfl, rfl, ?_⟩
      intro i j hi hj
      rw [fill_at, if_pos ⟨hi, hj⟩, if_neg (by omega)]) (by
      rintro iy st hiy ⟨hst, hQ⟩
      obtain ⟨r', f1, f2⟩ := foldlM_range (n := nx)
        (f := fun r ix => interpPixel m o larea st.1 (gridRow s2d nx ((iy : K) + 1 / 2)) iy ix r)
        (fun ix r => Q iy ix r) st.2 hQ (by
          intro ix r hix hr
          rw [hst]
          exact one iy ix r hiy hix hr)
      refine ⟨(gridRow s2d nx ((iy : K) + 1 / 2), r'), ?_, ?_, ?_⟩
      · simp only
        rw [f1, Res.ok_bind]
      · simp only
        congr 1
        push_cast; ring
      · obtain ⟨u1, u2, u3, u4⟩ := f2
        refine ⟨u1, u2, u3, ?_⟩
        intro i j hi hj
        simp only
        rw [u4 i j hi hj]
        congr 1
        apply if_congr _ rfl rfl
        omega)
  refine ⟨st.2, ?_, h2, h3, h4, ?_⟩
  · unfold interpAll
    rw [h1, Res.ok_bind]
  · intro i j hi hj
    rw [h5 i j hi hj, if_pos (Or.inl hi)]

omit [FloorRing K] in
theorem area_unit (a b c d e f : K) (iy ix : Nat) : quadArea (quad (affine a b c d e f) ⟨1, false, false⟩ iy ix) = |a * d - b * c| := by
  rw [area_affine]; simp

theorem linearAt_ok {m : Map K} (h : m.Good) {x y : K} (hx : InRange x) (hy : InRange y) : ∃ r, linearAt m x y = .ok r := by
  have hb := C95_strict h hy hx 0
  unfold linearAt
  unfold bilinearStrict at hb
  rw [floorInt_ok hy, Res.ok_bind, floorInt_ok hx, Res.ok_bind] at hb ⊢
  split
  · exact ⟨_, rfl⟩
  · rename_i hc
    rw [if_neg hc] at hb
    obtain ⟨i, hi⟩ := inCell_exists h.h0 h.d0_lt hy
    obtain ⟨j, hj⟩ := inCell_exists h.h1 h.d1_lt hx
    have hbl := C95_cell h hy hx i j hi hj
    have : ∃ v, fromCell m ⌊y⌋.toNat ⌊x⌋.toNat (y - ((⌊y⌋ : Int) : K)) (x - ((⌊x⌋ : Int) : K)) = .ok v := by
      rw [hb]
      split
      · exact ⟨_, hbl⟩
      · exact ⟨_, rfl⟩
    obtain ⟨v, hv⟩ := this
    rw [hv]
    exact ⟨_, rfl⟩

/-- C139, linear interpolation: for an affine map, each pixel `(i,j)` of the result is the bilinear interpolation of the source image
at the position of the pixel; it is not finite when this position is not in `0 ≤ x < dims-1` for both axes. With `conserve_flux`, it is
multiplied by the area of a destination pixel in the source. -/
theorem C139_linear_partial (sqrt : K → K) (a b c d e f : K) (m : Map K) (hm : m.Good) (cf : Bool) (ny nx : Nat)
    (hr : ∀ i j : Nat, i < ny → j < nx → InRange (affine a b c d e f j i).1 ∧ InRange (affine a b c d e f j i).2) :
    ∃ res, regridInterp sqrt (affine a b c d e f) m ny nx ⟨cf, .linear, false⟩ = .ok res ∧ res.WF ∧ res.nx = ny ∧ res.ny = nx ∧
      ∀ i j : Nat, i < ny → j < nx →
        let x := (affine a b c d e f (j : K) (i : K)).1
        let y := (affine a b c d e f (j : K) (i : K)).2
        if (0 ≤ y ∧ y < ((m.d0 - 1 : Nat) : K)) ∧ (0 ≤ x ∧ x < ((m.d1 - 1 : Nat) : K))
        then ∃ v, bilinear m y x = .ok v ∧ res.at i j = some (some (if cf then v * |a * d - b * c| else v))
        else res.at i j = some none := by
  have hex : ∀ i j : Nat, ∃ r, i < ny → j < nx → linearAt m (affine a b c d e f (j : K) (i : K)).1 (affine a b c d e f (j : K) (i : K)).2 = .ok r := by
    intro i j
    by_cases hij : i < ny ∧ j < nx
    · obtain ⟨r, h⟩ := linearAt_ok hm (hr i j hij.1 hij.2).1 (hr i j hij.1 hij.2).2
      exact ⟨r, fun _ _ => h⟩
    · exact ⟨none, fun h1 h2 => absurd ⟨h1, h2⟩ hij⟩
  choose val hval using hex
  obtain ⟨res, h1, h2, h3, h4, h5⟩ := interpAll_spec (affine a b c d e f) m ⟨cf, .linear, false⟩ 0 ny nx val (by
    intro iy ix hy hx
    rw [midPos_affine]
    exact hval iy ix hy hx)
  refine ⟨res, h1, h2, h3, h4, ?_⟩
  intro i j hi hj x y
  have hs := linearAt_strict m _ _ _ (hval i j hi hj)
  have hc := fun dflt => C95_strict hm (hr i j hi hj).2 (hr i j hi hj).1 dflt
  have har : destArea (affine a b c d e f) ⟨cf, .linear, false⟩ 0 i j = |a * d - b * c| := by
    unfold destArea
    exact area_unit a b c d e f i j
  split
  · rename_i hin
    have h0 := hs 0
    have h1' := hs 1
    rw [hc, if_pos hin] at h0 h1'
    rw [h0] at h1'
    cases hv : val i j with
    | none =>
      rw [hv] at h1'
      simp at h1'
    | some v =>
      rw [hv] at h0
      refine ⟨v, h0, ?_⟩
      rw [h5 i j hi hj, hv, har]
      rfl
  · rename_i hout
    have h0 := hs 0
    have h1' := hs 1
    rw [hc, if_neg hout] at h0 h1'
    cases hv : val i j with
    | none => rw [h5 i j hi hj, hv]; rfl
    | some v =>
      rw [hv] at h0 h1'
      simp at h0 h1'
      rw [← h0] at h1'
      exact absurd h1' one_ne_zero

/-- C139, cubic interpolation: for any map, when `bicubic_strict` returns at the position of each pixel, the result is its value
there, and not finite where it gives its default value. -/
theorem C139_cubic (sqrt : K → K) (s2d : K → K → K × K) (m : Map K) (ny nx : Nat) (val : Nat → Nat → Option K)
    (hv : ∀ i j, i < ny → j < nx → cubicAt m (midPos s2d i j).1 (midPos s2d i j).2 = .ok (val i j)) :
    ∃ res, regridInterp sqrt s2d m ny nx ⟨false, .cubic, false⟩ = .ok res ∧ res.WF ∧ res.nx = ny ∧ res.ny = nx ∧
      ∀ i j, i < ny → j < nx → ∃ r, res.at i j = some r ∧ ∀ dflt, bicubicStrict m (midPos s2d i j).2 (midPos s2d i j).1 dflt = .ok (r.getD dflt) := by
  obtain ⟨res, h1, h2, h3, h4, h5⟩ := interpAll_spec s2d m ⟨false, .cubic, false⟩ 0 ny nx val hv
  refine ⟨res, h1, h2, h3, h4, ?_⟩
  intro i j hi hj
  refine ⟨val i j, ?_, cubicAt_strict m _ _ _ (hv i j hi hj)⟩
  rw [h5 i j hi hj]
  cases val i j <;> rfl

/-- C139, nearest pixel: for an affine map, each pixel of the result is the source pixel nearest to its position (halves go away from
zero) when this is a pixel of the source image outside of its first row and first column, and it is not finite otherwise. -/
theorem C139_nearest_partial (sqrt : K → K) (a b c d e f : K) (m : Map K) (hm : m.data.length = m.d0 * m.d1) (hsz : m.d0 * m.d1 < 2 ^ 63)
    (ny nx : Nat)
    (hr : ∀ i j : Nat, i < ny → j < nx → (-2 ^ 63 ≤ roundI (affine a b c d e f (j : K) (i : K)).1 ∧ roundI (affine a b c d e f (j : K) (i : K)).1 < 2 ^ 63) ∧
      (-2 ^ 63 ≤ roundI (affine a b c d e f (j : K) (i : K)).2 ∧ roundI (affine a b c d e f (j : K) (i : K)).2 < 2 ^ 63)) :
    ∃ res, regridInterp sqrt (affine a b c d e f) m ny nx ⟨false, .nearest, false⟩ = .ok res ∧ res.WF ∧ res.nx = ny ∧ res.ny = nx ∧
      ∀ i j : Nat, i < ny → j < nx →
        let x := roundI (affine a b c d e f (j : K) (i : K)).1
        let y := roundI (affine a b c d e f (j : K) (i : K)).2
        res.at i j = some (if 0 < x ∧ x < m.d1 ∧ 0 < y ∧ y < m.d0 then some (m.get y.toNat x.toNat) else none) := by
  let val : Nat → Nat → Option K := fun i j =>
    let x := roundI (affine a b c d e f (j : K) (i : K)).1
    let y := roundI (affine a b c d e f (j : K) (i : K)).2
    if 0 < x ∧ x < m.d1 ∧ 0 < y ∧ y < m.d0 then some (m.get y.toNat x.toNat) else none
  obtain ⟨res, h1, h2, h3, h4, h5⟩ := interpAll_spec (affine a b c d e f) m ⟨false, .nearest, false⟩ 0 ny nx val (by
    intro iy ix hy hx
    rw [midPos_affine]
    obtain ⟨⟨r1, r2⟩, r3, r4⟩ := hr iy ix hy hx
    simp only [val, interpAt, nearestAt]
    rw [s64, if_pos ⟨r1, r2⟩, Res.ok_bind, s64, if_pos ⟨r3, r4⟩, Res.ok_bind]
    generalize roundI (affine a b c d e f (ix : K) (iy : K)).1 = x at *
    generalize roundI (affine a b c d e f (ix : K) (iy : K)).2 = y at *
    by_cases hc : 0 < x ∧ x < m.d1 ∧ 0 < y ∧ y < m.d0
    · rw [if_pos hc, if_pos (by omega)]
      have hlt : y.toNat * m.d1 + x.toNat < m.d0 * m.d1 := idx_lt (by omega) (by omega)
      unfold pix Map.get
      rw [Nat.mod_eq_of_lt (by unfold W; omega), Res.rd_lt (by omega), Res.ok_bind, List.getD_eq_getElem?_getD,
        List.getElem?_eq_getElem (by omega), Option.getD_some]
    · rw [if_neg hc, if_neg (by omega)])
  refine ⟨res, h1, h2, h3, h4, ?_⟩
  intro i j hi hj x y
  rw [h5 i j hi hj]
  change some (Option.map (fun v => v) (val i j)) = some (val i j)
  cases val i j <;> rfl

/-- C139, with `linearize`: the map which leaves all positions where they are gives back the image, for a destination of the same size. -/
theorem C139_same (sqrt : K → K) (m : Map K) (hm : m.data.length = m.d0 * m.d1) (cf : Bool) (meth : InterpMethod)
    (h0 : m.d0 < 2 ^ 60) (h1 : m.d1 < 2 ^ 60) (hsz : m.d0 * m.d1 < 2 ^ 63) :
    regridInterp sqrt (fun x y => (x, y)) m m.d0 m.d1 ⟨cf, meth, true⟩ = .ok ⟨m.d0, m.d1, m.data.map some⟩ := by
  have hwf : (⟨m.d0, m.d1, m.data.map some⟩ : Img (Option K)).WF := by unfold Img.WF; simp [hm]
  obtain ⟨res, wei, k1, k2, k3⟩ := C141_shift (K := K) 0 sqrt 0 0 ⟨m.d0, m.d1, m.data.map some⟩ 1 false (ny := m.d0) (nx := m.d1)
    (dny := m.d0) (dnx := m.d1) hwf rfl rfl (by norm_num) (by norm_num) h1 h0 hsz hsz
  have hmap : (fun x y : K => (x + ((0 : Int) : K), y + ((0 : Int) : K))) = fun x y => (x, y) := by funext x y; simp
  rw [hmap] at k1
  have hres : res = ⟨m.d0, m.d1, m.data.map some⟩ := by
    have s2 : res.nx = m.d0 := k2.y1
    have s3 : res.ny = m.d1 := k2.x1
    have s1 : res.WF := k2.w1
    apply img_ext s1 hwf s2 s3
    intro i j hi hj
    have := k3 i j (by omega) (by omega)
    simp only [sub_zero, Int.toNat_natCast] at this
    rw [if_pos (by omega)] at this
    exact this.1
  have hsh : isShift (linMatrix (fun x y : K => (x, y)) m.d1 m.d0) = true := by
    have e : ∀ n : Nat, |(n : K) - ((roundI (n : K) : Int) : K)| < 1 / 1000000 := by
      intro n
      have := roundI_int (K := K) (n : Int)
      rw [Int.cast_natCast] at this
      rw [this, Int.cast_natCast, sub_self, abs_zero]
      norm_num
    unfold linMatrix isShift
    rw [decide_eq_true_eq]
    refine ⟨e _, e _, ?_, ?_, ?_, ?_⟩ <;> norm_num
  unfold regridDrizzle at k1
  rw [Res.check_pos rfl, Res.ok_bind, Res.check_pos rfl, Res.ok_bind] at k1
  simp only [if_true] at k1
  rw [if_pos hsh] at k1
  obtain ⟨⟨idd, ids⟩, q1, k1⟩ := Res.bind_eq_ok.1 k1
  simp only at k1
  obtain ⟨px, q2, k1⟩ := Res.bind_eq_ok.1 k1
  obtain ⟨w, q3, k1⟩ := Res.bind_eq_ok.1 k1
  cases k1
  unfold regridInterp
  simp only [if_true]
  rw [if_pos hsh, q1, Res.ok_bind]
  simp only
  rw [q2, Res.ok_bind, hres]

/-! ### Where C139 fails -/

/-- C139 fails for the nearest pixel: an image on its own grid loses its first row and its first column. -/
theorem C139_nearest_refuted : regridInterp (K := ℚ) (fun x => x) (affine 1 0 0 1 0 0) ⟨[1, 2, 3, 4], 2, 2⟩ 2 2 ⟨false, .nearest, false⟩ =
    .ok ⟨2, 2, [none, none, none, some 4]⟩ := by decide +kernel

/-- C139 fails for the linear interpolation: an image on its own grid loses its last row and its last column. -/
theorem C139_linear_refuted : regridInterp (K := ℚ) (fun x => x) (affine 1 0 0 1 0 0) ⟨[1, 2, 3, 4], 2, 2⟩ 2 2 ⟨false, .linear, false⟩ =
    .ok ⟨2, 2, [some 1, none, none, none]⟩ := by decide +kernel

/-- C139 fails with `linearize` for a shift by whole pixels: the destination pixel `(i,j)` is at the source position `(i,j+1)`, but the
image moves the other way; without `linearize` the direction is right. -/
theorem C139_shift_refuted :
    regridInterp (K := ℚ) (fun x => x) (affine 1 0 0 1 1 0) ⟨[1, 2, 3, 4, 5, 6, 7, 8, 9], 3, 3⟩ 3 3 ⟨false, .linear, true⟩ =
      .ok ⟨3, 3, [none, some 1, some 2, none, some 4, some 5, none, some 7, some 8]⟩ ∧
    regridInterp (K := ℚ) (fun x => x) (affine 1 0 0 1 1 0) ⟨[1, 2, 3, 4, 5, 6, 7, 8, 9], 3, 3⟩ 3 3 ⟨false, .linear, false⟩ =
      .ok ⟨3, 3, [some 2, none, none, some 5, none, none, none, none, none]⟩ := by decide +kernel

/-- C139 fails with `linearize` when the two images do not have the same size: the source image is read with the width of the
destination, and out of bounds when it is smaller. -/
theorem C139_size_refuted :
    regridInterp (K := ℚ) (fun x => x) (affine 1 0 0 1 0 0) ⟨[1, 2, 3, 4, 5, 6], 2, 3⟩ 2 2 ⟨false, .linear, true⟩ =
      .ok ⟨2, 2, [some 1, some 2, some 3, some 4]⟩ ∧
    regridInterp (K := ℚ) (fun x => x) (affine 1 0 0 1 0 0) ⟨[1, 2, 3, 4], 2, 2⟩ 3 3 ⟨false, .linear, true⟩ = .ub := by decide +kernel

/-! ### Cases that meet the hypotheses -/

example : (⟨[1, 2, 3, 4], 2, 2⟩ : Map ℚ).Good := ⟨rfl, by decide, by decide, by decide⟩

example : regridInterp (K := ℚ) (fun x => x) (affine (1 / 2) 0 0 (1 / 2) 0 0) ⟨[1, 2, 3, 4], 2, 2⟩ 2 2 ⟨true, .linear, false⟩ =
    .ok ⟨2, 2, [some (1 / 4), some (3 / 8), some (1 / 2), some (5 / 8)]⟩ := by decide +kernel

end Verif.Astro
