import Verif.Astro.ConvLemmas
/-!
# C131: the kernel from one image to another
-/
namespace Verif.Astro
open Verif

noncomputable section

theorem circ_comm (v w : Img ℝ) (h1 : w.nx = v.nx) (h2 : w.ny = v.ny) (a b : ℤ) : circ v w a b = circ w v a b := by
  unfold circ
  rw [h1, h2, Finset.sum_comm]
  apply Finset.sum_congr rfl
  intro r _
  apply Finset.sum_congr rfl
  intro q _
  have e1 : (q.1 : ℤ) + r.1 - a = r.1 + q.1 - a := by ring
  have e2 : (q.2 : ℤ) + r.2 - b = r.2 + q.2 - b := by ring
  rw [e1, e2, mul_comm]

theorem dft_inv (v : Img ℝ) (hx : 0 < v.nx) (hy : 0 < v.ny) {a b : Nat} (ha : a < v.nx) (hb : b < v.ny) :
    ∑ p ∈ Finset.range v.nx ×ˢ Finset.range v.ny, dft v p.1 p.2 * (tw v.nx (-(p.1 * (a : ℤ))) * tw v.ny (-(p.2 * (b : ℤ)))) =
      ((v.nx * v.ny : ℝ) * px0 v a b : ℝ) := by
  unfold dft
  set S := Finset.range v.nx ×ˢ Finset.range v.ny
  have e : ∀ p : Nat × Nat, (∑ q ∈ S, ((px0 v q.1 q.2 : ℝ) : ℂ) * (tw v.nx (p.1 * q.1) * tw v.ny (p.2 * q.2))) *
      (tw v.nx (-(p.1 * (a : ℤ))) * tw v.ny (-(p.2 * (b : ℤ)))) =
      ∑ q ∈ S, ((px0 v q.1 q.2 : ℝ) : ℂ) * (tw v.nx (p.1 * (q.1 - a)) * tw v.ny (p.2 * (q.2 - b))) := by
    intro p
    rw [Finset.sum_mul]
    apply Finset.sum_congr rfl
    intro q _
    have e1 : ((p.1 : ℤ) * (q.1 - a)) = p.1 * q.1 + -(p.1 * a) := by ring
    have e2 : ((p.2 : ℤ) * (q.2 - b)) = p.2 * q.2 + -(p.2 * b) := by ring
    rw [e1, e2, tw_add, tw_add]
    ring
  rw [Finset.sum_congr rfl fun p _ => e p, Finset.sum_comm]
  rw [Finset.sum_eq_single (a, b)]
  · rw [← Finset.mul_sum, orth2 hx hy, if_pos (by simp)]
    push_cast; ring
  · intro q hq hne
    simp only [S, Finset.mem_product, Finset.mem_range] at hq
    rw [← Finset.mul_sum, orth2 hx hy, if_neg, mul_zero]
    rintro ⟨h1, h2⟩
    apply hne
    apply Prod.ext
    · have := (wrap_unique hq.1).1 h1
      rw [Int.emod_eq_of_lt (by omega) (by omega)] at this
      simpa using this
    · have := (wrap_unique hq.2).1 h2
      rw [Int.emod_eq_of_lt (by omega) (by omega)] at this
      simpa using this
  · intro h
    exact absurd (by simp [S, ha, hb]) h

/-- the real part of the transform back of `Q`, convolved with `v` -/
theorem circ_back (v r : Img ℝ) (hx : 0 < v.nx) (hy : 0 < v.ny) (h1 : r.nx = v.nx) (h2 : r.ny = v.ny) (Q : Nat → Nat → ℂ)
    (hr : ∀ a b, a < v.nx → b < v.ny → px0 r a b =
      (∑ p ∈ Finset.range v.nx ×ˢ Finset.range v.ny, Q p.1 p.2 * (tw v.nx (-(p.1 * (a : ℤ))) * tw v.ny (-(p.2 * (b : ℤ))))).re)
    (a b : ℤ) :
    circ v r a b = (∑ p ∈ Finset.range v.nx ×ˢ Finset.range v.ny, Q p.1 p.2 * dft v p.1 p.2 *
      (tw v.nx (-(p.1 * a)) * tw v.ny (-(p.2 * b)))).re := by
  rw [circ_comm v r h1 h2, circ_mod r v (by omega) (by omega), h1, h2]
  have key : ∀ q s : Nat, px0 v q s * px0 r (((a - q) % v.nx).toNat) (((b - s) % v.ny).toNat) =
      (∑ p ∈ Finset.range v.nx ×ˢ Finset.range v.ny, Q p.1 p.2 * (((px0 v q s : ℝ) : ℂ) * (tw v.nx (p.1 * q) * tw v.ny (p.2 * s))) *
        (tw v.nx (-(p.1 * a)) * tw v.ny (-(p.2 * b)))).re := by
    intro q s
    have m1 := Int.emod_nonneg (a - q) (b := v.nx) (by omega)
    have m2 := Int.emod_lt_of_pos (a - q) (b := v.nx) (by omega)
    have m3 := Int.emod_nonneg (b - s) (b := v.ny) (by omega)
    have m4 := Int.emod_lt_of_pos (b - s) (b := v.ny) (by omega)
    rw [hr _ _ (by omega) (by omega), Int.toNat_of_nonneg m1, Int.toNat_of_nonneg m3, ← Complex.re_ofReal_mul, Finset.mul_sum]
    congr 1
    apply Finset.sum_congr rfl
    intro p _
    have e1 : tw v.nx (-(p.1 * ((a - q) % v.nx))) = tw v.nx (p.1 * q) * tw v.nx (-(p.1 * a)) := by
      rw [← tw_add]
      apply tw_congr hx
      have hd : (v.nx : ℤ) ∣ (a - q) - (a - q) % v.nx := Int.dvd_self_sub_emod
      have : -((p.1 : ℤ) * ((a - q) % v.nx)) - (p.1 * q + -(p.1 * a)) = ((a - q) - (a - q) % v.nx) * p.1 := by ring
      rw [this]
      exact hd.mul_right _
    have e2 : tw v.ny (-(p.2 * ((b - s) % v.ny))) = tw v.ny (p.2 * s) * tw v.ny (-(p.2 * b)) := by
      rw [← tw_add]
      apply tw_congr hy
      have hd : (v.ny : ℤ) ∣ (b - s) - (b - s) % v.ny := Int.dvd_self_sub_emod
      have : -((p.2 : ℤ) * ((b - s) % v.ny)) - (p.2 * s + -(p.2 * b)) = ((b - s) - (b - s) % v.ny) * p.2 := by ring
      rw [this]
      exact hd.mul_right _
    rw [e1, e2]
    ring
  simp only [key]
  rw [← Finset.sum_product', ← Complex.re_sum, Finset.sum_comm]
  congr 1
  apply Finset.sum_congr rfl
  intro p _
  unfold dft
  rw [Finset.mul_sum, Finset.sum_mul]

theorem circ_shift {v r s : Img ℝ} (hx : 0 < v.nx) (hy : 0 < v.ny) (dx dy : Int)
    (h : ∀ x y, x < v.nx → y < v.ny → px0 s (wrapAdd x dx v.nx) (wrapAdd y dy v.ny) = px0 r x y) (a b : ℤ) :
    circ v s (a + dx) (b + dy) = circ v r a b := by
  rw [circ_mod v s hx hy, circ_mod v r hx hy, sum_rot hx dx]
  apply Finset.sum_congr rfl
  intro x hx'
  rw [sum_rot hy dy (fun t => px0 s _ t * _)]
  apply Finset.sum_congr rfl
  intro y hy'
  rw [Finset.mem_range] at hx' hy'
  rw [h x y hx' hy', wrapAdd_cast _ _ hx, wrapAdd_cast _ _ hy, Int.sub_emod_emod, Int.sub_emod_emod,
    show a + dx - (x + dx) = a - x by ring, show b + dy - (y + dy) = b - y by ring]

/-- C131 (up to a factor, and for images that are not taller than wide and less than twice as wide as tall): the kernel whose
centre is the element `(nx/2,ny/2)`, convolved with `from`, is `to` times the number of elements. The claim without the factor
is false: `C131_factor_refuted`; for other dimensions see `C131_wide` and `C131_tall_refuted`. -/
theorem C131_transition_partial (src dst : Img ℝ) (hd : dst.nx = src.nx ∧ dst.ny = src.ny)
    (hx : 0 < src.nx) (hq : src.nx ≤ src.ny) (hw : src.ny / 2 < src.nx) (hb : src.ny < 2 ^ 63)
    (hz : ∀ k l, k < src.nx → l < src.ny → dft src k l ≠ 0) :
    ∃ r, transitionKernel src dst = .ok r ∧ r.WF ∧ r.nx = src.nx ∧ r.ny = src.ny ∧
      ∀ a b, a < src.nx → b < src.ny →
        circ src r ((a : ℤ) + (src.nx / 2 : Nat)) ((b : ℤ) + (src.ny / 2 : Nat)) = (src.nx * src.ny : ℝ) * px0 dst a b := by
  have hy : 0 < src.ny := by omega
  have hW : (2 : Nat) ^ 63 < W64 := by decide
  obtain ⟨f, f1, f2, f3, f4, f5⟩ := fft_ok hx hy
  obtain ⟨g, g1, g2, g3, g4, g5⟩ := fft_ok (v := dst) (by omega) (by omega)
  have lf : f.px.length = src.nx * src.ny := by rw [f2, f3, f4]
  have lg : g.px.length = src.nx * src.ny := by rw [g2, g3, g4, hd.1, hd.2]
  generalize hN : (f.ny / 2 + 1) * f.ny = N
  have hNl : src.nx * (src.ny / 2 + 1) ≤ N := by
    rw [← hN, f4, Nat.mul_comm]
    exact Nat.mul_le_mul_left _ hq
  generalize hQ : (⟨g.nx, g.ny, List.zipWith (· / ·) (g.px.take N) (f.px.take N) ++ g.px.drop N⟩ : Img ℂ) = q
  have hqn : q.nx = src.nx := by rw [← hQ]; simp only; omega
  have hqm : q.ny = src.ny := by rw [← hQ]; simp only; omega
  have hhalf : ∀ k l, k < src.nx → l ≤ src.ny / 2 → half q k l = dft dst k l / dft src k l := by
    intro k l hk hl
    obtain ⟨i1, i2⟩ := half_lt hy hk hl
    rw [← f5 k l hk hl, ← g5 k l (by omega) (by rw [hd.2]; exact hl), ← hQ]
    unfold half
    rw [g4, f4, hd.2]
    simp only [List.getD_eq_getElem?_getD]
    generalize k * (src.ny / 2 + 1) + l = i at i1 i2
    rw [List.getElem?_append_left (by simp only [List.length_zipWith, List.length_take, lf, lg]; omega), List.getElem?_zipWith,
      List.getElem?_take_of_lt (by omega), List.getElem?_take_of_lt (by omega), List.getElem?_eq_getElem (by omega),
      List.getElem?_eq_getElem (by omega)]
    rfl
  obtain ⟨t, t1, t2, t3, t4, t5⟩ := ifft_ok (f := q) (by omega) (by omega) (fun k l => dft dst k l / dft src k l)
    (by rw [hqn, hqm]; exact hhalf)
    (by
      rw [hqn, hqm]
      intro k l hk hl
      rw [map_div₀, dft_herm src hx hk hl.le hy]
      have := dft_herm dst (by omega) (k := k) (l := l) (by omega) (by omega) (by omega)
      rw [hd.1, hd.2] at this
      rw [this])
  rw [hqn, hqm] at t5
  obtain ⟨s, s1, s2, s3, s4, s5⟩ := C62_shift t ((src.nx / 2 : Nat) : Int) ((src.ny / 2 : Nat) : Int) t2 (by omega) (by omega) (by omega) (by omega)
  refine ⟨s, ?_, s2, by omega, by omega, ?_⟩
  · unfold transitionKernel
    rw [f1, Res.ok_bind, g1, Res.ok_bind, Res.check_pos (by omega), Res.ok_bind]
    simp only
    rw [hN, hQ, t1, Res.ok_bind, f3, f4, s1]
  · intro a b ha hb'
    rw [circ_shift (r := t) hx hy]
    · rw [circ_back src t hx hy (by omega) (by omega) (fun k l => dft dst k l / dft src k l)]
      · have := dft_inv dst (by omega) (by omega) (a := a) (b := b) (by omega) (by omega)
        rw [hd.1, hd.2] at this
        rw [← Complex.ofReal_re ((src.nx * src.ny : ℝ) * px0 dst a b), ← this]
        congr 1
        apply Finset.sum_congr rfl
        intro p hp
        simp only [Finset.mem_product, Finset.mem_range] at hp
        rw [div_mul_cancel₀ _ (hz p.1 p.2 hp.1 hp.2)]
      · intro a b ha hb
        rw [px0, t5 a b ha hb]; rfl
    · intro x y hx' hy'
      have := s5 x y (by omega) (by omega)
      rw [show t.nx = src.nx by omega, show t.ny = src.ny by omega] at this
      unfold px0 wrapAdd
      rw [this]

/-- C131: images that are at least twice as wide as tall are refused. -/
theorem C131_wide (src dst : Img ℝ) (hd : dst.nx = src.nx ∧ dst.ny = src.ny) (hx : 0 < src.nx) (hw : src.nx ≤ src.ny / 2) :
    transitionKernel src dst = .abort := by
  obtain ⟨f, f1, f2, f3, f4, f5⟩ := fft_ok (v := src) hx (by omega)
  obtain ⟨g, g1, g2, g3, g4, g5⟩ := fft_ok (v := dst) (by omega) (by omega)
  unfold transitionKernel
  rw [f1, Res.ok_bind, g1, Res.ok_bind, Res.check_neg (by omega)]; rfl

theorem dft_point {nx ny : Nat} {c : ℝ} {l : List ℝ} (h : 0 < nx ∧ 0 < ny) (hv : ∀ x y, x < nx → y < ny →
    px0 ⟨nx, ny, l⟩ x y = if x = 0 ∧ y = 0 then c else 0) (k j : Nat) : dft ⟨nx, ny, l⟩ k j = (c : ℂ) := by
  unfold dft
  rw [Finset.sum_eq_single (0, 0)]
  · rw [hv 0 0 h.1 h.2]
    simp [tw_zero]
  · intro p hp hne
    simp only [Finset.mem_product, Finset.mem_range] at hp
    rw [hv p.1 p.2 hp.1 hp.2, if_neg]
    · simp
    · rintro ⟨h1, h2⟩
      exact hne (Prod.ext h1 h2)
  · intro hn
    exact absurd (by simp [h]) hn

theorem point22 : ∀ x y, x < 2 → y < 2 → px0 (⟨2, 2, [1, 0, 0, 0]⟩ : Img ℝ) x y = if x = 0 ∧ y = 0 then 1 else 0 := by
  intro x y hx hy
  obtain rfl | rfl : x = 0 ∨ x = 1 := by omega
  all_goals
    obtain rfl | rfl : y = 0 ∨ y = 1 := by omega
    all_goals simp [px0, Img.at]

/-- C131 refuted: from a point source to itself, the kernel is 4 in its centre for images of 2 by 2 elements, so the
convolution of `from` with it is not `to`. -/
theorem C131_factor_refuted : ∃ r, transitionKernel ⟨2, 2, [1, 0, 0, 0]⟩ ⟨2, 2, [1, 0, 0, 0]⟩ = .ok r ∧ r.at 1 1 = some 4 ∧
    circ ⟨2, 2, [1, 0, 0, 0]⟩ r ((0 : ℤ) + (2 / 2 : Nat)) ((0 : ℤ) + (2 / 2 : Nat)) ≠ px0 (⟨2, 2, [1, 0, 0, 0]⟩ : Img ℝ) 0 0 := by
  obtain ⟨r, r1, r2, r3, r4, r5⟩ := C131_transition_partial ⟨2, 2, [1, 0, 0, 0]⟩ ⟨2, 2, [1, 0, 0, 0]⟩ ⟨rfl, rfl⟩ (by simp) (by simp)
    (by simp) (by simp) (by
      intro k l _ _
      rw [dft_point (c := 1) (by simp) point22]
      simp)
  have h0 := r5 0 0 (by simp) (by simp)
  have hp : px0 (⟨2, 2, [1, 0, 0, 0]⟩ : Img ℝ) 0 0 = 1 := by rw [point22 0 0 (by omega) (by omega)]; simp
  refine ⟨r, r1, ?_, ?_⟩
  · rw [hp, circ_mod _ _ (by simp) (by simp)] at h0
    simp only [Finset.sum_range_succ, Finset.sum_range_zero] at h0
    norm_num [point22] at h0
    obtain ⟨a, ha⟩ := at_isSome r2 (x := 1) (y := 1) (by rw [r3]; simp) (by rw [r4]; simp)
    rw [px0, ha] at h0
    rw [ha]
    simpa using h0
  · intro h
    have h0' : circ ⟨2, 2, [1, 0, 0, 0]⟩ r ((0 : ℤ) + (2 / 2 : Nat)) ((0 : ℤ) + (2 / 2 : Nat)) = (4 : ℝ) := by
      refine Eq.trans h0 ?_
      rw [hp]; norm_num
    rw [h0', hp] at h
    norm_num at h

theorem point31 : ∀ x y, x < 3 → y < 1 → px0 (⟨3, 1, [2, 0, 0]⟩ : Img ℝ) x y = if x = 0 ∧ y = 0 then 2 else 0 := by
  intro x y hx hy
  obtain rfl : y = 0 := by omega
  obtain rfl | rfl | rfl : x = 0 ∨ x = 1 ∨ x = 2 := by omega
  all_goals simp [px0, Img.at]

/-- C131 refuted for images that are taller than wide: only the first part of the transform is divided. From an image to itself,
for 3 by 1 elements, the centre of the kernel is 5; the number of elements is 3. -/
theorem C131_tall_refuted : ∃ r, transitionKernel ⟨3, 1, [2, 0, 0]⟩ ⟨3, 1, [2, 0, 0]⟩ = .ok r ∧ r.at 1 0 = some 5 := by
  have hf : fft ⟨3, 1, [2, 0, 0]⟩ = .ok ⟨3, 1, [2, 2, 2]⟩ := by
    unfold fft
    rw [if_neg (by simp)]
    have e : ∀ k l, dft ⟨3, 1, [2, 0, 0]⟩ k l = 2 := by
      intro k l
      rw [dft_point (c := 2) (by simp) point31]; simp
    simp only [e]
    rfl
  generalize hq : (⟨3, 1, [1, 2, 2]⟩ : Img ℂ) = q
  have q1 : q.nx = 3 := by rw [← hq]
  have q2 : q.ny = 1 := by rw [← hq]
  have qh : ∀ k, k < 3 → half q k 0 = if k = 0 then 1 else 2 := by
    intro k hk
    rw [← hq]
    obtain rfl | rfl | rfl : k = 0 ∨ k = 1 ∨ k = 2 := by omega
    all_goals simp [half]
  obtain ⟨t, t1, t2, t3, t4, t5⟩ := ifft_ok (f := q) (by omega) (by omega) (fun k l => if k = 0 then 1 else 2)
    (by
      intro k l hk hl
      have : l = 0 := by omega
      subst this
      exact qh k (by omega))
    (by
      rw [q1, q2]
      intro k l hk hl
      have h2 : (starRingEnd ℂ) 2 = 2 := Complex.conj_ofNat 2
      obtain rfl | rfl | rfl : k = 0 ∨ k = 1 ∨ k = 2 := by omega
      all_goals simp [h2])
  obtain ⟨s, s1, s2, s3, s4, s5⟩ := C62_shift t 1 0 t2 (by omega) (by omega) (by omega) (by omega)
  refine ⟨s, ?_, ?_⟩
  · unfold transitionKernel
    rw [hf, Res.ok_bind, Res.ok_bind, Res.check_pos (by simp), Res.ok_bind]
    have : (⟨3, 1, List.zipWith (· / ·) (List.take ((1 / 2 + 1) * 1) [2, 2, 2]) (List.take ((1 / 2 + 1) * 1) [2, 2, 2]) ++
        List.drop ((1 / 2 + 1) * 1) [2, 2, 2]⟩ : Img ℂ) = q := by
      rw [← hq]
      simp
    simp only
    rw [this, t1, Res.ok_bind]
    exact s1
  · have := s5 0 0 (by omega) (by omega)
    rw [t3, t4, q1, q2] at this
    rw [t5 0 0 (by omega) (by omega), q1, q2] at this
    have e : (((((0 : Nat) : Int) + 1) % ((3 : Nat) : Int)).toNat) = 1 := by decide
    have e' : (((((0 : Nat) : Int) + 0) % ((1 : Nat) : Int)).toNat) = 0 := by decide
    rw [e, e'] at this
    rw [this, Finset.sum_product]
    simp [Finset.sum_range_succ, tw_zero]
    norm_num

end

end Verif.Astro
