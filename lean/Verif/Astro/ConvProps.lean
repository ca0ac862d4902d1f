import Verif.Astro.ConvLemmas
/-!
# C129: convolutions through Fourier space
-/
namespace Verif.Astro
open Verif

noncomputable section

/-- `convolve2d_prepare_kernel` followed by `convolve2d` with its three results, for a map of the same dimensions -/
def convolvePrepared (map kernel : Img ℝ) : Res (Img ℝ) := do
  let (f, hsx, hsy) ← prepareKernel map.nx map.ny kernel
  convolveF map f hsx hsy

theorem prepared_spec (p m k : Img ℝ) (hm : m.WF) (hk : k.WF) (hp : p.nx = m.nx ∧ p.ny = m.ny) (ho : k.nx % 2 = 1 ∧ k.ny % 2 = 1)
    (hn : 0 < m.nx ∧ 0 < m.ny) (hb : m.nx < 2 ^ 62 ∧ m.ny < 2 ^ 62 ∧ k.nx < 2 ^ 62 ∧ k.ny < 2 ^ 62) :
    ∃ f r, prepareKernel p.nx p.ny k = .ok (f, k.nx / 2, k.ny / 2) ∧ convolveF m f (k.nx / 2) (k.ny / 2) = .ok r ∧
      r.WF ∧ r.nx = m.nx ∧ r.ny = m.ny ∧ ∀ i j, i < m.nx → j < m.ny → r.at i j = some (conv m k i j) := by
  have hW : (2 : Nat) ^ 62 + 2 ^ 62 < W64 := by decide
  obtain ⟨t, w, f, t1, w1, f1, w2, f2, f3, f4, w3, w4, w5⟩ := kernel_spec k hk m.nx m.ny ho hn hb
  obtain ⟨v, v1, v2, v3, v4, v5⟩ := enlarge_spec m (k.nx / 2) (k.ny / 2) (k.nx / 2) (k.ny / 2) (0 : ℝ) hm (by omega) (by omega)
  obtain ⟨g, g1, -⟩ := fft_ok (v := v) (by omega) (by omega)
  obtain ⟨c, r, c1, c2, c3, c4, r1, r2, r3, r4, r5⟩ := through_spec (v := v) (w := w) (by omega) (by omega) (by omega) (by omega) g1 f1
  obtain ⟨s, s1, s2, s3, s4, s5⟩ := finish_spec (v := v) (w := w) (hx := k.nx / 2) (hy := k.ny / 2) hn c2 ⟨c3, c4⟩
    ⟨by omega, by omega⟩ ⟨by omega, by omega⟩ r1 r2 ⟨r3, r4⟩ r5
  refine ⟨f, s, ?_, ?_, s2, s3, s4, ?_⟩
  · unfold prepareKernel
    rw [Res.check_pos ho, Res.ok_bind]
    simp only
    rw [hp.1, hp.2, t1, Res.ok_bind, w1, Res.ok_bind, f1, Res.ok_bind]
  · unfold convolveF
    rw [v1, Res.ok_bind, g1, Res.ok_bind, c1, Res.ok_bind, s1]
  · intro i j hi hj
    rw [s5 i j hi hj, circ_conv (m := m) (k := k) (K1 := k.nx) (K2 := k.ny) hn ⟨by omega, by omega⟩ (pad_px0 hm v5)
      ⟨by omega, by omega⟩ ?_ hi hj]
    · rfl
    · have e1 : v.nx = w.nx := by omega
      have e2 : v.ny = w.ny := by omega
      rw [e1, e2]
      exact w5

/-- C129: `convolve2d_prepare_kernel` and `convolve2d` on its results compute the convolution of the map (zero outside its
borders) with the kernel, for kernels of odd dimensions of any size, larger than the map or not. -/
theorem C129_prepared (m k : Img ℝ) (hm : m.WF) (hk : k.WF) (ho : k.nx % 2 = 1 ∧ k.ny % 2 = 1)
    (hn : 0 < m.nx ∧ 0 < m.ny) (hb : m.nx < 2 ^ 62 ∧ m.ny < 2 ^ 62 ∧ k.nx < 2 ^ 62 ∧ k.ny < 2 ^ 62) :
    ∃ r, convolvePrepared m k = .ok r ∧ r.WF ∧ r.nx = m.nx ∧ r.ny = m.ny ∧
      ∀ i j, i < m.nx → j < m.ny → r.at i j = some (conv m k i j) := by
  obtain ⟨f, r, h1, h2, h3⟩ := prepared_spec m m k hm hk ⟨rfl, rfl⟩ ho hn hb
  refine ⟨r, ?_, h3⟩
  unfold convolvePrepared
  rw [h1, Res.ok_bind]
  exact h2

/-- C129: a kernel that was prepared for one map serves every map of the same dimensions. -/
theorem C129_reuse (p m k : Img ℝ) (f : Img ℂ) (hx hy : Nat) (hm : m.WF) (hk : k.WF) (hp : p.nx = m.nx ∧ p.ny = m.ny)
    (hn : 0 < m.nx ∧ 0 < m.ny) (hb : m.nx < 2 ^ 62 ∧ m.ny < 2 ^ 62 ∧ k.nx < 2 ^ 62 ∧ k.ny < 2 ^ 62)
    (hf : prepareKernel p.nx p.ny k = .ok (f, hx, hy)) :
    ∃ r, convolveF m f hx hy = .ok r ∧ r.WF ∧ r.nx = m.nx ∧ r.ny = m.ny ∧
      ∀ i j, i < m.nx → j < m.ny → r.at i j = some (conv m k i j) := by
  have ho : k.nx % 2 = 1 ∧ k.ny % 2 = 1 := by
    by_contra h
    unfold prepareKernel at hf
    rw [Res.check_neg h] at hf
    cases hf
  obtain ⟨f', r, h1, h2, h3⟩ := prepared_spec p m k hm hk hp ho hn hb
  rw [h1] at hf
  cases hf
  exact ⟨r, h2, h3⟩

/-- C129: kernels of even dimensions are refused. -/
theorem C129_even (mx my : Nat) (k : Img ℝ) (h : k.nx % 2 = 0 ∨ k.ny % 2 = 0) : prepareKernel mx my k = .abort := by
  unfold prepareKernel
  rw [Res.check_neg (by omega)]; rfl

/-- C129: the result is the one of the direct summation (C67), whenever that one is defined. -/
theorem C129_naive (m k : Img ℝ) (hm : m.WF) (hk : k.WF) (ho : k.nx % 2 = 1 ∧ k.ny % 2 = 1) (hn : 0 < m.nx ∧ 0 < m.ny)
    (hx : k.nx / 2 ≤ m.nx) (hy : k.ny / 2 ≤ m.ny)
    (hb : m.nx < 2 ^ 62 ∧ m.ny < 2 ^ 62 ∧ k.nx < 2 ^ 62 ∧ k.ny < 2 ^ 62) : convolvePrepared m k = convolve m k := by
  have hW : (2 : Nat) ^ 62 + 2 ^ 62 < W64 := by decide
  obtain ⟨r, r1, r2, r3, r4, r5⟩ := C129_prepared m k hm hk ho hn hb
  obtain ⟨s, s1, s2, s3, s4, s5⟩ := C67_convolve_partial m k hm hk ho hx hy ⟨by omega, by omega⟩
  rw [r1, s1]
  congr 1
  refine img_ext r2 s2 (by omega) (by omega) ?_
  intro x y h1 h2
  rw [r5 x y (by omega) (by omega), s5 x y (by omega) (by omega)]

/-! ### `convolve2d(map, kernel)` -/

theorem copyBlock_spec {t k : Img ℝ} {hx hy : Nat} {ix px iy py : Nat → Nat} (ht : t.WF) (hk : k.WF)
    (h1 : ∀ i < hx, ix i < t.nx) (h2 : ∀ j < hy, iy j < t.ny) (h3 : ∀ i < hx, px i < k.nx) (h4 : ∀ j < hy, py j < k.ny)
    (h5 : ∀ i i', i < hx → i' < hx → ix i = ix i' → i = i') (h6 : ∀ i i', i < hy → i' < hy → iy i = iy i' → i = i') :
    ∃ s, copyBlock t k hx hy ix px iy py = .ok s ∧ s.WF ∧ s.nx = t.nx ∧ s.ny = t.ny ∧
      (∀ i j, i < hx → j < hy → s.at (ix i) (iy j) = k.at (px i) (py j)) ∧
      ∀ a b, (¬ ∃ i j, i < hx ∧ j < hy ∧ ix i = a ∧ iy j = b) → s.at a b = t.at a b := by
  obtain ⟨s, s1, s2, s3, s4, s5, s6⟩ := for2_write (nx := hx) (ny := hy) (body := fun i j t => do
    let a ← k.get (px i) (py j)
    t.put (ix i) (iy j) a) ix iy (fun i j => (k.at (px i) (py j)).getD 0) t ht h1 h2 h5 h6 (by
      intro x y s hx hy _ _ _
      obtain ⟨a, ha⟩ := at_isSome hk (h3 x hx) (h4 y hy)
      rw [get_at ha, Res.ok_bind, ha]; rfl)
  refine ⟨s, s1, s2, s3, s4, ?_, s6⟩
  intro i j hi hj
  obtain ⟨a, ha⟩ := at_isSome hk (h3 i hi) (h4 j hj)
  rw [s5 i j hi hj, ha]; rfl

theorem wrapAdd_neg {x h n : Nat} (hx : x < n) (hh : 2 * h < n) : wrapAdd x (-(h : Int)) n = if h ≤ x then x - h else n - 1 - (h - 1 - x) := by
  have hn : 0 < n := by omega
  have h1 := wrapAdd_cast x (-(h : Int)) hn
  split
  · rw [Int.emod_eq_of_lt (by omega) (by omega)] at h1
    omega
  · rw [← Int.add_emod_right, Int.emod_eq_of_lt (by omega) (by omega)] at h1
    omega

theorem direct_spec (m k : Img ℝ) (hm : m.WF) (hk : k.WF) (hn : 0 < m.nx ∧ 0 < m.ny)
    (hb : m.nx < 2 ^ 62 ∧ m.ny < 2 ^ 62 ∧ k.nx < 2 ^ 62 ∧ k.ny < 2 ^ 62) :
    ∃ r, convolve2d m k = .ok r ∧ r.WF ∧ r.nx = m.nx ∧ r.ny = m.ny ∧
      ∀ i j, i < m.nx → j < m.ny → r.at i j =
        some (convUp m k (2 * (k.nx / 2)) (2 * (k.ny / 2)) (k.nx / 2) (k.ny / 2) i j) := by
  have hW : (2 : Nat) ^ 62 + 2 ^ 62 < W64 := by decide
  obtain ⟨v, v1, v2, v3, v4, v5⟩ := enlarge_spec m (k.nx / 2) (k.ny / 2) (k.nx / 2) (k.ny / 2) (0 : ℝ) hm (by omega) (by omega)
  generalize hhx : k.nx / 2 = hx at *
  generalize hhy : k.ny / 2 = hy at *
  obtain ⟨a, a1, a2, a3, a4, a5, a6⟩ := copyBlock_spec (t := Img.fill v.nx v.ny (0 : ℝ)) (k := k) (hx := hx) (hy := hy)
    (ix := fun i => i) (px := fun i => hx + i) (iy := fun j => j) (py := fun j => hy + j) (fill_wf _ _ _) hk
    (by simp only [Img.fill]; omega) (by simp only [Img.fill]; omega) (by omega) (by omega) (by omega) (by omega)
  simp only [Img.fill] at a3 a4
  obtain ⟨b, b1, b2, b3, b4, b5, b6⟩ := copyBlock_spec (t := a) (k := k) (hx := hx) (hy := hy)
    (ix := fun i => v.nx - 1 - i) (px := fun i => hx - 1 - i) (iy := fun j => j) (py := fun j => hy + j) a2 hk
    (by omega) (by omega) (by omega) (by omega) (by omega) (by omega)
  obtain ⟨c, c1, c2, c3, c4, c5, c6⟩ := copyBlock_spec (t := b) (k := k) (hx := hx) (hy := hy)
    (ix := fun i => i) (px := fun i => hx + i) (iy := fun j => v.ny - 1 - j) (py := fun j => hy - 1 - j) b2 hk
    (by omega) (by omega) (by omega) (by omega) (by omega) (by omega)
  obtain ⟨w, w1, w2, w3, w4, w5, w6⟩ := copyBlock_spec (t := c) (k := k) (hx := hx) (hy := hy)
    (ix := fun i => v.nx - 1 - i) (px := fun i => hx - 1 - i) (iy := fun j => v.ny - 1 - j) (py := fun j => hy - 1 - j) c2 hk
    (by omega) (by omega) (by omega) (by omega) (by omega) (by omega)
  obtain ⟨f, f1, -⟩ := fft_ok (v := v) (by omega) (by omega)
  obtain ⟨g, g1, -⟩ := fft_ok (v := w) (by omega) (by omega)
  obtain ⟨q, r, c1', c2', c3', c4', r1, r2, r3, r4, r5⟩ := through_spec (v := v) (w := w) (by omega) (by omega) (by omega) (by omega) f1 g1
  obtain ⟨s, s1, s2, s3, s4, s5⟩ := finish_spec (v := v) (w := w) (hx := hx) (hy := hy) hn c2' ⟨c3', c4'⟩
    ⟨by omega, by omega⟩ ⟨by omega, by omega⟩ r1 r2 ⟨r3, r4⟩ r5
  refine ⟨s, ?_, s2, s3, s4, ?_⟩
  · unfold convolve2d
    simp only [hhx, hhy]
    rw [v1, Res.ok_bind, a1, Res.ok_bind, b1, Res.ok_bind, c1, Res.ok_bind, w1, Res.ok_bind, f1, Res.ok_bind, g1, Res.ok_bind,
      c1', Res.ok_bind, s1]
  · intro i j hi hj
    rw [s5 i j hi hj, circ_conv (m := m) (k := k) (K1 := 2 * hx) (K2 := 2 * hy) hn ⟨by omega, by omega⟩ (pad_px0 hm v5)
      ⟨by omega, by omega⟩ ?_ hi hj]
    intro x y hx' hy'
    rw [wrapAdd_neg hx' (by omega), wrapAdd_neg hy' (by omega), atZ_nat]
    unfold px0
    by_cases hc : x < 2 * hx ∧ y < 2 * hy
    · rw [if_pos hc]
      by_cases e1 : hx ≤ x <;> by_cases e2 : hy ≤ y
      · rw [if_pos e1, if_pos e2, w6 _ _ (by rintro ⟨i', j', k1, k2, k3, k4⟩; omega),
          c6 _ _ (by rintro ⟨i', j', k1, k2, k3, k4⟩; omega), b6 _ _ (by rintro ⟨i', j', k1, k2, k3, k4⟩; omega),
          a5 (x - hx) (y - hy) (by omega) (by omega)]
        congr 2 <;> omega
      · rw [if_pos e1, if_neg e2, w6 _ _ (by rintro ⟨i', j', k1, k2, k3, k4⟩; omega),
          c5 (x - hx) (hy - 1 - y) (by omega) (by omega)]
        congr 2 <;> omega
      · rw [if_neg e1, if_pos e2, w6 _ _ (by rintro ⟨i', j', k1, k2, k3, k4⟩; omega),
          c6 _ _ (by rintro ⟨i', j', k1, k2, k3, k4⟩; omega), b5 (hx - 1 - x) (y - hy) (by omega) (by omega)]
        congr 2 <;> omega
      · rw [if_neg e1, if_neg e2, w5 (hx - 1 - x) (hy - 1 - y) (by omega) (by omega)]
        congr 2 <;> omega
    · rw [if_neg hc]
      have k0 : ∀ X Y, X = (if hx ≤ x then x - hx else v.nx - 1 - (hx - 1 - x)) →
          Y = (if hy ≤ y then y - hy else v.ny - 1 - (hy - 1 - y)) → w.at X Y = some 0 := by
        intro X Y eX eY
        have lX : X < v.nx := by rw [eX]; split <;> omega
        have lY : Y < v.ny := by rw [eY]; split <;> omega
        rw [w6, c6, b6, a6, fill_at, if_pos ⟨lX, lY⟩]
        all_goals
          rintro ⟨i', j', k1, k2, k3, k4⟩
          split at eX <;> split at eY <;> omega
      rw [k0 _ _ rfl rfl]; rfl

/-- C129 (`convolve2d(map, kernel)`), without the last row and column of kernels of odd dimensions: the result is the
convolution of the map (zero outside its borders) with the kernel, for kernels of even dimensions and for kernels of odd
dimensions whose last row and column are zero. For other kernels see `C129_convolve2d_refuted`. -/
theorem C129_convolve2d_partial (m k : Img ℝ) (hm : m.WF) (hk : k.WF) (hn : 0 < m.nx ∧ 0 < m.ny)
    (hb : m.nx < 2 ^ 62 ∧ m.ny < 2 ^ 62 ∧ k.nx < 2 ^ 62 ∧ k.ny < 2 ^ 62)
    (hx : k.nx % 2 = 0 ∨ ∀ y < k.ny, k.at (k.nx - 1) y = some 0) (hy : k.ny % 2 = 0 ∨ ∀ x < k.nx, k.at x (k.ny - 1) = some 0) :
    ∃ r, convolve2d m k = .ok r ∧ r.WF ∧ r.nx = m.nx ∧ r.ny = m.ny ∧
      ∀ i j, i < m.nx → j < m.ny → r.at i j = some (conv m k i j) := by
  obtain ⟨r, r1, r2, r3, r4, r5⟩ := direct_spec m k hm hk hn hb
  refine ⟨r, r1, r2, r3, r4, ?_⟩
  intro i j hi hj
  rw [r5 i j hi hj]
  unfold conv convUp
  congr 1
  have z1 : ∀ x, x < k.nx → ¬ x < 2 * (k.nx / 2) → ∀ y < k.ny, k.atZ x y = 0 := by
    intro x h1 h2 y h3
    rcases hx with hx | hx
    · omega
    · have : x = k.nx - 1 := by omega
      rw [atZ_nat, this, px0, hx y h3]; rfl
  have z2 : ∀ y, y < k.ny → ¬ y < 2 * (k.ny / 2) → ∀ x < k.nx, k.atZ x y = 0 := by
    intro y h1 h2 x h3
    rcases hy with hy | hy
    · omega
    · have : y = k.ny - 1 := by omega
      rw [atZ_nat, this, px0, hy x h3]; rfl
  rw [← Finset.sum_subset (s₁ := Finset.range (2 * (k.nx / 2))) (s₂ := Finset.range k.nx)]
  · apply Finset.sum_congr rfl
    intro kx hkx
    rw [Finset.mem_range] at hkx
    apply Finset.sum_subset
    · intro a ha
      rw [Finset.mem_range] at ha ⊢; omega
    · intro y h1 h2
      rw [Finset.mem_range] at h1 h2
      rw [z2 y h1 h2 kx (by omega), zero_mul]
  · intro a ha
    rw [Finset.mem_range] at ha ⊢; omega
  · intro x h1 h2
    rw [Finset.mem_range] at h1 h2
    apply Finset.sum_eq_zero
    intro y hy
    rw [Finset.mem_range] at hy
    rw [z1 x h1 h2 y hy, zero_mul]

/-- C129 refuted for `convolve2d(map, kernel)`: the last row and the last column of a kernel of odd dimensions are not used. Two
kernels that differ only there give the same result. -/
theorem C129_last_ignored (m k k' : Img ℝ) (hm : m.WF) (hk : k.WF) (hk' : k'.WF) (hn : 0 < m.nx ∧ 0 < m.ny)
    (hb : m.nx < 2 ^ 62 ∧ m.ny < 2 ^ 62 ∧ k.nx < 2 ^ 62 ∧ k.ny < 2 ^ 62) (hd : k'.nx = k.nx ∧ k'.ny = k.ny)
    (ho : k.nx % 2 = 1 ∧ k.ny % 2 = 1) (h : ∀ x y, x < k.nx - 1 → y < k.ny - 1 → k'.at x y = k.at x y) :
    convolve2d m k' = convolve2d m k := by
  obtain ⟨r, r1, r2, r3, r4, r5⟩ := direct_spec m k hm hk hn hb
  obtain ⟨s, s1, s2, s3, s4, s5⟩ := direct_spec m k' hm hk' hn (by rw [hd.1, hd.2]; exact hb)
  rw [r1, s1]
  congr 1
  refine img_ext s2 r2 (by omega) (by omega) ?_
  intro x y h1 h2
  rw [r5 x y (by omega) (by omega), s5 x y (by omega) (by omega), hd.1, hd.2]
  unfold convUp
  congr 1
  apply Finset.sum_congr rfl
  intro kx hkx
  apply Finset.sum_congr rfl
  intro ky hky
  rw [Finset.mem_range] at hkx hky
  rw [atZ_nat, atZ_nat, px0, px0, h kx ky (by omega) (by omega)]

/-- C129 refuted for `convolve2d(map, kernel)`: the convolution with the kernel `{{1}}` is zero, not the map. -/
theorem C129_convolve2d_refuted : convolve2d ⟨1, 1, [1]⟩ ⟨1, 1, [1]⟩ = .ok ⟨1, 1, [0]⟩ ∧
    conv (⟨1, 1, [1]⟩ : Img ℝ) ⟨1, 1, [1]⟩ 0 0 = 1 := by
  constructor
  · obtain ⟨r, r1, r2, r3, r4, r5⟩ := direct_spec ⟨1, 1, [1]⟩ ⟨1, 1, [1]⟩ rfl rfl ⟨by decide, by decide⟩ (by simp)
    rw [r1]
    congr 1
    refine img_ext r2 rfl r3 r4 ?_
    intro x y h1 h2
    rw [r5 x y (by omega) (by omega)]
    have hx : x = 0 := by simp only at r3; omega
    have hy : y = 0 := by simp only at r4; omega
    subst hx hy
    simp [convUp, Img.at]
  · simp [conv, Img.atZ, Img.at]

-- a map of 2 by 2 elements and a kernel of 3 by 3
example : ∃ r, convolvePrepared ⟨2, 2, [1, 2, 3, 4]⟩ ⟨3, 3, [0, 1, 0, 1, 2, 1, 0, 1, 0]⟩ = .ok r ∧ r.at 0 0 = some 7 := by
  obtain ⟨r, r1, -, -, -, r5⟩ := C129_prepared ⟨2, 2, [1, 2, 3, 4]⟩ ⟨3, 3, [0, 1, 0, 1, 2, 1, 0, 1, 0]⟩ rfl rfl (by decide)
    (by decide) (by simp)
  refine ⟨r, r1, ?_⟩
  rw [r5 0 0 (by decide) (by decide)]
  simp [conv, Finset.sum_range_succ, Img.atZ, Img.at]
  norm_num

-- a kernel of 2 by 2 elements
example : ∃ r, convolve2d ⟨1, 2, [1, 2]⟩ ⟨2, 2, [1, 1, 10, 1]⟩ = .ok r ∧ r.at 0 0 = some 21 := by
  obtain ⟨r, r1, -, -, -, r5⟩ := C129_convolve2d_partial ⟨1, 2, [1, 2]⟩ ⟨2, 2, [1, 1, 10, 1]⟩ rfl rfl (by decide) (by simp)
    (.inl rfl) (.inl rfl)
  refine ⟨r, r1, ?_⟩
  rw [r5 0 0 (by decide) (by decide)]
  simp [conv, Finset.sum_range_succ, Img.atZ, Img.at]
  try norm_num

end

end Verif.Astro
