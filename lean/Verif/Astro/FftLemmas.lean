import Verif.Astro.Fft
import Mathlib.Algebra.Field.GeomSum
/-!
# Helper lemmas for C129-C131: the discrete Fourier transform and cyclic convolution
-/
namespace Verif.Astro
open Verif

/-! ### Roots of unity -/

theorem tw_add (n : Nat) (a b : ℤ) : tw n (a + b) = tw n a * tw n b := by
  unfold tw
  rw [← Complex.exp_add]
  congr 1
  push_cast
  ring

theorem tw_zero (n : Nat) : tw n 0 = 1 := by simp [tw]

theorem tw_conj (n : Nat) (m : ℤ) : (starRingEnd ℂ) (tw n m) = tw n (-m) := by
  unfold tw
  rw [← Complex.exp_conj]
  congr 1
  simp only [map_neg, map_mul, map_div₀, Complex.conj_ofReal, Complex.conj_I, map_ofNat, map_natCast, map_intCast]
  push_cast
  ring

theorem tw_one_iff {n : Nat} (hn : 0 < n) (m : ℤ) : tw n m = 1 ↔ (n : ℤ) ∣ m := by
  have hn' : (n : ℂ) ≠ 0 := by exact_mod_cast hn.ne'
  have h2 : (2 * Real.pi * Complex.I : ℂ) ≠ 0 := Complex.two_pi_I_ne_zero
  unfold tw
  rw [Complex.exp_eq_one_iff]
  constructor
  · rintro ⟨k, hk⟩
    refine ⟨-k, ?_⟩
    have : (m : ℂ) / n = -k := by
      have h3 : (2 * Real.pi * Complex.I : ℂ) * ((m : ℂ) / n) = (2 * Real.pi * Complex.I : ℂ) * (-k) := by
        linear_combination -hk
      exact mul_left_cancel₀ h2 h3
    rw [div_eq_iff hn'] at this
    have h4 : (m : ℂ) = ((n * -k : ℤ) : ℂ) := by push_cast; rw [this]; ring
    exact_mod_cast h4
  · rintro ⟨k, rfl⟩
    refine ⟨-k, ?_⟩
    push_cast
    field_simp

theorem tw_mul (n : Nat) (m : ℤ) (k : Nat) : tw n (k * m) = tw n m ^ k := by
  induction k with
  | zero => simp [tw_zero]
  | succ k ih =>
    rw [pow_succ, ← ih, ← tw_add]
    congr 1
    push_cast; ring

theorem tw_congr {n : Nat} (hn : 0 < n) {a b : ℤ} (h : (n : ℤ) ∣ a - b) : tw n a = tw n b := by
  have e : a = b + (a - b) := by ring
  rw [e, tw_add, (tw_one_iff hn _).2 h, mul_one]

theorem tw_orth {n : Nat} (hn : 0 < n) (m : ℤ) : ∑ k ∈ Finset.range n, tw n (k * m) = if (n : ℤ) ∣ m then (n : ℂ) else 0 := by
  simp only [tw_mul]
  by_cases h : (n : ℤ) ∣ m
  · rw [if_pos h, (tw_one_iff hn m).2 h]; simp
  · rw [if_neg h]
    have h1 : tw n m ≠ 1 := fun e => h ((tw_one_iff hn m).1 e)
    rw [geom_sum_eq h1, ← tw_mul, (tw_one_iff hn _).2 ⟨m, rfl⟩]
    simp

/-! ### Transforms of real arrays -/

/-- Spec: cyclic convolution of two arrays of the same dimensions: the sum of the products over all pairs of positions that
add up to `(a,b)` modulo the dimensions -/
noncomputable def circ (v w : Img ℝ) (a b : ℤ) : ℝ :=
  ∑ q ∈ Finset.range v.nx ×ˢ Finset.range v.ny, ∑ r ∈ Finset.range v.nx ×ˢ Finset.range v.ny,
    if (v.nx : ℤ) ∣ q.1 + r.1 - a ∧ (v.ny : ℤ) ∣ q.2 + r.2 - b then px0 v q.1 q.2 * px0 w r.1 r.2 else 0

theorem orth2 {nx ny : Nat} (hx : 0 < nx) (hy : 0 < ny) (a b : ℤ) :
    ∑ p ∈ Finset.range nx ×ˢ Finset.range ny, (tw nx (p.1 * a) * tw ny (p.2 * b)) =
      if (nx : ℤ) ∣ a ∧ (ny : ℤ) ∣ b then (nx * ny : ℂ) else 0 := by
  rw [Finset.sum_product]
  simp only [← Finset.mul_sum, ← Finset.sum_mul]
  rw [tw_orth hx, tw_orth hy]
  by_cases h1 : (nx : ℤ) ∣ a <;> by_cases h2 : (ny : ℤ) ∣ b <;> simp [h1, h2]

theorem dft_conv (v w : Img ℝ) (hx : 0 < v.nx) (hy : 0 < v.ny) (h1 : w.nx = v.nx) (h2 : w.ny = v.ny) (a b : ℤ) :
    ∑ p ∈ Finset.range v.nx ×ˢ Finset.range v.ny,
      dft v p.1 p.2 * dft w p.1 p.2 * (tw v.nx (-(p.1 * a)) * tw v.ny (-(p.2 * b))) =
      ((v.nx * v.ny : ℝ) * circ v w a b : ℝ) := by
  unfold dft circ
  rw [h1, h2]
  set S := Finset.range v.nx ×ˢ Finset.range v.ny
  have e : ∀ p : Nat × Nat, ((∑ q ∈ S, ((px0 v q.1 q.2 : ℝ) : ℂ) * (tw v.nx (p.1 * q.1) * tw v.ny (p.2 * q.2))) *
      (∑ r ∈ S, ((px0 w r.1 r.2 : ℝ) : ℂ) * (tw v.nx (p.1 * r.1) * tw v.ny (p.2 * r.2)))) * (tw v.nx (-(p.1 * a)) * tw v.ny (-(p.2 * b))) =
      ∑ q ∈ S, ∑ r ∈ S, (((px0 v q.1 q.2 : ℝ) : ℂ) * ((px0 w r.1 r.2 : ℝ) : ℂ)) *
        (tw v.nx (p.1 * (q.1 + r.1 - a)) * tw v.ny (p.2 * (q.2 + r.2 - b))) := by
    intro p
    rw [Finset.sum_mul_sum, Finset.sum_mul]
    apply Finset.sum_congr rfl
    intro q _
    rw [Finset.sum_mul]
    apply Finset.sum_congr rfl
    intro r _
    have e1 : ((p.1 : ℤ) * (q.1 + r.1 - a)) = (p.1 * q.1 + p.1 * r.1) + -(p.1 * a) := by ring
    have e2 : ((p.2 : ℤ) * (q.2 + r.2 - b)) = (p.2 * q.2 + p.2 * r.2) + -(p.2 * b) := by ring
    rw [e1, e2, tw_add, tw_add, tw_add, tw_add]
    ring
  rw [Finset.sum_congr rfl fun p _ => e p, Finset.sum_comm]
  push_cast
  rw [Finset.mul_sum]
  apply Finset.sum_congr rfl
  intro q _
  rw [Finset.sum_comm, Finset.mul_sum]
  apply Finset.sum_congr rfl
  intro r _
  rw [← Finset.mul_sum, orth2 hx hy]
  split
  · push_cast; ring
  · simp

theorem dft_herm (v : Img ℝ) (hx : 0 < v.nx) {k l : Nat} (hk : k < v.nx) (hl : l ≤ v.ny) (hy : 0 < v.ny) :
    (starRingEnd ℂ) (dft v ((v.nx - k) % v.nx) (v.ny - l)) = dft v k l := by
  unfold dft
  rw [map_sum]
  apply Finset.sum_congr rfl
  intro p _
  rw [map_mul, map_mul, tw_conj, tw_conj, Complex.conj_ofReal]
  congr 2
  · apply tw_congr hx
    have : ((v.nx : ℤ)) ∣ (((v.nx - k) % v.nx : Nat) : ℤ) + k := by
      have h1 : v.nx ∣ (v.nx - k) % v.nx + k := by
        rw [Nat.dvd_iff_mod_eq_zero, Nat.mod_add_mod]
        rw [show v.nx - k + k = v.nx by omega, Nat.mod_self]
      exact_mod_cast h1
    have e : -((((v.nx - k) % v.nx : Nat) : ℤ) * p.1) - k * p.1 = -(((((v.nx - k) % v.nx : Nat) : ℤ) + k) * p.1) := by ring
    rw [e]
    exact (dvd_neg).2 (Dvd.dvd.mul_right this _)
  · apply tw_congr hy
    refine ⟨-p.2, ?_⟩
    push_cast [hl]
    ring

/-! ### Layout of the transforms -/

theorem half_lt {nx ny k l : Nat} (hy : 0 < ny) (hk : k < nx) (hl : l ≤ ny / 2) :
    k * (ny / 2 + 1) + l < nx * (ny / 2 + 1) ∧ k * (ny / 2 + 1) + l < nx * ny := by
  have h1 : k * (ny / 2 + 1) + l < nx * (ny / 2 + 1) := flat_lt hk (by omega)
  exact ⟨h1, lt_of_lt_of_le h1 (Nat.mul_le_mul_left _ (by omega))⟩

theorem fft_ok {v : Img ℝ} (hx : 0 < v.nx) (hy : 0 < v.ny) :
    ∃ f, fft v = .ok f ∧ f.WF ∧ f.nx = v.nx ∧ f.ny = v.ny ∧ ∀ k l, k < v.nx → l ≤ v.ny / 2 → half f k l = dft v k l := by
  refine ⟨_, if_neg (by omega), ?_, rfl, rfl, ?_⟩
  · simp [Img.WF]
  · intro k l hk hl
    obtain ⟨h1, h2⟩ := half_lt hy hk hl
    unfold half
    simp only [List.getD_eq_getElem?_getD, List.getElem?_map, List.getElem?_range h2, Option.map_some, Option.getD_some]
    rw [if_pos h1]
    congr 1
    · rw [Nat.mul_comm, Nat.mul_add_div (by omega), Nat.div_eq_of_lt (by omega), Nat.add_zero]
    · rw [Nat.mul_comm, Nat.mul_add_mod, Nat.mod_eq_of_lt (by omega)]

/-- `ifft` of an array whose stored half is that of a Hermitian `F` -/
theorem ifft_ok {f : Img ℂ} (hx : 0 < f.nx) (hy : 0 < f.ny) (F : Nat → Nat → ℂ)
    (hF : ∀ k l, k < f.nx → l ≤ f.ny / 2 → half f k l = F k l)
    (hH : ∀ k l, k < f.nx → l < f.ny → (starRingEnd ℂ) (F ((f.nx - k) % f.nx) (f.ny - l)) = F k l) :
    ∃ r, ifft f = .ok r ∧ r.WF ∧ r.nx = f.nx ∧ r.ny = f.ny ∧ ∀ a b, a < f.nx → b < f.ny → r.at a b = some
      (∑ p ∈ Finset.range f.nx ×ˢ Finset.range f.ny, F p.1 p.2 * (tw f.nx (-(p.1 * (a : ℤ))) * tw f.ny (-(p.2 * (b : ℤ))))).re := by
  refine ⟨_, if_neg (by omega), by simp [Img.WF], rfl, rfl, ?_⟩
  intro a b ha hb
  unfold Img.at
  simp only [ha, hb, and_self, if_true]
  rw [List.getElem?_map, List.getElem?_range (flat_lt ha hb)]
  simp only [Option.map_some]
  have e1 : (a * f.ny + b) / f.ny = a := by
    rw [Nat.mul_comm, Nat.mul_add_div hy, Nat.div_eq_of_lt hb, Nat.add_zero]
  have e2 : (a * f.ny + b) % f.ny = b := by
    rw [Nat.mul_comm, Nat.mul_add_mod, Nat.mod_eq_of_lt hb]
  rw [e1, e2]
  congr 2
  apply Finset.sum_congr rfl
  intro p hp
  simp only [Finset.mem_product, Finset.mem_range] at hp
  congr 1
  unfold herm
  split
  · rename_i h
    exact hF _ _ hp.1 h
  · rename_i h
    rw [hF _ _ (Nat.mod_lt _ hx) (by omega)]
    exact hH _ _ hp.1 hp.2

theorem mulI_ok {a b : Img ℂ} (ha : a.WF) (hb : b.WF) (h1 : a.nx = b.nx) (h2 : a.ny = b.ny) :
    ∃ c, mulI a b = .ok c ∧ c.WF ∧ c.nx = a.nx ∧ c.ny = a.ny ∧ ∀ k l, half c k l = half a k l * half b k l := by
  have hl : a.px.length = b.px.length := by rw [ha, hb, h1, h2]
  refine ⟨_, if_pos ⟨h1, h2⟩, ?_, rfl, rfl, ?_⟩
  · simp only [Img.WF, List.length_zipWith]
    rw [hl, Nat.min_self, ← hl, ha]
  · intro k l
    unfold half
    simp only [List.getD_eq_getElem?_getD, List.getElem?_zipWith]
    rw [← h2]
    generalize k * (a.ny / 2 + 1) + l = i
    by_cases hi : i < a.px.length
    · rw [List.getElem?_eq_getElem hi, List.getElem?_eq_getElem (by omega)]; simp
    · rw [List.getElem?_eq_none (by omega), List.getElem?_eq_none (by omega)]; simp

/-- the way through Fourier space is the cyclic convolution times the number of elements -/
theorem through_spec {v w : Img ℝ} (hx : 0 < v.nx) (hy : 0 < v.ny) (h1 : w.nx = v.nx) (h2 : w.ny = v.ny) {f g : Img ℂ}
    (hf : fft v = .ok f) (hg : fft w = .ok g) :
    ∃ c r, mulI f g = .ok c ∧ c.WF ∧ c.nx = v.nx ∧ c.ny = v.ny ∧ ifft c = .ok r ∧ r.WF ∧ r.nx = v.nx ∧ r.ny = v.ny ∧
      ∀ a b, a < v.nx → b < v.ny → r.at a b = some ((v.nx * v.ny : ℝ) * circ v w a b) := by
  obtain ⟨f', f1, f2, f3, f4, f5⟩ := fft_ok hx hy
  obtain ⟨g', g1, g2, g3, g4, g5⟩ := fft_ok (v := w) (by omega) (by omega)
  rw [f1] at hf
  rw [g1] at hg
  cases hf
  cases hg
  obtain ⟨c, c1, c2, c3, c4, c5⟩ := mulI_ok f2 g2 (by omega) (by omega)
  obtain ⟨r, r1, r2, r3, r4, r5⟩ := ifft_ok (f := c) (by omega) (by omega) (fun k l => dft v k l * dft w k l)
    (by
      intro k l hk hl
      rw [c5, f5 k l (by omega) (by rw [← f4, ← c4]; exact hl), g5 k l (by omega) (by rw [h2, ← f4, ← c4]; exact hl)])
    (by
      intro k l hk hl
      have e1 : c.nx = v.nx := by omega
      have e2 : c.ny = v.ny := by omega
      rw [e1] at hk ⊢
      rw [e2] at hl ⊢
      rw [map_mul, dft_herm v hx hk hl.le hy]
      have := dft_herm w (by omega) (k := k) (l := l) (by omega) (by omega) (by omega)
      rw [h1, h2] at this
      rw [this])
  refine ⟨c, r, c1, c2, by omega, by omega, r1, r2, by omega, by omega, ?_⟩
  intro a b ha hb
  rw [r5 a b (by omega) (by omega)]
  have e1 : c.nx = v.nx := by omega
  have e2 : c.ny = v.ny := by omega
  rw [e1, e2, dft_conv v w hx hy h1 h2, Complex.ofReal_re]

end Verif.Astro
