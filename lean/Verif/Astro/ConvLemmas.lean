import Verif.Astro.FftLemmas
import Verif.Astro.ShiftProps
import Verif.Astro.RegionProps
import Verif.Astro.FilterProps
/-!
# Helper lemmas for C129-C131: cyclic convolution of padded images
-/
namespace Verif.Astro
open Verif

theorem sum_rot {n : Nat} (hn : 0 < n) (d : Int) (F : Nat → ℝ) :
    ∑ r ∈ Finset.range n, F r = ∑ k ∈ Finset.range n, F (wrapAdd k d n) := by
  refine Finset.sum_nbij' (fun r => wrapAdd r (-d) n) (fun k => wrapAdd k d n) ?_ ?_ ?_ ?_ ?_
  · intro a _; exact Finset.mem_range.2 (wrapAdd_lt _ _ hn)
  · intro a _; exact Finset.mem_range.2 (wrapAdd_lt _ _ hn)
  · intro a ha
    rw [wrapAdd_wrapAdd _ _ _ hn, Int.add_left_neg, wrapAdd_zero a (Finset.mem_range.1 ha)]
  · intro a ha
    rw [wrapAdd_wrapAdd _ _ _ hn, Int.add_right_neg, wrapAdd_zero a (Finset.mem_range.1 ha)]
  · intro a ha
    rw [wrapAdd_wrapAdd _ _ _ hn, Int.add_left_neg, wrapAdd_zero a (Finset.mem_range.1 ha)]

theorem wrap_unique {n q : Nat} (hq : q < n) {c : Int} : ((n : ℤ) ∣ q - c) ↔ q = (c % n).toNat := by
  have hn : (0 : ℤ) < n := by omega
  have h1 := Int.emod_nonneg c (ne_of_gt hn)
  have h2 := Int.emod_lt_of_pos c hn
  constructor
  · intro h
    have h3 : (q : ℤ) % n = c % n := Int.emod_eq_emod_iff_emod_sub_eq_zero.2 (Int.emod_eq_zero_of_dvd h)
    rw [Int.emod_eq_of_lt (by omega) (by omega)] at h3
    omega
  · intro h
    have h3 : (q : ℤ) = c % n := by omega
    rw [h3]
    exact Int.dvd_of_emod_eq_zero (by rw [Int.emod_sub_emod]; simp)

/-- cyclic convolution as one sum -/
theorem circ_mod (v w : Img ℝ) (hx : 0 < v.nx) (hy : 0 < v.ny) (a b : ℤ) :
    circ v w a b = ∑ r ∈ Finset.range v.nx, ∑ s ∈ Finset.range v.ny,
      px0 w r s * px0 v (((a - r) % v.nx).toNat) (((b - s) % v.ny).toNat) := by
  unfold circ
  rw [Finset.sum_comm, Finset.sum_product]
  apply Finset.sum_congr rfl
  intro r _
  apply Finset.sum_congr rfl
  intro s _
  have l1 : ((a - r) % v.nx).toNat < v.nx := by
    have := Int.emod_nonneg (a - r) (b := v.nx) (by omega)
    have := Int.emod_lt_of_pos (a - r) (b := v.nx) (by omega)
    omega
  have l2 : ((b - s) % v.ny).toNat < v.ny := by
    have := Int.emod_nonneg (b - s) (b := v.ny) (by omega)
    have := Int.emod_lt_of_pos (b - s) (b := v.ny) (by omega)
    omega
  rw [Finset.sum_eq_single (((a - r) % v.nx).toNat, ((b - s) % v.ny).toNat)]
  · rw [if_pos, mul_comm]
    have e1 := (wrap_unique l1 (c := a - r)).2 rfl
    have e2 := (wrap_unique l2 (c := b - s)).2 rfl
    constructor
    · convert e1 using 1; ring
    · convert e2 using 1; ring
  · intro q hq hne
    simp only [Finset.mem_product, Finset.mem_range] at hq
    rw [if_neg]
    rintro ⟨h1, h2⟩
    apply hne
    apply Prod.ext
    · apply (wrap_unique hq.1).1
      convert h1 using 1; ring
    · apply (wrap_unique hq.2).1
      convert h2 using 1; ring
  · intro h
    exact absurd (by simp [l1, l2]) h

theorem atZ_nat (m : Img ℝ) (x y : Nat) : m.atZ x y = px0 m x y := by
  unfold Img.atZ px0
  rw [if_pos (by omega)]; simp

theorem px0_out (m : Img ℝ) {x y : Nat} (h : ¬ (x < m.nx ∧ y < m.ny)) : px0 m x y = 0 := by
  unfold px0
  rw [at_none h]; rfl

/-- Spec: the zero-padded convolution with the first `K1` rows and `K2` columns of the kernel, centred at `(hx,hy)`. -/
noncomputable def convUp (m k : Img ℝ) (K1 K2 hx hy : Nat) (i j : Nat) : ℝ :=
  ∑ kx ∈ Finset.range K1, ∑ ky ∈ Finset.range K2,
    k.atZ kx ky * m.atZ ((i : Int) - (kx - hx)) ((j : Int) - (ky - hy))

theorem circ_conv {v w m k : Img ℝ} {hx hy K1 K2 : Nat} (hm : 0 < m.nx ∧ 0 < m.ny)
    (hv : v.nx = m.nx + 2 * hx ∧ v.ny = m.ny + 2 * hy)
    (hpv : ∀ x y, x < v.nx → y < v.ny → px0 v x y = m.atZ ((x : Int) - hx) ((y : Int) - hy))
    (hK : K1 ≤ 2 * hx + 1 ∧ K2 ≤ 2 * hy + 1)
    (hpw : ∀ x y, x < v.nx → y < v.ny → px0 w (wrapAdd x (-(hx : Int)) v.nx) (wrapAdd y (-(hy : Int)) v.ny) =
      if x < K1 ∧ y < K2 then k.atZ x y else 0)
    {i j : Nat} (hi : i < m.nx) (hj : j < m.ny) :
    circ v w ((hx + i : Nat) : Int) ((hy + j : Nat) : Int) = convUp m k K1 K2 hx hy i j := by
  have px : 0 < v.nx := by omega
  have py : 0 < v.ny := by omega
  rw [circ_mod v w px py]
  rw [sum_rot px (-(hx : Int))]
  simp only [sum_rot py (-(hy : Int)) (fun s => px0 w _ s * _)]
  unfold convUp
  rw [← Finset.sum_subset (s₁ := Finset.range K1) (s₂ := Finset.range v.nx)]
  · apply Finset.sum_congr rfl
    intro kx hkx
    rw [Finset.mem_range] at hkx
    rw [← Finset.sum_subset (s₁ := Finset.range K2) (s₂ := Finset.range v.ny)]
    · apply Finset.sum_congr rfl
      intro ky hky
      rw [Finset.mem_range] at hky
      rw [hpw kx ky (by omega) (by omega), if_pos ⟨hkx, hky⟩]
      congr 1
      have e1 : ((((hx + i : Nat) : Int) - (wrapAdd kx (-(hx : Int)) v.nx : Nat)) % v.nx).toNat = 2 * hx + i - kx := by
        rw [wrapAdd_cast _ _ px, Int.sub_emod_emod]
        rw [Int.emod_eq_of_lt (by omega) (by omega)]
        omega
      have e2 : ((((hy + j : Nat) : Int) - (wrapAdd ky (-(hy : Int)) v.ny : Nat)) % v.ny).toNat = 2 * hy + j - ky := by
        rw [wrapAdd_cast _ _ py, Int.sub_emod_emod]
        rw [Int.emod_eq_of_lt (by omega) (by omega)]
        omega
      rw [e1, e2, hpv _ _ (by omega) (by omega)]
      congr 1 <;> omega
    · intro a ha
      rw [Finset.mem_range] at ha ⊢; omega
    · intro ky h1 h2
      rw [Finset.mem_range] at h1 h2
      rw [hpw kx ky (by omega) h1, if_neg (by omega), zero_mul]
  · intro a ha
    rw [Finset.mem_range] at ha ⊢; omega
  · intro kx h1 h2
    rw [Finset.mem_range] at h1 h2
    apply Finset.sum_eq_zero
    intro ky hky
    rw [Finset.mem_range] at hky
    rw [hpw kx ky h1 hky, if_neg (by omega), zero_mul]

/-! ### Padded images and kernels -/

theorem pad_px0 {m v : Img ℝ} {hx hy : Nat} (hm : m.WF)
    (h : ∀ x y, x < v.nx → y < v.ny → v.at x y = if hx ≤ x ∧ x < m.nx + hx ∧ hy ≤ y ∧ y < m.ny + hy then m.at (x - hx) (y - hy) else some 0) :
    ∀ x y, x < v.nx → y < v.ny → px0 v x y = m.atZ ((x : Int) - hx) ((y : Int) - hy) := by
  intro x y h1 h2
  unfold px0
  rw [h x y h1 h2]
  unfold Img.atZ
  split
  · rename_i hc
    rw [if_pos (by omega)]
    congr 2 <;> omega
  · rename_i hc
    simp only [Option.getD_some]
    split
    · rename_i hd
      rw [at_none (by omega)]; rfl
    · rfl

/-- the transform of the kernel: that of an array `w` of the dimensions of the padded map, which holds the kernel around its
first element -/
theorem kernel_spec (k : Img ℝ) (hk : k.WF) (mx my : Nat) (ho : k.nx % 2 = 1 ∧ k.ny % 2 = 1) (hm : 0 < mx ∧ 0 < my)
    (hb : mx < 2 ^ 62 ∧ my < 2 ^ 62 ∧ k.nx < 2 ^ 62 ∧ k.ny < 2 ^ 62) :
    ∃ t w f, enlarge k 0 0 (wsub mx 1) (wsub my 1) 0 = .ok t ∧
      shift t (-((k.nx / 2 : Nat) : Int)) (-((k.ny / 2 : Nat) : Int)) = .ok w ∧ fft w = .ok f ∧ w.WF ∧
      f.WF ∧ f.nx = w.nx ∧ f.ny = w.ny ∧
      w.nx = mx + 2 * (k.nx / 2) ∧ w.ny = my + 2 * (k.ny / 2) ∧
      ∀ x y, x < w.nx → y < w.ny → px0 w (wrapAdd x (-((k.nx / 2 : Nat) : Int)) w.nx) (wrapAdd y (-((k.ny / 2 : Nat) : Int)) w.ny) =
        if x < k.nx ∧ y < k.ny then k.atZ x y else 0 := by
  have hW : (2 : Nat) ^ 62 + 2 ^ 62 < W64 := by decide
  rw [wsub_eq (by omega) (by omega), wsub_eq (by omega) (by omega)]
  obtain ⟨t, t1, t2, t3, t4, t5⟩ := enlarge_spec k 0 0 (mx - 1) (my - 1) (0 : ℝ) hk (by omega) (by omega)
  obtain ⟨w, w1, w2, w3, w4, w5⟩ := C62_shift t (-((k.nx / 2 : Nat) : Int)) (-((k.ny / 2 : Nat) : Int)) t2 (by omega) (by omega) (by omega) (by omega)
  obtain ⟨f, f1, f2, f3, f4, -⟩ := fft_ok (v := w) (by omega) (by omega)
  refine ⟨t, w, f, t1, w1, f1, w2, f2, f3, f4, by omega, by omega, ?_⟩
  intro x y hx hy
  rw [w3] at hx
  rw [w4] at hy
  have := w5 x y hx hy
  unfold px0 wrapAdd
  rw [w3, w4, this, t5 x y hx hy]
  by_cases h : x < k.nx ∧ y < k.ny
  · rw [if_pos (by omega), if_pos h, atZ_nat]; rfl
  · rw [if_neg (by omega), if_neg h]; rfl

theorem divI_at (a : Img ℝ) (n : Nat) (x y : Nat) : (divI a n).at x y = (a.at x y).map (· / (n : ℝ)) := by
  unfold divI Img.at
  simp only
  split
  · rw [List.getElem?_map]
  · rfl

/-- the common end -/
theorem finish_spec {v w : Img ℝ} {c : Img ℂ} {r : Img ℝ} {hx hy mx my : Nat} (hm : 0 < mx ∧ 0 < my) (hc : c.WF)
    (hcn : c.nx = v.nx ∧ c.ny = v.ny) (hv : v.nx = mx + 2 * hx ∧ v.ny = my + 2 * hy) (hb : v.nx < W64 ∧ v.ny < W64)
    (hr : ifft c = .ok r) (hw : r.WF) (hrn : r.nx = v.nx ∧ r.ny = v.ny)
    (h : ∀ a b, a < v.nx → b < v.ny → r.at a b = some ((v.nx * v.ny : ℝ) * circ v w a b)) :
    ∃ s, finish c hx hy = .ok s ∧ s.WF ∧ s.nx = mx ∧ s.ny = my ∧
      ∀ i j, i < mx → j < my → s.at i j = some (circ v w ((hx + i : Nat) : Int) ((hy + j : Nat) : Int)) := by
  obtain ⟨s, s1, s2, s3, s4, s5⟩ := shrink_spec r hx hy hx hy (0 : ℝ) hw (by omega) (by omega) (by omega) (by omega) (by omega) (by omega)
  refine ⟨divI s c.px.length, ?_, ?_, ?_, ?_, ?_⟩
  · unfold finish
    rw [hr, Res.ok_bind, s1, Res.ok_bind]
  · simpa [Img.WF, divI] using s2
  · show s.nx = mx
    omega
  · show s.ny = my
    omega
  · intro i j hi hj
    rw [divI_at, s5 i j (by omega) (by omega), h _ _ (by omega) (by omega)]
    simp only [Option.map_some]
    have e : ((c.px.length : Nat) : ℝ) = v.nx * v.ny := by
      rw [hc, hcn.1, hcn.2]; push_cast; ring
    rw [e, mul_div_cancel_left₀]
    · rw [Nat.add_comm i hx, Nat.add_comm j hy]
    · have h1 : (v.nx : ℝ) ≠ 0 := by
        have : v.nx ≠ 0 := by omega
        exact_mod_cast this
      have h2 : (v.ny : ℝ) ≠ 0 := by
        have : v.ny ≠ 0 := by omega
        exact_mod_cast this
      exact mul_ne_zero h1 h2

end Verif.Astro
