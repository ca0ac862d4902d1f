import Verif.Astro.RegionProps
import Verif.Astro.ConvProps
import Verif.Astro.ProfileProps
import Verif.Math.OrderProps
import Verif.Index.Model
import Mathlib.Algebra.Order.Field.Basic
import Mathlib.Analysis.Complex.ExponentialBounds
import Mathlib.Tactic.NormNum
/-!
# qconvol (C223)

`tools/qconvol/qconvol.cpp`: the convolution of an image with a kernel read in a file, or with a Gaussian. The numbers are exact and finite, and the sizes far from the limits of the integers.
-/
namespace Verif.Qconvol
open Verif Verif.Astro Verif.Math Verif.Profile

variable {K : Type} [Field K] [LinearOrder K] [IsStrictOrderedRing K]

/-! ### Model -/

/-- `for (int_t i = 1; i <= imax; ++i) if (...) { hsize = i; break; }` (`qconvol.cpp:55-63`), from `i` on with `n` distances left; `hsize` stays 0 if nothing is found -/
def search (b : Img K) (my mx : Nat) : Nat → Nat → Res Nat
  | 0, _ => .ok 0
  | n + 1, i => do
    let p ← b.get (my - i) mx
    let q ← b.get (my + i) mx
    let r ← b.get my (mx - i)
    let s ← b.get my (mx + i)
    if p = 0 ∧ q = 0 ∧ r = 0 ∧ s = 0 then .ok i else search b my mx n (i + 1)

/-- The kernel of the file, trimmed (`qconvol.cpp:48-66`) -/
def trim (b : Img K) : Res (Img K) := do
  let (k, _) ← vmax (b.px.map some)
  match ← Index.multIds [b.nx, b.ny] k with
  | [my, mx] => do
    let imax := min (min my (b.nx - 1 - my)) (min mx (b.ny - 1 - mx))
    let h ← search b my mx imax 1
    let h := if h = 0 then imax else h
    subregionImg b [(my : Int) - h, (mx : Int) - h, (my : Int) + h, (mx : Int) + h] 0
  | _ => .ub

/-- The program with a kernel (`qconvol.cpp:44-66,91`) -/
noncomputable def qconvol (img b : Img ℝ) : Res (Img ℝ) := do
  let k ← trim b
  convolve2d img k

/-- The width of the Gaussian (`qconvol.cpp:79`) -/
noncomputable def sigma (radius : ℝ) : ℝ := radius / (1117 / 1000)

/-- The number of pixels of the Gaussian on a side (`qconvol.cpp:80-81`) -/
noncomputable def side (radius : ℝ) : Nat := if ⌈30 * sigma radius⌉₊ % 2 = 0 then ⌈30 * sigma radius⌉₊ + 1 else ⌈30 * sigma radius⌉₊

/-- `beam /= total(beam)` -/
noncomputable def unit (b : Img ℝ) : Img ℝ := ⟨b.nx, b.ny, b.px.map (· / b.px.sum)⟩

/-- The program without kernel (`qconvol.cpp:79-84,91`) -/
noncomputable def qgauss (img : Img ℝ) (radius : ℝ) : Res (Img ℝ) := do
  let b ← gaussianProfileC (side radius) (side radius) (sigma radius)
  convolve2d img (unit b)

/-! ### Specification -/

/-- the pixel is the brightest of the kernel, and the first one of those that are -/
def Peak (b : Img K) (my mx : Nat) : Prop := ∃ p, b.at my mx = some p ∧ (∀ y x v, b.at y x = some v → v ≤ p) ∧
  ∀ y x, y * b.ny + x < my * b.ny + mx → b.at y x ≠ some p

/-- the distance of the pixel to the closest edge of the image -/
def room (b : Img K) (my mx : Nat) : Nat := min (min my (b.nx - 1 - my)) (min mx (b.ny - 1 - mx))

/-- the four pixels at a distance `i` of the peak, on its line and on its column, are zero -/
def Cross (b : Img K) (my mx i : Nat) : Prop :=
  b.at (my - i) mx = some 0 ∧ b.at (my + i) mx = some 0 ∧ b.at my (mx - i) = some 0 ∧ b.at my (mx + i) = some 0

/-- the convolution with the whole kernel, centred on its pixel `(my,mx)` -/
noncomputable def convAt (m b : Img ℝ) (my mx i j : Nat) : ℝ :=
  ∑ y ∈ Finset.range b.nx, ∑ x ∈ Finset.range b.ny, b.atZ y x * m.atZ ((i : Int) - ((y : Int) - my)) ((j : Int) - ((x : Int) - mx))

/-! ### Helpers -/

theorem get_ok {v : Img K} (hw : v.WF) {x y : Nat} (hx : x < v.nx) (hy : y < v.ny) : ∃ a, v.get x y = .ok a ∧ v.at x y = some a := by
  obtain ⟨a, ha⟩ := at_isSome hw hx hy
  exact ⟨a, get_at ha, ha⟩

theorem search_ok (b : Img K) (hw : b.WF) (my mx : Nat) (hy : my < b.nx) (hx : mx < b.ny) (n i : Nat) (hi : 0 < i) (hn : i + n ≤ room b my mx + 1) :
    ∃ h, search b my mx n i = .ok h ∧ ((h = 0 ∧ ∀ j, i ≤ j → j < i + n → ¬ Cross b my mx j) ∨
      (i ≤ h ∧ h < i + n ∧ Cross b my mx h ∧ ∀ j, i ≤ j → j < h → ¬ Cross b my mx j)) := by
  induction n generalizing i with
  | zero => exact ⟨0, rfl, .inl ⟨rfl, by intro j h1 h2; omega⟩⟩
  | succ n ih =>
    have hn' := hn
    unfold room at hn'
    obtain ⟨p, ga, ea⟩ := get_ok hw (show my - i < b.nx by omega) hx
    obtain ⟨q, gb, eb⟩ := get_ok hw (show my + i < b.nx by omega) hx
    obtain ⟨r, gc, ec⟩ := get_ok hw hy (show mx - i < b.ny by omega)
    obtain ⟨s, gd, ed⟩ := get_ok hw hy (show mx + i < b.ny by omega)
    have hB : (p = 0 ∧ q = 0 ∧ r = 0 ∧ s = 0) ↔ Cross b my mx i := by
      simp only [Cross, ea, eb, ec, ed, Option.some.injEq]
    simp only [search, ga, gb, gc, gd, Res.ok_bind]
    by_cases hc : p = 0 ∧ q = 0 ∧ r = 0 ∧ s = 0
    · rw [if_pos hc]
      exact ⟨i, rfl, .inr ⟨le_refl _, by omega, hB.1 hc, by intro j h1 h2; omega⟩⟩
    · rw [if_neg hc]
      obtain ⟨h, e, h1⟩ := ih (i + 1) (by omega) (by omega)
      refine ⟨h, e, ?_⟩
      rcases h1 with ⟨h1, h2⟩ | ⟨h1, h2, h3, h4⟩
      · refine .inl ⟨h1, fun j h3 h4 => ?_⟩
        rcases Nat.eq_or_lt_of_le h3 with rfl | h5
        · exact fun h6 => hc (hB.2 h6)
        · exact h2 j (by omega) (by omega)
      · refine .inr ⟨by omega, by omega, h3, fun j h5 h6 => ?_⟩
        rcases Nat.eq_or_lt_of_le h5 with rfl | h7
        · exact fun h6 => hc (hB.2 h6)
        · exact h4 j (by omega) (by omega)

/-! ### C223 -/

/-- The kernel used is the square centred on the brightest pixel of the file whose half size is the first distance at which the line and the column of this pixel are zero on both sides, or that
of the closest edge if there is none; its pixels are those of the file. -/
theorem C223_trim (b : Img K) (hw : b.WF) (hy : 0 < b.nx) (hx : 0 < b.ny) (hbig : b.nx < 2 ^ 30) (hbig' : b.ny < 2 ^ 30) :
    ∃ my mx h s, trim b = .ok s ∧ Peak b my mx ∧ h ≤ room b my mx ∧ s.WF ∧ s.nx = 2 * h + 1 ∧ s.ny = 2 * h + 1 ∧
      (∀ r c, r < 2 * h + 1 → c < 2 * h + 1 → s.at r c = b.at (my + r - h) (mx + c - h)) ∧
      (∀ i, 0 < i → i < h → ¬ Cross b my mx i) ∧ (h < room b my mx → 0 < h ∧ Cross b my mx h) := by
  have hne : b.px.map some ≠ [] := by
    intro e
    have := hw
    rw [Img.WF, List.map_eq_nil_iff.1 e] at this
    simp at this
    omega
  obtain ⟨⟨k, p⟩, e1, ⟨hk, hmax⟩, hfirst⟩ := C25_max (b.px.map some) hne
  dsimp only at hk hmax hfirst
  rw [List.getElem?_map] at hk
  obtain ⟨p', hk', rfl⟩ := Option.map_eq_some_iff.1 hk
  have hkl : k < b.nx * b.ny := by rw [← hw]; exact (List.getElem?_eq_some_iff.1 hk').1
  have e2 : Index.multIds [b.nx, b.ny] k = .ok [k / b.ny, k % b.ny] := by
    simp only [Index.multIds, List.reverse_cons, List.reverse_nil, List.nil_append, List.cons_append, Index.multIdsLoop]
    rw [if_neg (by omega), if_neg (by omega), Nat.mod_eq_of_lt (Nat.div_lt_of_lt_mul (by rw [Nat.mul_comm]; exact hkl))]
  obtain ⟨my, hmy⟩ : ∃ a, a = k / b.ny := ⟨_, rfl⟩
  obtain ⟨mx, hmx⟩ : ∃ a, a = k % b.ny := ⟨_, rfl⟩
  have ly : my < b.nx := by rw [hmy]; exact Nat.div_lt_of_lt_mul (by rw [Nat.mul_comm]; exact hkl)
  have lx : mx < b.ny := by rw [hmx]; exact Nat.mod_lt _ hx
  have hkk : my * b.ny + mx = k := by rw [hmy, hmx, Nat.mul_comm]; exact Nat.div_add_mod k b.ny
  have hat : b.at my mx = some p' := by
    unfold Img.at
    rw [if_pos ⟨ly, lx⟩, hkk, hk']
  rw [← hmy, ← hmx] at e2
  have hpk : Peak b my mx := by
    refine ⟨p', hat, fun y x v hv => ?_, fun y x hlt hv => ?_⟩
    · obtain ⟨c, hc, hc'⟩ := hmax v (by
        unfold Img.at at hv
        split at hv
        · exact List.mem_map.2 ⟨v, List.mem_of_getElem? hv, rfl⟩
        · simp at hv)
      cases hc
      exact hc'
    · unfold Img.at at hv
      split at hv
      · exact hfirst (y * b.ny + x) (some p') (by omega) (by rw [List.getElem?_map, hv]; rfl) rfl
      · simp at hv
  obtain ⟨h0, e3, g⟩ := search_ok b hw my mx ly lx (room b my mx) 1 (by omega) (by omega)
  obtain ⟨h, hh⟩ : ∃ a, a = if h0 = 0 then room b my mx else h0 := ⟨_, rfl⟩
  have hle : h ≤ room b my mx := by rw [hh]; split <;> omega
  have hle' := hle
  unfold room at hle'
  have himg : b.nx * b.ny < 2 ^ 63 := calc
    b.nx * b.ny ≤ 2 ^ 30 * 2 ^ 30 := Nat.mul_le_mul hbig.le hbig'.le
    _ < 2 ^ 63 := by norm_num
  obtain ⟨s, e4, w1, w2, w3, w4⟩ := C64_image_partial b ((my : Int) - h) ((mx : Int) - h) ((my : Int) + h) ((mx : Int) + h) (0 : K) hw
    ⟨by omega, by omega, by omega, by omega, himg, by
      have : ((my : Int) + h - (my - h) + 1) * ((mx : Int) + h - (mx - h) + 1) = ((2 * h + 1) * (2 * h + 1) : Nat) := by push_cast; ring
      rw [this]
      have h2 : (2 * h + 1) * (2 * h + 1) ≤ 2 ^ 31 * 2 ^ 31 := Nat.mul_le_mul (by omega) (by omega)
      have : (2 * h + 1) * (2 * h + 1) < 2 ^ 63 := lt_of_le_of_lt h2 (by norm_num)
      exact_mod_cast this⟩ (by omega) (by omega)
  refine ⟨my, mx, h, s, ?_, hpk, hle, w1, by omega, by omega, ?_, ?_, ?_⟩
  · unfold trim
    rw [e1, Res.ok_bind]
    dsimp only
    rw [e2, Res.ok_bind]
    dsimp only
    have := e3
    unfold room at this
    rw [this, Res.ok_bind]
    have hh' := hh
    unfold room at hh'
    rw [← hh', e4]
  · intro r c hr hc
    rw [w4 r c (by omega) (by omega), if_pos (by omega)]
    congr 1 <;> omega
  · intro i hi hr
    rcases g with ⟨g1, g2⟩ | ⟨g1, g2, g3, g4⟩
    · exact g2 i hi (by omega)
    · rw [if_neg (by omega)] at hh
      exact g4 i hi (by omega)
  · intro hlt
    rcases g with ⟨g1, g2⟩ | ⟨g1, g2, g3, g4⟩
    · rw [if_pos g1] at hh; omega
    · rw [if_neg (by omega)] at hh
      subst hh
      exact ⟨by omega, g3⟩

/-- A kernel has a single (first) brightest pixel. -/
theorem peak_unique (b : Img K) {my mx my' mx' : Nat} (h : Peak b my mx) (h' : Peak b my' mx') : my = my' ∧ mx = mx' := by
  obtain ⟨p, h1, h2, h3⟩ := h
  obtain ⟨q, g1, g2, g3⟩ := h'
  obtain rfl : p = q := le_antisymm (g2 _ _ _ h1) (h2 _ _ _ g1)
  have l1 := at_lt h1
  have l2 := at_lt g1
  have e : my * b.ny + mx = my' * b.ny + mx' := by
    rcases Nat.lt_trichotomy (my * b.ny + mx) (my' * b.ny + mx') with hl | hl | hl
    · exact absurd h1 (g3 _ _ hl)
    · exact hl
    · exact absurd g1 (h3 _ _ hl)
  have hpos : 0 < b.ny := by omega
  have e1 : (my * b.ny + mx) / b.ny = my := by rw [Nat.mul_comm, Nat.mul_add_div hpos, Nat.div_eq_of_lt l1.2]; rfl
  have e2 : (my' * b.ny + mx') / b.ny = my' := by rw [Nat.mul_comm, Nat.mul_add_div hpos, Nat.div_eq_of_lt l2.2]; rfl
  have e3 : my = my' := by rw [← e1, ← e2, e]
  subst e3
  exact ⟨rfl, by omega⟩

/-- The image is convolved with the whole kernel of the file, centred on its brightest pixel, if `h` is a distance such that the kernel is zero from there on, fits in the file, and does not
vanish all around at a smaller distance on the line and the column of the brightest pixel. (Full statement: for all kernels.) -/
theorem C223_kernel_partial (m b : Img ℝ) (hm : m.WF) (hb : b.WF) (hn : 0 < m.nx ∧ 0 < m.ny) (hmb : m.nx < 2 ^ 62 ∧ m.ny < 2 ^ 62) (hbig : b.nx < 2 ^ 30 ∧ b.ny < 2 ^ 30)
    (my mx h : Nat) (hp : Peak b my mx) (hr : h ≤ room b my mx) (h0 : 0 < h)
    (hz : ∀ y x v, b.at y x = some v → (y + h ≤ my ∨ my + h ≤ y ∨ x + h ≤ mx ∨ mx + h ≤ x) → v = 0) (hc : ∀ i, 0 < i → i < h → ¬ Cross b my mx i) :
    ∃ r, qconvol m b = .ok r ∧ r.WF ∧ r.nx = m.nx ∧ r.ny = m.ny ∧ ∀ i j, i < m.nx → j < m.ny → r.at i j = some (convAt m b my mx i j) := by
  have hl : my < b.nx ∧ mx < b.ny := by obtain ⟨p, h1, -⟩ := hp; exact at_lt h1
  obtain ⟨my', mx', h', s, e1, hp', hle, w1, w2, w3, w4, g1, g2⟩ := C223_trim b hb (by omega) (by omega) hbig.1 hbig.2
  obtain ⟨rfl, rfl⟩ := peak_unique b hp hp'
  have hr' := hr
  unfold room at hr'
  have hcross : Cross b my mx h := by
    have key : ∀ y x, y < b.nx → x < b.ny → (y + h ≤ my ∨ my + h ≤ y ∨ x + h ≤ mx ∨ mx + h ≤ x) → b.at y x = some 0 := by
      intro y x h1 h2 h3
      obtain ⟨v, hv⟩ := at_isSome hb h1 h2
      rw [hv, hz y x v hv h3]
    exact ⟨key _ _ (by omega) (by omega) (by omega), key _ _ (by omega) (by omega) (by omega), key _ _ (by omega) (by omega) (by omega), key _ _ (by omega) (by omega) (by omega)⟩
  obtain rfl : h' = h := by
    rcases Nat.lt_trichotomy h' h with hl | hl | hl
    · obtain ⟨g3, g4⟩ := g2 (by omega)
      exact absurd g4 (hc h' g3 hl)
    · exact hl
    · exact absurd hcross (g1 h h0 hl)
  have hkey : ∀ y x, y < b.nx → x < b.ny → (y + h' ≤ my ∨ my + h' ≤ y ∨ x + h' ≤ mx ∨ mx + h' ≤ x) → b.at y x = some 0 := by
    intro y x h1 h2 h3
    obtain ⟨v, hv⟩ := at_isSome hb h1 h2
    rw [hv, hz y x v hv h3]
  obtain ⟨r, r1, r2, r3, r4, r5⟩ := C129_convolve2d_partial m s hm w1 hn ⟨hmb.1, hmb.2, by rw [w2]; omega, by rw [w3]; omega⟩
    (.inr fun y hy => by rw [w4 _ _ (by omega) (by omega)]; exact hkey _ _ (by omega) (by omega) (by omega))
    (.inr fun x hx => by rw [w4 _ _ (by omega) (by omega)]; exact hkey _ _ (by omega) (by omega) (by omega))
  refine ⟨r, by unfold qconvol; rw [e1, Res.ok_bind, r1], r2, r3, r4, fun i j hi hj => ?_⟩
  rw [r5 i j hi hj]
  congr 1
  have half : (2 * h' + 1) / 2 = h' := by omega
  unfold conv convAt
  rw [w2, w3, half]
  -- the rows and columns of the file that are in the square
  have hsub : ∀ (n : Nat) (c : Nat) (f : Nat → ℝ), h' ≤ c → c + h' < n → (∀ y, y < n → (y + h' ≤ c ∨ c + h' ≤ y) → f y = 0) →
      ∑ y ∈ Finset.range n, f y = ∑ r ∈ Finset.range (2 * h' + 1), f (c + r - h') := by
    intro n c f h1 h2 h3
    symm
    apply Finset.sum_of_injOn (fun r => c + r - h')
    · intro a ha d hd had
      simp only [Finset.coe_range, Set.mem_Iio] at ha hd had
      omega
    · intro a ha
      simp only [Finset.coe_range, Set.mem_Iio] at ha ⊢
      omega
    · intro y hy hny
      rw [Finset.mem_range] at hy
      apply h3 y hy
      by_contra hcon
      apply hny
      simp only [Finset.coe_range, Set.mem_image, Set.mem_Iio]
      exact ⟨y + h' - c, by omega, by omega⟩
    · intro a ha
      rfl
  symm
  rw [hsub b.nx my _ (by omega) (by omega) (by
    intro y hy hy'
    apply Finset.sum_eq_zero
    intro x hx
    rw [Finset.mem_range] at hx
    rw [atZ_nat, px0, hkey y x hy hx (by omega)]
    simp)]
  apply Finset.sum_congr rfl
  intro kx hkx
  rw [Finset.mem_range] at hkx
  rw [hsub b.ny mx _ (by omega) (by omega) (by
    intro x hx hx'
    rw [atZ_nat, px0, hkey _ x (by omega) hx (by omega)]
    simp)]
  apply Finset.sum_congr rfl
  intro ky hky
  rw [Finset.mem_range] at hky
  rw [atZ_nat, atZ_nat, px0, px0, w4 kx ky hkx hky]
  congr 2 <;> push_cast <;> omega

/-- Finding: if the brightest pixel of the kernel is on an edge of the file, the image that is written is zero everywhere. -/
theorem C223_edge_refuted (m b : Img ℝ) (hm : m.WF) (hb : b.WF) (hn : 0 < m.nx ∧ 0 < m.ny) (hmb : m.nx < 2 ^ 62 ∧ m.ny < 2 ^ 62) (hbig : b.nx < 2 ^ 30 ∧ b.ny < 2 ^ 30)
    (my mx : Nat) (hp : Peak b my mx) (hr : room b my mx = 0) :
    ∃ r, qconvol m b = .ok r ∧ r.nx = m.nx ∧ r.ny = m.ny ∧ ∀ i j, i < m.nx → j < m.ny → r.at i j = some 0 := by
  have hl : my < b.nx ∧ mx < b.ny := by obtain ⟨p, h1, -⟩ := hp; exact at_lt h1
  obtain ⟨my', mx', h', s, e1, hp', hle, w1, w2, w3, w4, g1, g2⟩ := C223_trim b hb (by omega) (by omega) hbig.1 hbig.2
  obtain ⟨rfl, rfl⟩ := peak_unique b hp hp'
  obtain rfl : h' = 0 := by omega
  obtain ⟨r, r1, r2, r3, r4, r5⟩ := direct_spec m s hm w1 hn ⟨hmb.1, hmb.2, by rw [w2]; omega, by rw [w3]; omega⟩
  refine ⟨r, by unfold qconvol; rw [e1, Res.ok_bind, r1], r3, r4, fun i j hi hj => ?_⟩
  rw [r5 i j hi hj, w2, w3]
  unfold convUp
  simp

example : Peak (⟨1, 2, [1, 0]⟩ : Img ℝ) 0 0 ∧ room (⟨1, 2, [1, 0]⟩ : Img ℝ) 0 0 = 0 := by
  refine ⟨⟨1, rfl, fun y x v hv => ?_, fun y x h => by simp at h⟩, rfl⟩
  have hl := at_lt hv
  have h1 : y < 1 := hl.1
  have h2 : x < 2 := hl.2
  unfold Img.at at hv
  rw [if_pos hl] at hv
  interval_cases y <;> interval_cases x <;> simp at hv <;> subst hv <;> norm_num

/-- Finding: a kernel that vanishes next to its brightest pixel, on its line and its column, loses the rest: here a ring, and the pixels on the diagonals. -/
theorem C223_ring_refuted : trim (⟨5, 5, [1, 1, 1, 1, 1, 1, 0, 0, 0, 1, 1, 0, 4, 0, 1, 1, 0, 0, 0, 1, 1, 1, 1, 1, 1]⟩ : Img Rat) = .ok ⟨3, 3, [0, 0, 0, 0, 4, 0, 0, 0, 0]⟩ := by decide +kernel

/-- Finding: the documented full width at half maximum of the Gaussian, twice `radius`, is not the one it has: at a distance `radius` of the centre the Gaussian is still above half of its
maximum (`1.117` is written for `1.177`, the square root of `2 log 2`). -/
theorem C223_fwhm_refuted (radius : ℝ) (h : 0 < radius) : 1 / 2 < Real.exp (-(radius ^ 2 / (2 * sigma radius ^ 2))) := by
  have e : radius ^ 2 / (2 * sigma radius ^ 2) = 1247689 / 2000000 := by
    unfold sigma
    field_simp
    norm_num
  rw [e, Real.exp_neg, one_div]
  apply (inv_lt_inv₀ (by norm_num) (Real.exp_pos _)).2
  rw [← Real.lt_log_iff_exp_lt (by norm_num)]
  have := Real.log_two_gt_d9
  linarith

/-- The Gaussian is not shifted: its number of pixels on a side is odd, so that it is centred on a pixel. -/
theorem C223_side (radius : ℝ) : side radius % 2 = 1 := by
  unfold side
  split <;> omega

/-- A radius so small that the Gaussian has a single pixel gives an image that is zero everywhere. -/
theorem C223_small_refuted (m : Img ℝ) (hm : m.WF) (hn : 0 < m.nx ∧ 0 < m.ny) (hmb : m.nx < 2 ^ 62 ∧ m.ny < 2 ^ 62) (radius : ℝ) (h0 : 0 < radius) (h : radius ≤ 1117 / 30000) :
    ∃ r, qgauss m radius = .ok r ∧ r.nx = m.nx ∧ r.ny = m.ny ∧ ∀ i j, i < m.nx → j < m.ny → r.at i j = some 0 := by
  have hs : side radius = 1 := by
    have : ⌈30 * sigma radius⌉₊ = 1 := by
      have h1 : ⌈30 * sigma radius⌉₊ ≤ 1 := by
        apply Nat.ceil_le.2
        unfold sigma
        rw [Nat.cast_one]
        linarith
      have h2 : 0 < ⌈30 * sigma radius⌉₊ := by
        apply Nat.ceil_pos.2
        unfold sigma
        positivity
      omega
    unfold side
    rw [this]
    rfl
  have hsg : 0 < sigma radius := by unfold sigma; positivity
  obtain ⟨b, b1, b2, b3, b4, -⟩ := C117_gauss_pixel hsg 1 1 ((1 / 2 : Nat) : ℝ) ((1 / 2 : Nat) : ℝ)
  have hw : (unit b).WF := by
    unfold unit Img.WF
    rw [List.length_map]
    exact b2
  obtain ⟨r, r1, r2, r3, r4, r5⟩ := direct_spec m (unit b) hm hw hn ⟨hmb.1, hmb.2, by show b.nx < _; rw [b3]; norm_num, by show b.ny < _; rw [b4]; norm_num⟩
  refine ⟨r, ?_, r3, r4, fun i j hi hj => ?_⟩
  · unfold qgauss gaussianProfileC
    rw [hs, b1, Res.ok_bind, r1]
  rw [r5 i j hi hj]
  have e1 : (unit b).nx = 1 := b3
  have e2 : (unit b).ny = 1 := b4
  rw [e1, e2]
  unfold convUp
  simp

/-- an example that meets the hypotheses of `C223_kernel_partial`: the brightest pixel of this kernel is (2,2), and `h` is 2 -/
def exB : Img ℝ := ⟨5, 5, [0, 0, 0, 0, 0, 0, 1, 2, 3, 0, 0, 0, 4, 0, 0, 0, 2, 2, 2, 0, 0, 0, 0, 0, 0]⟩
theorem exB_at : ∀ y x v, exB.at y x = some v → v ≤ 4 ∧ (y + 2 ≤ 2 ∨ 2 + 2 ≤ y ∨ x + 2 ≤ 2 ∨ 2 + 2 ≤ x → v = 0) ∧ (v = 4 → y * 5 + x = 12) := by
  intro y x v hv
  have hl := at_lt hv
  have h1 : y < 5 := hl.1
  have h2 : x < 5 := hl.2
  unfold Img.at at hv
  rw [if_pos hl] at hv
  interval_cases y <;> interval_cases x <;> simp [exB] at hv <;> subst hv <;> norm_num
example : ∃ r, qconvol ⟨1, 2, [3, 5]⟩ exB = .ok r ∧ r.at 0 1 = some (convAt ⟨1, 2, [3, 5]⟩ exB 2 2 0 1) := by
  obtain ⟨r, h1, -, -, -, h2⟩ := C223_kernel_partial ⟨1, 2, [3, 5]⟩ exB rfl rfl (by simp) (by norm_num) (by simp [exB]) 2 2 2
    ⟨4, rfl, fun y x v h => (exB_at y x v h).1, fun y x hlt h => by have := (exB_at y x 4 h).2.2 rfl; simp [exB] at hlt; omega⟩ (by decide) (by decide)
    (fun y x v h => (exB_at y x v h).2.1) (by
      intro i h1 h2
      obtain rfl : i = 1 := by omega
      intro h
      have : exB.at 1 2 = some 2 := rfl
      rw [Cross] at h
      rw [show 2 - 1 = 1 from rfl, this] at h
      norm_num at h)
  exact ⟨r, h1, h2 0 1 (by decide) (by decide)⟩
/-- a kernel that is not centred in the file -/
example : trim (⟨5, 6, [0, 0, 0, 0, 0, 0, 0, 1, 2, 3, 0, 0, 0, 0, 4, 0, 0, 0, 0, 2, 2, 2, 0, 0, 0, 0, 0, 0, 0, 0]⟩ : Img Rat) =
    .ok ⟨5, 5, [0, 0, 0, 0, 0, 0, 1, 2, 3, 0, 0, 0, 4, 0, 0, 0, 2, 2, 2, 0, 0, 0, 0, 0, 0]⟩ := by decide +kernel

end Verif.Qconvol
