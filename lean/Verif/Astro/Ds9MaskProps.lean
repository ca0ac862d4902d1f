import Verif.Astro.Ds9Mask
import Verif.Math.HullProps
import Mathlib.Data.Rat.Floor
import Mathlib.Tactic.Linarith
import Mathlib.Tactic.NormNum
/-!
# C116: circular masks and masks of regions
-/
namespace Verif.Ds9
open Verif Verif.Astro Verif.Hull

variable {K : Type} [Field K] [LinearOrder K] [IsStrictOrderedRing K] [FloorRing K]

/-- Spec: the corners of the pixel -/
def pixelCorners (ix iy : Nat) : List (K × K) :=
  [(ix - 1 / 2, iy - 1 / 2), (ix + 1 / 2, iy - 1 / 2), (ix + 1 / 2, iy + 1 / 2), (ix - 1 / 2, iy + 1 / 2)]

/-- Spec: the point is in the disc -/
def inDisc (radius x y : K) (p : K × K) : Prop := (p.1 - x) ^ 2 + (p.2 - y) ^ 2 ≤ radius ^ 2

instance (radius x y : K) (p : K × K) : Decidable (inDisc radius x y p) := inferInstanceAs (Decidable (_ ≤ _))

/-- Spec: how many corners of the pixel are in the disc -/
def inCorners (radius x y : K) (ix iy : Nat) : Nat := (pixelCorners ix iy).countP fun p => decide (inDisc radius x y p)

omit [LinearOrder K] [IsStrictOrderedRing K] [FloorRing K] in
theorem ite_cast {P Q : Prop} [Decidable P] [Decidable Q] (h : P ↔ Q) : (if P then (1 : K) else 0) = ((if Q then 1 else 0 : Nat) : K) := by
  by_cases hq : Q
  · rw [if_pos (h.2 hq), if_pos hq, Nat.cast_one]
  · rw [if_neg (mt h.1 hq), if_neg hq, Nat.cast_zero]

omit [IsStrictOrderedRing K] [FloorRing K] in
theorem corners_eq (radius x y : K) (ix iy : Nat) : corners (radius * radius) x y ix iy = inCorners radius x y ix iy := by
  unfold corners inCorners pixelCorners
  simp only [List.countP_cons, List.countP_nil]
  have e : ∀ a b : K, (if (a - x) ^ 2 + (b - y) ^ 2 ≤ radius * radius then (1 : K) else 0) =
      ((if decide (inDisc radius x y (a, b)) = true then 1 else 0 : Nat) : K) := fun a b =>
    ite_cast (by rw [decide_eq_true_eq, inDisc, pow_two radius])
  rw [e, e, e, e]
  push_cast
  ring

theorem abs_of_inDisc {radius x y : K} (hr : 0 ≤ radius) {p : K × K} (h : inDisc radius x y p) : |p.1 - x| ≤ radius ∧ |p.2 - y| ≤ radius := by
  unfold inDisc at h
  constructor <;> rw [← sq_le_sq₀ (abs_nonneg _) hr, sq_abs]
  · nlinarith [sq_nonneg (p.2 - y)]
  · nlinarith [sq_nonneg (p.1 - x)]

/-- a pixel with a corner in the disc is in the region that is visited -/
theorem in_range {radius x : K} {n ix : Nat} (hx : 0 < x + radius) (hn : ix < n) (hw : n < W64)
    (h : |(ix : K) - 1 / 2 - x| ≤ radius ∨ |(ix : K) + 1 / 2 - x| ≤ radius) : first x radius ≤ ix ∧ ix ≤ last n x radius := by
  have hlo : x - radius ≤ ix + 1 / 2 := by
    rcases h with h | h <;> have := abs_le.1 h <;> linarith [this.1, this.2]
  have hhi : (ix : K) - 1 / 2 ≤ x + radius := by
    rcases h with h | h <;> have := abs_le.1 h <;> linarith [this.1, this.2]
  constructor
  · unfold first
    split
    · have : ⌊x - radius⌋ ≤ (ix : Int) := by
        have h1 : ⌊x - radius⌋ < (ix : Int) + 1 := by
          rw [Int.floor_lt]; push_cast; linarith
        omega
      omega
    · omega
  · unfold last
    rw [wsub_eq hw (by omega)]
    split
    · have : (ix : Int) ≤ ⌈x + radius⌉ := by
        have h1 : (ix : Int) - 1 < ⌈x + radius⌉ := by
          rw [Int.lt_ceil]; push_cast; linarith
        omega
      omega
    · omega

theorem last_lt {radius x : K} {n : Nat} (hn : 0 < n) (hw : n < W64) : last n x radius < n := by
  unfold last
  rw [wsub_eq hw (by omega)]
  split <;> omega

/-- **C116** the mask has the given dimensions, and each pixel has the fraction of its corners that are in the disc (0 if the disc does not reach positive
coordinates) -/
theorem C116_circle_partial (nx ny : Nat) (hnx : 0 < nx) (hny : 0 < ny) (hwx : nx < W64) (hwy : ny < W64) (radius x y : K) (hr : 0 ≤ radius) :
    ∃ m, circularMask nx ny radius x y = .ok m ∧ m.WF ∧ m.nx = nx ∧ m.ny = ny ∧ ∀ ix iy, ix < nx → iy < ny →
      m.at ix iy = some (if 0 < x + radius ∧ 0 < y + radius then (inCorners radius x y ix iy : K) / 4 else 0) := by
  unfold circularMask
  rw [Res.check_pos hr]
  simp only [Res.ok_bind]
  by_cases hc : 0 < x + radius ∧ 0 < y + radius
  · rw [if_pos hc]
    have lx := last_lt (radius := radius) (x := x) hnx hwx
    have ly := last_lt (radius := radius) (x := y) hny hwy
    obtain ⟨m, h1, h2, h3, h4, h5, h6⟩ := for2_write (body := fun i j (m : Img K) => m.put (first x radius + i) (first y radius + j)
        (1 / 4 * corners (radius * radius) x y (first x radius + i) (first y radius + j)))
      (nx := last nx x radius + 1 - first x radius) (ny := last ny y radius + 1 - first y radius)
      (fun i => first x radius + i) (fun j => first y radius + j)
      (fun i j => 1 / 4 * corners (radius * radius) x y (first x radius + i) (first y radius + j)) (Img.fill nx ny (0 : K)) (fill_wf _ _ _)
      (fun i hi => by show _ < nx; omega) (fun j hj => by show _ < ny; omega) (fun _ _ _ _ h => by simpa using h) (fun _ _ _ _ h => by simpa using h)
      (fun _ _ _ _ _ _ _ _ => rfl)
    refine ⟨m, h1, h2, h3, h4, fun ix iy hix hiy => ?_⟩
    rw [if_pos hc]
    by_cases hin : (first x radius ≤ ix ∧ ix ≤ last nx x radius) ∧ (first y radius ≤ iy ∧ iy ≤ last ny y radius)
    · have := h5 (ix - first x radius) (iy - first y radius) (by omega) (by omega)
      rw [show first x radius + (ix - first x radius) = ix by omega, show first y radius + (iy - first y radius) = iy by omega, corners_eq] at this
      rw [this]; congr 1; ring
    · rw [h6 ix iy, fill_at, if_pos ⟨hix, hiy⟩]
      · have h0 : inCorners radius x y ix iy = 0 := by
          unfold inCorners
          rw [List.countP_eq_zero]
          intro p hp hd
          have hd := abs_of_inDisc hr (of_decide_eq_true hd)
          have : (p.1 = (ix : K) - 1 / 2 ∨ p.1 = (ix : K) + 1 / 2) ∧ (p.2 = (iy : K) - 1 / 2 ∨ p.2 = (iy : K) + 1 / 2) := by
            simp only [pixelCorners, List.mem_cons, List.not_mem_nil, or_false] at hp
            rcases hp with rfl | rfl | rfl | rfl <;> simp
          refine hin ⟨in_range hc.1 hix hwx ?_, in_range hc.2 hiy hwy ?_⟩
          · rcases this.1 with h | h
            · left; rw [← h]; exact hd.1
            · right; rw [← h]; exact hd.1
          · rcases this.2 with h | h
            · left; rw [← h]; exact hd.2
            · right; rw [← h]; exact hd.2
        rw [h0]; simp
      · rintro ⟨i, j, hi, hj, rfl, rfl⟩
        exact hin (by omega)
  · rw [if_neg hc]
    refine ⟨_, rfl, fill_wf _ _ _, rfl, rfl, fun ix iy hix hiy => ?_⟩
    rw [fill_at, if_pos ⟨hix, hiy⟩, if_neg hc]

/-- **C116** a negative radius is refused -/
theorem C116_negative (nx ny : Nat) (radius x y : K) (hr : radius < 0) : circularMask nx ny radius x y = .abort := by
  unfold circularMask
  rw [Res.check_neg (by linarith)]; rfl

/-- **C116** the first pixels have corners with negative coordinates: a disc that contains one of them but does not reach positive coordinates
is ignored -/
theorem C116_edge_refuted : ((circularMask 2 2 (2 / 10 : ℚ) (-3 / 10) (1 / 2)).map fun m => m.at 0 0) = .ok (some 0) ∧
    inCorners (2 / 10 : ℚ) (-3 / 10) (1 / 2) 0 0 = 1 := by
  constructor <;> decide +kernel

/-- at most two corners of a pixel are in a disc that does not reach positive coordinates -/
theorem few_corners {radius x y : K} (hr : 0 ≤ radius) (h : ¬ (0 < x + radius ∧ 0 < y + radius)) (ix iy : Nat) : inCorners radius x y ix iy ≤ 2 := by
  have hx0 : (0 : K) ≤ ix := Nat.cast_nonneg _
  have hy0 : (0 : K) ≤ iy := Nat.cast_nonneg _
  unfold inCorners pixelCorners
  simp only [List.countP_cons, List.countP_nil, decide_eq_true_eq]
  have hd : ∀ p : K × K, inDisc radius x y p → p.1 - x ≤ radius ∧ p.2 - y ≤ radius :=
    fun p hp => ⟨(le_abs_self _).trans (abs_of_inDisc hr hp).1, (le_abs_self _).trans (abs_of_inDisc hr hp).2⟩
  by_cases hx : 0 < x + radius
  · have hy : ¬ 0 < y + radius := fun hy => h ⟨hx, hy⟩
    have n1 : ∀ a : K, ¬ inDisc radius x y (a, (iy : K) + 1 / 2) := fun a ha => by
      have := (hd _ ha).2; simp only at this; linarith
    rw [if_neg (n1 _), if_neg (n1 _)]
    split <;> split <;> omega
  · have n1 : ∀ a : K, ¬ inDisc radius x y ((ix : K) + 1 / 2, a) := fun a ha => by
      have := (hd _ ha).1; simp only at this; linarith
    rw [if_neg (n1 _), if_neg (n1 _)]
    split <;> split <;> omega

/-- **C116** a pixel has the value 1 exactly when it is entirely in the disc -/
theorem C116_full (nx ny : Nat) (hwx : nx < W64) (hwy : ny < W64) (radius x y : K) (hr : 0 ≤ radius) (ix iy : Nat) (hix : ix < nx) (hiy : iy < ny)
    (m : Img K) (hm : circularMask nx ny radius x y = .ok m) :
    m.at ix iy = some 1 ↔ ∀ p : K × K, |p.1 - ix| ≤ 1 / 2 → |p.2 - iy| ≤ 1 / 2 → inDisc radius x y p := by
  obtain ⟨m', h1, -, -, -, h2⟩ := C116_circle_partial nx ny (by omega) (by omega) hwx hwy radius x y hr
  rw [hm] at h1; cases h1
  rw [h2 ix iy hix hiy, Option.some.injEq]
  have hall : inCorners radius x y ix iy = 4 ↔ ∀ p ∈ pixelCorners ix iy, inDisc radius x y p := by
    unfold inCorners
    have : (pixelCorners (K := K) ix iy).length = 4 := rfl
    rw [← this, List.countP_eq_length]
    simp
  constructor
  · intro h p hp1 hp2
    have hc : inCorners radius x y ix iy = 4 := by
      by_cases hc : 0 < x + radius ∧ 0 < y + radius
      · rw [if_pos hc, div_eq_one_iff_eq (by norm_num)] at h
        exact_mod_cast h
      · rw [if_neg hc] at h; exact absurd h (by simp)
    have h4 := hall.1 hc
    simp only [pixelCorners, List.mem_cons, List.not_mem_nil, or_false, forall_eq_or_imp, forall_eq, inDisc] at h4
    obtain ⟨c1, c2, c3, c4⟩ := h4
    obtain ⟨a1, a2⟩ := abs_le.1 hp1
    obtain ⟨b1, b2⟩ := abs_le.1 hp2
    unfold inDisc
    -- the square of a coordinate is at most that of one of the two ends
    have e : ∀ u i c : K, -(1 / 2) ≤ u - i → u - i ≤ 1 / 2 → (u - c) ^ 2 ≤ (i - 1 / 2 - c) ^ 2 ∨ (u - c) ^ 2 ≤ (i + 1 / 2 - c) ^ 2 := by
      intro u i c h1 h2
      rcases le_total c u with h | h
      · right; nlinarith
      · left; nlinarith
    rcases e p.1 ix x a1 a2 with h5 | h5 <;> rcases e p.2 iy y b1 b2 with h6 | h6 <;> linarith
  · intro h
    have h4 : inCorners radius x y ix iy = 4 := by
      rw [hall]
      intro p hp
      have hb : |(1 / 2 : K)| ≤ 1 / 2 := by rw [abs_of_pos (by norm_num)]
      have hb' : |(-(1 / 2) : K)| ≤ 1 / 2 := by rw [abs_neg]; exact hb
      have t1 : (ix : K) - 1 / 2 - ix = -(1 / 2) := by ring
      have t2 : (ix : K) + 1 / 2 - ix = 1 / 2 := by ring
      have t3 : (iy : K) - 1 / 2 - iy = -(1 / 2) := by ring
      have t4 : (iy : K) + 1 / 2 - iy = 1 / 2 := by ring
      simp only [pixelCorners, List.mem_cons, List.not_mem_nil, or_false] at hp
      rcases hp with rfl | rfl | rfl | rfl <;> refine h _ ?_ ?_ <;> simp only [t1, t2, t3, t4] <;> assumption
    have hc : 0 < x + radius ∧ 0 < y + radius := by
      by_contra hc
      have := few_corners hr hc ix iy
      omega
    rw [if_pos hc, h4]; norm_num

/-- **C116** a circle adds to the mask exactly the pixels with at least three corners in the disc, and removes none -/
theorem C116_mask_circle (mask : Img Bool) (hw : mask.WF) (hnx : 0 < mask.nx) (hny : 0 < mask.ny) (hwx : mask.nx < W64) (hwy : mask.ny < W64)
    (x y radius : K) (hr : 0 ≤ radius) : ∃ m, maskCircle mask x y radius = .ok m ∧ m.WF ∧ m.nx = mask.nx ∧ m.ny = mask.ny ∧
      ∀ iy ix b, mask.at iy ix = some b → m.at iy ix = some (b || decide (3 ≤ inCorners radius y x iy ix)) := by
  obtain ⟨c, h1, h2, h3, h4, h5⟩ := C116_circle_partial mask.nx mask.ny hnx hny hwx hwy radius y x hr
  have hne : mask.px ≠ [] := by
    intro h
    have h1 : mask.px.length = mask.nx * mask.ny := hw
    have h2 := Nat.mul_pos hnx hny
    rw [← h1, h] at h2
    simp at h2
  unfold maskCircle
  rw [Res.check_pos hne]
  simp only [Res.ok_bind, h1]
  have hl : mask.px.length = mask.nx * mask.ny := hw
  have hcl : c.px.length = mask.nx * mask.ny := by rw [← h3, ← h4]; exact h2
  refine ⟨_, rfl, ?_, rfl, rfl, fun iy ix b hb => ?_⟩
  · show (List.zipWith _ _ _).length = _
    rw [List.length_zipWith, hl, hcl, Nat.min_self]
  · obtain ⟨q1, q2⟩ := at_lt hb
    have hv := h5 iy ix q1 q2
    unfold Img.at at hb hv ⊢
    simp only [if_pos (show iy < mask.nx ∧ ix < mask.ny from ⟨q1, q2⟩)] at hb ⊢
    rw [h3, h4, if_pos (show iy < mask.nx ∧ ix < mask.ny from ⟨q1, q2⟩)] at hv
    rw [List.getElem?_zipWith, hb, hv]
    simp only [Option.some.injEq]
    congr 1
    rw [decide_eq_decide]
    by_cases hc : 0 < y + radius ∧ 0 < x + radius
    · rw [if_pos hc, gt_iff_lt, div_lt_div_iff₀ (by norm_num) (by norm_num), one_mul]
      constructor
      · intro h
        by_contra hlt
        have : inCorners radius y x iy ix ≤ 2 := by omega
        have : (inCorners radius y x iy ix : K) ≤ 2 := by exact_mod_cast this
        linarith
      · intro h
        have : (3 : K) ≤ inCorners radius y x iy ix := by exact_mod_cast h
        linarith
    · rw [if_neg hc]
      have := few_corners hr hc iy ix
      constructor
      · intro h; exact absurd h (by norm_num)
      · intro h; omega

/-- **C116** a circle inside a pixel masks nothing, not even the pixel that contains it -/
theorem C116_small_refuted : ((maskCircle (K := ℚ) (Img.fill 3 3 false) 1 1 (4 / 10)).map fun m => m.px) = .ok (List.replicate 9 false) ∧
    inDisc (4 / 10 : ℚ) 1 1 (1, 1) := by
  constructor <;> decide +kernel

example : ((maskCircle (K := ℚ) (Img.fill 3 4 false) 2 1 (8 / 10)).map fun m => m.px) =
    .ok [false, false, false, false, false, false, true, false, false, false, false, false] := by decide +kernel

/-! ### Boxes -/

/-- Spec: the point `(py, px)` is in the box of centre `(x, y)`, width `w` and height `h`, rotated by the angle with cosine `ca` and sine `sa` -/
def inBox (x y w h ca sa : K) (p : K × K) : Prop :=
  |(p.2 - x) * ca + (p.1 - y) * sa| ≤ |w| / 2 ∧ |(p.1 - y) * ca - (p.2 - x) * sa| ≤ |h| / 2

omit [FloorRing K] in
theorem boxPts_eq (x y w h ca sa : K) : boxPts x y w h ca sa =
    [(h / 2 * ca + w / 2 * sa + y, w / 2 * ca - h / 2 * sa + x), (-(h / 2) * ca + w / 2 * sa + y, w / 2 * ca + h / 2 * sa + x),
     (-(h / 2) * ca - w / 2 * sa + y, -(w / 2) * ca + h / 2 * sa + x), (h / 2 * ca - w / 2 * sa + y, -(w / 2) * ca - h / 2 * sa + x)] := by
  simp only [boxPts, List.map_cons, List.map_nil]
  congr 1
  · congr 1 <;> ring
  congr 1
  · congr 1 <;> ring
  congr 1
  · congr 1 <;> ring
  congr 1
  · congr 1 <;> ring

omit [FloorRing K] in
theorem not_collinear {x y w h ca sa : K} (hw : w ≠ 0) (hh : h ≠ 0) (hcs : ca ^ 2 + sa ^ 2 = 1) : ¬ Hull.Collinear (boxPts x y w h ca sa) := by
  intro hc
  rw [boxPts_eq] at hc
  have := hc _ (List.mem_cons_self ..) _ (List.mem_cons_of_mem _ (List.mem_cons_self ..)) _ (List.mem_cons_of_mem _ (List.mem_cons_of_mem _ (List.mem_cons_self ..)))
  unfold cross3 at this
  simp only at this
  have e : h * w * (ca ^ 2 + sa ^ 2) = 0 := by linear_combination this
  rw [hcs, mul_one] at e
  exact mul_ne_zero hh hw e

omit [FloorRing K] in
/-- the convex hull of the corners is the box -/
theorem hull_box (x y w h ca sa : K) (hcs : ca ^ 2 + sa ^ 2 = 1) (hw : w ≠ 0) (hh : h ≠ 0) (p : K × K) :
    p ∈ convexHull K {q | q ∈ boxPts x y w h ca sa} ↔ inBox x y w h ca sa p := by
  constructor
  · intro hp
    have hconv : Convex K {q : K × K | inBox x y w h ca sa q} := by
      intro a ha b hb s t hs ht hst
      simp only [Set.mem_setOf_eq, inBox, Prod.fst_add, Prod.smul_fst, smul_eq_mul, Prod.snd_add, Prod.smul_snd] at ha hb ⊢
      have ht' : t = 1 - s := by linarith
      subst ht'
      constructor
      · calc |(s * a.2 + (1 - s) * b.2 - x) * ca + (s * a.1 + (1 - s) * b.1 - y) * sa|
            = |s * ((a.2 - x) * ca + (a.1 - y) * sa) + (1 - s) * ((b.2 - x) * ca + (b.1 - y) * sa)| := by congr 1; ring
          _ ≤ |s * ((a.2 - x) * ca + (a.1 - y) * sa)| + |(1 - s) * ((b.2 - x) * ca + (b.1 - y) * sa)| := abs_add_le _ _
          _ ≤ s * (|w| / 2) + (1 - s) * (|w| / 2) := by
            rw [abs_mul, abs_mul, abs_of_nonneg hs, abs_of_nonneg ht]
            exact add_le_add (mul_le_mul_of_nonneg_left ha.1 hs) (mul_le_mul_of_nonneg_left hb.1 ht)
          _ = |w| / 2 := by ring
      · calc |(s * a.1 + (1 - s) * b.1 - y) * ca - (s * a.2 + (1 - s) * b.2 - x) * sa|
            = |s * ((a.1 - y) * ca - (a.2 - x) * sa) + (1 - s) * ((b.1 - y) * ca - (b.2 - x) * sa)| := by congr 1; ring
          _ ≤ |s * ((a.1 - y) * ca - (a.2 - x) * sa)| + |(1 - s) * ((b.1 - y) * ca - (b.2 - x) * sa)| := abs_add_le _ _
          _ ≤ s * (|h| / 2) + (1 - s) * (|h| / 2) := by
            rw [abs_mul, abs_mul, abs_of_nonneg hs, abs_of_nonneg ht]
            exact add_le_add (mul_le_mul_of_nonneg_left ha.2 hs) (mul_le_mul_of_nonneg_left hb.2 ht)
          _ = |h| / 2 := by ring
    refine convexHull_min ?_ hconv hp
    intro q hq
    rw [Set.mem_setOf_eq, boxPts_eq] at hq
    have hw2 : |w / 2| ≤ |w| / 2 := by rw [abs_div, abs_two]
    have hh2 : |h / 2| ≤ |h| / 2 := by rw [abs_div, abs_two]
    have hw2' : |-(w / 2)| ≤ |w| / 2 := by rw [abs_neg]; exact hw2
    have hh2' : |-(h / 2)| ≤ |h| / 2 := by rw [abs_neg]; exact hh2
    simp only [List.mem_cons, List.not_mem_nil, or_false] at hq
    have key : ∀ u v : K, |u| ≤ |w| / 2 → |v| ≤ |h| / 2 → inBox x y w h ca sa (v * ca + u * sa + y, u * ca - v * sa + x) := by
      intro u v hu hv
      have e1 : (u * ca - v * sa + x - x) * ca + (v * ca + u * sa + y - y) * sa = u := by linear_combination u * hcs
      have e2 : (v * ca + u * sa + y - y) * ca - (u * ca - v * sa + x - x) * sa = v := by linear_combination v * hcs
      exact ⟨by simp only [e1]; exact hu, by simp only [e2]; exact hv⟩
    show inBox x y w h ca sa q
    rcases hq with rfl | rfl | rfl | rfl
    · exact key _ _ hw2 hh2
    · convert key _ _ hw2 hh2' using 2; ring
    · convert key _ _ hw2' hh2' using 2 <;> ring
    · convert key _ _ hw2' hh2 using 2; ring
  · rintro ⟨h1, h2⟩
    rw [boxPts_eq]
    set S : Set (K × K) := {q | q ∈ [(h / 2 * ca + w / 2 * sa + y, w / 2 * ca - h / 2 * sa + x), (-(h / 2) * ca + w / 2 * sa + y, w / 2 * ca + h / 2 * sa + x),
     (-(h / 2) * ca - w / 2 * sa + y, -(w / 2) * ca + h / 2 * sa + x), (h / 2 * ca - w / 2 * sa + y, -(w / 2) * ca - h / 2 * sa + x)]} with hS
    have c1 : (h / 2 * ca + w / 2 * sa + y, w / 2 * ca - h / 2 * sa + x) ∈ convexHull K S := subset_convexHull K S (by simp [hS])
    have c2 : (-(h / 2) * ca + w / 2 * sa + y, w / 2 * ca + h / 2 * sa + x) ∈ convexHull K S := subset_convexHull K S (by simp [hS])
    have c3 : (-(h / 2) * ca - w / 2 * sa + y, -(w / 2) * ca + h / 2 * sa + x) ∈ convexHull K S := subset_convexHull K S (by simp [hS])
    have c4 : (h / 2 * ca - w / 2 * sa + y, -(w / 2) * ca - h / 2 * sa + x) ∈ convexHull K S := subset_convexHull K S (by simp [hS])
    generalize hu : (p.2 - x) * ca + (p.1 - y) * sa = u at h1
    generalize hv : (p.1 - y) * ca - (p.2 - x) * sa = v at h2
    -- the weights
    have frac : ∀ a b : K, b ≠ 0 → |a| ≤ |b| / 2 → 0 ≤ 1 / 2 + a / b ∧ 0 ≤ 1 / 2 - a / b := by
      intro a b hb hab
      have : |a / b| ≤ 1 / 2 := by
        rw [abs_div, div_le_iff₀ (abs_pos.2 hb)]; linarith
      obtain ⟨l, r⟩ := abs_le.1 this
      exact ⟨by linarith, by linarith⟩
    obtain ⟨s1, s2⟩ := frac u w hw h1
    obtain ⟨t1, t2⟩ := frac v h hh h2
    have cv := convex_convexHull K S
    have a1 := cv c1 c2 t1 t2 (by ring)
    have a2 := cv c4 c3 t1 t2 (by ring)
    have a3 := cv a1 a2 s1 s2 (by ring)
    have hx : p.2 = u * ca - v * sa + x := by rw [← hu, ← hv]; linear_combination (x - p.2) * hcs
    have hy : p.1 = v * ca + u * sa + y := by rw [← hu, ← hv]; linear_combination (y - p.1) * hcs
    have hmw : u / w * w = u := div_mul_cancel₀ u hw
    have hmh : v / h * h = v := div_mul_cancel₀ v hh
    generalize u / w = su at *
    generalize v / h = tv at *
    convert a3 using 1
    refine Prod.ext ?_ ?_
    · simp only [Prod.fst_add, Prod.smul_fst, smul_eq_mul]
      rw [hy, ← hmw, ← hmh]; ring
    · simp only [Prod.snd_add, Prod.smul_snd, smul_eq_mul]
      rw [hx, ← hmw, ← hmh]; ring

omit [IsStrictOrderedRing K] [FloorRing K] in
theorem lmin_le {l : List K} {a : K} (h : a ∈ l) : lmin l ≤ a := by
  have key : ∀ (l : List K) (m : K), l.foldl min m ≤ m ∧ ∀ a ∈ l, l.foldl min m ≤ a := by
    intro l
    induction l with
    | nil => intro m; exact ⟨le_rfl, by simp⟩
    | cons b l ih =>
      intro m
      obtain ⟨h1, h2⟩ := ih (min m b)
      refine ⟨h1.trans (min_le_left _ _), fun a ha => ?_⟩
      rcases List.mem_cons.1 ha with rfl | ha
      · exact h1.trans (min_le_right _ _)
      · exact h2 a ha
  cases l with
  | nil => simp at h
  | cons b l =>
    obtain ⟨h1, h2⟩ := key l b
    rcases List.mem_cons.1 h with rfl | h
    · exact h1
    · exact h2 a h

omit [IsStrictOrderedRing K] [FloorRing K] in
theorem le_lmax {l : List K} {a : K} (h : a ∈ l) : a ≤ lmax l := by
  have key : ∀ (l : List K) (m : K), m ≤ l.foldl max m ∧ ∀ a ∈ l, a ≤ l.foldl max m := by
    intro l
    induction l with
    | nil => intro m; exact ⟨le_rfl, by simp⟩
    | cons b l ih =>
      intro m
      obtain ⟨h1, h2⟩ := ih (max m b)
      refine ⟨(le_max_left _ _).trans h1, fun a ha => ?_⟩
      rcases List.mem_cons.1 ha with rfl | ha
      · exact (le_max_right _ _).trans h1
      · exact h2 a ha
  cases l with
  | nil => simp at h
  | cons b l =>
    obtain ⟨h1, h2⟩ := key l b
    rcases List.mem_cons.1 h with rfl | h
    · exact h1
    · exact h2 a h

omit [FloorRing K] in
/-- a point of the convex hull is in the bounding box -/
theorem hull_bounds {pts : List (K × K)} {p : K × K} (hp : p ∈ convexHull K {q | q ∈ pts}) :
    lmin (pts.map (·.1)) ≤ p.1 ∧ p.1 ≤ lmax (pts.map (·.1)) ∧ lmin (pts.map (·.2)) ≤ p.2 ∧ p.2 ≤ lmax (pts.map (·.2)) := by
  have hconv : Convex K {q : K × K | lmin (pts.map (·.1)) ≤ q.1 ∧ q.1 ≤ lmax (pts.map (·.1)) ∧ lmin (pts.map (·.2)) ≤ q.2 ∧ q.2 ≤ lmax (pts.map (·.2))} := by
    intro a ha b hb s t hs ht hst
    simp only [Set.mem_setOf_eq, Prod.fst_add, Prod.smul_fst, smul_eq_mul, Prod.snd_add, Prod.smul_snd] at ha hb ⊢
    generalize lmin (pts.map (·.1)) = A at *
    generalize lmax (pts.map (·.1)) = B at *
    generalize lmin (pts.map (·.2)) = C at *
    generalize lmax (pts.map (·.2)) = D at *
    have lo : ∀ m u v : K, m ≤ u → m ≤ v → m ≤ s * u + t * v := by
      intro m u v h1 h2
      have e : m = s * m + t * m := by rw [← add_mul, hst, one_mul]
      rw [e]; exact add_le_add (mul_le_mul_of_nonneg_left h1 hs) (mul_le_mul_of_nonneg_left h2 ht)
    have hi : ∀ m u v : K, u ≤ m → v ≤ m → s * u + t * v ≤ m := by
      intro m u v h1 h2
      have e : m = s * m + t * m := by rw [← add_mul, hst, one_mul]
      rw [e]; exact add_le_add (mul_le_mul_of_nonneg_left h1 hs) (mul_le_mul_of_nonneg_left h2 ht)
    exact ⟨lo _ _ _ ha.1 hb.1, hi _ _ _ ha.2.1 hb.2.1, lo _ _ _ ha.2.2.1 hb.2.2.1, hi _ _ _ ha.2.2.2 hb.2.2.2⟩
  refine convexHull_min (fun q hq => ?_) hconv hp
  exact ⟨lmin_le (List.mem_map_of_mem hq), le_lmax (List.mem_map_of_mem hq), lmin_le (List.mem_map_of_mem hq), le_lmax (List.mem_map_of_mem hq)⟩

/-- a loop that adds pixels to a mask -/
theorem for2_or (nx ny y0 x0 : Nat) (g : Nat → Nat → Bool) (mask : Img Bool) (hw : mask.WF) (hx : y0 + nx ≤ mask.nx) (hy : x0 + ny ≤ mask.ny) :
    ∃ m, for2 nx ny (fun i j m => do
      let o ← m.get (y0 + i) (x0 + j)
      m.put (y0 + i) (x0 + j) (o || g (y0 + i) (x0 + j))) mask = .ok m ∧ m.WF ∧ m.nx = mask.nx ∧ m.ny = mask.ny ∧
      ∀ iy ix, m.at iy ix = if y0 ≤ iy ∧ iy < y0 + nx ∧ x0 ≤ ix ∧ ix < x0 + ny then (mask.at iy ix).map (· || g iy ix) else mask.at iy ix := by
  refine Exists.imp ?_ (for2_rule (nx := nx) (ny := ny) (body := fun i j (m : Img Bool) => do
      let o ← m.get (y0 + i) (x0 + j)
      m.put (y0 + i) (x0 + j) (o || g (y0 + i) (x0 + j)))
    (fun x y s => s.WF ∧ s.nx = mask.nx ∧ s.ny = mask.ny ∧ (x < nx → y ≤ ny) ∧
      ∀ iy ix, s.at iy ix = if y0 ≤ iy ∧ x0 ≤ ix ∧ ix < x0 + ny ∧ Before x y (iy - y0) (ix - x0) then (mask.at iy ix).map (· || g iy ix) else mask.at iy ix)
    mask ⟨hw, rfl, rfl, fun _ => Nat.zero_le _, fun iy ix => ?_⟩ ?_ ?_)
  · rintro m ⟨h1, h2, h3, h4, -, h5⟩
    refine ⟨h1, h2, h3, h4, fun iy ix => ?_⟩
    rw [h5]
    have : (y0 ≤ iy ∧ x0 ≤ ix ∧ ix < x0 + ny ∧ Before nx 0 (iy - y0) (ix - x0)) ↔ (y0 ≤ iy ∧ iy < y0 + nx ∧ x0 ≤ ix ∧ ix < x0 + ny) := by
      unfold Before; omega
    simp only [this]
  · rw [if_neg]
    unfold Before; omega
  · rintro x y s hxn hyn ⟨i1, i2, i3, i4, i5⟩
    obtain ⟨o, ho⟩ := at_isSome hw (x := y0 + x) (y := x0 + y) (by omega) (by omega)
    have hs : s.at (y0 + x) (x0 + y) = some o := by
      rw [i5, if_neg, ho]
      unfold Before; omega
    rw [get_at hs]
    obtain ⟨w, w1, w2, w3, w4, w5⟩ := put_spec i1 (x := y0 + x) (y := x0 + y) (by omega) (by omega) (o || g (y0 + x) (x0 + y))
    refine ⟨w, by rw [Res.ok_bind, w1], w2, w3.trans i2, w4.trans i3, fun _ => by omega, fun iy ix => ?_⟩
    rw [w5]
    by_cases he : iy = y0 + x ∧ ix = x0 + y
    · obtain ⟨rfl, rfl⟩ := he
      rw [if_pos ⟨rfl, rfl⟩, if_pos (by unfold Before; omega), ho]
      rfl
    · rw [if_neg he, i5]
      have : (y0 ≤ iy ∧ x0 ≤ ix ∧ ix < x0 + ny ∧ Before x y (iy - y0) (ix - x0)) ↔ (y0 ≤ iy ∧ x0 ≤ ix ∧ ix < x0 + ny ∧ Before x (y + 1) (iy - y0) (ix - x0)) := by
        unfold Before; omega
      simp only [this]
  · rintro x s hxn ⟨i1, i2, i3, i4, i5⟩
    refine ⟨i1, i2, i3, fun _ => Nat.zero_le _, fun iy ix => ?_⟩
    rw [i5]
    have : (y0 ≤ iy ∧ x0 ≤ ix ∧ ix < x0 + ny ∧ Before x ny (iy - y0) (ix - x0)) ↔ (y0 ≤ iy ∧ x0 ≤ ix ∧ ix < x0 + ny ∧ Before (x + 1) 0 (iy - y0) (ix - x0)) := by
      unfold Before; omega
    simp only [this]

/-- **C116** (partial: the width and the height are not zero) a box adds to the mask exactly the pixels whose centre is in the box, and removes none; pixels
outside the mask are ignored -/
theorem C116_mask_box_partial (mask : Img Bool) (hwf : mask.WF) (hne : mask.px ≠ []) (x y w h ca sa : K) (hcs : ca ^ 2 + sa ^ 2 = 1) (hw : w ≠ 0) (hh : h ≠ 0)
    (ids : List Nat) (hs : Sorted (boxPts x y w h ca sa) ids) : ∃ m, maskBox mask x y w h ca sa ids = .ok m ∧ m.WF ∧ m.nx = mask.nx ∧ m.ny = mask.ny ∧
      ∀ iy ix b, mask.at iy ix = some b → ∃ b', m.at iy ix = some b' ∧ (b' = true ↔ b = true ∨ inBox x y w h ca sa ((iy : K), (ix : K))) := by
  have hpne : boxPts x y w h ca sa ≠ [] := by rw [boxPts_eq]; simp
  obtain ⟨H, hH, -⟩ := C33_hull_partial hs hpne
  have hin : ∀ p, inHull (H.map (ptOf (boxPts x y w h ca sa))) 1 p = true ↔ inBox x y w h ca sa p := fun p =>
    (C33_inside hs (not_collinear hw hh hcs) hH p).trans (hull_box x y w h ca sa hcs hw hh p)
  have hbd : ∀ p, inBox x y w h ca sa p → _ := fun p hp => hull_bounds ((hull_box x y w h ca sa hcs hw hh p).2 hp)
  unfold maskBox
  rw [Res.check_pos hne]
  simp only [Res.ok_bind]
  generalize hx0 : ⌊lmin ((boxPts x y w h ca sa).map (·.2))⌋ = x0
  generalize hx1 : ⌈lmax ((boxPts x y w h ca sa).map (·.2))⌉ = x1
  generalize hy0 : ⌊lmin ((boxPts x y w h ca sa).map (·.1))⌋ = y0
  generalize hy1 : ⌈lmax ((boxPts x y w h ca sa).map (·.1))⌉ = y1
  have hb : ∀ iy ix : Nat, inBox x y w h ca sa ((iy : K), (ix : K)) → y0 ≤ iy ∧ (iy : Int) ≤ y1 ∧ x0 ≤ ix ∧ (ix : Int) ≤ x1 := by
    intro iy ix hi
    obtain ⟨b1, b2, b3, b4⟩ := hbd _ hi
    subst hx0 hx1 hy0 hy1
    refine ⟨?_, ?_, ?_, ?_⟩
    · have := (Int.floor_le _).trans b1; simp only at this; exact_mod_cast this
    · have := b2.trans (Int.le_ceil _); simp only at this; exact_mod_cast this
    · have := (Int.floor_le _).trans b3; simp only at this; exact_mod_cast this
    · have := b4.trans (Int.le_ceil _); simp only at this; exact_mod_cast this
  by_cases hc : x1 < 0 ∨ y1 < 0 ∨ (mask.ny : Int) - 1 < x0 ∨ (mask.nx : Int) - 1 < y0
  · rw [if_pos hc]
    refine ⟨mask, rfl, hwf, rfl, rfl, fun iy ix b hbm => ⟨b, hbm, ?_⟩⟩
    obtain ⟨q1, q2⟩ := at_lt hbm
    constructor
    · exact Or.inl
    · rintro (h | h)
      · exact h
      · have := hb iy ix h; omega
  · rw [if_neg hc, hH, Res.ok_bind]
    obtain ⟨m, m1, m2, m3, m4, m5⟩ := for2_or (min y1 (mask.nx - 1) + 1 - max y0 0).toNat (min x1 (mask.ny - 1) + 1 - max x0 0).toNat
      (max y0 0).toNat (max x0 0).toNat
      (fun iy ix => inHull (H.map (ptOf (boxPts x y w h ca sa))) 1 ((iy : K), (ix : K))) mask hwf (by omega) (by omega)
    refine ⟨m, m1, m2, m3, m4, fun iy ix b hbm => ?_⟩
    obtain ⟨q1, q2⟩ := at_lt hbm
    rw [m5, hbm]
    split
    · refine ⟨_, rfl, ?_⟩
      rw [Bool.or_eq_true, hin]
    · rename_i hn
      refine ⟨b, rfl, ⟨Or.inl, ?_⟩⟩
      rintro (h | h)
      · exact h
      · have := hb iy ix h
        exfalso
        apply hn
        omega

/-- **C116** a box without height masks pixels that it does not contain -/
theorem C116_flat_refuted : ((maskBox (K := ℚ) (Img.fill 1 3 false) (9 / 10) 0 (6 / 10) 0 1 0 [3, 2, 1, 0]).map fun m => m.px) = .ok [true, true, true] ∧
    ¬ inBox (9 / 10 : ℚ) 0 (6 / 10) 0 1 0 (0, 0) := by
  refine ⟨by decide +kernel, ?_⟩
  unfold inBox
  rw [not_and_or]; left
  rw [not_le, lt_abs, abs_of_pos (by norm_num)]; right; norm_num

/-- a box of width 2 and height 1, and the same after a quarter turn -/
example : ((maskBox (K := ℚ) (Img.fill 3 4 false) 2 1 2 1 1 0 [2, 1, 3, 0]).map fun m => m.px) =
    .ok [false, false, false, false, false, true, true, true, false, false, false, false] := by decide +kernel
example : ((maskBox (K := ℚ) (Img.fill 3 4 false) 2 1 2 1 0 1 [3, 2, 0, 1]).map fun m => m.px) =
    .ok [false, false, true, false, false, false, true, false, false, false, true, false] := by decide +kernel

end Verif.Ds9
