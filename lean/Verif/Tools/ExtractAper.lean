import Verif.Tools.ExtractFit
import Mathlib.Algebra.Order.Floor.Ring
import Mathlib.Data.Rat.Floor
/-!
# The apertures of the groups of `pixfit-extract` (C202)

The numbers are those of an ordered field with a floor, without rounding. `translate(aper, dy, dx) > 0.5` and `translate(psf, dy, dx)` are arbitrary images for each source; the pixels of the
map are numbered from 0. Only the groups with an aperture (`fit` is false) are in the lists; their numbers are positive and different (C199, C201).
-/
namespace Verif.ExtractAper
open Verif Verif.Astro Verif.ExtractFit Finset

variable {K : Type}

/-! ### Model -/

/-- a source of the catalogue: its position (`ty`, `tx`) in pixels, its pixel (`tiy`, `tix`), the translated aperture and the translated PSF, of `2*hsize+1` pixels on each side -/
structure Src (K : Type) where
  ty : K
  tx : K
  iy : Int
  ix : Int
  ap : List Bool
  psf : List K

/-- a group: its number, and its sources (`where(old_cat.group_aper_id == group_cat.id[i])`) -/
structure Grp where
  id : Int
  mem : List Nat
deriving DecidableEq

/-- `max(0, floor(min(t[id]) - size))` and `min(n-1, ceil(max(t[id]) + size))`, converted to `uint_t` (`pixfit-extract.cpp:962-965`); the conversion of a negative number is undefined. The
image is not empty. -/
def lim [Field K] [LinearOrder K] [FloorRing K] (n : Nat) (size : K) (t : List K) : Res (Nat × Nat) :=
  match t with
  | [] => .abort
  | a :: l =>
    let lo := ⌊l.foldl min a - size⌋
    let hi := min ((n : Int) - 1) ⌈l.foldl max a + size⌉
    if hi < 0 then .ub else .ok ((max 0 lo).toNat, hi.toNat)

/-- the box of a group: first and last row, first and last column; the indices of a range are checked (`pixfit-extract.cpp:957-967`) -/
def box [Field K] [LinearOrder K] [FloorRing K] (ny nx : Nat) (size : K) (src : Nat → Src K) (g : Grp) : Res ((Nat × Nat) × (Nat × Nat)) := do
  let x ← lim nx size (g.mem.map fun j => (src j).tx)
  let y ← lim ny size (g.mem.map fun j => (src j).ty)
  Res.check (y.2 < ny ∧ y.1 < ny ∧ x.2 < nx ∧ x.1 < nx)
  .ok (y, x)

/-- `mask[idi] = mask[idi] || taper[idp]`, for pairs of indices -/
def orIds (ap : List Bool) : List (Nat × Nat) → List Bool → Res (List Bool)
  | [], m => .ok m
  | (i, p) :: l, m => do
    let a ← Res.rd m i
    let b ← Res.rd ap p
    orIds ap l (m.set i (a || b))

/-- the mask of a group in its box, of `H` rows and `W` columns that starts at (`y0`, `x0`) (`pixfit-extract.cpp:970-984`) -/
def maskOf (h : Nat) (src : Nat → Src K) (y0 x0 H W : Nat) : List Nat → List Bool → Res (List Bool)
  | [], m => .ok m
  | j :: js, m => do
    let iy := (src j).iy - y0
    let ix := (src j).ix - x0
    let (idi, idp) ← subregion H W [iy - h, ix - h, iy + h, ix + h]
    let m' ← orIds (src j).ap (idi.zip idp) m
    maskOf h src y0 x0 H W js m'

/-- one group (`pixfit-extract.cpp:950-998`): a pixel of the mask gets the number of the group if it was zero, and else -1 -/
def paint [Field K] [LinearOrder K] [FloorRing K] (ny nx h : Nat) (size : K) (src : Nat → Src K) (m : Nat → Nat → Int) (g : Grp) : Res (Nat → Nat → Int) := do
  let ((y0, y1), (x0, x1)) ← box ny nx size src g
  let H := y1 + 1 - y0
  let W := x1 + 1 - x0
  let mask ← maskOf h src y0 x0 H W g.mem (List.replicate (H * W) false)
  .ok fun r c =>
    if y0 ≤ r ∧ r ≤ y1 ∧ x0 ≤ c ∧ c ≤ x1 ∧ mask.getD ((r - y0) * W + (c - x0)) false = true then if m r c ≠ 0 then -1 else g.id else m r c

/-- the map of the groups (`pixfit-extract.cpp:942-998`) -/
def groupMap [Field K] [LinearOrder K] [FloorRing K] (ny nx h : Nat) (size : K) (src : Nat → Src K) (gs : List Grp) : Res (Nat → Nat → Int) :=
  gs.foldlM (paint ny nx h size src) fun _ _ => 0

/-- the coverage of a source: the sum of its PSF in the mask (`pixfit-extract.cpp:1028-1037`) -/
def coverage [Field K] (h : Nat) (src : Nat → Src K) (m : Nat → Nat → Int) (id : Int) (y0 x0 H W j : Nat) : Res K := do
  let iy := (src j).iy - y0
  let ix := (src j).ix - x0
  let (idi, idp) ← subregion H W [iy - h, ix - h, iy + h, ix + h]
  let idm := (idi.zip idp).filter fun q => m (y0 + q.1 / W) (x0 + q.1 % W) = id
  let t ← gather (src j).psf (idm.map Prod.snd)
  .ok t.sum

/-- the coverages of the sources of a group, its flux and the square of its error (`pixfit-extract.cpp:1002-1045`) -/
def measure [Field K] [LinearOrder K] [FloorRing K] (ny nx h : Nat) (size : K) (src : Nat → Src K) (img err : Nat → Nat → K) (m : Nat → Nat → Int) (g : Grp) :
    Res (List K × K × K) := do
  let ((y0, y1), (x0, x1)) ← box ny nx size src g
  let H := y1 + 1 - y0
  let W := x1 + 1 - x0
  let cov ← g.mem.mapM (coverage h src m g.id y0 x0 H W)
  let px := ((List.range H).flatMap fun a => (List.range W).map fun b => (y0 + a, x0 + b)).filter fun q => m q.1 q.2 = g.id
  .ok (cov, (px.map fun q => img q.1 q.2).sum, (px.map fun q => err q.1 q.2 ^ 2).sum)

/-! ### Specification -/

/-- a pixel is in the box of the sources of a group, plus the size of the aperture on each side -/
def InBox [Field K] [LinearOrder K] (size : K) (src : Nat → Src K) (g : Grp) (r c : Nat) : Prop :=
  (∃ j ∈ g.mem, (src j).ty - size < r + 1) ∧ (∃ j ∈ g.mem, (r : K) - 1 < (src j).ty + size) ∧
  (∃ j ∈ g.mem, (src j).tx - size < c + 1) ∧ (∃ j ∈ g.mem, (c : K) - 1 < (src j).tx + size)

/-- the value of a stamp at a pixel of the map -/
def stamp {α : Type} (l : List α) (d : α) (iy ix : Int) (h r c : Nat) : α :=
  if |(r : Int) - iy| ≤ h ∧ |(c : Int) - ix| ≤ h then l.getD (((r - iy + h) * (2 * h + 1) + (c - ix + h) : Int).toNat) d else d

/-- a pixel is in the aperture of a group: that of one of its sources -/
def Area [Field K] [LinearOrder K] (h : Nat) (size : K) (src : Nat → Src K) (g : Grp) (r c : Nat) : Prop :=
  InBox size src g r c ∧ ∃ j ∈ g.mem, stamp (src j).ap false (src j).iy (src j).ix h r c = true

/-- the sizes are those of images, and the numbers are far from the limits of the integers -/
structure Ok (ny nx h : Nat) (s : Src K) : Prop where
  ap : s.ap.length = (2 * h + 1) * (2 * h + 1)
  psf : s.psf.length = (2 * h + 1) * (2 * h + 1)
  h : h < 2 ^ 20
  img : ny * nx < 2 ^ 63
  ny : ny < 2 ^ 40
  nx : nx < 2 ^ 40
  iy : |s.iy| < 2 ^ 50
  ix : |s.ix| < 2 ^ 50

/-- the box of the group contains a pixel of the map -/
def OnMap [Field K] [LinearOrder K] (ny nx : Nat) (size : K) (src : Nat → Src K) (g : Grp) : Prop := ∃ r c, r < ny ∧ c < nx ∧ InBox size src g r c

/-! ### Helpers -/

theorem foldl_min [LinearOrder K] (l : List K) (a : K) : ∀ x, l.foldl min a < x ↔ ∃ b ∈ a :: l, b < x := by
  induction l generalizing a with
  | nil => simp
  | cons b l ih =>
    intro x
    simp only [List.foldl_cons, ih, List.mem_cons, exists_eq_or_imp, min_lt_iff, or_assoc]

theorem foldl_max [LinearOrder K] (l : List K) (a : K) : ∀ x, x < l.foldl max a ↔ ∃ b ∈ a :: l, x < b := by
  induction l generalizing a with
  | nil => simp
  | cons b l ih =>
    intro x
    simp only [List.foldl_cons, ih, List.mem_cons, exists_eq_or_imp, lt_max_iff, or_assoc]

theorem lim_ok [Field K] [LinearOrder K] [IsStrictOrderedRing K] [FloorRing K] (n : Nat) (size : K) (t : List K) (r : Nat) (hr : r < n) (h1 : ∃ a ∈ t, a - size < r + 1) (h2 : ∃ a ∈ t, (r : K) - 1 < a + size) :
    ∃ lo hi, lim n size t = .ok (lo, hi) ∧ lo < n ∧ hi < n ∧ ∀ q, q < n → ((lo ≤ q ↔ ∃ a ∈ t, a - size < q + 1) ∧ (q ≤ hi ↔ ∃ a ∈ t, (q : K) - 1 < a + size)) := by
  cases t with
  | nil => simp at h1
  | cons a l =>
    have e1 : ∀ q : Nat, ⌊l.foldl min a - size⌋ ≤ (q : Int) ↔ ∃ b ∈ a :: l, b - size < q + 1 := by
      intro q
      rw [← Int.lt_add_one_iff, Int.floor_lt]
      push_cast
      rw [sub_lt_iff_lt_add, foldl_min]
      simp only [sub_lt_iff_lt_add]
    have e2 : ∀ q : Nat, (q : Int) ≤ ⌈l.foldl max a + size⌉ ↔ ∃ b ∈ a :: l, (q : K) - 1 < b + size := by
      intro q
      rw [← Int.sub_one_lt_iff, Int.lt_ceil]
      push_cast
      rw [← sub_lt_iff_lt_add, foldl_max]
      simp only [sub_lt_iff_lt_add]
    have g1 := (e1 r).2 h1
    have g2 := (e2 r).2 h2
    simp only [lim]
    rw [if_neg (by omega)]
    refine ⟨_, _, rfl, by omega, by omega, fun q hq => ⟨?_, ?_⟩⟩
    · rw [← e1]; omega
    · rw [← e2]; omega

theorem box_ok [Field K] [LinearOrder K] [IsStrictOrderedRing K] [FloorRing K] (ny nx : Nat) (size : K) (src : Nat → Src K) (g : Grp) (h : OnMap ny nx size src g) :
    ∃ y0 y1 x0 x1, box ny nx size src g = .ok ((y0, y1), (x0, x1)) ∧ y1 < ny ∧ x1 < nx ∧ y0 ≤ y1 ∧ x0 ≤ x1 ∧
      ∀ r c, r < ny → c < nx → ((y0 ≤ r ∧ r ≤ y1 ∧ x0 ≤ c ∧ c ≤ x1) ↔ InBox size src g r c) := by
  obtain ⟨r, c, hr, hc, h1, h2, h3, h4⟩ := h
  obtain ⟨y0, y1, ey, b1, b2, hy⟩ := lim_ok ny size (g.mem.map fun j => (src j).ty) r hr (by simpa using h1) (by simpa using h2)
  obtain ⟨x0, x1, ex, b3, b4, hx⟩ := lim_ok nx size (g.mem.map fun j => (src j).tx) c hc (by simpa using h3) (by simpa using h4)
  have a1 := (hy r hr).1.2 (by simpa using h1)
  have a2 := (hy r hr).2.2 (by simpa using h2)
  have a3 := (hx c hc).1.2 (by simpa using h3)
  have a4 := (hx c hc).2.2 (by simpa using h4)
  refine ⟨y0, y1, x0, x1, ?_, b2, b4, by omega, by omega, fun r c hr hc => ?_⟩
  · unfold box
    rw [ex, Res.ok_bind, ey, Res.ok_bind, Res.check_pos ⟨b2, b1, b4, b3⟩, Res.ok_bind]
  · rw [(hy r hr).1, (hy r hr).2, (hx c hc).1, (hx c hc).2]
    simp [InBox]

theorem orIds_ok (ap : List Bool) (ps : List (Nat × Nat)) (m : List Bool) (h1 : ∀ p ∈ ps, p.1 < m.length ∧ p.2 < ap.length) :
    ∃ r, orIds ap ps m = .ok r ∧ r.length = m.length ∧ ∀ k, (r.getD k false = true ↔ m.getD k false = true ∨ ∃ p ∈ ps, p.1 = k ∧ ap.getD p.2 false = true) := by
  induction ps generalizing m with
  | nil => exact ⟨m, rfl, rfl, by simp⟩
  | cons p ps ih =>
    obtain ⟨i, q⟩ := p
    have hp := h1 (i, q) (by simp)
    obtain ⟨r, g1, g2, g3⟩ := ih (m.set i (m[i]'hp.1 || ap[q]'hp.2)) (fun x hx => by simpa using h1 x (by simp [hx]))
    refine ⟨r, ?_, by simpa using g2, fun k => ?_⟩
    · simp only [orIds]
      rw [Res.rd_lt hp.1, Res.ok_bind, Res.rd_lt hp.2, Res.ok_bind, g1]
    · rw [g3]
      have hq : ap.getD q false = ap[q]'hp.2 := by rw [List.getD_eq_getElem?_getD, List.getElem?_eq_getElem hp.2]; rfl
      have hi : m.getD i false = m[i]'hp.1 := by rw [List.getD_eq_getElem?_getD, List.getElem?_eq_getElem hp.1]; rfl
      by_cases hk : i = k
      · subst hk
        have e : (m.set i (m[i]'hp.1 || ap[q]'hp.2)).getD i false = (m.getD i false || ap.getD q false) := by
          rw [hq, hi, List.getD_eq_getElem?_getD, List.getElem?_set_self hp.1]; rfl
        rw [e, Bool.or_eq_true]
        simp only [List.mem_cons, exists_eq_or_imp, true_and, or_assoc]
      · have e : (m.set i (m[i]'hp.1 || ap[q]'hp.2)).getD k false = m.getD k false := by
          rw [List.getD_eq_getElem?_getD, List.getElem?_set_ne hk, List.getD_eq_getElem?_getD]
        rw [e]
        simp only [List.mem_cons, exists_eq_or_imp, hk, false_and, false_or]

theorem Ok.fits {ny nx h : Nat} {s : Src K} (hs : Ok ny nx h s) {y0 y1 x0 x1 : Nat} (b1 : y1 < ny) (b2 : x1 < nx) (b3 : y0 ≤ y1) (b4 : x0 ≤ x1) :
    Fits (y1 + 1 - y0) (x1 + 1 - x0) (s.iy - y0 - h) (s.ix - x0 - h) (s.iy - y0 + h) (s.ix - x0 + h) := by
  obtain ⟨-, -, hh, him, hny, hnx, hy, hx⟩ := hs
  rw [abs_lt] at hy hx
  refine ⟨by omega, by omega, by omega, by omega, ?_, ?_⟩
  · exact lt_of_le_of_lt (Nat.mul_le_mul (by omega) (by omega)) him
  have e1 : s.iy - y0 + h - (s.iy - y0 - h) + 1 = ((2 * h + 1 : Nat) : Int) := by push_cast; ring
  have e2 : s.ix - x0 + h - (s.ix - x0 - h) + 1 = ((2 * h + 1 : Nat) : Int) := by push_cast; ring
  rw [e1, e2]
  have : (2 * h + 1) * (2 * h + 1) ≤ 2 ^ 22 * 2 ^ 22 := Nat.mul_le_mul (by omega) (by omega)
  have h2 : (2 * h + 1) * (2 * h + 1) < 2 ^ 63 := by omega
  exact_mod_cast h2

/-- the pairs of indices of a stamp and its box -/
theorem pairs_ok {ny nx h : Nat} {s : Src K} (hs : Ok ny nx h s) {y0 y1 x0 x1 : Nat} (b1 : y1 < ny) (b2 : x1 < nx) (b3 : y0 ≤ y1) (b4 : x0 ≤ x1) :
    ∃ idi idp, subregion (y1 + 1 - y0) (x1 + 1 - x0) [s.iy - y0 - h, s.ix - x0 - h, s.iy - y0 + h, s.ix - x0 + h] = .ok (idi, idp) ∧ (idi.zip idp).Nodup ∧
      ∀ p, p ∈ idi.zip idp ↔ ∃ r c, y0 ≤ r ∧ r ≤ y1 ∧ x0 ≤ c ∧ c ≤ x1 ∧ |(r : Int) - s.iy| ≤ h ∧ |(c : Int) - s.ix| ≤ h ∧ p.1 = (r - y0) * (x1 + 1 - x0) + (c - x0) ∧
        p.2 = ((r - s.iy + h) * (2 * h + 1) + (c - s.ix + h) : Int).toNat := by
  obtain ⟨rv, rr, g1, -, g3, g4, -⟩ := subregion_spec _ _ _ _ _ _ (hs.fits b1 b2 b3 b4)
  refine ⟨rv, rr, g1, g3, fun p => ?_⟩
  rw [g4]
  have e2 : s.ix - x0 + h - (s.ix - x0 - h) + 1 = (2 * h + 1 : Int) := by ring
  constructor
  · rintro ⟨x, y, h1, h2, h3, h4, h5, h6, h7, h8⟩
    refine ⟨y0 + x, x0 + y, by omega, by omega, by omega, by omega, by rw [abs_le]; omega, by rw [abs_le]; omega, ?_, ?_⟩
    · rw [h7, Nat.add_sub_cancel_left, Nat.add_sub_cancel_left]
    · rw [e2] at h8
      have : ((x : Int) - (s.iy - y0 - h)) * (2 * h + 1) + (y - (s.ix - x0 - h)) = (((y0 + x : Nat) : Int) - s.iy + h) * (2 * h + 1) + (((x0 + y : Nat) : Int) - s.ix + h) := by
        push_cast; ring
      rw [← this, ← h8, Int.toNat_natCast]
  · rintro ⟨r, c, h1, h2, h3, h4, h5, h6, h7, h8⟩
    rw [abs_le] at h5 h6
    refine ⟨r - y0, c - x0, by omega, by omega, by omega, by omega, by omega, by omega, h7, ?_⟩
    have nn : 0 ≤ (r - s.iy + h) * (2 * h + 1) + (c - s.ix + h) := by
      have := Int.mul_nonneg (show (0 : Int) ≤ r - s.iy + h by omega) (show (0 : Int) ≤ 2 * h + 1 by omega)
      omega
    rw [h8, e2, Int.toNat_of_nonneg nn, Nat.cast_sub h1, Nat.cast_sub h3]
    ring

theorem place_lt {h r c : Nat} {iy ix : Int} (h1 : |(r : Int) - iy| ≤ h) (h2 : |(c : Int) - ix| ≤ h) :
    ((r - iy + h) * (2 * h + 1) + (c - ix + h) : Int).toNat < (2 * h + 1) * (2 * h + 1) := by
  rw [abs_le] at h1 h2
  have e : ((r - iy + h) * (2 * h + 1) + (c - ix + h) : Int).toNat = (r - iy + h).toNat * (2 * h + 1) + (c - ix + h).toNat := by
    have : ((r - iy + h) * (2 * h + 1) + (c - ix + h) : Int) = (((r - iy + h).toNat * (2 * h + 1) + (c - ix + h).toNat : Nat) : Int) := by
      push_cast
      rw [Int.toNat_of_nonneg (by omega), Int.toNat_of_nonneg (by omega)]
    rw [this, Int.toNat_natCast]
  rw [e]
  exact flat_lt (by omega) (by omega)

/-- the mask of a group -/
theorem maskOf_ok {ny nx h : Nat} (src : Nat → Src K) {y0 y1 x0 x1 : Nat} (b1 : y1 < ny) (b2 : x1 < nx) (b3 : y0 ≤ y1) (b4 : x0 ≤ x1) (js : List Nat)
    (hs : ∀ j ∈ js, Ok ny nx h (src j)) (m : List Bool) (hm : m.length = (y1 + 1 - y0) * (x1 + 1 - x0)) :
    ∃ m', maskOf h src y0 x0 (y1 + 1 - y0) (x1 + 1 - x0) js m = .ok m' ∧ ∀ r c, y0 ≤ r → r ≤ y1 → x0 ≤ c → c ≤ x1 →
      (m'.getD ((r - y0) * (x1 + 1 - x0) + (c - x0)) false = true ↔
        m.getD ((r - y0) * (x1 + 1 - x0) + (c - x0)) false = true ∨ ∃ j ∈ js, stamp (src j).ap false (src j).iy (src j).ix h r c = true) := by
  induction js generalizing m with
  | nil => exact ⟨m, rfl, by simp⟩
  | cons j js ih =>
    have hj := hs j (by simp)
    obtain ⟨idi, idp, g1, -, g2⟩ := pairs_ok hj b1 b2 b3 b4
    obtain ⟨m1, k1, k2, k3⟩ := orIds_ok (src j).ap (idi.zip idp) m (by
      intro p hp
      obtain ⟨r, c, h1, h2, h3, h4, h5, h6, e1, e2⟩ := (g2 p).1 hp
      rw [hm, hj.ap, e1, e2]
      exact ⟨flat_lt (by omega) (by omega), place_lt h5 h6⟩)
    obtain ⟨m', r1, r2⟩ := ih (fun j hj => hs j (List.mem_cons_of_mem _ hj)) m1 (by rw [k2, hm])
    refine ⟨m', ?_, fun r c h1 h2 h3 h4 => ?_⟩
    · simp only [maskOf]
      rw [g1, Res.ok_bind]
      dsimp only
      rw [k1, Res.ok_bind, r1]
    · rw [r2 r c h1 h2 h3 h4, k3]
      simp only [List.mem_cons, exists_eq_or_imp, or_assoc]
      refine or_congr_right (or_congr_left ?_)
      unfold stamp
      constructor
      · rintro ⟨p, hp, e, ha⟩
        obtain ⟨r', c', q1, q2, q3, q4, q5, q6, e1, e2⟩ := (g2 p).1 hp
        obtain ⟨w1, w2⟩ := flat_inj (show c' - x0 < x1 + 1 - x0 by omega) (show c - x0 < x1 + 1 - x0 by omega) (e1.symm.trans e)
        have hr : r' = r := by omega
        have hc : c' = c := by omega
        subst hr hc
        rw [if_pos ⟨q5, q6⟩, ← e2]
        exact ha
      · intro ha
        split at ha
        · next hb => exact ⟨(_, _), (g2 _).2 ⟨r, c, h1, h2, h3, h4, hb.1, hb.2, rfl, rfl⟩, rfl, ha⟩
        · cases ha

open Classical in
theorem paint_ok [Field K] [LinearOrder K] [IsStrictOrderedRing K] [FloorRing K] (ny nx h : Nat) (size : K) (src : Nat → Src K) (m : Nat → Nat → Int) (g : Grp) (hg : OnMap ny nx size src g)
    (hs : ∀ j ∈ g.mem, Ok ny nx h (src j)) :
    ∃ m', paint ny nx h size src m g = .ok m' ∧ ∀ r c, r < ny → c < nx → m' r c = if Area h size src g r c then if m r c ≠ 0 then -1 else g.id else m r c := by
  obtain ⟨y0, y1, x0, x1, e, b1, b2, b3, b4, hb⟩ := box_ok ny nx size src g hg
  obtain ⟨mk, k1, k2⟩ := maskOf_ok src b1 b2 b3 b4 g.mem hs (List.replicate ((y1 + 1 - y0) * (x1 + 1 - x0)) false) (by simp)
  refine ⟨fun r c => if y0 ≤ r ∧ r ≤ y1 ∧ x0 ≤ c ∧ c ≤ x1 ∧ mk.getD ((r - y0) * (x1 + 1 - x0) + (c - x0)) false = true then if m r c ≠ 0 then -1 else g.id else m r c, ?_, ?_⟩
  · unfold paint
    rw [e, Res.ok_bind]
    dsimp only
    rw [k1, Res.ok_bind]
  · intro r c hr hc
    dsimp only
    have key : (y0 ≤ r ∧ r ≤ y1 ∧ x0 ≤ c ∧ c ≤ x1 ∧ mk.getD ((r - y0) * (x1 + 1 - x0) + (c - x0)) false = true) ↔ Area h size src g r c := by
      unfold Area
      rw [← hb r c hr hc]
      constructor
      · rintro ⟨h1, h2, h3, h4, h5⟩
        refine ⟨⟨h1, h2, h3, h4⟩, ?_⟩
        rw [k2 r c h1 h2 h3 h4] at h5
        rcases h5 with h5 | h5
        · rw [List.getD_eq_getElem?_getD, List.getElem?_replicate] at h5
          split at h5 <;> simp at h5
        · exact h5
      · rintro ⟨⟨h1, h2, h3, h4⟩, h5⟩
        exact ⟨h1, h2, h3, h4, (k2 r c h1 h2 h3 h4).2 (Or.inr h5)⟩
    by_cases ha : Area h size src g r c
    · rw [if_pos (key.2 ha), if_pos ha]
    · rw [if_neg (fun h => ha (key.1 h)), if_neg ha]

open Classical in
/-- the value of a pixel after the groups -/
noncomputable def value (P : Grp → Prop) (v : Int) (gs : List Grp) : Int := gs.foldl (fun v g => if P g then if v ≠ 0 then -1 else g.id else v) v

theorem value_none (P : Grp → Prop) (v : Int) (gs : List Grp) (h : ∀ g ∈ gs, ¬ P g) : value P v gs = v := by
  induction gs generalizing v with
  | nil => rfl
  | cons g gs ih =>
    simp only [value, List.foldl_cons] at ih ⊢
    rw [if_neg (h g (by simp)), ih _ fun g hg => h g (List.mem_cons_of_mem _ hg)]

theorem value_again (P : Grp → Prop) (v : Int) (hv : v ≠ 0) (gs : List Grp) (h : ∃ g ∈ gs, P g) : value P v gs = -1 := by
  induction gs generalizing v with
  | nil => simp at h
  | cons g gs ih =>
    simp only [value, List.foldl_cons] at ih ⊢
    by_cases hP : P g
    · rw [if_pos hP, if_pos hv]
      by_cases hx : ∃ g ∈ gs, P g
      · exact ih (-1) (by decide) hx
      · exact value_none P (-1) gs (fun g hg hp => hx ⟨g, hg, hp⟩)
    · rw [if_neg hP]
      obtain ⟨g', hg', hp'⟩ := h
      rcases List.mem_cons.1 hg' with rfl | hg'
      · exact absurd hp' hP
      · exact ih v hv ⟨g', hg', hp'⟩

theorem value_one (P : Grp → Prop) (gs : List Grp) (g : Grp) (hg : g ∈ gs) (hn : gs.Nodup) (hP : P g) (h : ∀ g' ∈ gs, g' ≠ g → ¬ P g') : value P 0 gs = g.id := by
  induction gs with
  | nil => cases hg
  | cons a gs ih =>
    rw [List.nodup_cons] at hn
    rcases List.mem_cons.1 hg with rfl | hg
    · simp only [value, List.foldl_cons]
      rw [if_pos hP, if_neg (by simp)]
      exact value_none P _ gs fun g' hg' => h g' (List.mem_cons_of_mem _ hg') (fun e => hn.1 (e ▸ hg'))
    · have ha : ¬ P a := h a (by simp) (fun e => hn.1 (e ▸ hg))
      have := ih hg hn.2 fun g' hg' => h g' (List.mem_cons_of_mem _ hg')
      simp only [value, List.foldl_cons] at this ⊢
      rw [if_neg ha]
      exact this

theorem value_two (P : Grp → Prop) (gs : List Grp) (h0 : ∀ g ∈ gs, g.id ≠ 0) (g g' : Grp) (hg : g ∈ gs) (hg' : g' ∈ gs) (hne : g ≠ g') (hP : P g) (hP' : P g') :
    value P 0 gs = -1 := by
  induction gs with
  | nil => cases hg
  | cons a gs ih =>
    by_cases ha : P a
    · simp only [value, List.foldl_cons]
      rw [if_pos ha, if_neg (by simp)]
      refine value_again P _ (h0 a (by simp)) gs ?_
      rcases List.mem_cons.1 hg with rfl | hg
      · rcases List.mem_cons.1 hg' with rfl | hg'
        · exact absurd rfl hne
        · exact ⟨g', hg', hP'⟩
      · exact ⟨g, hg, hP⟩
    · have e1 : g ∈ gs := (List.mem_cons.1 hg).resolve_left (fun e => ha (e ▸ hP))
      have e2 : g' ∈ gs := (List.mem_cons.1 hg').resolve_left (fun e => ha (e ▸ hP'))
      have := ih (fun g hg => h0 g (List.mem_cons_of_mem _ hg)) e1 e2
      simp only [value, List.foldl_cons] at this ⊢
      rw [if_neg ha]
      exact this

theorem groupMap_ok [Field K] [LinearOrder K] [IsStrictOrderedRing K] [FloorRing K] (ny nx h : Nat) (size : K) (src : Nat → Src K) (gs : List Grp)
    (hg : ∀ g ∈ gs, OnMap ny nx size src g) (hs : ∀ g ∈ gs, ∀ j ∈ g.mem, Ok ny nx h (src j)) :
    ∃ m, groupMap ny nx h size src gs = .ok m ∧ ∀ r c, r < ny → c < nx → m r c = value (fun g => Area h size src g r c) 0 gs := by
  unfold groupMap
  suffices ∀ m0 : Nat → Nat → Int, ∃ m, gs.foldlM (paint ny nx h size src) m0 = .ok m ∧ ∀ r c, r < ny → c < nx → m r c = value (fun g => Area h size src g r c) (m0 r c) gs from
    this fun _ _ => 0
  induction gs with
  | nil => exact fun m0 => ⟨m0, rfl, fun r c _ _ => rfl⟩
  | cons g gs ih =>
    intro m0
    obtain ⟨m1, e1, h1⟩ := paint_ok ny nx h size src m0 g (hg g (by simp)) (hs g (by simp))
    obtain ⟨m, e, hv⟩ := ih (fun g' h' => hg g' (List.mem_cons_of_mem _ h')) (fun g' h' => hs g' (List.mem_cons_of_mem _ h')) m1
    refine ⟨m, ?_, fun r c hr hc => ?_⟩
    · rw [List.foldlM_cons, e1]; exact e
    · rw [hv r c hr hc, h1 r c hr hc]
      simp only [value, List.foldl_cons]

/-- the sum over a box -/
theorem sum_box [Field K] (ny nx y0 y1 x0 x1 : Nat) (b1 : y1 < ny) (b2 : x1 < nx) (F : Nat → Nat → K) :
    ((((List.range (y1 + 1 - y0)).flatMap fun a => (List.range (x1 + 1 - x0)).map fun b => (y0 + a, x0 + b))).map fun q => F q.1 q.2).sum =
      ∑ p ∈ range ny ×ˢ range nx, if y0 ≤ p.1 ∧ p.1 ≤ y1 ∧ x0 ≤ p.2 ∧ p.2 ≤ x1 then F p.1 p.2 else 0 := by
  have hn : ((List.range (y1 + 1 - y0)).flatMap fun a => (List.range (x1 + 1 - x0)).map fun b => (y0 + a, x0 + b)).Nodup := by
    rw [List.nodup_flatMap]
    refine ⟨fun a _ => (List.nodup_range).map (fun b b' e => by simp only [Prod.mk.injEq] at e; omega), ?_⟩
    refine List.Pairwise.imp_of_mem ?_ (List.nodup_range (n := y1 + 1 - y0))
    intro a a' _ _ hne x h1 h2
    simp only [List.mem_map] at h1 h2
    obtain ⟨b, -, rfl⟩ := h1
    obtain ⟨b', -, e⟩ := h2
    simp only [Prod.mk.injEq] at e
    omega
  rw [← List.sum_toFinset _ hn, ← Finset.sum_filter]
  apply Finset.sum_congr
  · ext ⟨r, c⟩
    simp only [List.mem_toFinset, List.mem_flatMap, List.mem_map, List.mem_range, Prod.mk.injEq, Finset.mem_filter, Finset.mem_product, Finset.mem_range]
    constructor
    · rintro ⟨a, ha, b, hb, rfl, rfl⟩
      omega
    · rintro ⟨⟨h1, h2⟩, h3, h4, h5, h6⟩
      exact ⟨r - y0, by omega, c - x0, by omega, by omega, by omega⟩
  · intro p _; rfl

/-! ### C202 -/

/-- The map of the groups: a pixel that is in the aperture of one group only has its number; it is -1 if it is in those of two groups or more, and 0 if it is in none. -/
theorem C202_map [Field K] [LinearOrder K] [IsStrictOrderedRing K] [FloorRing K] (ny nx h : Nat) (size : K) (src : Nat → Src K) (gs : List Grp) (hn : gs.Nodup) (h0 : ∀ g ∈ gs, 0 < g.id)
    (hg : ∀ g ∈ gs, OnMap ny nx size src g) (hs : ∀ g ∈ gs, ∀ j ∈ g.mem, Ok ny nx h (src j)) :
    ∃ m, groupMap ny nx h size src gs = .ok m ∧ ∀ r c, r < ny → c < nx →
      ((∀ g ∈ gs, ¬ Area h size src g r c) → m r c = 0) ∧
      (∀ g ∈ gs, Area h size src g r c → (∀ g' ∈ gs, g' ≠ g → ¬ Area h size src g' r c) → m r c = g.id) ∧
      (∀ g ∈ gs, ∀ g' ∈ gs, g ≠ g' → Area h size src g r c → Area h size src g' r c → m r c = -1) := by
  obtain ⟨m, e, hv⟩ := groupMap_ok ny nx h size src gs hg hs
  refine ⟨m, e, fun r c hr hc => ⟨fun ha => ?_, fun g hg ha hx => ?_, fun g hg g' hg' hne ha ha' => ?_⟩⟩
  · rw [hv r c hr hc]; exact value_none _ _ _ ha
  · rw [hv r c hr hc]; exact value_one _ gs g hg hn ha hx
  · rw [hv r c hr hc]; exact value_two _ gs (fun g hg => (h0 g hg).ne') g g' hg hg' hne ha ha'

open Classical in
/-- the pixels of the map that are in the aperture of this group only -/
noncomputable def alone [Field K] [LinearOrder K] (ny nx h : Nat) (size : K) (src : Nat → Src K) (gs : List Grp) (g : Grp) : Finset (Nat × Nat) :=
  (range ny ×ˢ range nx).filter fun p => Area h size src g p.1 p.2 ∧ ∀ g' ∈ gs, g' ≠ g → ¬ Area h size src g' p.1 p.2

theorem sum_filter_list {α : Type} [Field K] (l : List α) (p : α → Bool) (f : α → K) : ((l.filter p).map f).sum = (l.map fun a => if p a then f a else 0).sum := by
  induction l with
  | nil => rfl
  | cons a l ih =>
    rw [List.filter_cons]
    split
    · next h => simp [h, ih]
    · next h => simp [h, ih]

/-- The flux of a group is the sum of the pixels that are in its aperture only, the square of its error is that of the squares of the errors of these pixels, and the coverage of each source of the
group is the sum of its PSF over these pixels. -/
theorem C202_flux [Field K] [LinearOrder K] [IsStrictOrderedRing K] [FloorRing K] (ny nx h : Nat) (size : K) (src : Nat → Src K) (gs : List Grp) (hn : (gs.map (·.id)).Nodup)
    (h0 : ∀ g ∈ gs, 0 < g.id) (hg : ∀ g ∈ gs, OnMap ny nx size src g) (hs : ∀ g ∈ gs, ∀ j ∈ g.mem, Ok ny nx h (src j)) (img err : Nat → Nat → K) :
    ∃ m, groupMap ny nx h size src gs = .ok m ∧ ∀ g ∈ gs, measure ny nx h size src img err m g =
      .ok (g.mem.map (fun j => ∑ p ∈ alone ny nx h size src gs g, stamp (src j).psf 0 (src j).iy (src j).ix h p.1 p.2),
        ∑ p ∈ alone ny nx h size src gs g, img p.1 p.2, ∑ p ∈ alone ny nx h size src gs g, err p.1 p.2 ^ 2) := by
  obtain ⟨m, e, hm⟩ := C202_map ny nx h size src gs (List.Nodup.of_map _ hn) h0 hg hs
  refine ⟨m, e, fun g hgm => ?_⟩
  have hid : ∀ g' ∈ gs, g'.id = g.id → g' = g := fun g' hg' e => List.inj_on_of_nodup_map hn hg' hgm e
  -- the pixels with the number of the group
  have key : ∀ r c, r < ny → c < nx → (m r c = g.id ↔ Area h size src g r c ∧ ∀ g' ∈ gs, g' ≠ g → ¬ Area h size src g' r c) := by
    intro r c hr hc
    obtain ⟨k1, k2, k3⟩ := hm r c hr hc
    constructor
    · intro he
      have hp := h0 g hgm
      by_cases hx : ∃ g1 ∈ gs, Area h size src g1 r c
      · obtain ⟨g1, hg1, ha1⟩ := hx
        by_cases hy : ∀ g' ∈ gs, g' ≠ g1 → ¬ Area h size src g' r c
        · have := k2 g1 hg1 ha1 hy
          have := hid g1 hg1 (by omega)
          subst this
          exact ⟨ha1, hy⟩
        · push Not at hy
          obtain ⟨g2, hg2, hne, ha2⟩ := hy
          have := k3 g2 hg2 g1 hg1 hne ha2 ha1
          omega
      · have := k1 fun g hg ha => hx ⟨g, hg, ha⟩
        omega
    · rintro ⟨ha, hx⟩
      exact k2 g hgm ha hx
  obtain ⟨y0, y1, x0, x1, eb, b1, b2, b3, b4, hb⟩ := box_ok ny nx size src g (hg g hgm)
  -- a sum over these pixels
  have hsum : ∀ F : Nat → Nat → K, ∑ p ∈ range ny ×ˢ range nx, (if y0 ≤ p.1 ∧ p.1 ≤ y1 ∧ x0 ≤ p.2 ∧ p.2 ≤ x1 then if m p.1 p.2 = g.id then F p.1 p.2 else 0 else 0) =
      ∑ p ∈ alone ny nx h size src gs g, F p.1 p.2 := by
    intro F
    unfold alone
    rw [Finset.sum_filter]
    apply Finset.sum_congr rfl
    intro p hp
    rw [Finset.mem_product, Finset.mem_range, Finset.mem_range] at hp
    by_cases hP : Area h size src g p.1 p.2 ∧ ∀ g' ∈ gs, g' ≠ g → ¬ Area h size src g' p.1 p.2
    · rw [if_pos hP, if_pos ((hb _ _ hp.1 hp.2).2 hP.1.1), if_pos ((key _ _ hp.1 hp.2).2 hP)]
    · rw [if_neg hP]
      split
      · rw [if_neg (fun e => hP ((key _ _ hp.1 hp.2).1 e))]
      · rfl
  have hpx : ∀ F : Nat → Nat → K, ((((List.range (y1 + 1 - y0)).flatMap fun a => (List.range (x1 + 1 - x0)).map fun b => (y0 + a, x0 + b)).filter fun q => m q.1 q.2 = g.id).map
      fun q => F q.1 q.2).sum = ∑ p ∈ alone ny nx h size src gs g, F p.1 p.2 := by
    intro F
    rw [sum_filter_list, ← hsum F]
    simp only [decide_eq_true_eq]
    exact sum_box ny nx y0 y1 x0 x1 b1 b2 fun r c => if m r c = g.id then F r c else 0
  have hcov : ∀ j ∈ g.mem, coverage h src m g.id y0 x0 (y1 + 1 - y0) (x1 + 1 - x0) j =
      .ok (∑ p ∈ alone ny nx h size src gs g, stamp (src j).psf 0 (src j).iy (src j).ix h p.1 p.2) := by
    intro j hj
    have ho := hs g hgm j hj
    obtain ⟨idi, idp, g1, g2, g3⟩ := pairs_ok ho b1 b2 b3 b4
    unfold coverage
    simp only []
    rw [g1, Res.ok_bind]
    dsimp only
    rw [gather_ok _ 0 _ (by
      intro i hi
      simp only [List.mem_map] at hi
      obtain ⟨q, hq, rfl⟩ := hi
      obtain ⟨r, c, h1, h2, h3, h4, h5, h6, e1, e2⟩ := (g3 q).1 (List.mem_of_mem_filter hq)
      rw [ho.psf, e2]
      exact place_lt h5 h6), Res.ok_bind]
    congr 1
    rw [List.map_map]
    have hc : ((fun i => (src j).psf.getD i 0) ∘ Prod.snd : Nat × Nat → K) = fun q => (src j).psf.getD q.2 0 := rfl
    rw [hc, sum_filter_list, ← hsum, ← List.sum_toFinset _ g2]
    simp only [decide_eq_true_eq]
    have hR : ∀ p ∈ range ny ×ˢ range nx, (if y0 ≤ p.1 ∧ p.1 ≤ y1 ∧ x0 ≤ p.2 ∧ p.2 ≤ x1 then if m p.1 p.2 = g.id then stamp (src j).psf 0 (src j).iy (src j).ix h p.1 p.2 else 0 else 0) =
        if (y0 ≤ p.1 ∧ p.1 ≤ y1 ∧ x0 ≤ p.2 ∧ p.2 ≤ x1) ∧ |(p.1 : Int) - (src j).iy| ≤ h ∧ |(p.2 : Int) - (src j).ix| ≤ h then
          if m p.1 p.2 = g.id then (src j).psf.getD (((p.1 - (src j).iy + h) * (2 * h + 1) + (p.2 - (src j).ix + h) : Int).toNat) 0 else 0 else 0 := by
      intro p _
      unfold stamp
      by_cases hA : y0 ≤ p.1 ∧ p.1 ≤ y1 ∧ x0 ≤ p.2 ∧ p.2 ≤ x1
      · by_cases hB : |(p.1 : Int) - (src j).iy| ≤ h ∧ |(p.2 : Int) - (src j).ix| ≤ h
        · simp only [hA, hB, and_self, if_true]
        · simp only [hA, hB, and_false, and_self, if_true, if_false, ite_self]
      · simp only [hA, false_and, if_false]
    rw [Finset.sum_congr rfl hR]
    symm
    rw [← Finset.sum_filter]
    apply Finset.sum_bij (fun (p : Nat × Nat) _ => ((p.1 - y0) * (x1 + 1 - x0) + (p.2 - x0), ((p.1 - (src j).iy + h) * (2 * h + 1) + (p.2 - (src j).ix + h) : Int).toNat))
    · intro p hp
      obtain ⟨-, ⟨q1, q2, q3, q4⟩, q5, q6⟩ := Finset.mem_filter.1 hp
      rw [List.mem_toFinset, g3]
      exact ⟨p.1, p.2, q1, q2, q3, q4, q5, q6, rfl, rfl⟩
    · intro p hp q hq e
      obtain ⟨-, ⟨q1, q2, q3, q4⟩, -, -⟩ := Finset.mem_filter.1 hp
      obtain ⟨-, ⟨q1', q2', q3', q4'⟩, -, -⟩ := Finset.mem_filter.1 hq
      obtain ⟨w1, w2⟩ := flat_inj (show p.2 - x0 < x1 + 1 - x0 by omega) (show q.2 - x0 < x1 + 1 - x0 by omega) (Prod.ext_iff.1 e).1
      exact Prod.ext (by omega) (by omega)
    · intro b hb'
      rw [List.mem_toFinset, g3] at hb'
      obtain ⟨r, c, h1, h2, h3, h4, h5, h6, e1, e2⟩ := hb'
      refine ⟨(r, c), Finset.mem_filter.2 ⟨?_, ⟨h1, h2, h3, h4⟩, h5, h6⟩, Prod.ext e1.symm e2.symm⟩
      rw [Finset.mem_product, Finset.mem_range, Finset.mem_range]
      exact ⟨by dsimp only; omega, by dsimp only; omega⟩
    · intro p hp
      obtain ⟨-, ⟨q1, q2, q3, q4⟩, -, -⟩ := Finset.mem_filter.1 hp
      dsimp only
      have hW : 0 < x1 + 1 - x0 := by omega
      have hlt : p.2 - x0 < x1 + 1 - x0 := by omega
      have d1 : ((p.1 - y0) * (x1 + 1 - x0) + (p.2 - x0)) / (x1 + 1 - x0) = p.1 - y0 := by
        rw [Nat.add_comm, Nat.add_mul_div_right _ _ hW, Nat.div_eq_of_lt hlt, Nat.zero_add]
      have d2 : ((p.1 - y0) * (x1 + 1 - x0) + (p.2 - x0)) % (x1 + 1 - x0) = p.2 - x0 := by
        rw [Nat.add_comm, Nat.add_mul_mod_self_right, Nat.mod_eq_of_lt hlt]
      rw [d1, d2, show y0 + (p.1 - y0) = p.1 by omega, show x0 + (p.2 - x0) = p.2 by omega]
  unfold measure
  rw [eb, Res.ok_bind]
  dsimp only
  rw [Res.mapM_ok hcov, Res.ok_bind, hpx, hpx fun r c => err r c ^ 2]

/-- The box of a group contains all the pixels that are not farther than the size of the aperture from one of its sources. -/
theorem C202_box [Field K] [LinearOrder K] [IsStrictOrderedRing K] (size : K) (src : Nat → Src K) (g : Grp) (j : Nat) (hj : j ∈ g.mem) (r c : Nat) (hr : |(r : K) - (src j).ty| ≤ size)
    (hc : |(c : K) - (src j).tx| ≤ size) : InBox size src g r c := by
  rw [abs_le] at hr hc
  exact ⟨⟨j, hj, by linarith [hr.1]⟩, ⟨j, hj, by linarith [hr.2]⟩, ⟨j, hj, by linarith [hc.1]⟩, ⟨j, hj, by linarith [hc.2]⟩⟩

/-- three sources in a row with apertures of three pixels; the first two are a group, and the aperture of the third one covers that of the second one in part -/
def srcEx : Nat → Src Rat
  | 0 => ⟨1, 1, 1, 1, [false, false, false, true, true, true, false, false, false], [0, 0, 0, 1/4, 1/2, 1/4, 0, 0, 0]⟩
  | 1 => ⟨1, 2, 1, 2, [false, false, false, true, true, true, false, false, false], [0, 0, 0, 1/4, 1/2, 1/4, 0, 0, 0]⟩
  | _ => ⟨1, 4, 1, 4, [false, false, false, true, true, true, false, false, false], [0, 0, 0, 1/4, 1/2, 1/4, 0, 0, 0]⟩
def grpEx : List Grp := [⟨1, [0, 1]⟩, ⟨2, [2]⟩]

example : (grpEx.map (·.id)).Nodup ∧ (∀ g ∈ grpEx, 0 < g.id) := by decide
example : ∀ g ∈ grpEx, OnMap 3 6 1 srcEx g := by
  intro g hg
  simp only [grpEx, List.mem_cons, List.not_mem_nil, or_false] at hg
  rcases hg with rfl | rfl
  · exact ⟨1, 1, by decide, by decide, C202_box 1 srcEx _ 0 (by simp) 1 1 (by simp [srcEx]) (by simp [srcEx])⟩
  · exact ⟨1, 4, by decide, by decide, C202_box 1 srcEx _ 2 (by simp) 1 4 (by simp [srcEx]) (by simp [srcEx])⟩
example : ∀ g ∈ grpEx, ∀ j ∈ g.mem, Ok 3 6 1 (srcEx j) := by
  intro g hg j hj
  have : j = 0 ∨ j = 1 ∨ j = 2 := by
    simp only [grpEx, List.mem_cons, List.not_mem_nil, or_false] at hg
    rcases hg with rfl | rfl <;> simp at hj <;> omega
  rcases this with rfl | rfl | rfl <;> exact ⟨by decide, by decide, by decide, by decide, by decide, by decide, by decide, by decide⟩

/-- the values of a row -/
def rowOf (r : Nat) : Res (Nat → Nat → Int) → List Int
  | .ok m => (List.range 6).map (m r)
  | _ => []

/-- the pixel 3 is in both apertures -/
example : rowOf 1 (groupMap 3 6 1 1 srcEx grpEx) = [1, 1, 1, -1, 2, 2] := by decide +kernel

/-- If a group is at the left of the map, or above it, the result is undefined: the last column of its box is negative. (A pair of close sources off the map is enough.) -/
theorem C202_offmap_refuted : ∃ (src : Nat → Src Rat) (gs : List Grp), (gs.map (·.id)).Nodup ∧ (∀ g ∈ gs, 0 < g.id ∧ g.mem ≠ []) ∧ (∀ g ∈ gs, ∀ j ∈ g.mem, Ok 3 6 1 (src j)) ∧
    groupMap 3 6 1 1 src gs = .ub := by
  refine ⟨fun _ => ⟨1, -3, 1, -3, List.replicate 9 true, List.replicate 9 0⟩, [⟨1, [0, 1]⟩], by decide, by decide, ?_, ?_⟩
  · have : Ok 3 6 1 (⟨1, -3, 1, -3, List.replicate 9 true, List.replicate 9 0⟩ : Src Rat) := ⟨by decide, by decide, by decide, by decide, by decide, by decide, by decide, by decide⟩
    exact fun _ _ _ _ => this
  · have : box 3 6 (1 : Rat) (fun _ => ⟨1, -3, 1, -3, List.replicate 9 true, List.replicate 9 0⟩) ⟨1, [0, 1]⟩ = .ub := by decide +kernel
    rw [groupMap, List.foldlM_cons, paint, this]
    rfl

/-- If a group is at the right of the map, the program stops. -/
theorem C202_right_refuted : ∃ (src : Nat → Src Rat) (gs : List Grp), (gs.map (·.id)).Nodup ∧ (∀ g ∈ gs, 0 < g.id ∧ g.mem ≠ []) ∧ (∀ g ∈ gs, ∀ j ∈ g.mem, Ok 3 6 1 (src j)) ∧
    groupMap 3 6 1 1 src gs = .abort := by
  refine ⟨fun _ => ⟨1, 9, 1, 9, List.replicate 9 true, List.replicate 9 0⟩, [⟨1, [0, 1]⟩], by decide, by decide, ?_, ?_⟩
  · have : Ok 3 6 1 (⟨1, 9, 1, 9, List.replicate 9 true, List.replicate 9 0⟩ : Src Rat) := ⟨by decide, by decide, by decide, by decide, by decide, by decide, by decide, by decide⟩
    exact fun _ _ _ _ => this
  · have : box 3 6 (1 : Rat) (fun _ => ⟨1, 9, 1, 9, List.replicate 9 true, List.replicate 9 0⟩) ⟨1, [0, 1]⟩ = .abort := by decide +kernel
    rw [groupMap, List.foldlM_cons, paint, this]
    rfl

end Verif.ExtractAper
