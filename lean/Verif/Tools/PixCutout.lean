import Verif.Astro.QstackProps
import Verif.Str.Std
import Mathlib.Algebra.Order.Floor.Ring
import Mathlib.Tactic.FieldSimp
import Mathlib.Tactic.Ring
import Mathlib.Tactic.Linarith
/-!
# Cutouts around a position (C233): `pixfit-cutout` (`tools/pixfit/pixfit-cutout.cpp`)

Simplified: the map file is given by the list of its maps (C190), the conversion of the position to pixels of an image and the size of its pixels are
given with the image, and the keywords of the WCS other than `CRPIX` and `CRVAL` are one value. Files split in sections are not modelled, nor the
precision of the numbers in the header. The coordinates are exact.
-/
namespace Verif.PixCutout
open Verif Verif.Astro Verif.Qstack Verif.Str

variable {K : Type} [Field K] [LinearOrder K] [FloorRing K] {α : Type} {W : Type}

/-! ### Model -/

/-- one HDU of a file: its image with the position of the source in it, if there is data; the size of its pixels, if it has a WCS; its keywords -/
structure Hdu (K α W : Type) where
  image : Option (Image K α)
  aspix : Option K
  wcs : W

/-- a written file -/
structure Cut (K α W : Type) where
  px : Img α
  crpix : K × K
  crval : K × K
  wcs : W

/-- `ceil` -/
def ceilZ (x : K) : Int := -⌊-x⌋

/-- one file (pixfit-cutout.cpp:21-58). `none` is the exit with an error; the pixel size and `qstack` are those of the first HDU with an image (wcs.hpp:864-872,
qstack.hpp:24), and the header that of the first HDU (io/fits.hpp:84-86) -/
def cutFile (N : Num α) (radius ra dec : K) (hdus : List (Hdu K α W)) : Res (Option (Cut K α W)) :=
  match hdus.find? (fun u => u.image.isSome) with
  | none => .ok none
  | some u =>
    match u.aspix, u.image, hdus.head? with
    | some aspix, some im, some first =>
      let hsize := (ceilZ (radius / aspix)).toNat
      do
        let s ← qstack N ⟨true, true, false⟩ hsize 1 [im] [] []
        let c := if s.ids = [] then Img.fill (2 * hsize + 1) (2 * hsize + 1) N.nan else s.cube.headD (Img.fill 0 0 N.nan)
        let d : K × K := if s.ids = [] then (0, 0) else (s.dx.headD 0, s.dy.headD 0)
        .ok (some ⟨c, (hsize + 1 + d.1, hsize + 1 + d.2), (ra, dec), first.wcs⟩)
    | _, _, _ => .ok none

/-- a map: its band, and its two files -/
structure Map (K α W : Type) where
  band : Str
  sci : List (Hdu K α W)
  err : List (Hdu K α W)

/-- the loops on the maps and types (pixfit-cutout.cpp:18-59): the exit code and the files written -/
def loop (N : Num α) (radius ra dec : K) : List (Str × List (Hdu K α W)) → List (Str × Cut K α W) → Res (Bool × List (Str × Cut K α W))
  | [], acc => .ok (true, acc)
  | (name, hdus) :: l, acc => do
    let r ← cutFile N radius ra dec hdus
    match r with
    | none => .ok (false, acc)
    | some c => loop N radius ra dec l (acc ++ [(name, c)])

/-- `vif_main` (pixfit-cutout.cpp:4-62): `maps` is the content of the file named by the first argument, `none` if there is no argument: `argv[1]` is then a null
pointer. `pos` is `none` if `ra` or `dec` is missing. -/
def main (N : Num α) (radius : K) (pos : Option (K × K)) (maps : Option (List (Map K α W))) : Res (Bool × List (Str × Cut K α W)) :=
  match maps with
  | none => .ub
  | some maps =>
    match pos with
    | none => .ok (false, [])
    | some (ra, dec) => loop N radius ra dec (maps.flatMap fun m => [(m.band ++ "-sci.fits".toList, m.sci), (m.band ++ "-err.fits".toList, m.err)]) []

/-! ### Specification -/

variable [IsStrictOrderedRing K]

/-- Spec: a file whose first HDU is the image `im`, with pixels of size `aspix` and the source at `(x, y)` -/
structure IsMap (hdus : List (Hdu K α W)) (im : Image K α) (aspix : K) (wcs : W) (x y : K) : Prop where
  first : hdus.head? = some ⟨some im, some aspix, wcs⟩
  size : 0 < aspix
  axes : im.naxis = 2 ∧ 0 < im.width ∧ 0 < im.height
  pos : im.pos = [(x, y)]

/-- Spec: the cutout of half-size `h` of the pixels around the source: pixel `(P, Q)` of the cutout is pixel `(M, R)` of the map, at the same distance from the
source in both (the source is at `CRPIX` in the cutout and at `(x, y)` in the map), and NaN out of the map -/
def Around (N : Num α) (h : Nat) (im : Image K α) (x y : K) (c : Cut K α W) : Prop :=
  c.px.nx = 2 * h + 1 ∧ c.px.ny = 2 * h + 1 ∧ ∃ X Y : Int, |x - X| ≤ 1 / 2 ∧ |y - Y| ≤ 1 / 2 ∧
    ∀ P Q : Nat, P < 2 * h + 1 → Q < 2 * h + 1 → ∃ M R : Int, M = X - h + P ∧ R = Y - h + Q ∧
      c.px.at Q P = some (pixel N im M R) ∧ ((P + 1 : Nat) : K) - c.crpix.1 = M - x ∧ ((Q + 1 : Nat) : K) - c.crpix.2 = R - y

/-- Spec: the written cutout -/
structure IsCut (N : Num α) (radius ra dec : K) (im : Image K α) (aspix : K) (wcs : W) (x y : K) (c : Cut K α W) : Prop where
  crval : c.crval = (ra, dec)
  wcs : c.wcs = wcs
  px : ∃ h : Nat, radius ≤ h * aspix ∧ h * aspix < radius + aspix ∧
    (¬ Ignored h im (rnd x) (rnd y) → Around N h im x y c) ∧
    (Ignored h im (rnd x) (rnd y) → c.px = Img.fill (2 * h + 1) (2 * h + 1) N.nan ∧ c.crpix = ((h : K) + 1, (h : K) + 1))

/-! ### Helpers -/

theorem ceilZ_spec (x : K) : x ≤ ceilZ x ∧ (ceilZ x : K) < x + 1 := by
  unfold ceilZ
  have h1 := Int.floor_le (-x)
  have h2 := Int.lt_floor_add_one (-x)
  rw [Int.cast_neg]
  constructor <;> linarith

theorem rnd_half (x : K) : |x - (rnd x : Int)| ≤ 1 / 2 := by
  unfold rnd
  split
  · have h1 := Int.floor_le (x + 1 / 2)
    have h2 := Int.lt_floor_add_one (x + 1 / 2)
    rw [abs_le]
    constructor <;> linarith
  · have h1 := Int.floor_le (-x + 1 / 2)
    have h2 := Int.lt_floor_add_one (-x + 1 / 2)
    rw [abs_le, Int.cast_neg]
    constructor <;> linarith

theorem qstack_one (N : Num α) (h : Nat) (im : Image K α) (ha : im.naxis = 2 ∧ 0 < im.width ∧ 0 < im.height) (x y : K) (hp : im.pos = [(x, y)]) (hx : Good h x) (hy : Good h y) :
    qstack N ⟨true, true, false⟩ h 1 [im] [] [] = .ok (if Ignored h im (rnd x) (rnd y) then ⟨[], [], [false], [], [], []⟩
      else ⟨[0], [square N h im (rnd x) (rnd y)], [true], [x - rnd x], [y - rnd y], []⟩) := by
  have hc := C118_cut_partial N true h im ha.1 ha.2.1 ha.2.2 x y hx hy
  unfold qstack
  show List.foldlM _ _ [(0, 0)] = _
  rw [List.foldlM_cons]
  have hs : step N ⟨true, true, false⟩ h [im] ⟨[], [], List.replicate 1 false, [], [], []⟩ (0, 0) = .ok (if Ignored h im (rnd x) (rnd y) then ⟨[], [], [false], [], [], []⟩
      else ⟨[0], [square N h im (rnd x) (rnd y)], [true], [x - rnd x], [y - rnd y], []⟩) := by
    unfold step
    show (Res.rd im.pos 0 >>= _) = _
    rw [hp]
    show (makeCut N true h im x y >>= _) = _
    rw [hc, Res.ok_bind]
    unfold kept
    by_cases hi : Ignored h im (rnd x) (rnd y)
    · rw [if_pos hi, if_pos hi]
      rfl
    · rw [if_neg hi, if_neg hi, if_neg (by simp)]
      rfl
  rw [hs, Res.ok_bind]
  rfl

/-! ### C233 -/

/-- **C233** for one file whose image is in its first HDU -/
theorem cutFile_ok {N : Num α} {radius ra dec : K} (hr : 0 ≤ radius) {hdus : List (Hdu K α W)} {im : Image K α} {aspix : K} {wcs : W} {x y : K} (h : IsMap hdus im aspix wcs x y)
    (hx : ∀ h, Good h x) (hy : ∀ h, Good h y) : ∃ c, cutFile N radius ra dec hdus = .ok (some c) ∧ IsCut N radius ra dec im aspix wcs x y c := by
  obtain ⟨l, hl⟩ : ∃ l, hdus = ⟨some im, some aspix, wcs⟩ :: l := by
    cases hdus with
    | nil => simpa using h.first
    | cons a l => exact ⟨l, by have := h.first; simp at this; rw [this]⟩
  subst hl
  set n := (ceilZ (radius / aspix)).toNat with hn
  have hq := qstack_one N n im h.axes x y h.pos (hx n) (hy n)
  have hc := ceilZ_spec (radius / aspix)
  have h0 : 0 ≤ ceilZ (radius / aspix) := by
    have : (0 : K) ≤ ceilZ (radius / aspix) := le_trans (div_nonneg hr h.size.le) hc.1
    exact_mod_cast this
  have hcast : ((n : Nat) : K) = ceilZ (radius / aspix) := by
    have : ((n : Nat) : Int) = ceilZ (radius / aspix) := Int.toNat_of_nonneg h0
    exact_mod_cast congrArg (Int.cast (R := K)) this
  have hs := h.size
  have hsz : radius ≤ n * aspix ∧ n * aspix < radius + aspix := by
    rw [hcast]
    constructor
    · exact (div_le_iff₀ hs).1 hc.1
    · have := mul_lt_mul_of_pos_right hc.2 hs
      rwa [add_mul, div_mul_cancel₀ _ hs.ne', one_mul] at this
  unfold cutFile
  rw [List.find?_cons_of_pos (by rfl)]
  dsimp only [List.head?_cons]
  rw [← hn, hq, Res.ok_bind]
  refine ⟨_, rfl, rfl, rfl, n, hsz.1, hsz.2, fun hi => ?_, fun hi => ?_⟩
  · rw [if_neg hi]
    refine ⟨rfl, rfl, rnd x, rnd y, rnd_half x, rnd_half y, fun P Q hP hQ => ⟨_, _, rfl, rfl, square_at N n im _ _ Q P hQ hP, ?_, ?_⟩⟩
    · show ((P + 1 : Nat) : K) - ((n : K) + 1 + (x - rnd x)) = _
      simp only [Int.cast_add, Int.cast_sub, Int.cast_natCast, Nat.cast_add, Nat.cast_one]
      ring
    · show ((Q + 1 : Nat) : K) - ((n : K) + 1 + (y - rnd y)) = _
      simp only [Int.cast_add, Int.cast_sub, Int.cast_natCast, Nat.cast_add, Nat.cast_one]
      ring
  · rw [if_pos hi]
    refine ⟨rfl, ?_⟩
    show ((n : K) + 1 + 0, (n : K) + 1 + 0) = _
    rw [add_zero]

/-- Spec: the files of a map, with what is in them -/
def Good2 (hdus : List (Hdu K α W)) : Prop := ∃ im aspix wcs x y, IsMap hdus im aspix wcs x y ∧ (∀ h, Good h x) ∧ ∀ h, Good h y

/-- Spec: the cutout of a file -/
def CutOf (N : Num α) (radius ra dec : K) (hdus : List (Hdu K α W)) (c : Cut K α W) : Prop :=
  ∃ im aspix wcs x y, IsMap hdus im aspix wcs x y ∧ IsCut N radius ra dec im aspix wcs x y c

/-- **C233** for maps whose files have their image in the first HDU (and positions that are not half-integers): two files are written for each map, in
order, with the pixels around the position, NaN out of the map, and a header that puts each pixel at its place. -/
theorem C233_cutouts_partial (N : Num α) {radius ra dec : K} (hr : 0 ≤ radius) (maps : List (Map K α W)) (h : ∀ m ∈ maps, Good2 m.sci ∧ Good2 m.err) :
    ∃ l, main N radius (some (ra, dec)) (some maps) = .ok (true, l) ∧ l.length = 2 * maps.length ∧
      ∀ (k : Nat) m, maps[k]? = some m → ∃ c c', l[2 * k]? = some (m.band ++ "-sci.fits".toList, c) ∧ CutOf N radius ra dec m.sci c ∧
        l[2 * k + 1]? = some (m.band ++ "-err.fits".toList, c') ∧ CutOf N radius ra dec m.err c' := by
  have key : ∀ (maps : List (Map K α W)), (∀ m ∈ maps, Good2 m.sci ∧ Good2 m.err) → ∀ acc : List (Str × Cut K α W), ∃ l,
      loop N radius ra dec (maps.flatMap fun m => [(m.band ++ "-sci.fits".toList, m.sci), (m.band ++ "-err.fits".toList, m.err)]) acc = .ok (true, acc ++ l) ∧ l.length = 2 * maps.length ∧
      ∀ (k : Nat) m, maps[k]? = some m → ∃ c c', l[2 * k]? = some (m.band ++ "-sci.fits".toList, c) ∧ CutOf N radius ra dec m.sci c ∧
        l[2 * k + 1]? = some (m.band ++ "-err.fits".toList, c') ∧ CutOf N radius ra dec m.err c' := by
    intro maps
    induction maps with
    | nil => intro _ acc; exact ⟨[], by simp [loop], rfl, by simp⟩
    | cons m ms ih =>
      intro h acc
      obtain ⟨⟨im, a, w, x, y, g1, g2, g3⟩, ⟨im', a', w', x', y', g1', g2', g3'⟩⟩ := h m List.mem_cons_self
      obtain ⟨c, c1, c2⟩ := cutFile_ok (N := N) (ra := ra) (dec := dec) hr g1 g2 g3
      obtain ⟨d, d1, d2⟩ := cutFile_ok (N := N) (ra := ra) (dec := dec) hr g1' g2' g3'
      obtain ⟨l, l1, l2, l3⟩ := ih (fun m hm => h m (List.mem_cons_of_mem _ hm)) (acc ++ [(m.band ++ "-sci.fits".toList, c)] ++ [(m.band ++ "-err.fits".toList, d)])
      refine ⟨(m.band ++ "-sci.fits".toList, c) :: (m.band ++ "-err.fits".toList, d) :: l, ?_, ?_, ?_⟩
      · rw [List.flatMap_cons]
        show loop N radius ra dec ((m.band ++ "-sci.fits".toList, m.sci) :: (m.band ++ "-err.fits".toList, m.err) :: _) acc = _
        rw [loop, c1, Res.ok_bind]
        dsimp only
        rw [loop, d1, Res.ok_bind]
        dsimp only
        refine (show _ = _ from l1).trans ?_
        simp
      · simp only [List.length_cons, l2]; omega
      · intro k m' hk
        cases k with
        | zero =>
          simp only [List.getElem?_cons_zero, Option.some.injEq] at hk
          subst hk
          exact ⟨c, d, rfl, ⟨im, a, w, x, y, g1, c2⟩, rfl, ⟨im', a', w', x', y', g1', d2⟩⟩
        | succ k =>
          rw [List.getElem?_cons_succ] at hk
          exact l3 k m' hk
  obtain ⟨l, l1, l2, l3⟩ := key maps h []
  exact ⟨l, l1, l2, l3⟩

omit [IsStrictOrderedRing K] in
/-- without a position, nothing is written -/
theorem C233_no_position (N : Num α) (radius : K) (maps : List (Map K α W)) : main N radius none (some maps) = .ok (false, []) := rfl

omit [IsStrictOrderedRing K] in
/-- **C233** fails without arguments: the null pointer `argv[1]` is converted to a string. -/
theorem C233_arguments_refuted (N : Num α) (radius : K) (pos : Option (K × K)) : main (W := W) N radius pos none = .ub := rfl

/-- **C233** fails for a file whose image is not in its first HDU: the cutout has the keywords of the first HDU instead of those of the image. -/
theorem C233_extension_refuted {N : Num α} {radius ra dec : K} (hr : 0 ≤ radius) {hdus : List (Hdu K α W)} {im : Image K α} {aspix : K} {wcs : W} {x y : K} (h : IsMap hdus im aspix wcs x y)
    (hx : ∀ h, Good h x) (hy : ∀ h, Good h y) (w : W) : ∃ c, cutFile N radius ra dec (⟨none, none, w⟩ :: hdus) = .ok (some c) ∧ c.wcs = w := by
  obtain ⟨c, c1, _⟩ := cutFile_ok (N := N) (ra := ra) (dec := dec) hr h hx hy
  obtain ⟨l, hl⟩ : ∃ l, hdus = ⟨some im, some aspix, wcs⟩ :: l := by
    cases hdus with
    | nil => simpa using h.first
    | cons a l => exact ⟨l, by have := h.first; simp at this; rw [this]⟩
  subst hl
  unfold cutFile at c1 ⊢
  rw [List.find?_cons_of_neg (by simp)]
  rw [List.find?_cons_of_pos (by rfl)] at c1 ⊢
  dsimp only [List.head?_cons] at c1 ⊢
  obtain ⟨s, s1, s2⟩ := Res.bind_eq_ok.1 c1
  rw [s1, Res.ok_bind]
  exact ⟨_, rfl, rfl⟩

/-- a map of 3 × 3 pixels with the source at `(x, 2)`, pixels of 1 and a radius of 1 -/
def exMap (x : ℚ) : List (Hdu ℚ Nat Nat) := [⟨some ⟨2, 3, 3, [11, 12, 13, 21, 22, 23, 31, 32, 33], [(x, 2)]⟩, some 1, 7⟩]

/-- **C233** fails for a source whose cutout has only the last column of the map: the cutout has no pixel of the map. -/
theorem C233_last_refuted : ((cutFile (α := Nat) ⟨0, 0, fun v => v != 0⟩ 1 0 0 (exMap 4)).map fun c => c.map (·.px.px)) = .ok (some [0, 0, 0, 0, 0, 0, 0, 0, 0]) ∧
    ((cutFile (α := Nat) ⟨0, 0, fun v => v != 0⟩ 1 0 0 (exMap 0)).map fun c => c.map (·.px.px)) = .ok (some [0, 0, 11, 0, 0, 21, 0, 0, 31]) := by
  constructor <;> decide +kernel

/-- the hypotheses can be met -/
example : Good2 (exMap (9 / 4)) :=
  ⟨_, _, _, _, _, ⟨rfl, by norm_num, ⟨rfl, by decide, by decide⟩, rfl⟩, fun h => .inr fun n hn => by
    have : (9 : ℚ) = 4 * n + 2 := by linarith
    have : (9 : Int) = 4 * n + 2 := by exact_mod_cast this
    omega, fun h => .inr fun n hn => by
    have : (4 : ℚ) = 2 * n + 1 := by linarith
    have : (4 : Int) = 2 * n + 1 := by exact_mod_cast this
    omega⟩

end Verif.PixCutout
