import Verif.Astro.RegionProps
import Verif.Math.OrderProps
import Verif.Index.Model
import Mathlib.Algebra.Order.Field.Basic
import Mathlib.Tactic.NormNum
/-!
# The PSF of the pixfit tools (C205)

`read_psf` of `tools/pixfit/pixfit-common.hpp`, without beam smearing. The numbers are those of an ordered field, without rounding; NaN is `none`. The sizes are far from the limits of the
integers.
-/
namespace Verif.ReadPsf
open Verif Verif.Astro Verif.Math

variable {K : Type} [Field K] [LinearOrder K] [IsStrictOrderedRing K]

/-! ### Model -/

/-- `abs(v/psf_max) > 1e-4`: a division by zero is infinite, or NaN -/
def big (m v : Option K) : Bool := match v, m with
  | some a, some b => if b = 0 then a ≠ 0 else (1 : K) / 10000 < |a / b|
  | _, _ => false

/-- `for (int_t i = imax; i > 0; --i) if (...) { hsize = i; break; }` (`pixfit-common.hpp:248-256`), which leaves `hsize = 0` if nothing is found -/
def search (psf : Img (Option K)) (my mx : Nat) (m : Option K) : Nat → Res Nat
  | 0 => .ok 0
  | i + 1 => do
    let a ← psf.get (my - (i + 1)) mx
    let b ← psf.get (my + (i + 1)) mx
    let c ← psf.get my (mx - (i + 1))
    let d ← psf.get my (mx + (i + 1))
    if big m a || big m b || big m c || big m d then .ok (i + 1) else search psf my mx m i

/-- `read_psf` (`pixfit-common.hpp:234-260`): `hsize` and the PSF -/
def readPsf (psf : Img (Option K)) : Res (Nat × Img (Option K)) := do
  let (k, _) ← vmax psf.px
  match ← Index.multIds [psf.nx, psf.ny] k with
  | [my, mx] => do
    let imax := min (min my (psf.nx - 1 - my)) (min mx (psf.ny - 1 - mx))
    let m ← psf.get my mx
    let h ← search psf my mx m imax
    let h := if h = 0 then imax else h
    let s ← subregionImg psf [(my : Int) - h, (mx : Int) - h, (my : Int) + h, (mx : Int) + h] (some 0)
    .ok (h, s)
  | _ => .ub

/-! ### Specification -/

/-- the pixel holds the highest value of the image (NaN only if there is nothing else) -/
def Peak (psf : Img (Option K)) (my mx : Nat) : Prop := my < psf.nx ∧ mx < psf.ny ∧
  ∃ p, psf.at my mx = some p ∧ ∀ y x v, psf.at y x = some (some v) → ∃ b, p = some b ∧ v ≤ b

/-- the distance of the pixel to the closest edge of the image -/
def room (psf : Img (Option K)) (my mx : Nat) : Nat := min (min my (psf.nx - 1 - my)) (min mx (psf.ny - 1 - mx))

/-- one of the four pixels at a distance `i` of the peak, on its line and on its column, is brighter than 1/10000 of the peak -/
def Bright (psf : Img (Option K)) (my mx i : Nat) : Prop :=
  ∃ a b : K, psf.at my mx = some (some b) ∧ |b| < 10000 * |a| ∧
    (psf.at (my - i) mx = some (some a) ∨ psf.at (my + i) mx = some (some a) ∨ psf.at my (mx - i) = some (some a) ∨ psf.at my (mx + i) = some (some a))

/-! ### Helpers -/

theorem big_iff (m v : Option K) : big m v = true ↔ ∃ a b : K, v = some a ∧ m = some b ∧ |b| < 10000 * |a| := by
  unfold big
  cases v with
  | none => simp
  | some a =>
    cases m with
    | none => simp
    | some b =>
      simp only [Option.some.injEq, exists_eq_left', decide_eq_true_eq, exists_and_left]
      by_cases hb : b = 0
      · subst hb
        simp
      · have hb' : 0 < |b| := abs_pos.2 hb
        simp only [if_neg hb]
        rw [decide_eq_true_eq, abs_div, lt_div_iff₀ hb']
        constructor
        · intro h; linarith
        · intro h; linarith

theorem get_ok {v : Img (Option K)} (hw : v.WF) {x y : Nat} (hx : x < v.nx) (hy : y < v.ny) : ∃ a, v.get x y = .ok a ∧ v.at x y = some a := by
  obtain ⟨a, ha⟩ := at_isSome hw hx hy
  exact ⟨a, get_at ha, ha⟩

theorem search_ok (psf : Img (Option K)) (hw : psf.WF) (my mx : Nat) (hy : my < psf.nx) (hx : mx < psf.ny) (m : Option K) (hm : psf.at my mx = some m) (n : Nat) (hn : n ≤ room psf my mx) :
    ∃ h, search psf my mx m n = .ok h ∧ h ≤ n ∧ (0 < h → Bright psf my mx h) ∧ ∀ i, h < i → i ≤ n → ¬ Bright psf my mx i := by
  induction n with
  | zero => exact ⟨0, rfl, le_refl _, by simp, by intro i h1 h2; omega⟩
  | succ n ih =>
    unfold room at hn
    obtain ⟨a, ga, ea⟩ := get_ok hw (show my - (n + 1) < psf.nx by omega) hx
    obtain ⟨b, gb, eb⟩ := get_ok hw (show my + (n + 1) < psf.nx by omega) hx
    obtain ⟨c, gc, ec⟩ := get_ok hw hy (show mx - (n + 1) < psf.ny by omega)
    obtain ⟨d, gd, ed⟩ := get_ok hw hy (show mx + (n + 1) < psf.ny by omega)
    have hB : (big m a || big m b || big m c || big m d) = true ↔ Bright psf my mx (n + 1) := by
      simp only [Bool.or_eq_true, big_iff, Bright, hm, ea, eb, ec, ed, Option.some.injEq]
      constructor
      · rintro (((⟨u, w, h1, h2, h3⟩ | ⟨u, w, h1, h2, h3⟩) | ⟨u, w, h1, h2, h3⟩) | ⟨u, w, h1, h2, h3⟩)
        · exact ⟨u, w, h2, h3, .inl h1⟩
        · exact ⟨u, w, h2, h3, .inr (.inl h1)⟩
        · exact ⟨u, w, h2, h3, .inr (.inr (.inl h1))⟩
        · exact ⟨u, w, h2, h3, .inr (.inr (.inr h1))⟩
      · rintro ⟨u, w, h2, h3, h1 | h1 | h1 | h1⟩
        · exact .inl (.inl (.inl ⟨u, w, h1, h2, h3⟩))
        · exact .inl (.inl (.inr ⟨u, w, h1, h2, h3⟩))
        · exact .inl (.inr ⟨u, w, h1, h2, h3⟩)
        · exact .inr ⟨u, w, h1, h2, h3⟩
    simp only [search, ga, gb, gc, gd, Res.ok_bind]
    by_cases hb : (big m a || big m b || big m c || big m d) = true
    · rw [if_pos hb]
      exact ⟨n + 1, rfl, le_refl _, fun _ => hB.1 hb, by intro i h1 h2; omega⟩
    · rw [if_neg hb]
      obtain ⟨h, e, h1, h2, h3⟩ := ih (by unfold room; omega)
      refine ⟨h, e, by omega, h2, fun i hi hn' => ?_⟩
      rcases Nat.lt_or_ge n i with hc | hc
      · obtain rfl : i = n + 1 := by omega
        exact fun hc' => hb (hB.2 hc')
      · exact h3 i hi hc

/-! ### C205 -/

/-- The PSF is the square of an odd size around the brightest pixel of the file, and all its pixels are those of the file; its half size is the largest distance at which the line or the
column of the brightest pixel, on both sides within the image, has a pixel brighter than 1/10000 of the brightest one. If there is none, it is the largest square in the image. (Full
statement: no pixel of the file outside of the square is brighter than 1/10000 of the brightest one. Here this is known on the line and on the column of the brightest pixel only, and up to
the distance to the closest edge.) -/
theorem C205_psf_partial (psf : Img (Option K)) (hw : psf.WF) (hy : 0 < psf.nx) (hx : 0 < psf.ny) (hbig : psf.nx < 2 ^ 30) (hbig' : psf.ny < 2 ^ 30) :
    ∃ my mx h s, readPsf psf = .ok (h, s) ∧ Peak psf my mx ∧ h ≤ room psf my mx ∧ s.WF ∧ s.nx = 2 * h + 1 ∧ s.ny = 2 * h + 1 ∧
      (∀ r c, r < 2 * h + 1 → c < 2 * h + 1 → s.at r c = psf.at (my + r - h) (mx + c - h)) ∧
      (∀ i, h < i → i ≤ room psf my mx → ¬ Bright psf my mx i) ∧ (h < room psf my mx → 0 < h ∧ Bright psf my mx h) := by
  have hne : psf.px ≠ [] := by
    intro e
    have := hw
    rw [Img.WF, e] at this
    simp at this
    omega
  obtain ⟨⟨k, p⟩, e1, ⟨hk, hmax⟩, -⟩ := C25_max psf.px hne
  dsimp only at hk hmax
  have hkl : k < psf.nx * psf.ny := by rw [← hw]; exact (List.getElem?_eq_some_iff.1 hk).1
  have e2 : Index.multIds [psf.nx, psf.ny] k = .ok [k / psf.ny, k % psf.ny] := by
    simp only [Index.multIds, List.reverse_cons, List.reverse_nil, List.nil_append, List.cons_append, Index.multIdsLoop]
    rw [if_neg (by omega), if_neg (by omega), Nat.mod_eq_of_lt (Nat.div_lt_of_lt_mul (by rw [Nat.mul_comm]; exact hkl))]
  obtain ⟨my, hmy⟩ : ∃ a, a = k / psf.ny := ⟨_, rfl⟩
  obtain ⟨mx, hmx⟩ : ∃ a, a = k % psf.ny := ⟨_, rfl⟩
  have ly : my < psf.nx := by rw [hmy]; exact Nat.div_lt_of_lt_mul (by rw [Nat.mul_comm]; exact hkl)
  have lx : mx < psf.ny := by rw [hmx]; exact Nat.mod_lt _ hx
  have hkk : my * psf.ny + mx = k := by rw [hmy, hmx, Nat.mul_comm]; exact Nat.div_add_mod k psf.ny
  have hat : psf.at my mx = some p := by
    unfold Img.at
    rw [if_pos ⟨ly, lx⟩, hkk, hk]
  rw [← hmy, ← hmx] at e2
  obtain ⟨h0, e3, g1, g2, g3⟩ := search_ok psf hw my mx ly lx p hat (room psf my mx) (le_refl _)
  have hpk : Peak psf my mx := by
    refine ⟨ly, lx, p, hat, fun y x v hv => ?_⟩
    apply hmax
    unfold Img.at at hv
    split at hv
    · exact List.mem_of_getElem? hv
    · simp at hv
  obtain ⟨h, hh⟩ : ∃ a, a = if h0 = 0 then room psf my mx else h0 := ⟨_, rfl⟩
  have hle : h ≤ room psf my mx := by rw [hh]; split <;> omega
  have hle' := hle
  unfold room at hle'
  have himg : psf.nx * psf.ny < 2 ^ 63 := calc
    psf.nx * psf.ny ≤ 2 ^ 30 * 2 ^ 30 := Nat.mul_le_mul hbig.le hbig'.le
    _ < 2 ^ 63 := by norm_num
  obtain ⟨s, e4, w1, w2, w3, w4⟩ := C64_image_partial psf ((my : Int) - h) ((mx : Int) - h) ((my : Int) + h) ((mx : Int) + h) (some (0 : K)) hw
    ⟨by omega, by omega, by omega, by omega, himg, by
      have : ((my : Int) + h - (my - h) + 1) * ((mx : Int) + h - (mx - h) + 1) = ((2 * h + 1) * (2 * h + 1) : Nat) := by push_cast; ring
      rw [this]
      have h2 : (2 * h + 1) * (2 * h + 1) ≤ 2 ^ 31 * 2 ^ 31 := Nat.mul_le_mul (by omega) (by omega)
      have : (2 * h + 1) * (2 * h + 1) < 2 ^ 63 := lt_of_le_of_lt h2 (by norm_num)
      exact_mod_cast this⟩ (by omega) (by omega)
  refine ⟨my, mx, h, s, ?_, hpk, hle, w1, by omega, by omega, ?_, ?_, ?_⟩
  · unfold readPsf
    rw [e1, Res.ok_bind]
    dsimp only
    rw [e2, Res.ok_bind]
    dsimp only
    rw [get_at hat, Res.ok_bind]
    have := e3
    unfold room at this
    rw [this, Res.ok_bind]
    have hh' := hh
    unfold room at hh'
    rw [← hh', e4, Res.ok_bind]
  · intro r c hr hc
    rw [w4 r c (by omega) (by omega), if_pos (by omega)]
    congr 1 <;> omega
  · intro i hi hr
    apply g3 i _ hr
    rw [hh] at hi
    split at hi
    · omega
    · exact hi
  · intro hlt
    rw [hh] at hlt ⊢
    split
    · rename_i h0'
      rw [if_pos h0'] at hlt
      omega
    · exact ⟨by omega, g2 (by omega)⟩

example : readPsf (⟨3, 4, [none, some 0, some 0, some 1, some 0, some 5, some 3, some 0, some 0, some 0, some 0, some 0]⟩ : Img (Option Rat)) =
    .ok (1, ⟨3, 3, [none, some 0, some 0, some 0, some 5, some 3, some 0, some 0, some 0]⟩) := by decide +kernel
example : readPsf (⟨5, 5, [some 1, some 0, some 0, some 0, some 0, some 0, some 0, some 0, some 0, some 0, some 0, some 1, some 20000, some 7, some 1, some 0, some 0, some 0, some 0, some 0,
    some 0, some 0, some 0, some 0, some 0]⟩ : Img (Option Rat)) = .ok (1, ⟨3, 3, [some 0, some 0, some 0, some 1, some 20000, some 7, some 0, some 0, some 0]⟩) := by decide +kernel

/-- A part of the PSF that is not on the line or on the column of the brightest pixel is lost, however bright: here a corner with half of the peak. -/
theorem C205_diagonal_refuted : ∃ (psf : Img (Option Rat)) (s : Img (Option Rat)), psf.WF ∧ psf.nx = 5 ∧ psf.ny = 5 ∧ Peak psf 2 2 ∧ psf.at 2 2 = some (some 2) ∧ psf.at 0 0 = some (some 1) ∧
    readPsf psf = .ok (1, s) ∧ s.px = [some 0, some 1, some 0, some 1, some 2, some 1, some 0, some 1, some 0] := by
  refine ⟨⟨5, 5, [some 1, some 0, some 0, some 0, some 0, some 0, some 0, some 1, some 0, some 0, some 0, some 1, some 2, some 1, some 0, some 0, some 0, some 1, some 0, some 0,
    some 0, some 0, some 0, some 0, some 0]⟩, ⟨3, 3, [some 0, some 1, some 0, some 1, some 2, some 1, some 0, some 1, some 0]⟩, by decide, rfl, rfl, ⟨by decide, by decide, some 2, by decide, ?_⟩, by decide, by decide,
    by decide +kernel, rfl⟩
  intro y x v hv
  refine ⟨2, rfl, ?_⟩
  have hl := at_lt hv
  have key : ∀ y < 5, ∀ x < 5, ∀ v ∈ ((⟨5, 5, [some 1, some 0, some 0, some 0, some 0, some 0, some 0, some 1, some 0, some 0, some 0, some 1, some 2, some 1, some 0, some 0, some 0, some 1, some 0,
    some 0, some 0, some 0, some 0, some 0, some 0]⟩ : Img (Option Rat)).at y x).getD none, v ≤ 2 := by decide +kernel
  exact key y hl.1 x hl.2 v (by rw [hv]; rfl)

/-- If the brightest pixel is on an edge of the image, the PSF is this pixel alone. -/
theorem C205_edge_refuted : readPsf (⟨3, 3, [some 4, some 2, some 1, some 2, some 1, some 0, some 1, some 0, some 0]⟩ : Img (Option Rat)) = .ok (0, ⟨1, 1, [some 4]⟩) := by decide +kernel

end Verif.ReadPsf
