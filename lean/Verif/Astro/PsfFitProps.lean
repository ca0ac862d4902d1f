import Verif.Astro.PsfFit
import Verif.Astro.RegionProps
import Verif.Math.LinfitProps
import Mathlib.Tactic.LinearCombination
/-!
# C156, C157: fit of a point source and its subtraction
-/
namespace Verif.Astro
open Verif

variable {K : Type} [Field K] [LinearOrder K] [IsStrictOrderedRing K]

/-- Spec: the value of an image of pixels at a position, and its error. Outside of the image, and if one of the two is not finite, it is zero with the largest error. -/
def datum (E : K) (img : Img (Option K)) (err : Nat → Nat → Option K) (x y : Int) : K × K :=
  if 0 ≤ x ∧ x < img.nx ∧ 0 ≤ y ∧ y < img.ny then
    match img.at x.toNat y.toNat, err x.toNat y.toNat with
    | some (some a), some e => (a, e)
    | _, _ => (0, E)
  else (0, E)

/-- Spec: the goodness of a background and a flux, for a point source of `2h + 1` pixels centered on `(p0, p1)` -/
def psfChi2 (E : K) (img : Img (Option K)) (err : Nat → Nat → Option K) (psf : Img K) (h : Nat) (p0 p1 : Int) (bg flux : K) : K :=
  ∑ m : Fin ((2 * h + 1) * (2 * h + 1)),
    let x := m.val / (2 * h + 1)
    let y := m.val % (2 * h + 1)
    let d := datum E img err (p0 - h + x) (p1 - h + y)
    ((d.1 - (bg + flux * (psf.at x y).getD 0)) / d.2) ^ 2

/-- Spec: the errors: a map, or a number for all pixels -/
def errMap (img terr : Img (Option K)) (x y : Nat) : Option K := if terr.nx = 1 ∧ terr.ny = 1 then (if x < img.nx ∧ y < img.ny then (terr.at 0 0).join else none) else (terr.at x y).join

omit [Field K] [LinearOrder K] [IsStrictOrderedRing K] in
theorem at_flat {α : Type} {v : Img α} {x y : Nat} (hx : x < v.nx) (hy : y < v.ny) : v.at x y = v.px[x * v.ny + y]? := if_pos ⟨hx, hy⟩

omit [IsStrictOrderedRing K] in
theorem psfErrors_ok (img terr : Img (Option K)) (he : terr.WF) (hd : (terr.nx = 1 ∧ terr.ny = 1) ∨ (terr.nx = img.nx ∧ terr.ny = img.ny)) :
    ∃ err, psfErrors img terr = Res.ok err ∧ err.WF ∧ err.nx = img.nx ∧ err.ny = img.ny ∧ ∀ x y, x < img.nx → y < img.ny → err.at x y = some (errMap img terr x y) := by
  unfold psfErrors
  by_cases h1 : terr.nx = 1 ∧ terr.ny = 1
  · have hl : 0 < terr.px.length := by rw [he, h1.1, h1.2]; decide
    refine ⟨Img.fill img.nx img.ny terr.px[0], ?_, ?_, rfl, rfl, fun x y hx hy => ?_⟩
    · rw [if_pos h1, Res.rd_lt hl]; rfl
    · simp [Img.WF, Img.fill]
    · unfold errMap
      rw [if_pos h1, if_pos ⟨hx, hy⟩, at_flat (v := terr) (x := 0) (y := 0) (by rw [h1.1]; decide) (by rw [h1.2]; decide), Nat.zero_mul, Nat.zero_add, List.getElem?_eq_getElem hl]
      unfold Img.at Img.fill
      dsimp only
      rw [if_pos ⟨hx, hy⟩, List.getElem?_replicate, if_pos (flat_lt hx hy)]
      rfl
  · have h2 := hd.resolve_left h1
    refine ⟨terr, ?_, he, h2.1, h2.2, fun x y hx hy => ?_⟩
    · rw [if_neg h1, Res.check_pos h2]; rfl
    · unfold errMap
      rw [if_neg h1]
      obtain ⟨a, ha⟩ := at_isSome he (x := x) (y := y) (by omega) (by omega)
      rw [ha]; rfl

theorem psffit_eq (sq : K → K) (E : K) (img terr : Img (Option K)) (psf : Img K) (h : Nat) (p0 p1 : Int) (hi : img.WF) (hp : psf.WF) (he : terr.WF)
    (hn : psf.nx = 2 * h + 1) (hm : psf.ny = 2 * h + 1) (hd : (terr.nx = 1 ∧ terr.ny = 1) ∨ (terr.nx = img.nx ∧ terr.ny = img.ny))
    (hf : Fits img.nx img.ny (p0 - h) (p1 - h) (p0 + h) (p1 + h)) :
    psffit sq E img terr psf p0 p1 = .ok (Linfit.linfit sq
      (fun m : Fin (psf.nx * psf.ny) => (datum E img (errMap img terr) (p0 - h + (m.val / psf.ny : Nat)) (p1 - h + (m.val % psf.ny : Nat))).1)
      (fun m => (datum E img (errMap img terr) (p0 - h + (m.val / psf.ny : Nat)) (p1 - h + (m.val % psf.ny : Nat))).2)
      fun i m => if i = 0 then 1 else (psf.at (m.val / psf.ny) (m.val % psf.ny)).getD 0) := by
  have hreg : psfRegion psf.nx psf.ny p0 p1 = [p0 - h, p1 - h, p0 + h, p1 + h] := by
    unfold psfRegion
    rw [hn, hm, show (2 * h + 1) / 2 = h by omega]
  obtain ⟨err, e1, e2, e3, e4, e5⟩ := psfErrors_ok img terr he hd
  obtain ⟨ic, i1, i2, i3, i4, i5⟩ := C64_image_partial img (p0 - h) (p1 - h) (p0 + h) (p1 + h) (some 0) hi hf (by omega) (by omega)
  obtain ⟨ec, c1, c2, c3, c4, c5⟩ := C64_image_partial err (p0 - h) (p1 - h) (p0 + h) (p1 + h) (some E) e2 (by rw [e3, e4]; exact hf) (by omega) (by omega)
  have n1 : ic.nx = psf.nx := by omega
  have n2 : ic.ny = psf.ny := by omega
  have n3 : ec.nx = psf.nx := by omega
  have n4 : ec.ny = psf.ny := by omega
  unfold psffit
  rw [e1, Res.ok_bind, hreg, i1, Res.ok_bind, c1, Res.ok_bind]
  dsimp only
  rw [Res.check_pos ⟨by omega, by omega, n1, n2⟩, Res.ok_bind]
  have hny : 0 < psf.ny := by omega
  have key : ∀ m : Fin (psf.nx * psf.ny), (List.zipWith (clean E) ic.px ec.px).getD m (0, E) =
      datum E img (errMap img terr) (p0 - h + (m.val / psf.ny : Nat)) (p1 - h + (m.val % psf.ny : Nat)) := by
    intro m
    have hx : m.val / psf.ny < psf.nx := by rw [Nat.div_lt_iff_lt_mul hny]; exact m.2
    have hy : m.val % psf.ny < psf.ny := Nat.mod_lt _ hny
    have hm' : m.val = m.val / psf.ny * psf.ny + m.val % psf.ny := (Nat.div_add_mod' _ _).symm
    have k1 := i5 (m.val / psf.ny) (m.val % psf.ny) (by omega) (by omega)
    have k2 := c5 (m.val / psf.ny) (m.val % psf.ny) (by omega) (by omega)
    rw [at_flat (by omega) (by omega), n2, ← hm'] at k1
    rw [at_flat (by omega) (by omega), n4, ← hm', e3, e4] at k2
    rw [List.getD_eq_getElem?_getD, List.getElem?_zipWith]
    unfold datum
    generalize m.val / psf.ny = x at *
    generalize m.val % psf.ny = y at *
    by_cases hc : 0 ≤ p0 - h + x ∧ p0 - h + x < img.nx ∧ 0 ≤ p1 - h + y ∧ p1 - h + y < img.ny
    · rw [if_pos hc] at k1 k2 ⊢
      rw [e5 _ _ (by omega) (by omega)] at k2
      obtain ⟨a, ha⟩ := at_isSome hi (x := (p0 - h + x).toNat) (y := (p1 - h + y).toNat) (by omega) (by omega)
      rw [ha] at k1
      rw [k1, k2, ha]
      cases a <;> cases errMap img terr (p0 - h + x).toNat (p1 - h + y).toNat <;> rfl
    · rw [if_neg hc] at k1 k2 ⊢
      rw [k1, k2]
      rfl
  have key2 : ∀ m : Fin (psf.nx * psf.ny), psf.px.getD m 0 = (psf.at (m.val / psf.ny) (m.val % psf.ny)).getD 0 := by
    intro m
    have hx : m.val / psf.ny < psf.nx := by rw [Nat.div_lt_iff_lt_mul hny]; exact m.2
    have hy : m.val % psf.ny < psf.ny := Nat.mod_lt _ hny
    rw [at_flat hx hy, show m.val / psf.ny * psf.ny + m.val % psf.ny = m.val from Nat.div_add_mod' _ _, List.getD_eq_getElem?_getD]
  simp only [key, key2]

/-- `psffit` of a square with an odd number of pixels: the background and the flux are the only ones that minimise the squares of the residuals over the pixels of the square, centered on the position. Pixels out of
the image, and those that are not finite or whose error is not, count as zero with the largest error. The fit fails exactly if a combination of the background and the source is zero everywhere. -/
theorem C156_fit_partial (sq : K → K) (E : K) (hE : E ≠ 0) (img terr : Img (Option K)) (psf : Img K) (h : Nat) (p0 p1 : Int) (hi : img.WF) (hp : psf.WF) (he : terr.WF)
    (hn : psf.nx = 2 * h + 1) (hm : psf.ny = 2 * h + 1) (hd : (terr.nx = 1 ∧ terr.ny = 1) ∨ (terr.nx = img.nx ∧ terr.ny = img.ny))
    (hf : Fits img.nx img.ny (p0 - h) (p1 - h) (p0 + h) (p1 + h)) (hz : some 0 ∉ terr.px) :
    ∃ o, psffit sq E img terr psf p0 p1 = .ok o ∧
      (∀ r, o = some r →
        r.chi2 = psfChi2 E img (errMap img terr) psf h p0 p1 (r.params 0) (r.params 1) ∧
        (∀ b f, r.chi2 ≤ psfChi2 E img (errMap img terr) psf h p0 p1 b f) ∧
        ∀ b f, psfChi2 E img (errMap img terr) psf h p0 p1 b f = r.chi2 → b = r.params 0 ∧ f = r.params 1) ∧
      (o = none ↔ ∃ b f : K, (b ≠ 0 ∨ f ≠ 0) ∧ ∀ x y, x < 2 * h + 1 → y < 2 * h + 1 → b + f * (psf.at x y).getD 0 = 0) := by
  have hne : ∀ m : Fin (psf.nx * psf.ny), (datum E img (errMap img terr) (p0 - h + (m.val / psf.ny : Nat)) (p1 - h + (m.val % psf.ny : Nat))).2 ≠ 0 := by
    intro m
    unfold datum
    split
    · split
      · rename_i e _ he'
        intro h0
        dsimp only at h0
        subst h0
        apply hz
        unfold errMap at he'
        split at he'
        · split at he'
          · unfold Img.at at he'
            split at he'
            · exact List.mem_iff_getElem?.2 ⟨_, Option.join_eq_some_iff.1 he'⟩
            · simp at he'
          · simp at he'
        · unfold Img.at at he'
          split at he'
          · exact List.mem_iff_getElem?.2 ⟨_, Option.join_eq_some_iff.1 he'⟩
          · simp at he'
      · exact hE
    · exact hE
  refine ⟨_, psffit_eq sq E img terr psf h p0 p1 hi hp he hn hm hd hf, ?_, ?_⟩
  · intro r hr
    obtain ⟨g1, g2, g3⟩ := Linfit.C55_linfit_minimises sq _ _ _ hne r hr
    have hchi : ∀ v : Fin 2 → K, Linfit.chi2 (fun m : Fin (psf.nx * psf.ny) => (datum E img (errMap img terr) (p0 - h + (m.val / psf.ny : Nat)) (p1 - h + (m.val % psf.ny : Nat))).1)
        (fun m => (datum E img (errMap img terr) (p0 - h + (m.val / psf.ny : Nat)) (p1 - h + (m.val % psf.ny : Nat))).2)
        (fun i m => if i = 0 then 1 else (psf.at (m.val / psf.ny) (m.val % psf.ny)).getD 0) v = psfChi2 E img (errMap img terr) psf h p0 p1 (v 0) (v 1) := by
      intro v
      unfold Linfit.chi2 psfChi2
      rw [hn, hm]
      refine Finset.sum_congr rfl fun m _ => ?_
      rw [Fin.sum_univ_two]
      dsimp only
      rw [if_pos rfl, if_neg (by decide), mul_one]
    rw [hchi] at g1
    refine ⟨g1, fun b f => ?_, fun b f hbf => ?_⟩
    · have := g2 ![b, f]
      rw [hchi, hchi] at this
      rw [g1]
      exact this
    · have := g3 ![b, f] (by rw [hchi, hchi, ← g1]; exact hbf)
      rw [← this]
      exact ⟨rfl, rfl⟩
  · have hs := Linfit.C55_linfit_succeeds_iff sq (fun m : Fin (psf.nx * psf.ny) => (datum E img (errMap img terr) (p0 - h + (m.val / psf.ny : Nat)) (p1 - h + (m.val % psf.ny : Nat))).1)
      (fun m => (datum E img (errMap img terr) (p0 - h + (m.val / psf.ny : Nat)) (p1 - h + (m.val % psf.ny : Nat))).2)
      (fun (i : Fin 2) m => if i = 0 then 1 else (psf.at (m.val / psf.ny) (m.val % psf.ny)).getD 0) hne
    rw [← Option.not_isSome_iff_eq_none, hs]
    unfold Linfit.Indep
    push Not
    constructor
    · rintro ⟨v, v1, v2⟩
      refine ⟨v 0, v 1, ?_, fun x y hx hy => ?_⟩
      · by_contra hc
        push Not at hc
        apply v2
        funext i
        fin_cases i
        · exact hc.1
        · exact hc.2
      · have hny : 0 < psf.ny := by omega
        have := v1 ⟨x * psf.ny + y, flat_lt (by omega) (by omega)⟩
        rw [Fin.sum_univ_two] at this
        dsimp only at this
        rw [if_pos rfl, if_neg (by decide), mul_one] at this
        rw [Nat.mul_comm, Nat.mul_add_div hny, Nat.div_eq_of_lt (by omega), Nat.mul_add_mod, Nat.mod_eq_of_lt (by omega)] at this
        exact this
    · rintro ⟨b, f, h1, h2⟩
      refine ⟨![b, f], fun m => ?_, fun hc => ?_⟩
      · have hny : 0 < psf.ny := by omega
        rw [Fin.sum_univ_two]
        rw [if_pos rfl, if_neg (by decide), mul_one]
        refine h2 _ _ ?_ ?_
        · rw [← hn, Nat.div_lt_iff_lt_mul hny]; exact m.2
        · rw [← hm]; exact Nat.mod_lt _ hny
      · have a0 := congrFun hc 0
        have a1 := congrFun hc 1
        rcases h1 with h1 | h1
        · exact h1 a0
        · exact h1 a1

/-- If the source is entirely in the image, and the image is a background plus the source times a flux, these are the results. -/
theorem C156_recover (sq : K → K) (E : K) (hE : E ≠ 0) (img terr : Img (Option K)) (psf : Img K) (h : Nat) (p0 p1 : Int) (hi : img.WF) (hp : psf.WF) (he : terr.WF)
    (hn : psf.nx = 2 * h + 1) (hm : psf.ny = 2 * h + 1) (hd : (terr.nx = 1 ∧ terr.ny = 1) ∨ (terr.nx = img.nx ∧ terr.ny = img.ny))
    (hf : Fits img.nx img.ny (p0 - h) (p1 - h) (p0 + h) (p1 + h)) (hz : some 0 ∉ terr.px) (b f : K)
    (h1 : (h : Int) ≤ p0 ∧ p0 + h < img.nx ∧ (h : Int) ≤ p1 ∧ p1 + h < img.ny)
    (h2 : ∀ x y, x < 2 * h + 1 → y < 2 * h + 1 → img.at (p0 - h + x).toNat (p1 - h + y).toNat = some (some (b + f * (psf.at x y).getD 0)) ∧ errMap img terr (p0 - h + x).toNat (p1 - h + y).toNat ≠ none)
    (h3 : ∃ x y x' y', psf.at x y ≠ psf.at x' y' ∧ x < 2 * h + 1 ∧ y < 2 * h + 1 ∧ x' < 2 * h + 1 ∧ y' < 2 * h + 1) :
    ∃ r, psffit sq E img terr psf p0 p1 = .ok (some r) ∧ r.params 0 = b ∧ r.params 1 = f ∧ r.chi2 = 0 := by
  obtain ⟨o, o1, o2, o3⟩ := C156_fit_partial sq E hE img terr psf h p0 p1 hi hp he hn hm hd hf hz
  cases o with
  | none =>
    exfalso
    obtain ⟨b', f', k1, k2⟩ := o3.1 rfl
    obtain ⟨x, y, x', y', g1, g2, g3, g4, g5⟩ := h3
    have a1 := k2 x y g2 g3
    have a2 := k2 x' y' g4 g5
    obtain ⟨u, hu⟩ := at_isSome hp (x := x) (y := y) (by omega) (by omega)
    obtain ⟨w, hw⟩ := at_isSome hp (x := x') (y := y') (by omega) (by omega)
    rw [hu, hw] at g1
    rw [hu, Option.getD_some] at a1
    rw [hw, Option.getD_some] at a2
    have hf0 : f' = 0 := by
      have : f' * (u - w) = 0 := by linear_combination a1 - a2
      rcases mul_eq_zero.1 this with e | e
      · exact e
      · exact absurd (congrArg some (sub_eq_zero.1 e)) g1
    subst hf0
    rw [zero_mul, add_zero] at a1
    rcases k1 with e | e
    · exact e a1
    · exact e rfl
  | some r =>
    obtain ⟨q1, q2, q3⟩ := o2 r rfl
    have h0 : psfChi2 E img (errMap img terr) psf h p0 p1 b f = 0 := by
      unfold psfChi2
      refine Finset.sum_eq_zero fun m _ => ?_
      have hx : m.val / (2 * h + 1) < 2 * h + 1 := by rw [Nat.div_lt_iff_lt_mul (by omega)]; exact m.2
      have hy : m.val % (2 * h + 1) < 2 * h + 1 := Nat.mod_lt _ (by omega)
      dsimp only
      generalize m.val / (2 * h + 1) = x at hx ⊢
      generalize m.val % (2 * h + 1) = y at hy ⊢
      obtain ⟨g1, g2⟩ := h2 x y hx hy
      unfold datum
      rw [if_pos (by omega), g1]
      cases hq : errMap img terr (p0 - h + x).toNat (p1 - h + y).toNat with
      | none => exact absurd hq g2
      | some e =>
        dsimp only
        rw [sub_self, zero_div]
        exact zero_pow two_ne_zero
    have h0' : r.chi2 = 0 := by
      refine le_antisymm ?_ ?_
      · rw [← h0]; exact q2 b f
      · rw [q1]; exact Finset.sum_nonneg fun m _ => sq_nonneg _
    obtain ⟨e1, e2⟩ := q3 b f (by rw [h0, h0'])
    exact ⟨r, o1, e1.symm, e2.symm, h0'⟩

/-- Sources whose image is not a square with an odd number of pixels are refused, although the parameters do not say so: the region has another size. -/
theorem C156_shape_refuted (sq : K → K) (E : K) (img terr : Img (Option K)) (psf : Img K) (p0 p1 : Int) (hi : img.WF) (he : terr.WF)
    (hd : (terr.nx = 1 ∧ terr.ny = 1) ∨ (terr.nx = img.nx ∧ terr.ny = img.ny))
    (hf : Fits img.nx img.ny (p0 - (psf.ny / 2 : Nat)) (p1 - (psf.nx / 2 : Nat)) (p0 + (psf.ny / 2 : Nat)) (p1 + (psf.nx / 2 : Nat)))
    (hs : ¬ ∃ h, psf.nx = 2 * h + 1 ∧ psf.ny = 2 * h + 1) : psffit sq E img terr psf p0 p1 = .abort := by
  obtain ⟨err, e1, e2, e3, e4, -⟩ := psfErrors_ok img terr he hd
  obtain ⟨ic, i1, i2, i3, i4, -⟩ := C64_image_partial img _ _ _ _ (some 0) hi hf (by omega) (by omega)
  obtain ⟨ec, c1, c2, c3, c4, -⟩ := C64_image_partial err _ _ _ _ (some E) e2 (by rw [e3, e4]; exact hf) (by omega) (by omega)
  unfold psffit psfRegion
  dsimp only
  rw [e1, Res.ok_bind, i1, Res.ok_bind, c1, Res.ok_bind, Res.check_neg]
  · rfl
  · rintro ⟨-, -, h1, h2⟩
    exact hs ⟨psf.ny / 2, by omega, by omega⟩

/-- a source at the corner of an image with a pixel that is not finite -/
example : (psffit (fun x => x) (1000 : ℚ) ⟨2, 2, [some 5, some 3, some 3, none]⟩ ⟨1, 1, [some 1]⟩ ⟨3, 3, [0, 1, 0, 1, 2, 1, 0, 1, 0]⟩ 0 0).map (fun o => o.map fun r => (decide (r.params 1 < 3), decide (0 < r.params 1))) =
    .ok (some (true, true)) := by decide +kernel

/-! ### C157 -/

omit [LinearOrder K] [IsStrictOrderedRing K] in
theorem subIds_spec (psf : List K) (flux : K) (ps : List (Nat × Nat)) (img : List K) (h1 : ∀ p ∈ ps, p.1 < img.length ∧ p.2 < psf.length)
    (hn : ps.Pairwise (fun p q => p.1 ≠ q.1)) :
    ∃ r, subIds img psf flux ps = .ok r ∧ r.length = img.length ∧
      (∀ p ∈ ps, ∀ a b, img[p.1]? = some a → psf[p.2]? = some b → r[p.1]? = some (a - flux * b)) ∧ ∀ i, (∀ p ∈ ps, p.1 ≠ i) → r[i]? = img[i]? := by
  induction ps generalizing img with
  | nil => exact ⟨img, rfl, rfl, by simp, fun _ _ => rfl⟩
  | cons p ps ih =>
    obtain ⟨di, si⟩ := p
    have hp := h1 (di, si) (by simp)
    rw [List.pairwise_cons] at hn
    obtain ⟨r, g1, g2, g3, g4⟩ := ih (img.set di (img[di] - flux * psf[si])) (fun q hq => by
      have := h1 q (by simp [hq]); simpa using this) hn.2
    refine ⟨r, ?_, by simpa using g2, ?_, ?_⟩
    · simp only [subIds]
      rw [Res.check_pos hp.2, Res.ok_bind, Res.rd_lt hp.2, Res.ok_bind, Res.check_pos hp.1, Res.ok_bind, Res.rd_lt hp.1, Res.ok_bind, g1]
    · intro q hq a b ha hb
      rcases List.mem_cons.1 hq with rfl | hq
      · simp only at ha hb ⊢
        rw [g4 di fun q hq => (hn.1 q hq).symm, List.getElem?_set_self hp.1]
        rw [List.getElem?_eq_getElem hp.1, Option.some.injEq] at ha
        rw [List.getElem?_eq_getElem hp.2, Option.some.injEq] at hb
        rw [ha, hb]
      · refine g3 q hq a b ?_ hb
        rw [List.getElem?_set_ne (hn.1 q hq)]
        exact ha
    · intro i hi
      rw [g4 i fun q hq => hi q (by simp [hq]), List.getElem?_set_ne (hi (di, si) (by simp))]

/-- `srcsub` (with index vectors of the right type) of a square with an odd number of pixels: each pixel of the image that is covered by the square around the position loses the flux times the pixel of the square;
other pixels do not change. -/
theorem C157_subtract_partial (img psf : Img K) (flux : K) (h : Nat) (p0 p1 : Int) (hi : img.WF) (hp : psf.WF) (hn : psf.nx = 2 * h + 1) (hm : psf.ny = 2 * h + 1)
    (hf : Fits img.nx img.ny (p0 - h) (p1 - h) (p0 + h) (p1 + h)) :
    ∃ w, srcsub img psf flux p0 p1 = .ok w ∧ w.WF ∧ w.nx = img.nx ∧ w.ny = img.ny ∧ ∀ (x y : Nat) (a : K), img.at x y = some a →
      w.at x y = some (if p0 - h ≤ x ∧ x ≤ p0 + h ∧ p1 - h ≤ y ∧ y ≤ p1 + h then a - flux * (psf.at ((x : Int) - (p0 - h)).toNat ((y : Int) - (p1 - h)).toNat).getD 0 else a) := by
  have hreg : psfRegion psf.nx psf.ny p0 p1 = [p0 - h, p1 - h, p0 + h, p1 + h] := by
    unfold psfRegion
    rw [hn, hm, show (2 * h + 1) / 2 = h by omega]
  obtain ⟨rv, rr, g1, g2, g3, g4, g5⟩ := subregion_spec img.nx img.ny (p0 - h) (p1 - h) (p0 + h) (p1 + h) hf
  obtain ⟨px, k1, k2, k3, k4⟩ := subIds_spec psf.px flux (rv.zip rr) img.px (fun p hp' => by
    have := C64_bounds _ _ _ _ _ _ _ ((g4 p).1 hp')
    refine ⟨by rw [hi]; exact this.1, ?_⟩
    have e : (p0 + h - (p0 - h) + 1) * (p1 + h - (p1 - h) + 1) = ((psf.nx * psf.ny : Nat) : Int) := by
      rw [hn, hm]; push_cast; ring
    rw [e] at this
    rw [hp]
    exact_mod_cast this.2) (g5.imp fun hlt => Nat.ne_of_lt hlt)
  refine ⟨⟨img.nx, img.ny, px⟩, ?_, by unfold Img.WF; dsimp only; rw [k2, hi], rfl, rfl, fun x y a ha => ?_⟩
  · unfold srcsub
    rw [hreg, g1, Res.ok_bind]
    dsimp only
    rw [k1, Res.ok_bind]
  · have hxy : x < img.nx ∧ y < img.ny := by
      by_contra hc
      unfold Img.at at ha
      rw [if_neg hc] at ha
      simp at ha
    rw [at_flat hxy.1 hxy.2] at ha
    rw [at_flat (v := ⟨img.nx, img.ny, px⟩) hxy.1 hxy.2]
    dsimp only
    by_cases hc : p0 - h ≤ x ∧ x ≤ p0 + h ∧ p1 - h ≤ y ∧ y ≤ p1 + h
    · rw [if_pos hc]
      obtain ⟨u, hu⟩ : ∃ u : Nat, (u : Int) = (x : Int) - (p0 - h) := ⟨((x : Int) - (p0 - h)).toNat, by omega⟩
      obtain ⟨v, hv⟩ : ∃ v : Nat, (v : Int) = (y : Int) - (p1 - h) := ⟨((y : Int) - (p1 - h)).toNat, by omega⟩
      rw [← hu, ← hv, Int.toNat_natCast, Int.toNat_natCast]
      obtain ⟨b, hb⟩ := at_isSome hp (x := u) (y := v) (by omega) (by omega)
      have hmem : (x * img.ny + y, u * psf.ny + v) ∈ rv.zip rr := by
        rw [g4]
        refine ⟨x, y, hxy.1, hxy.2, hc.1, hc.2.1, hc.2.2.1, hc.2.2.2, rfl, ?_⟩
        rw [← hu, ← hv, hm]
        push_cast
        ring
      rw [hb, Option.getD_some]
      rw [at_flat (by omega) (by omega)] at hb
      exact k3 _ hmem a b ha hb
    · rw [if_neg hc, ← ha]
      refine k4 _ fun p hp' he => ?_
      obtain ⟨x', y', h1, h2, h3, h4, h5, h6, h7, -⟩ := (g4 p).1 hp'
      have := flat_inj h2 hxy.2 (h7.symm.trans he)
      omega

/-- A source of one row and three columns is subtracted from one column and three rows; a source with an even number of pixels makes the program stop. -/
theorem C157_shape_refuted :
    srcsub (Img.fill 3 3 (0 : ℚ)) ⟨1, 3, [1, 2, 3]⟩ 1 1 1 = .ok ⟨3, 3, [0, -1, 0, 0, -2, 0, 0, -3, 0]⟩ ∧
    srcsub (Img.fill 3 3 (0 : ℚ)) ⟨2, 2, [1, 1, 1, 1]⟩ 1 1 1 = .abort := by decide +kernel

example : srcsub (Img.fill 2 2 (0 : ℚ)) ⟨3, 3, [0, 1, 0, 1, 2, 1, 0, 1, 0]⟩ 3 0 0 = .ok ⟨2, 2, [-6, -3, -3, 0]⟩ := by decide +kernel

end Verif.Astro
