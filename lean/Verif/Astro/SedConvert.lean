import Verif.Astro.SedProps
import Verif.Astro.Units
/-!
# Conversion of fluxes with a spectrum, and fluxes of several spectra (C241)

The numbers are real, without rounding; `none` is a number that is not finite. The distance is not zero.
-/
namespace Verif.Sed
open Verif Verif.Math Verif.Units

/-! ### Model -/

/-- `sed2flux` on the rows of two matrices (`astro.hpp:1344-1355`): the loop is on the rows of `sed`, those of `lam` are read without check -/
def sed2fluxRows {K : Type} [Field K] [LinearOrder K] (flam fres : List K) (lam sed : List (List K)) : Res (List (Option K)) :=
  (List.range sed.length).mapM fun s => do
    let l ← Res.rd lam s
    let y ← Res.rd sed s
    sed2flux flam fres l y

/-- `sed_convert` (`astro.hpp:1357-1367`) -/
noncomputable def sedConvert (flam fres tlam tres : List ℝ) (z d : ℝ) (lam sed : List ℝ) : Res (Option ℝ) := do
  Res.check (lam.length = sed.length)
  let flx ← sed2flux flam fres (lam.map (· * (1 + z))) (List.zipWith (lsun2uJy z d) lam sed)
  let ref ← sed2flux tlam tres lam sed
  .ok (match ref, flx with
    | some r, some f => open Classical in if f = 0 then none else some (r / f)
    | _, _ => none)

/-! ### C241 -/

/-- the spectrum times a number -/
def scaled (c : ℝ) (sed : List ℝ) : List ℝ := sed.map (c * ·)

theorem scaled_comb (c : ℝ) (s : List ℝ) : scaled c s = List.zipWith (fun a b => c * a + 0 * b) s s := by
  unfold scaled
  rw [List.zipWith_self]
  simp

theorem flux_scaled {flam lam fres sed : List ℝ} (hF : Increasing flam) (hL : Increasing lam) (nf : 2 ≤ flam.length) (nl : 2 ≤ lam.length)
    (hl : fres.length = flam.length) (h1 : sed.length = lam.length) (hfirst : lam[0] ≤ flam[0]) (hlast : flam[flam.length - 1] < lam[lam.length - 1]) :
    ∃ v, ∀ c, sed2flux flam fres lam (scaled c sed) = .ok (some (c * v)) := by
  obtain ⟨v, _, hv, _, _⟩ := C103_linear_partial hF hL nf nl hl h1 h1 hfirst hlast 1 0
  refine ⟨v, fun c => ?_⟩
  obtain ⟨v', w', hv', _, h⟩ := C103_linear_partial hF hL nf nl hl h1 h1 hfirst hlast c 0
  rw [hv] at hv'
  cases hv'
  rw [scaled_comb, h]
  simp

/-- **C241 (in part)**: if the two filters are covered by the spectrum, the conversion is the same for all multiples of the spectrum, and it converts the flux that each of them has in the first filter at
the redshift `z` into its luminosity in the second filter. -/
theorem C241_convert_partial {flam fres tlam tres lam sed : List ℝ} (z d : ℝ) (hz : -1 < z) (hF : Increasing flam) (hT : Increasing tlam) (hL : Increasing lam)
    (nf : 2 ≤ flam.length) (nt : 2 ≤ tlam.length) (nl : 2 ≤ lam.length) (hf : fres.length = flam.length) (ht : tres.length = tlam.length) (hs : sed.length = lam.length)
    (f1 : lam[0] * (1 + z) ≤ flam[0]) (f2 : flam[flam.length - 1] < lam[lam.length - 1] * (1 + z)) (t1 : lam[0] ≤ tlam[0]) (t2 : tlam[tlam.length - 1] < lam[lam.length - 1])
    (hflux : sed2flux flam fres (lam.map (· * (1 + z))) (List.zipWith (lsun2uJy z d) lam sed) ≠ .ok (some 0)) :
    ∃ k, ∀ c, c ≠ 0 → sedConvert flam fres tlam tres z d lam (scaled c sed) = .ok (some k) ∧
      ∃ flux lum, sed2flux flam fres (lam.map (· * (1 + z))) (List.zipWith (lsun2uJy z d) lam (scaled c sed)) = .ok (some flux) ∧
        sed2flux tlam tres lam (scaled c sed) = .ok (some lum) ∧ k * flux = lum := by
  have hz1 : 0 < 1 + z := by linarith
  have hLz : Increasing (lam.map (· * (1 + z))) := by
    unfold Increasing at hL ⊢
    rw [List.pairwise_map]
    exact hL.imp fun h => mul_lt_mul_of_pos_right h hz1
  have hcomm : ∀ c, List.zipWith (lsun2uJy z d) lam (scaled c sed) = scaled c (List.zipWith (lsun2uJy z d) lam sed) := by
    intro c
    unfold scaled
    rw [List.zipWith_map_right, List.map_zipWith]
    congr 1
    funext a b
    unfold lsun2uJy
    ring
  obtain ⟨v, hv⟩ := flux_scaled (flam := flam) (fres := fres) (lam := lam.map (· * (1 + z))) (sed := List.zipWith (lsun2uJy z d) lam sed) hF hLz nf (by simpa using nl) hf
    (by simp [hs]) (by simpa using f1) (by simpa using f2)
  obtain ⟨w, hw⟩ := flux_scaled (flam := tlam) (fres := tres) (lam := lam) (sed := sed) hT hL nt nl ht hs t1 t2
  have hv0 : v ≠ 0 := by
    rintro rfl
    apply hflux
    have := hv 1
    simpa [scaled] using this
  refine ⟨w / v, fun c hc => ⟨?_, c * v, c * w, ?_, hw c, ?_⟩⟩
  · unfold sedConvert
    rw [Res.check_pos (show lam.length = (scaled c sed).length by simp [scaled, hs]), Res.ok_bind, hcomm, hv c, Res.ok_bind, hw c, Res.ok_bind]
    simp only
    rw [if_neg (mul_ne_zero hc hv0), mul_div_mul_left _ _ hc]
  · rw [hcomm, hv c]
  · field_simp

/-- a spectrum and two filters that meet the hypotheses -/
example : ∃ k, ∀ c : ℝ, c ≠ 0 → sedConvert [2, 4] [1, 1] [1, 2] [1, 1] 1 1 [1 / 2, 1, 3] (scaled c [1, 1, 1]) = .ok (some k) := by
  have hF : Increasing ([2, 4] : List ℝ) := by norm_num [Increasing]
  have hL : Increasing ([1 / 2, 1, 3] : List ℝ) := by norm_num [Increasing]
  have hL2 : Increasing (([1 / 2, 1, 3] : List ℝ).map (· * (1 + 1))) := by norm_num [Increasing]
  have hlum : ∀ l : ℝ, lsun2uJy 1 1 l 1 = lsun2uJy 1 1 1 1 * l := by intro l; unfold lsun2uJy; ring
  have hpos : 0 < lsun2uJy 1 1 1 1 := by unfold lsun2uJy; positivity
  obtain ⟨a, v, ha, hv, h1, -⟩ := C103_bounds_partial (flam := [2, 4]) (fres := [1, 1]) (lam := ([1 / 2, 1, 3] : List ℝ).map (· * (1 + 1)))
    (sed := List.zipWith (lsun2uJy 1 1) [1 / 2, 1, 3] [1, 1, 1]) hF hL2 (by simp) (by simp) rfl (by simp) (by norm_num) (by norm_num) (by simp)
    (m := lsun2uJy 1 1 1 1 * (1 / 2)) (M := lsun2uJy 1 1 1 1 * 3) (by
      intro x hx
      have e : List.zipWith (lsun2uJy 1 1) [1 / 2, 1, 3] [1, 1, 1] = [lsun2uJy 1 1 (1 / 2) 1, lsun2uJy 1 1 1 1, lsun2uJy 1 1 3 1] := rfl
      rw [e, hlum (1 / 2), hlum 3, List.mem_cons, List.mem_cons, List.mem_singleton] at hx
      rcases hx with rfl | rfl | rfl <;> constructor <;> nlinarith)
  obtain ⟨k, hk⟩ := C241_convert_partial (flam := [2, 4]) (fres := [1, 1]) (tlam := [1, 2]) (tres := [1, 1]) (lam := [1 / 2, 1, 3]) (sed := [1, 1, 1]) 1 1 (by norm_num) hF
    (by norm_num [Increasing]) hL (by simp) (by simp) (by simp) rfl rfl rfl (by norm_num) (by norm_num) (by norm_num) (by norm_num) (by
      rw [hv]
      have h2 : a = 2 := by
        have : integrate ([2, 4] : List ℝ) [1, 1] = .ok 2 := by
          have hr : rangeFrom1 2 = [1] := by decide +kernel
          norm_num [integrate, hr, trapezoid, Res.rd]
        rw [this] at ha; cases ha; rfl
      subst h2
      intro h
      cases h
      nlinarith)
  exact ⟨k, fun c hc => (hk c hc).1⟩

theorem mapM_inv {A B : Type} {f : A → Res B} (l : List A) (r : List B) (h : l.mapM f = .ok r) :
    r.length = l.length ∧ ∀ (s : Nat) (a : A), l[s]? = some a → ∃ v, r[s]? = some v ∧ f a = .ok v := by
  induction l generalizing r with
  | nil => cases h; exact ⟨rfl, fun s a ha => by simp at ha⟩
  | cons x l ih =>
    rw [List.mapM_cons] at h
    obtain ⟨v, hv, h⟩ := Res.bind_eq_ok.1 h
    obtain ⟨t, ht, h⟩ := Res.bind_eq_ok.1 h
    cases h
    obtain ⟨i1, i2⟩ := ih t ht
    refine ⟨by simp [i1], fun s a ha => ?_⟩
    cases s with
    | zero => simp at ha; subst ha; exact ⟨v, rfl, hv⟩
    | succ s => exact i2 s a ha

/-- **C241**: if there are as many rows of wavelengths as of fluxes, each value is the flux of the spectrum of the same row. -/
theorem C241_rows {K : Type} [Field K] [LinearOrder K] (flam fres : List K) (lam sed : List (List K)) (hl : lam.length = sed.length) (r : List (Option K))
    (h : sed2fluxRows flam fres lam sed = .ok r) :
    r.length = sed.length ∧ ∀ (s : Nat) (l y : List K), lam[s]? = some l → sed[s]? = some y → ∃ v, r[s]? = some v ∧ sed2flux flam fres l y = .ok v := by
  unfold sed2fluxRows at h
  obtain ⟨h1, h2⟩ := mapM_inv _ r h
  rw [List.length_range] at h1
  refine ⟨h1, fun s l y hls hys => ?_⟩
  obtain ⟨hs, rfl⟩ := List.getElem?_eq_some_iff.1 hls
  obtain ⟨hs', rfl⟩ := List.getElem?_eq_some_iff.1 hys
  obtain ⟨v, hv, he⟩ := h2 s s (by simp [hs'])
  rw [Res.rd_lt hs, Res.ok_bind, Res.rd_lt hs', Res.ok_bind] at he
  exact ⟨v, hv, he⟩

example : sed2fluxRows ([1, 2] : List ℚ) [1, 1] [[0, 1, 3], [0, 2, 4]] [[5, 5, 5], [0, 2, 2]] = .ok [some 5, some (3 / 2)] := by decide +kernel

/-- **C241 is false**: with fewer rows of wavelengths than of fluxes, memory is read out of bounds; with more, the last ones are silently ignored. -/
theorem C241_rows_refuted : sed2fluxRows ([1, 2] : List ℚ) [1, 1] [[0, 1, 3]] [[5, 5, 5], [0, 2, 2]] = .ub ∧
    sed2fluxRows ([1, 2] : List ℚ) [1, 1] [[0, 1, 3], [0, 2, 4]] [[5, 5, 5]] = .ok [some 5] := by decide +kernel

end Verif.Sed
