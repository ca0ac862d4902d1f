import Verif.Tools.ExtractAper
/-!
# The residual and the model map of `pixfit-extract` (C203)

The numbers are those of a field, without rounding; a pixel that is not finite is `none`, and remains so. `translate(psf, dy, dx)` is an arbitrary image for each source. `m` sources are fitted,
and `nobs` of them are on the map.
-/
namespace Verif.ExtractRes
open Verif Verif.Astro Finset

variable {K : Type}

/-! ### Model -/

/-- `img[idi] -= f*tpsf[idp]` or `+=`, for pairs of indices -/
def addIds [Field K] (f : K) (psf : List K) : List (Nat × Nat) → List (Option K) → Res (List (Option K))
  | [], m => .ok m
  | (i, p) :: l, m => do
    let a ← Res.rd m i
    let b ← Res.rd psf p
    addIds f psf l (m.set i (a.map (· + f * b)))

/-- the flux is added for all the sources of a list (`pixfit-extract.cpp:1094-1102,1124-1132`, and `911-923` where the grouped sources are not in the list) -/
def addSrcs [Field K] {n : Nat} (ny nx h : Nat) (src : Fin n → ExtractAper.Src K) (f : Fin n → K) : List (Fin n) → List (Option K) → Res (List (Option K))
  | [], m => .ok m
  | j :: js, m => do
    let (idi, idp) ← subregion ny nx [(src j).iy - h, (src j).ix - h, (src j).iy + h, (src j).ix + h]
    let m' ← addIds (f j) (src j).psf (idi.zip idp) m
    addSrcs ny nx h src f js m'

/-- `img` before the fit (`pixfit-extract.cpp:489-496`): `fixed` is the fixed background, in the units of the map -/
def load [Field K] (fconv : K) (fixed : Option K) (raw : List (Option K)) : List (Option K) :=
  raw.map fun a => a.map fun v => (match fixed with | some b => v - b | none => v) * fconv

/-- `img` after the fit (`pixfit-extract.cpp:908-929` with groups, and `1093-1103` without): `grouped` is `is_grouped`, indexed with the positions in the list of the sources on the map, and
`bg` the background of the fit if it is free -/
def after [Field K] {nobs m : Nat} (hle : nobs ≤ m) (ny nx h : Nat) (src : Fin nobs → ExtractAper.Src K) (flux : Fin nobs → K) (fconv bg : K) (fixed : Option K) (grouped : Option (Fin m → Bool))
    (raw : List (Option K)) : Res (List (Option K)) := do
  match grouped with
  | some g =>
    let img ← addSrcs ny nx h src (fun i => - flux i) ((List.finRange nobs).filter fun i => !g (i.castLE hle)) (load fconv fixed raw)
    .ok (if fixed.isNone then img.map fun a => a.map (· - bg * fconv) else img)
  | none => addSrcs ny nx h src (fun i => - flux i) (List.finRange nobs) (load fconv fixed raw)

/-- the residual map (`pixfit-extract.cpp:1060-1068,1105-1110`) -/
def residual [Field K] {nobs m : Nat} (hle : nobs ≤ m) (ny nx h : Nat) (src : Fin nobs → ExtractAper.Src K) (flux : Fin nobs → K) (fconv bg : K) (fixed : Option K)
    (grouped : Option (Fin m → Bool)) (raw : List (Option K)) : Res (List (Option K)) := do
  let img ← after hle ny nx h src flux fconv bg fixed grouped raw
  let back := match fixed, grouped with
    | some b, _ => b
    | none, some _ => bg
    | none, none => 0
  .ok (img.map fun a => a.map fun v => v / fconv + back)

/-- the model map (`pixfit-extract.cpp:1116-1137`): `img*0` is what was left of the map -/
def model [Field K] {nobs m : Nat} (hle : nobs ≤ m) (ny nx h : Nat) (src : Fin nobs → ExtractAper.Src K) (flux : Fin nobs → K) (fconv bg : K) (fixed : Option K)
    (grouped : Option (Fin m → Bool)) (raw : List (Option K)) : Res (List (Option K)) := do
  let img ← after hle ny nx h src flux fconv bg fixed grouped raw
  let mod ← addSrcs ny nx h src flux (List.finRange nobs) (img.map fun a => a.map (· * 0))
  .ok (mod.map fun a => a.map (· / fconv))

/-! ### Specification -/

/-- the image of a source in the units of the map: its flux times its PSF -/
def image [Field K] {n : Nat} (h : Nat) (src : Fin n → ExtractAper.Src K) (flux : Fin n → K) (fconv : K) (i : Fin n) (r c : Nat) : K :=
  flux i * ExtractAper.stamp (src i).psf 0 (src i).iy (src i).ix h r c / fconv

/-- the pixels of an image -/
def px (nx : Nat) (l : List (Option K)) (r c : Nat) : Option K := (l[r * nx + c]?).bind id

/-! ### Helpers -/

theorem addIds_ok [Field K] (f : K) (psf : List K) (ps : List (Nat × Nat)) (m : List (Option K)) (h1 : ∀ p ∈ ps, p.1 < m.length ∧ p.2 < psf.length) (hn : ps.Pairwise fun p q => p.1 ≠ q.1) :
    ∃ r, addIds f psf ps m = .ok r ∧ r.length = m.length ∧ (∀ p ∈ ps, (r[p.1]?).bind id = ((m[p.1]?).bind id).map (· + f * psf.getD p.2 0)) ∧
      ∀ k, (∀ p ∈ ps, p.1 ≠ k) → r[k]? = m[k]? := by
  induction ps generalizing m with
  | nil => exact ⟨m, rfl, rfl, by simp, fun _ _ => rfl⟩
  | cons p ps ih =>
    obtain ⟨i, q⟩ := p
    have hp := h1 (i, q) (by simp)
    rw [List.pairwise_cons] at hn
    obtain ⟨r, g1, g2, g3, g4⟩ := ih (m.set i ((m[i]'hp.1).map (· + f * psf[q]'hp.2))) (fun x hx => by simpa using h1 x (by simp [hx])) hn.2
    refine ⟨r, ?_, by simpa using g2, ?_, ?_⟩
    · simp only [addIds]
      rw [Res.rd_lt hp.1, Res.ok_bind, Res.rd_lt hp.2, Res.ok_bind, g1]
    · intro x hx
      rcases List.mem_cons.1 hx with rfl | hx
      · dsimp only
        rw [g4 i fun y hy => (hn.1 y hy).symm, List.getElem?_set_self hp.1, List.getElem?_eq_getElem hp.1, List.getD_eq_getElem?_getD, List.getElem?_eq_getElem hp.2]
        rfl
      · rw [g3 x hx, List.getElem?_set_ne (hn.1 x hx)]
    · intro k hk
      rw [g4 k fun x hx => hk x (by simp [hx]), List.getElem?_set_ne (hk (i, q) (by simp))]

/-- the sources are added -/
theorem addSrcs_ok [Field K] {n : Nat} (ny nx h : Nat) (hny : 0 < ny) (hnx : 0 < nx) (src : Fin n → ExtractAper.Src K) (f : Fin n → K) (hs : ∀ j, ExtractAper.Ok ny nx h (src j)) (js : List (Fin n)) (m : List (Option K))
    (hm : m.length = ny * nx) :
    ∃ m', addSrcs ny nx h src f js m = .ok m' ∧ m'.length = ny * nx ∧ ∀ r c, r < ny → c < nx →
      px nx m' r c = (px nx m r c).map (· + (js.map fun j => f j * ExtractAper.stamp (src j).psf 0 (src j).iy (src j).ix h r c).sum) := by
  induction js generalizing m with
  | nil => exact ⟨m, rfl, hm, fun r c _ _ => by simp⟩
  | cons j js ih =>
    have hj := hs j
    obtain ⟨idi, idp, g1, g2, g3⟩ := ExtractAper.pairs_ok hj (show ny - 1 < ny by omega) (show nx - 1 < nx by omega) (Nat.zero_le _) (Nat.zero_le _)
    rw [show ny - 1 + 1 - 0 = ny by omega, show nx - 1 + 1 - 0 = nx by omega] at g1
    rw [show nx - 1 + 1 - 0 = nx by omega] at g3
    simp only [Nat.cast_zero, sub_zero, Nat.sub_zero, Nat.zero_le, true_and] at g1 g3
    have hlt : ∀ p ∈ idi.zip idp, p.1 < m.length ∧ p.2 < (src j).psf.length := by
      intro p hp
      obtain ⟨r, c, h1, h2, h3, h4, e1, e2⟩ := (g3 p).1 hp
      rw [hm, hj.psf, e1, e2]
      exact ⟨flat_lt (by omega) (by omega), ExtractAper.place_lt h3 h4⟩
    obtain ⟨m1, k1, k2, k3, k4⟩ := addIds_ok (f j) (src j).psf (idi.zip idp) m hlt (by
      refine g2.imp_of_mem ?_
      intro p q hp hq hne he
      apply hne
      obtain ⟨r, c, h1, h2, h3, h4, e1, e2⟩ := (g3 p).1 hp
      obtain ⟨r', c', h1', h2', h3', h4', e1', e2'⟩ := (g3 q).1 hq
      obtain ⟨rfl, rfl⟩ := flat_inj (show c < nx by omega) (show c' < nx by omega) (e1.symm.trans (he.trans e1'))
      exact Prod.ext he (e2.trans e2'.symm))
    obtain ⟨m', r1, r2, r3⟩ := ih m1 (by rw [k2, hm])
    refine ⟨m', ?_, r2, fun r c hr hc => ?_⟩
    · simp only [addSrcs]
      rw [g1, Res.ok_bind]
      dsimp only
      rw [k1, Res.ok_bind, r1]
    · have key : px nx m1 r c = (px nx m r c).map (· + f j * ExtractAper.stamp (src j).psf 0 (src j).iy (src j).ix h r c) := by
        unfold px ExtractAper.stamp
        by_cases hn : |(r : Int) - (src j).iy| ≤ h ∧ |(c : Int) - (src j).ix| ≤ h
        · rw [if_pos hn]
          exact k3 (r * nx + c, _) ((g3 _).2 ⟨r, c, by omega, by omega, hn.1, hn.2, rfl, rfl⟩)
        · rw [if_neg hn, k4 (r * nx + c)]
          · simp
          · intro p hp he
            obtain ⟨r', c', h1, h2, h3, h4, e1, e2⟩ := (g3 p).1 hp
            obtain ⟨rfl, rfl⟩ := flat_inj (show c' < nx by omega) hc (e1.symm.trans he)
            exact hn ⟨h3, h4⟩
      rw [r3 r c hr hc, key, Option.map_map]
      congr 1
      funext v
      simp only [Function.comp, List.map_cons, List.sum_cons]
      ring

theorem px_map [Field K] (nx : Nat) (l : List (Option K)) (f : K → K) (r c : Nat) : px nx (l.map fun a => a.map f) r c = (px nx l r c).map f := by
  unfold px
  rw [List.getElem?_map]
  cases l[r * nx + c]? with
  | none => rfl
  | some a => rfl

theorem sum_finRange_filter [Field K] {n : Nat} (p : Fin n → Bool) (F : Fin n → K) : (((List.finRange n).filter p).map F).sum = ∑ i, if p i then F i else 0 := by
  rw [ExtractAper.sum_filter_list, ← List.ofFn_eq_map, List.sum_ofFn]

/-! ### C203 -/

/-- what is left of the map after the fit, in the units of the fluxes: the map without its background and without the sources that have no group (this is the map on which the fluxes of the
groups are measured); or, if there is no group, without the sources and a fixed background -/
theorem C203_groups [Field K] {nobs : Nat} (ny nx h : Nat) (hny : 0 < ny) (hnx : 0 < nx) (src : Fin nobs → ExtractAper.Src K) (hs : ∀ j, ExtractAper.Ok ny nx h (src j)) (flux : Fin nobs → K)
    (fconv bg : K) (fixed : Option K) (g : Fin nobs → Bool) (raw : List (Option K)) (hr : raw.length = ny * nx) :
    ∃ l, after (le_refl nobs) ny nx h src flux fconv bg fixed (some g) raw = .ok l ∧ l.length = ny * nx ∧ ∀ r c, r < ny → c < nx →
      px nx l r c = (px nx raw r c).map fun v => (v - fixed.getD bg) * fconv - ∑ i, if g i then 0 else flux i * ExtractAper.stamp (src i).psf 0 (src i).iy (src i).ix h r c := by
  obtain ⟨l, e, hl, hv⟩ := addSrcs_ok ny nx h hny hnx src (fun i => - flux i) hs ((List.finRange nobs).filter fun i => !g i) (load fconv fixed raw) (by simp [load, hr])
  have hS : ∀ r c, (((List.finRange nobs).filter fun i => !g i).map fun j => - flux j * ExtractAper.stamp (src j).psf 0 (src j).iy (src j).ix h r c).sum =
      - ∑ i, if g i then 0 else flux i * ExtractAper.stamp (src i).psf 0 (src i).iy (src i).ix h r c := by
    intro r c
    rw [sum_finRange_filter, ← Finset.sum_neg_distrib]
    apply Finset.sum_congr rfl
    intro i _
    cases g i <;> simp
  unfold after
  dsimp only
  simp only [Fin.castLE_rfl, id]
  rw [e, Res.ok_bind]
  refine ⟨_, rfl, ?_, fun r c hr hc => ?_⟩
  · split <;> simp [hl]
  · cases fixed with
    | none =>
      simp only [Option.isNone_none, if_true, Option.getD_none]
      rw [px_map, hv r c hr hc, load, px_map, Option.map_map, Option.map_map, hS]
      congr 1
      funext v
      simp only [Function.comp]
      ring
    | some b =>
      simp only [Option.isNone_some, Bool.false_eq_true, if_false, Option.getD_some]
      rw [hv r c hr hc, load, px_map, Option.map_map, hS]
      congr 1
      funext v
      simp only [Function.comp]
      ring

/-- The residual map is the map without the sources that have no group (all the sources, if no group was made); its background is that of the map, and its pixels that are not finite are those of
the map. (Full statement: for all lists of sources on the map. Here all the fitted sources are on the map.) -/
theorem C203_residual_partial [Field K] {nobs : Nat} (ny nx h : Nat) (hny : 0 < ny) (hnx : 0 < nx) (src : Fin nobs → ExtractAper.Src K) (hs : ∀ j, ExtractAper.Ok ny nx h (src j))
    (flux : Fin nobs → K) (fconv bg : K) (hf : fconv ≠ 0) (fixed : Option K) (grouped : Option (Fin nobs → Bool)) (raw : List (Option K)) (hr : raw.length = ny * nx) :
    ∃ l, residual (le_refl nobs) ny nx h src flux fconv bg fixed grouped raw = .ok l ∧ l.length = ny * nx ∧ ∀ r c, r < ny → c < nx →
      px nx l r c = (px nx raw r c).map fun v => v - ∑ i, if grouped.any (· i) then 0 else image h src flux fconv i r c := by
  unfold residual
  cases grouped with
  | some g =>
    obtain ⟨l, e, hl, hv⟩ := C203_groups ny nx h hny hnx src hs flux fconv bg fixed g raw hr
    rw [e, Res.ok_bind]
    refine ⟨_, rfl, by simp [hl], fun r c hr hc => ?_⟩
    rw [px_map, hv r c hr hc, Option.map_map]
    congr 1
    funext v
    have hS : (∑ i, if g i then (0 : K) else image h src flux fconv i r c) = (∑ i, if g i then 0 else flux i * ExtractAper.stamp (src i).psf 0 (src i).iy (src i).ix h r c) / fconv := by
      rw [Finset.sum_div]
      apply Finset.sum_congr rfl
      intro i _
      unfold image
      cases g i <;> simp
    simp only [Function.comp, Option.any_some]
    rw [hS]
    cases fixed <;> simp only [Option.getD_none, Option.getD_some] <;> field_simp <;> ring
  | none =>
    obtain ⟨l, e, hl, hv⟩ := addSrcs_ok ny nx h hny hnx src (fun i => - flux i) hs (List.finRange nobs) (load fconv fixed raw) (by simp [load, hr])
    unfold after
    dsimp only
    rw [e, Res.ok_bind]
    refine ⟨_, rfl, by simp [hl], fun r c hr hc => ?_⟩
    rw [px_map, hv r c hr hc, load, px_map, Option.map_map, Option.map_map]
    congr 1
    funext v
    have hS : (∑ i, image h src flux fconv i r c) = - ((List.finRange nobs).map fun j => - flux j * ExtractAper.stamp (src j).psf 0 (src j).iy (src j).ix h r c).sum / fconv := by
      rw [← List.ofFn_eq_map, List.sum_ofFn, ← Finset.sum_neg_distrib, Finset.sum_div]
      apply Finset.sum_congr rfl
      intro i _
      unfold image
      ring
    simp only [Function.comp, Option.any_none, Bool.false_eq_true, if_false]
    rw [hS]
    cases fixed <;> simp only [] <;> field_simp <;> ring

/-- The model map is the sum of the images of the sources, on the pixels of the map that are finite. -/
theorem C203_model [Field K] {nobs : Nat} (ny nx h : Nat) (hny : 0 < ny) (hnx : 0 < nx) (src : Fin nobs → ExtractAper.Src K) (hs : ∀ j, ExtractAper.Ok ny nx h (src j))
    (flux : Fin nobs → K) (fconv bg : K) (fixed : Option K) (grouped : Option (Fin nobs → Bool)) (raw : List (Option K)) (hr : raw.length = ny * nx) :
    ∃ l, model (le_refl nobs) ny nx h src flux fconv bg fixed grouped raw = .ok l ∧ l.length = ny * nx ∧ ∀ r c, r < ny → c < nx →
      px nx l r c = (px nx raw r c).map fun _ => ∑ i, image h src flux fconv i r c := by
  have ha : ∃ l, after (le_refl nobs) ny nx h src flux fconv bg fixed grouped raw = .ok l ∧ l.length = ny * nx ∧ ∀ r c, r < ny → c < nx → ∃ w : K → K, px nx l r c = (px nx raw r c).map w := by
    cases grouped with
    | some g =>
      obtain ⟨l, e, hl, hv⟩ := C203_groups ny nx h hny hnx src hs flux fconv bg fixed g raw hr
      exact ⟨l, e, hl, fun r c hr hc => ⟨_, hv r c hr hc⟩⟩
    | none =>
      obtain ⟨l, e, hl, hv⟩ := addSrcs_ok ny nx h hny hnx src (fun i => - flux i) hs (List.finRange nobs) (load fconv fixed raw) (by simp [load, hr])
      refine ⟨l, e, hl, fun r c hr hc => ?_⟩
      rw [hv r c hr hc, load, px_map, Option.map_map]
      exact ⟨_, rfl⟩
  obtain ⟨l, e, hl, hv⟩ := ha
  obtain ⟨l', e', hl', hv'⟩ := addSrcs_ok ny nx h hny hnx src flux hs (List.finRange nobs) (l.map fun a => a.map (· * 0)) (by simp [hl])
  unfold model
  rw [e, Res.ok_bind, e', Res.ok_bind]
  refine ⟨_, rfl, by simp [hl'], fun r c hr hc => ?_⟩
  obtain ⟨w, hw⟩ := hv r c hr hc
  rw [px_map, hv' r c hr hc, px_map, hw, Option.map_map, Option.map_map, Option.map_map]
  congr 1
  funext v
  simp only [Function.comp, mul_zero, zero_add]
  rw [← List.ofFn_eq_map, List.sum_ofFn, Finset.sum_div]
  rfl

/-- Without groups, the map is the sum of the model and of the residual. -/
theorem C203_sum [Field K] {nobs : Nat} (ny nx h : Nat) (hny : 0 < ny) (hnx : 0 < nx) (src : Fin nobs → ExtractAper.Src K) (hs : ∀ j, ExtractAper.Ok ny nx h (src j))
    (flux : Fin nobs → K) (fconv bg : K) (hf : fconv ≠ 0) (fixed : Option K) (raw res mod : List (Option K)) (hr : raw.length = ny * nx)
    (e1 : residual (le_refl nobs) ny nx h src flux fconv bg fixed none raw = .ok res) (e2 : model (le_refl nobs) ny nx h src flux fconv bg fixed none raw = .ok mod) (r c : Nat) (hrr : r < ny)
    (hc : c < nx) (v : K) (hv : px nx raw r c = some v) : ∃ a b, px nx res r c = some a ∧ px nx mod r c = some b ∧ a + b = v := by
  obtain ⟨l, h1, -, h2⟩ := C203_residual_partial ny nx h hny hnx src hs flux fconv bg hf fixed none raw hr
  obtain ⟨l', h1', -, h2'⟩ := C203_model ny nx h hny hnx src hs flux fconv bg fixed none raw hr
  rw [e1] at h1
  rw [e2] at h1'
  cases h1
  cases h1'
  have := h2 r c hrr hc
  have h4 := h2' r c hrr hc
  rw [hv] at this h4
  exact ⟨_, _, this, h4, by simp⟩

/-- one pixel of the PSF: two sources, the second one on the pixel 1 -/
def srcEx : Fin 2 → ExtractAper.Src Rat := ![⟨0, 0, 0, 0, [true], [1]⟩, ⟨0, 1, 0, 1, [true], [1]⟩]
theorem srcEx_ok : ∀ j, ExtractAper.Ok 1 3 0 (srcEx j) := by
  intro j
  fin_cases j <;> exact ⟨by decide, by decide, by decide, by decide, by decide, by decide, by decide, by decide⟩
example : residual (le_refl 2) 1 3 0 srcEx ![4, 6] 2 1 none (some ![false, true]) [some 7, some 8, none] = .ok [some 5, some 8, none] := by decide +kernel
example : residual (le_refl 2) 1 3 0 srcEx ![4, 6] 2 1 (some 3) (none : Option (Fin 2 → Bool)) [some 7, some 8, none] = .ok [some 5, some 5, none] := by decide +kernel
example : model (le_refl 2) 1 3 0 srcEx ![4, 6] 2 1 (some 3) (none : Option (Fin 2 → Bool)) [some 7, some 8, none] = .ok [some 2, some 3, none] := by decide +kernel

/-- If a source is not on the map, the others are mixed up: here the source 0 is off the map and has a group; the source 1, the only one on the map, has none, but it stays in the residual map. -/
theorem C203_offmap_refuted : ∃ (idin : Fin 1 → Fin 2) (grouped : Fin 2 → Bool) (src : Fin 1 → ExtractAper.Src Rat) (raw : List (Option Rat)), idin 0 = 1 ∧ grouped 1 = false ∧
    (∀ j, ExtractAper.Ok 1 1 0 (src j)) ∧ residual (by omega) 1 1 0 src (fun _ => 4) 1 0 none (some grouped) raw = .ok raw ∧ image 0 src (fun _ => 4) 1 0 0 0 = 4 := by
  refine ⟨fun _ => 1, ![true, false], fun _ => ⟨0, 0, 0, 0, [true], [1]⟩, [some 9], rfl, rfl, ?_, by decide +kernel, by decide +kernel⟩
  have : ExtractAper.Ok 1 1 0 (⟨0, 0, 0, 0, [true], [1]⟩ : ExtractAper.Src Rat) := ⟨by decide, by decide, by decide, by decide, by decide, by decide, by decide, by decide⟩
  exact fun _ => this

end Verif.ExtractRes
