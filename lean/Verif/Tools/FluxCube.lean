import Verif.Tools.LeastSq
/-!
# The fluxes of `fluxcube` (C219, C220)

The numbers are those of an ordered field, without rounding; a pixel that is not finite is `none`. The PSF, which is finite, has the same dimensions as the cutouts, with `n` pixels. `linfit` and the
stack (C168) are parameters.
-/
namespace Verif.FluxCube
open Verif Verif.Qaper

variable {K : Type} [Field K] [LinearOrder K] [IsStrictOrderedRing K] {n : Nat}

/-! ### Model -/

/-- `max(abs(psf))`; no absolute value is less than 0 -/
def maxAbs (psf : Fin n → K) : K := (List.finRange n).foldl (fun m q => max m |psf q|) 0

/-- `abs(psf) >= frac*max(abs(psf))` (`fluxcube.cpp:74`) -/
def maskOf (frac : K) (psf : Fin n → K) (p : Fin n) : Bool := decide (frac * maxAbs psf ≤ |psf p|)

/-- the state of `flux_extractor` (`fluxcube.cpp:60-71,136`): the options `mean`, `large_bg` and `frac`, the PSF (`none` before one is read), the mask of its pixels and the last stack -/
structure Ex (K : Type) (n : Nat) where
  mea : Bool
  large : Bool
  frac : K
  psf : Option (Fin n → K)
  mask : Fin n → Bool
  img : Fin n → Option K

/-- the options of a line of the batch file, `none` for those that are not given -/
structure Args (K : Type) (n : Nat) where
  mean : Option Bool
  median : Bool
  large : Option Bool
  frac : Option K
  psf : Option (Fin n → K)

/-- `config` (`fluxcube.cpp:87-134`) without `norm` and `beam_smoothed`. Its error is ignored by `run_batch`, but for the first call. -/
def Ex.config (e : Ex K n) (a : Args K n) : Ex K n :=
  let e := { e with mea := if a.median then false else a.mean.getD e.mea, large := a.large.getD e.large, frac := a.frac.getD e.frac }
  match a.psf with
  | none => e
  | some q => { e with psf := some q, mask := maskOf e.frac q }

/-- `where(is_finite(timg))` or `where(ipsf && is_finite(timg))` (`fluxcube.cpp:143,155`) -/
def pixels (large : Bool) (mask : Fin n → Bool) (img : Fin n → Option K) : List (Fin n) := (List.finRange n).filter fun p => (large || mask p) && (img p).isSome

/-- the templates of the fit (`fluxcube.cpp:150,162`) -/
def templates (large : Bool) (mask : Fin n → Bool) (psf : Fin n → K) : List (Fin n → K) := [fun _ => 1, if large then fun p => psf p * (if mask p then 1 else 0) else psf]

/-- `extract` of an image (`fluxcube.cpp:141-166`): the flux and the background, `none` if they are NaN -/
def fluxOf (fit : Fitter K n) (large : Bool) (mask : Fin n → Bool) (psf : Fin n → K) (img : Fin n → Option K) : Option (K × K) :=
  if pixels large mask img = [] then none
  else (fit (pixels large mask img) (fun p => (img p).getD 0) (templates large mask psf)).map fun ps => (ps.getD 1 0, ps.getD 0 0)

/-- a stack of cutouts, the mean or the median (C168) -/
abbrev Stacker (K : Type) (n : Nat) := Bool → List (Fin n → Option K) → Fin n → Option K

/-- `extract` of a cube (`fluxcube.cpp:175-195`) -/
def Ex.extract (stack : Stacker K n) (fit : Fitter K n) (e : Ex K n) (psf : Fin n → K) (cube : List (Fin n → Option K)) : Option (K × K) × Ex K n :=
  let img := stack e.mea cube
  (fluxOf fit e.large e.mask psf img, { e with img := img })

/-- `bootstrap` (`fluxcube.cpp:197-206`): the results of `extract` for each draw -/
def Ex.bootstrap (stack : Stacker K n) (fit : Fitter K n) (psf : Fin n → K) : List (List (Fin n → Option K)) → Ex K n → List (Option (K × K)) × Ex K n
  | [], e => ([], e)
  | c :: cs, e =>
    let r := e.extract stack fit psf c
    let rs := Ex.bootstrap stack fit psf cs r.2
    (r.1 :: rs.1, rs.2)

/-- what `get_flux` gives: the flux and the background, those of the draws, and the image that is written -/
structure Out (K : Type) (n : Nat) where
  res : Option (K × K)
  draws : List (Option (K × K))
  img : Fin n → Option K

/-- `get_flux` for a cube (`fluxcube.cpp:476-484,524-528`); the draws are an input, and none of them without `bstrap`. `none` without PSF -/
def getFlux (stack : Stacker K n) (fit : Fitter K n) (e : Ex K n) (cube : List (Fin n → Option K)) (draws : List (List (Fin n → Option K))) : Option (Out K n) :=
  e.psf.map fun psf =>
    let r := e.extract stack fit psf cube
    let b := Ex.bootstrap stack fit psf draws r.2
    ⟨r.1, b.1, b.2.img⟩

/-- the loop of `run_batch` (`fluxcube.cpp:612-634`), without bootstraps: the results; `none` for a line without PSF, that reads a PSF of dimensions 0 -/
def batch (stack : Stacker K n) (fit : Fitter K n) : Ex K n → List (Args K n × List (Fin n → Option K)) → List (Option (Option (K × K)))
  | _, [] => []
  | e, (a, cube) :: rest =>
    let e := e.config a
    (e.psf.map fun psf => (e.extract stack fit psf cube).1) :: batch stack fit (match e.psf with | none => e | some psf => (e.extract stack fit psf cube).2) rest

/-! ### Specification -/

/-- the pixels where the PSF is at least a fraction of its maximum -/
def Bright (frac : K) (psf : Fin n → K) (p : Fin n) : Prop := ∀ q, frac * |psf q| ≤ |psf p|

/-- the image of a source of flux `f` on a background `b`, where it is finite -/
def IsSource (img : Fin n → Option K) (shape : Fin n → K) (f b : K) (p : Fin n) : Prop := ∀ v, img p = some v → v = b + f * shape p

/-! ### Helpers -/

theorem foldl_max (g : Fin n → K) (l : List (Fin n)) (m : K) : m ≤ l.foldl (fun m q => max m (g q)) m ∧ (∀ q ∈ l, g q ≤ l.foldl (fun m q => max m (g q)) m) ∧
    (l.foldl (fun m q => max m (g q)) m = m ∨ ∃ q ∈ l, l.foldl (fun m q => max m (g q)) m = g q) := by
  induction l generalizing m with
  | nil => simp
  | cons a l ih =>
    obtain ⟨h1, h2, h3⟩ := ih (max m (g a))
    rw [List.foldl_cons]
    refine ⟨(le_max_left _ _).trans h1, ?_, ?_⟩
    · intro q hq
      rcases List.mem_cons.1 hq with rfl | hq
      · exact (le_max_right _ _).trans h1
      · exact h2 q hq
    · rcases h3 with h3 | ⟨q, hq, h3⟩
      · rcases max_choice m (g a) with h | h
        · exact Or.inl (h3.trans h)
        · exact Or.inr ⟨a, by simp, h3.trans h⟩
      · exact Or.inr ⟨q, by simp [hq], h3⟩

theorem maskOf_iff (frac : K) (psf : Fin n → K) (hf : 0 ≤ frac) (p : Fin n) : maskOf frac psf p = true ↔ Bright frac psf p := by
  obtain ⟨h1, h2, h3⟩ := foldl_max (fun q => |psf q|) (List.finRange n) 0
  unfold maskOf Bright
  rw [decide_eq_true_eq]
  constructor
  · intro h q
    exact (mul_le_mul_of_nonneg_left (h2 q (List.mem_finRange q)) hf).trans h
  · intro h
    unfold maxAbs
    rcases h3 with h3 | ⟨q, -, h3⟩
    · rw [h3, mul_zero]; exact abs_nonneg _
    · rw [h3]; exact h q

theorem mem_pixels {large : Bool} {mask : Fin n → Bool} {img : Fin n → Option K} {p : Fin n} : p ∈ pixels large mask img ↔ (large = true ∨ mask p = true) ∧ (img p).isSome = true := by
  unfold pixels
  simp [List.mem_filter]

omit [IsStrictOrderedRing K] in
theorem independent2 (pix : List (Fin n)) (t : Fin n → K) (h : ∃ p ∈ pix, ∃ q ∈ pix, t p ≠ t q) : Independent pix [fun _ => 1, t] := by
  intro cs hcs h0 a ha
  obtain ⟨p, hp, q, hq, hpq⟩ := h
  match cs, hcs with
  | [x, y], _ =>
    have e1 := h0 p hp
    have e2 := h0 q hq
    simp only [comb, List.zipWith_cons_cons, List.zipWith_nil_right, List.sum_cons, List.sum_nil] at e1 e2
    have hy : y * (t p - t q) = 0 := by linear_combination e1 - e2
    have hy0 : y = 0 := (mul_eq_zero.1 hy).resolve_right (sub_ne_zero.2 hpq)
    have hx0 : x = 0 := by rw [hy0] at e1; linear_combination e1
    simp only [List.mem_cons, List.not_mem_nil, or_false] at ha
    rcases ha with rfl | rfl <;> assumption

theorem fluxOf_exact {fit : Fitter K n} (hfit : LeastSquares fit) (large : Bool) (mask : Fin n → Bool) (psf : Fin n → K) (img : Fin n → Option K) (f b : K) (t : Fin n → K)
    (ht : t = if large then fun p => psf p * (if mask p then 1 else 0) else psf) (hs : ∀ p, (large = true ∨ mask p = true) → IsSource img t f b p)
    (hne : ∃ p ∈ pixels large mask img, ∃ q ∈ pixels large mask img, t p ≠ t q) : fluxOf fit large mask psf img = some (f, b) := by
  unfold fluxOf templates
  rw [← ht]
  have hne' : pixels large mask img ≠ [] := by
    obtain ⟨p, hp, -⟩ := hne
    exact List.ne_nil_of_mem hp
  rw [if_neg hne', fit_exact hfit _ _ _ (independent2 _ _ hne) [b, f] rfl]
  · rfl
  · intro p hp
    rw [mem_pixels] at hp
    obtain ⟨v, hv⟩ := Option.isSome_iff_exists.1 hp.2
    rw [hv, Option.getD_some, hs p hp.1 v hv]
    simp [comb]

theorem bootstrap_spec (stack : Stacker K n) (fit : Fitter K n) (psf : Fin n → K) (draws : List (List (Fin n → Option K))) (e : Ex K n) :
    (Ex.bootstrap stack fit psf draws e).1 = draws.map (fun c => fluxOf fit e.large e.mask psf (stack e.mea c)) ∧
    (Ex.bootstrap stack fit psf draws e).2.img = ((draws.getLast?.map fun c => stack e.mea c).getD e.img) := by
  induction draws generalizing e with
  | nil => exact ⟨rfl, rfl⟩
  | cons c cs ih =>
    obtain ⟨h1, h2⟩ := ih (e.extract stack fit psf c).2
    refine ⟨?_, ?_⟩
    · unfold Ex.bootstrap
      rw [List.map_cons]
      dsimp only
      rw [h1]
      rfl
    · unfold Ex.bootstrap
      dsimp only
      rw [h2]
      cases cs with
      | nil => rfl
      | cons d ds =>
        rw [List.getLast?_cons_cons, List.getLast?_eq_some_getLast (by simp)]
        rfl

/-- the mask is that of the PSF and of the fraction -/
def Fresh (e : Ex K n) : Prop := ∀ q, e.psf = some q → e.mask = maskOf e.frac q

omit [IsStrictOrderedRing K] in
theorem config_spec (e : Ex K n) (a : Args K n) : (e.config a).psf = (a.psf.map some).getD e.psf ∧ (e.config a).frac = a.frac.getD e.frac ∧ (e.config a).large = a.large.getD e.large ∧
    (e.config a).mea = (if a.median then some false else a.mean).getD e.mea ∧ (e.config a).mask = (a.psf.map fun q => maskOf (a.frac.getD e.frac) q).getD e.mask := by
  unfold Ex.config
  cases a.psf <;> refine ⟨rfl, rfl, rfl, ?_, rfl⟩ <;> cases a.median <;> rfl

omit [IsStrictOrderedRing K] in
theorem config_fresh (e : Ex K n) (a : Args K n) (he : Fresh e) (ha : a.frac = none ∨ a.psf.isSome) : Fresh (e.config a) := by
  obtain ⟨h1, h2, -, -, h5⟩ := config_spec e a
  intro q hq
  rw [h1] at hq
  rw [h2, h5]
  cases hp : a.psf with
  | some r =>
    rw [hp] at hq
    rw [show r = q from Option.some.inj hq]
    rfl
  | none =>
    rw [hp] at hq
    rcases ha with ha | ha
    · rw [ha]; exact he q hq
    · rw [hp] at ha; cases ha

/-! ### C219 -/

open Classical in
/-- If the image is a constant background and the PSF times a flux, where the PSF is at least the fraction `frac` of its maximum, and the PSF is not constant on these pixels, the flux and the background
are found, whatever the other pixels are. (Full statement: also with `large_bg`.) -/
theorem C219_flux_partial (fit : Fitter K n) (hfit : LeastSquares fit) (frac : K) (hfr : 0 ≤ frac) (psf : Fin n → K) (img : Fin n → Option K) (f b : K) (hs : ∀ p, Bright frac psf p → IsSource img psf f b p)
    (hne : ∃ p q, Bright frac psf p ∧ Bright frac psf q ∧ (img p).isSome ∧ (img q).isSome ∧ psf p ≠ psf q) : fluxOf fit false (maskOf frac psf) psf img = some (f, b) := by
  apply fluxOf_exact hfit false _ psf img f b psf (by simp)
  · intro p hp
    exact hs p ((maskOf_iff frac psf hfr p).1 (by simpa using hp))
  · obtain ⟨p, q, h1, h2, h3, h4, h5⟩ := hne
    exact ⟨p, mem_pixels.2 ⟨Or.inr ((maskOf_iff frac psf hfr p).2 h1), h3⟩, q, mem_pixels.2 ⟨Or.inr ((maskOf_iff frac psf hfr q).2 h2), h4⟩, h5⟩

/-- With `large_bg`, this is true for a PSF that vanishes where it is less than the fraction of its maximum. -/
theorem C219_large_partial (fit : Fitter K n) (hfit : LeastSquares fit) (frac : K) (hfr : 0 ≤ frac) (psf : Fin n → K) (hz : ∀ p, ¬ Bright frac psf p → psf p = 0) (img : Fin n → Option K) (f b : K)
    (hs : ∀ p, IsSource img psf f b p) (hne : ∃ p q, (img p).isSome ∧ (img q).isSome ∧ psf p ≠ psf q) : fluxOf fit true (maskOf frac psf) psf img = some (f, b) := by
  have ht : psf = if true then fun p => psf p * (if maskOf frac psf p then 1 else 0) else psf := by
    funext p
    rw [if_pos rfl]
    by_cases h : maskOf frac psf p = true
    · rw [if_pos h, mul_one]
    · rw [if_neg h, mul_zero]
      exact hz p fun hb => h ((maskOf_iff frac psf hfr p).2 hb)
  apply fluxOf_exact hfit true _ psf img f b psf ht
  · intro p _
    exact hs p
  · obtain ⟨p, q, h3, h4, h5⟩ := hne
    exact ⟨p, mem_pixels.2 ⟨Or.inl rfl, h3⟩, q, mem_pixels.2 ⟨Or.inl rfl, h4⟩, h5⟩

/-- Finding: in general it is not, as the wings of the PSF are fitted as background: here the image is the PSF, and the flux is 3/4. -/
theorem C219_large_refuted (fit : Fitter Rat 3) (hfit : LeastSquares fit) : fluxOf fit true (maskOf (8 / 10 : Rat) ![1, 1 / 2, 0]) ![1, 1 / 2, 0] ![some 1, some (1 / 2), some 0] = some (3 / 4, 1 / 4) := by
  have hp : pixels true (maskOf (8 / 10 : Rat) (![1, 1 / 2, 0] : Fin 3 → Rat)) (![some 1, some (1 / 2), some 0] : Fin 3 → Option Rat) = [0, 1, 2] := by decide +kernel
  unfold fluxOf
  rw [hp, if_neg (by simp)]
  have m0 : maskOf (8 / 10 : Rat) (![1, 2⁻¹, 0] : Fin 3 → Rat) 0 = true := by decide +kernel
  have m1 : maskOf (8 / 10 : Rat) (![1, 2⁻¹, 0] : Fin 3 → Rat) 1 = false := by decide +kernel
  have m2 : maskOf (8 / 10 : Rat) (![1, 2⁻¹, 0] : Fin 3 → Rat) 2 = false := by decide +kernel
  have hind : Independent [0, 1, 2] (templates true (maskOf (8 / 10 : Rat) (![1, 1 / 2, 0] : Fin 3 → Rat)) (![1, 1 / 2, 0] : Fin 3 → Rat)) := by
    unfold templates
    apply independent2
    refine ⟨0, by simp, 1, by simp, ?_⟩
    simp [m0, m1]
  obtain ⟨ps, hps⟩ := Option.isSome_iff_exists.1 ((hfit.some_iff _ (fun p => ((![some 1, some (1 / 2), some 0] : Fin 3 → Option Rat) p).getD 0) _).2 hind)
  obtain ⟨h1, h2⟩ := hfit.best _ _ _ _ hps
  have h3 := h2 [1 / 4, 3 / 4] (by simp [templates])
  rw [hps]
  match ps, h1 with
  | [b, f], _ =>
    simp [comb, templates, m0, m1, m2] at h3
    have hb2 : (b - 1 / 4) ^ 2 ≤ 0 := by nlinarith [sq_nonneg (1 - (b + f))]
    have hb : b = 1 / 4 := sub_eq_zero.1 (pow_eq_zero_iff (n := 2) (by norm_num) |>.1 (le_antisymm hb2 (sq_nonneg _)))
    subst hb
    have hf2 : (f - 3 / 4) ^ 2 ≤ 0 := by nlinarith
    have hf : f = 3 / 4 := sub_eq_zero.1 (pow_eq_zero_iff (n := 2) (by norm_num) |>.1 (le_antisymm hf2 (sq_nonneg _)))
    subst hf
    rfl

/-- the hypotheses of `C219_flux_partial` are true for an image whose wings are not those of the PSF and with a pixel that is not finite -/
example (fit : Fitter Rat 4) (hfit : LeastSquares fit) : fluxOf fit false (maskOf (1 / 2 : Rat) ![2, 1, 1 / 2, 2]) ![2, 1, 1 / 2, 2] ![some 7, some 4, some 99, none] = some (3, 1) := by
  apply C219_flux_partial fit hfit _ (by norm_num)
  · intro p hp v hv
    fin_cases p <;> simp at hv <;> subst hv
    · norm_num
    · norm_num
    · exact absurd (hp 0) (by norm_num [abs_of_pos])
  · refine ⟨0, 1, ?_, ?_, rfl, rfl, by norm_num⟩ <;> intro q <;> fin_cases q <;> norm_num [abs_of_pos]
example : ∃ fit : Fitter Rat 4, LeastSquares fit := exists_leastSquares

/-! ### C220 -/

/-- The flux is that of the stack of all the cutouts, and the bootstraps are those of the stacks of the draws, with the same mask and PSF; without bootstraps the image that is written is the stack.
(Full statement: also with bootstraps.) -/
theorem C220_bootstrap_partial (stack : Stacker K n) (fit : Fitter K n) (e : Ex K n) (psf : Fin n → K) (he : e.psf = some psf) (cube : List (Fin n → Option K)) (draws : List (List (Fin n → Option K))) :
    ∃ o, getFlux stack fit e cube draws = some o ∧ o.res = fluxOf fit e.large e.mask psf (stack e.mea cube) ∧ o.draws = draws.map (fun c => fluxOf fit e.large e.mask psf (stack e.mea c)) ∧
      (draws = [] → o.img = stack e.mea cube) := by
  unfold getFlux
  rw [he]
  obtain ⟨h1, h2⟩ := bootstrap_spec stack fit psf draws (e.extract stack fit psf cube).2
  refine ⟨_, rfl, rfl, h1, fun hd => ?_⟩
  dsimp only
  rw [h2, hd]
  rfl

/-- Finding: with bootstraps, the image that is written is the stack of the last draw. -/
theorem C220_image_refuted (stack : Stacker K n) (fit : Fitter K n) (e : Ex K n) (psf : Fin n → K) (he : e.psf = some psf) (cube d : List (Fin n → Option K)) (draws : List (List (Fin n → Option K))) :
    ∃ o, getFlux stack fit e cube (draws ++ [d]) = some o ∧ o.img = stack e.mea d := by
  unfold getFlux
  rw [he]
  obtain ⟨h1, h2⟩ := bootstrap_spec stack fit psf (draws ++ [d]) (e.extract stack fit psf cube).2
  refine ⟨_, rfl, ?_⟩
  dsimp only
  rw [h2, List.getLast?_append]
  rfl

/-- the options that apply to a line: those given last, in the lines up to this one -/
def lastOf {α : Type} (f : Args K n → Option α) (d : α) (l : List (Args K n)) : α := ((l.reverse.findSome? f).getD d)

omit [Field K] [LinearOrder K] [IsStrictOrderedRing K] in
theorem lastOf_cons {α : Type} (f : Args K n → Option α) (d : α) (a : Args K n) (l : List (Args K n)) : lastOf f d (a :: l) = lastOf f ((f a).getD d) l := by
  unfold lastOf
  rw [List.reverse_cons, List.findSome?_append]
  cases l.reverse.findSome? f <;> simp

/-- The result of a line of the batch file is that of `extract` with the PSF, the fraction and the other options given last. (Full statement: for all lines. Here the fraction is only changed by lines that
give a PSF.) -/
theorem C220_batch_partial (stack : Stacker K n) (fit : Fitter K n) (e : Ex K n) (he : Fresh e) (lines : List (Args K n × List (Fin n → Option K))) (hl : ∀ l ∈ lines, l.1.frac = none ∨ l.1.psf.isSome)
    (k : Nat) (a : Args K n) (cube : List (Fin n → Option K)) (hk : lines[k]? = some (a, cube)) (upto : List (Args K n)) (hu : upto = (lines.take (k + 1)).map Prod.fst) :
    (batch stack fit e lines)[k]? = some ((lastOf (fun a => a.psf.map some) e.psf upto).map fun psf =>
      fluxOf fit (lastOf Args.large e.large upto) (maskOf (lastOf Args.frac e.frac upto) psf) psf (stack (lastOf (fun a => if a.median then some false else a.mean) e.mea upto) cube)) := by
  subst hu
  induction lines generalizing e k with
  | nil => simp at hk
  | cons l rest ih =>
    obtain ⟨b, c⟩ := l
    obtain ⟨h1, h2, h3, h4, -⟩ := config_spec e b
    have hfr := config_fresh e b he (hl (b, c) (by simp))
    rw [List.take_succ_cons, List.map_cons]
    simp only [lastOf_cons]
    rw [← h1, ← h2, ← h3, ← h4]
    cases k with
    | zero =>
      have hbc : (b, c) = (a, cube) := by simpa using hk
      obtain ⟨rfl, rfl⟩ := Prod.mk.inj hbc
      unfold batch
      dsimp only
      rw [List.getElem?_cons_zero]
      congr 1
      cases hp : (e.config b).psf with
      | none => rfl
      | some psf =>
        show some _ = some _
        unfold Ex.extract
        dsimp only
        rw [hfr psf hp]
        rfl
    | succ k =>
      unfold batch
      dsimp only
      rw [List.getElem?_cons_succ]
      have hl' : ∀ l ∈ rest, l.1.frac = none ∨ l.1.psf.isSome := fun l h => hl l (by simp [h])
      cases hp : (e.config b).psf with
      | none =>
        dsimp only
        rw [ih (e.config b) hfr hl' k (by simpa using hk), hp]
      | some psf =>
        dsimp only
        rw [ih ((e.config b).extract stack fit psf c).2 (fun q hq => hfr q hq) hl' k (by simpa using hk)]
        have : ((e.config b).extract stack fit psf c).2.psf = some psf := hp
        rw [this]
        rfl

/-- Finding: a line that gives another fraction without PSF is fitted with the pixels of the old one. Here the new fraction leaves out the pixel that is not that of the source (the flux is 3 and the
background 1), but the result is another one. -/
theorem C220_frac_refuted (stack : Stacker Rat 3) (fit : Fitter Rat 3) (hfit : LeastSquares fit) (e : Ex Rat 3) (he : Fresh e) (hp : e.psf = some ![2, 1, 1 / 2]) (hf : e.frac = 1 / 10)
    (hl : e.large = false) (cube : List (Fin 3 → Option Rat)) (hc : stack e.mea cube = ![some 7, some 4, some 99]) :
    fluxOf fit false (maskOf (1 / 2 : Rat) ![2, 1, 1 / 2]) ![2, 1, 1 / 2] (stack e.mea cube) = some (3, 1) ∧
    ∃ r, batch stack fit e [(⟨none, false, none, some (1 / 2), none⟩, cube)] = [some r] ∧ r ≠ some (3, 1) := by
  rw [hc]
  constructor
  · apply C219_flux_partial fit hfit _ (by norm_num)
    · intro p hp v hv
      fin_cases p <;> simp at hv <;> subst hv
      · norm_num
      · norm_num
      · exact absurd (hp 0) (by norm_num [abs_of_pos])
    · refine ⟨0, 1, ?_, ?_, rfl, rfl, by norm_num⟩ <;> intro q <;> fin_cases q <;> norm_num [abs_of_pos]
  · refine ⟨fluxOf fit false (maskOf (1 / 10 : Rat) ![2, 1, 1 / 2]) ![2, 1, 1 / 2] ![some 7, some 4, some 99], ?_, ?_⟩
    · unfold batch batch Ex.config
      simp [hp, Ex.extract, hl, he _ hp, hf, hc]
    · have hpx : pixels false (maskOf (1 / 10 : Rat) (![2, 1, 1 / 2] : Fin 3 → Rat)) (![some 7, some 4, some 99] : Fin 3 → Option Rat) = [0, 1, 2] := by decide +kernel
      unfold fluxOf
      rw [hpx, if_neg (by simp)]
      intro h
      obtain ⟨ps, hps, h1⟩ := Option.map_eq_some_iff.1 h
      obtain ⟨h2, h3⟩ := hfit.best _ _ _ _ hps
      have h4 := h3 [50, 0] (by simp [templates])
      match ps, h2 with
      | [b, f], _ =>
        have hb : f = 3 ∧ b = 1 := by simpa using h1
        obtain ⟨rfl, rfl⟩ := hb
        simp [comb, templates] at h4
        norm_num at h4

example : ∃ e : Ex Rat 3, Fresh e ∧ e.psf = some ![2, 1, 1 / 2] ∧ e.frac = 1 / 10 ∧ e.large = false := ⟨⟨true, false, 1 / 10, some ![2, 1, 1 / 2], maskOf (1 / 10 : Rat) ![2, 1, 1 / 2], fun _ => none⟩,
  fun q hq => by rw [← Option.some.inj hq], rfl, rfl, rfl⟩

end Verif.FluxCube
