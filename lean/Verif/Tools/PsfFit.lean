import Verif.Tools.FluxCube
/-!
# `psffit` (C222)

The numbers are those of an ordered field, without rounding; a number that is not finite is `none`. The images have `n` pixels; the image of the PSF at the position of the source (`make_psf`, C119) and the
distances of the pixels to the source are inputs. `linfit` with errors is a least squares fit of the image and of the templates divided by the errors (C55). Errors that are zero are not modelled.
-/
namespace Verif.PsfFit
open Verif Verif.Qaper Verif.FluxCube

variable {K : Type} [Field K] [LinearOrder K] [IsStrictOrderedRing K] {n : Nat}

/-! ### Model -/

/-- the arguments (`psffit.cpp:14-26`) -/
structure Opts (K : Type) where
  frac : K
  radius : K
  fconv : K
  nobg : Bool
  /-- `residual=`, empty if it is not given and "1" if it is given without a value -/
  resi : List Char
  save : Bool
deriving DecidableEq

/-- the image, the errors, the image of the PSF and the distance (squared) of the pixels to the source -/
structure Input (K : Type) (n : Nat) where
  img : Fin n → Option K
  err : Fin n → Option K
  psf : Fin n → Option K
  rad2 : Fin n → K

/-- `max` of the finite values of the PSF (`psffit.cpp:51`), which stops the program if there are none -/
def Input.peak (d : Input K n) : Res K :=
  match (List.finRange n).filterMap d.psf with
  | [] => .abort
  | a :: l => .ok (l.foldl max a)

/-- `is_finite(img) && is_finite(err) && is_finite(psf)` -/
def Input.finite (d : Input K n) (p : Fin n) : Bool := (d.img p).isSome && (d.err p).isSome && (d.psf p).isSome

/-- the pixels that are fitted (`psffit.cpp:48-60`) -/
def Input.idf (d : Input K n) (o : Opts K) : Res (List (Fin n)) :=
  if o.frac ≠ 1 then do
    let m ← d.peak
    .ok ((List.finRange n).filter fun p => d.finite p && (match d.psf p with | some a => decide ((1 - o.frac) * m < a) | none => false))
  else if o.radius ≠ 0 then .ok ((List.finRange n).filter fun p => d.finite p && decide (d.rad2 p < o.radius ^ 2))
  else .ok ((List.finRange n).filter d.finite)

/-- what is printed and written: the flux, the background (without unit conversion), the residual and the name of its file. `none` for the flux and the background: they are not finite -/
structure Out (K : Type) (n : Nat) where
  flux : Option K
  bg : Option K
  resi : Option (List Char × (Fin n → Option K))
  table : Option (List Char)

/-- `img - params*psf` (`psffit.cpp:67,90`) -/
def Input.minus (d : Input K n) (f : Option K) (p : Fin n) : Option K :=
  match d.img p, f, d.psf p with
  | some a, some f, some b => some (a - f * b)
  | _, _, _ => none

/-- `outname.substr(0, outname.size() - length(".fits")) + suffix`; the name has at least 5 characters -/
def outName (file suffix : List Char) : List Char := file.take (file.length - 5) ++ suffix

/-- `vif_main` (`psffit.cpp:47-104`) for the image `file` -/
def run (fit : Fitter K n) (file : List Char) (o : Opts K) (d : Input K n) : Res (Out K n) := do
  let idf ← d.idf o
  let e := fun p => (d.err p).getD 1
  let y := fun p => (d.img p).getD 0 / e p
  let t := fun p => (d.psf p).getD 0 / e p
  let table := if o.save then some (outName file "_flx.fits".toList) else none
  if o.nobg then
    let f := (fit idf y [t]).map (·.getD 0 0)
    .ok ⟨f.map (o.fconv * ·), none, if o.resi = [] then none else some (o.resi, d.minus f), table⟩
  else
    let r := fit idf y [fun p => 1 / e p, t]
    let f := r.map (·.getD 1 0)
    .ok ⟨f.map (o.fconv * ·), r.map (·.getD 0 0), if o.resi = [] then none else some (if o.resi = ['1'] then outName file "_res.fits".toList else o.resi, d.minus f), table⟩

/-- the arguments that are read (`psffit.cpp:9-12,24,29,38-40`): `argv[1]`, `argv[2]` and `argv[3]`; `argv[argc]` is a null pointer, from which no string can be made. `false` is the help. -/
def arguments (argv : List (List Char)) : Res Bool := do
  if argv.length < 3 then .ok false
  else
    let _ ← Res.rd argv 1
    let _ ← Res.rd argv 2
    let _ ← Res.rd argv 3
    .ok true

/-! ### Specification -/

/-- the pixels that are to be fitted: those where the image, the error and the PSF are finite, brighter than a fraction of the maximum of the PSF or closer to the source than the radius, if they are given -/
def Used (d : Input K n) (o : Opts K) (p : Fin n) : Prop :=
  (d.img p).isSome ∧ (d.err p).isSome ∧ ∃ a, d.psf p = some a ∧
    if o.frac ≠ 1 then ∃ q m, d.psf q = some m ∧ (∀ r b, d.psf r = some b → b ≤ m) ∧ (1 - o.frac) * m < a else o.radius ≠ 0 → d.rad2 p < o.radius ^ 2

/-- the image of a source of flux `f` on a background `b`, where it is finite -/
def IsSource (d : Input K n) (f b : K) (p : Fin n) : Prop := ∀ v a, d.img p = some v → d.psf p = some a → v = b + f * a

/-- the residual: the image without the source, not finite where one of them is not -/
def residual (d : Input K n) (f : K) (p : Fin n) : Option K := (d.img p).bind fun v => (d.psf p).map fun a => v - f * a

/-! ### Helpers -/

omit [Field K] [IsStrictOrderedRing K] in
theorem peak_spec (d : Input K n) (q : Fin n) (c : K) (hq : d.psf q = some c) : ∃ m, d.peak = .ok m ∧ (∃ p, d.psf p = some m) ∧ ∀ r b, d.psf r = some b → b ≤ m := by
  unfold Input.peak
  have hmem : ∀ r b, d.psf r = some b ↔ ∃ r', r' = r ∧ d.psf r' = some b := by simp
  cases hl : (List.finRange n).filterMap d.psf with
  | nil =>
    have : c ∈ (List.finRange n).filterMap d.psf := List.mem_filterMap.2 ⟨q, by simp, hq⟩
    rw [hl] at this
    simp at this
  | cons a l =>
    have h1 : ∀ (l : List K) (a : K), a ≤ l.foldl max a ∧ (∀ x ∈ l, x ≤ l.foldl max a) ∧ (l.foldl max a = a ∨ l.foldl max a ∈ l) := by
      intro l
      induction l with
      | nil => intro a; simp
      | cons x l ih =>
        intro a
        obtain ⟨g1, g2, g3⟩ := ih (max a x)
        rw [List.foldl_cons]
        refine ⟨(le_max_left _ _).trans g1, ?_, ?_⟩
        · intro y hy
          rcases List.mem_cons.1 hy with rfl | hy
          · exact (le_max_right _ _).trans g1
          · exact g2 y hy
        · rcases g3 with g3 | g3
          · rcases max_choice a x with h | h
            · left; rw [g3, h]
            · right; rw [g3, h]; simp
          · right; exact List.mem_cons_of_mem _ g3
    obtain ⟨g1, g2, g3⟩ := h1 l a
    have hm : ∀ b, b ∈ a :: l ↔ ∃ r, d.psf r = some b := by
      intro b
      rw [← hl, List.mem_filterMap]
      simp
    refine ⟨_, rfl, (hm _).1 ?_, fun r b hr => ?_⟩
    · rcases g3 with g3 | g3
      · rw [g3]; simp
      · exact List.mem_cons_of_mem _ g3
    · rcases List.mem_cons.1 ((hm b).2 ⟨r, hr⟩) with rfl | h
      · exact g1
      · exact g2 b h

theorem idf_spec (d : Input K n) (o : Opts K) (h : ∃ q c, d.psf q = some c) : ∃ l, d.idf o = .ok l ∧ ∀ p, p ∈ l ↔ Used d o p := by
  unfold Input.idf Used
  by_cases hf : o.frac ≠ 1
  · obtain ⟨q, c, hq⟩ := h
    obtain ⟨m, h1, ⟨p0, h2⟩, h3⟩ := peak_spec d q c hq
    rw [if_pos hf, h1, Res.ok_bind]
    refine ⟨_, rfl, fun p => ?_⟩
    rw [List.mem_filter]
    simp only [List.mem_finRange, true_and, Input.finite, Bool.and_eq_true, if_pos hf, and_assoc]
    refine and_congr_right fun _ => and_congr_right fun _ => ?_
    cases hp : d.psf p with
    | none => simp
    | some a =>
      simp only [Option.isSome_some, true_and, decide_eq_true_eq, Option.some.injEq, exists_eq_left']
      constructor
      · exact fun h => ⟨p0, m, h2, h3, h⟩
      · rintro ⟨q', m', g1, g2, g3⟩
        rwa [le_antisymm (g2 p0 m h2) (h3 q' m' g1)]
  · rw [if_neg hf]
    by_cases hr : o.radius ≠ 0
    · rw [if_pos hr]
      refine ⟨_, rfl, fun p => ?_⟩
      rw [List.mem_filter]
      simp only [List.mem_finRange, true_and, Input.finite, Bool.and_eq_true, if_neg hf, and_assoc, decide_eq_true_eq]
      cases d.psf p <;> simp [hr]
    · rw [if_neg hr]
      refine ⟨_, rfl, fun p => ?_⟩
      rw [List.mem_filter]
      simp only [List.mem_finRange, true_and, Input.finite, Bool.and_eq_true, if_neg hf, and_assoc]
      cases d.psf p <;> simp [hr]

omit [LinearOrder K] [IsStrictOrderedRing K] in
theorem minus_eq (d : Input K n) (f : K) : d.minus (some f) = residual d f := by
  funext p
  unfold Input.minus residual
  cases d.img p <;> cases d.psf p <;> rfl

/-! ### C222 -/

/-- If on the pixels that are to be fitted the image is a source of flux `f` with the shape of the PSF on a background `b`, the flux is `f` in the units that were asked for, the background is `b`, and the
residual is the image without the source. -/
theorem C222_flux (fit : Fitter K n) (hfit : LeastSquares fit) (file : List Char) (o : Opts K) (ho : o.nobg = false) (d : Input K n) (f b : K) (hs : ∀ p, Used d o p → IsSource d f b p)
    (he : ∀ p, d.err p ≠ some 0) (hne : ∃ p q, Used d o p ∧ Used d o q ∧ d.psf p ≠ d.psf q) :
    ∃ r, run fit file o d = .ok r ∧ r.flux = some (o.fconv * f) ∧ r.bg = some b ∧ (r.resi.map Prod.snd = if o.resi = [] then none else some (residual d f)) := by
  obtain ⟨p, q, hp, hq, hpq⟩ := hne
  obtain ⟨l, h1, h2⟩ := idf_spec d o (by obtain ⟨-, -, a, ha, -⟩ := hp; exact ⟨p, a, ha⟩)
  unfold run
  rw [h1, Res.ok_bind]
  dsimp only
  rw [if_neg (by simp [ho])]
  have hex : ∀ p, Used d o p → ∃ v e a, d.img p = some v ∧ d.err p = some e ∧ e ≠ 0 ∧ d.psf p = some a := by
    intro p hp
    obtain ⟨g1, g2, a, g3, -⟩ := hp
    obtain ⟨v, g4⟩ := Option.isSome_iff_exists.1 g1
    obtain ⟨e, g5⟩ := Option.isSome_iff_exists.1 g2
    exact ⟨v, e, a, g4, g5, fun h => he p (h ▸ g5), g3⟩
  have hfe := fit_exact hfit l (fun p => (d.img p).getD 0 / (d.err p).getD 1) [fun p => 1 / (d.err p).getD 1, fun p => (d.psf p).getD 0 / (d.err p).getD 1] (by
    intro cs hcs h0 c hc
    match cs, hcs with
    | [x, y], _ =>
      have e1 := h0 p ((h2 p).2 hp)
      have e2 := h0 q ((h2 q).2 hq)
      obtain ⟨v, e, a, g1, g2, g3, g4⟩ := hex p hp
      obtain ⟨v', e', a', k1, k2, k3, k4⟩ := hex q hq
      simp only [comb, List.zipWith_cons_cons, List.zipWith_nil_right, List.sum_cons, List.sum_nil, g2, g4, k2, k4, Option.getD_some] at e1 e2
      field_simp at e1 e2
      rw [g4, k4] at hpq
      have hne : a ≠ a' := fun h => hpq (by rw [h])
      have hy : y * (a - a') = 0 := by linear_combination e1 - e2
      have hy0 : y = 0 := (mul_eq_zero.1 hy).resolve_right (sub_ne_zero.2 hne)
      have hx0 : x = 0 := by rw [hy0] at e1; linear_combination e1
      simp only [List.mem_cons, List.not_mem_nil, or_false] at hc
      rcases hc with rfl | rfl <;> assumption) [b, f] rfl (by
    intro p' hp'
    have hu := (h2 p').1 hp'
    obtain ⟨v, e, a, g1, g2, g3, g4⟩ := hex p' hu
    have := hs p' hu v a g1 g4
    simp only [comb, List.zipWith_cons_cons, List.zipWith_nil_right, List.sum_cons, List.sum_nil, g1, g2, g4, Option.getD_some, this]
    ring)
  rw [hfe]
  refine ⟨_, rfl, rfl, rfl, ?_⟩
  dsimp only
  by_cases hr : o.resi = []
  · rw [if_pos hr, if_pos hr]; rfl
  · rw [if_neg hr, if_neg hr]
    simp only [Option.map_some]
    rw [show ([b, f] : List K).getD 1 0 = f from rfl, minus_eq]

/-- Without background (`nobg`), if the image is that of a source alone. -/
theorem C222_nobg (fit : Fitter K n) (hfit : LeastSquares fit) (file : List Char) (o : Opts K) (ho : o.nobg = true) (d : Input K n) (f : K) (hs : ∀ p, Used d o p → IsSource d f 0 p)
    (he : ∀ p, d.err p ≠ some 0) (hne : ∃ p, Used d o p ∧ d.psf p ≠ some 0) :
    ∃ r, run fit file o d = .ok r ∧ r.flux = some (o.fconv * f) ∧ (r.resi.map Prod.snd = if o.resi = [] then none else some (residual d f)) := by
  obtain ⟨p, hp, hp0⟩ := hne
  obtain ⟨l, h1, h2⟩ := idf_spec d o (by obtain ⟨-, -, a, ha, -⟩ := hp; exact ⟨p, a, ha⟩)
  unfold run
  rw [h1, Res.ok_bind]
  dsimp only
  rw [if_pos ho]
  have hex : ∀ p, Used d o p → ∃ v e a, d.img p = some v ∧ d.err p = some e ∧ e ≠ 0 ∧ d.psf p = some a := by
    intro p hp
    obtain ⟨g1, g2, a, g3, -⟩ := hp
    obtain ⟨v, g4⟩ := Option.isSome_iff_exists.1 g1
    obtain ⟨e, g5⟩ := Option.isSome_iff_exists.1 g2
    exact ⟨v, e, a, g4, g5, fun h => he p (h ▸ g5), g3⟩
  have hfe := fit_exact hfit l (fun p => (d.img p).getD 0 / (d.err p).getD 1) [fun p => (d.psf p).getD 0 / (d.err p).getD 1] (by
    intro cs hcs h0 c hc
    match cs, hcs with
    | [x], _ =>
      have e1 := h0 p ((h2 p).2 hp)
      obtain ⟨v, e, a, g1, g2, g3, g4⟩ := hex p hp
      simp only [comb, List.zipWith_cons_cons, List.zipWith_nil_right, List.sum_cons, List.sum_nil, g2, g4, Option.getD_some, add_zero] at e1
      have ha : a / e ≠ 0 := div_ne_zero (fun h => hp0 (h ▸ g4)) g3
      simp only [List.mem_cons, List.not_mem_nil, or_false] at hc
      rw [hc]
      exact (mul_eq_zero.1 e1).resolve_right ha) [f] rfl (by
    intro p' hp'
    have hu := (h2 p').1 hp'
    obtain ⟨v, e, a, g1, g2, g3, g4⟩ := hex p' hu
    have := hs p' hu v a g1 g4
    simp only [comb, List.zipWith_cons_cons, List.zipWith_nil_right, List.sum_cons, List.sum_nil, g1, g2, g4, Option.getD_some, this]
    ring)
  rw [hfe]
  refine ⟨_, rfl, rfl, ?_⟩
  dsimp only
  by_cases hr : o.resi = []
  · rw [if_pos hr, if_pos hr]; rfl
  · rw [if_neg hr, if_neg hr]
    simp only [Option.map_some]
    rw [show ([f] : List K).getD 0 0 = f from rfl, minus_eq]

/-- The name of the residual is that which is given or, without a value, that of the image with `_res`. (Full statement: with and without a background. Here with a background.) -/
theorem C222_residual_partial (fit : Fitter K n) (file o' : List Char) (o : Opts K) (ho : o.nobg = false) (hf : file = o' ++ ".fits".toList) (hr : o.resi ≠ []) (d : Input K n) (r : Out K n)
    (h : run fit file o d = .ok r) : r.resi.map Prod.fst = some (if o.resi = ['1'] then o' ++ "_res.fits".toList else o.resi) := by
  unfold run at h
  obtain ⟨l, -, h2⟩ := Res.bind_eq_ok.1 h
  dsimp only at h2
  rw [if_neg (by simp [ho]), if_neg hr] at h2
  cases h2
  simp only [Option.map_some]
  congr 1
  split
  · subst hf
    unfold outName
    simp
  · rfl

/-- Finding: without a background, the residual without a value is written in a file with the name `1`. -/
theorem C222_residual_refuted (fit : Fitter K n) (file : List Char) (o : Opts K) (ho : o.nobg = true) (hr : o.resi = ['1']) (d : Input K n) (r : Out K n) (h : run fit file o d = .ok r) :
    r.resi.map Prod.fst = some ['1'] := by
  unfold run at h
  obtain ⟨l, -, h2⟩ := Res.bind_eq_ok.1 h
  dsimp only at h2
  rw [if_pos ho, if_neg (by simp [hr])] at h2
  cases h2
  simp only [Option.map_some]
  rw [hr]

/-- The name of the table. -/
theorem C222_table (fit : Fitter K n) (file o' : List Char) (o : Opts K) (hf : file = o' ++ ".fits".toList) (d : Input K n) (r : Out K n) (h : run fit file o d = .ok r) :
    r.table = if o.save then some (o' ++ "_flx.fits".toList) else none := by
  unfold run at h
  obtain ⟨l, -, h2⟩ := Res.bind_eq_ok.1 h
  dsimp only at h2
  have e : outName file "_flx.fits".toList = o' ++ "_flx.fits".toList := by
    subst hf
    unfold outName
    simp
  split at h2 <;> cases h2 <;> simp only [e]

/-- With three arguments the tool runs, with less than two it shows the help. (Full statement: with two it shows the help too.) -/
theorem C222_arguments_partial (argv : List (List Char)) (h : argv.length ≠ 3) : arguments argv = .ok (decide (4 ≤ argv.length)) := by
  unfold arguments
  by_cases h3 : argv.length < 3
  · rw [if_pos h3]
    congr 1
    simp; omega
  · rw [if_neg h3, Res.rd_lt (by omega), Res.ok_bind, Res.rd_lt (by omega), Res.ok_bind, Res.rd_lt (by omega), Res.ok_bind]
    congr 1
    simp; omega

/-- Finding: with two arguments (the image and x) the tool reads a null pointer. -/
theorem C222_arguments_refuted (a b c : List Char) : arguments [a, b, c] = .ub := by rfl

/-- an example that meets the hypotheses: three pixels, the last of which is too faint and far from the source -/
def ex : Input Rat 4 := ⟨![some 7, some 4, some 99, none], fun _ => some 2, ![some 3, some (3 / 2), some 0, some 0], ![0, 1, 4, 9]⟩
def exO : Opts Rat := ⟨9 / 10, 0, 10, false, [], false⟩
example : ∀ p, Used ex exO p → IsSource ex 2 1 p := by
  intro p hp v a hv ha
  obtain ⟨-, -, c, hc, h⟩ := hp
  rw [if_pos (by decide +kernel)] at h
  obtain ⟨q, m, h1, h2, h3⟩ := h
  fin_cases p <;> simp [ex] at hv ha hc <;> subst hv ha hc
  · norm_num
  · norm_num
  · have := h2 0 3 rfl
    simp [exO] at h3
    linarith
example : ex.idf exO = .ok [0, 1] := by decide +kernel

end Verif.PsfFit
