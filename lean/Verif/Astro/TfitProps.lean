import Verif.Astro.Tfit
import Verif.Math.OrderProps
import Verif.Math.LinfitProps
import Verif.Math.LapackProps
import Verif.Index.Props
import Mathlib.Tactic.LinearCombination
import Mathlib.Tactic.FieldSimp
/-!
# C111, C112: template fitting

Specification: `misfit flux err model` is the sum of the squared differences in units of the errors.
-/
namespace Verif.Tfit
open Verif Verif.Linfit Verif.Mat Verif.Index Verif.Math

variable {p q : Nat} {K : Type} [Field K] [LinearOrder K] [IsStrictOrderedRing K]

/-- the sum of the squared differences in units of the errors -/
def misfit (flux err model : Fin q → K) : K := ∑ m, ((flux m - model m) / err m) ^ 2

/-! ## One library -/

theorem wsum_eq (flux err model : Fin q → K) : wsum (weight err) flux model = misfit flux err model := by
  unfold wsum weight misfit
  rw [accum_eq]
  refine Finset.sum_congr rfl fun m _ => ?_
  rw [div_pow, sq, sq, one_div, div_eq_mul_inv, mul_comm]

theorem den_eq (err t : Fin q → K) : (accum fun m => weight err m * t m * t m) = ∑ m, (t m / err m) ^ 2 := by
  rw [accum_eq]
  refine Finset.sum_congr rfl fun m _ => ?_
  unfold weight
  rw [div_pow, one_div, div_eq_mul_inv, sq, sq]; ring

theorem num_eq (flux err t : Fin q → K) : (accum fun m => weight err m * flux m * t m) = ∑ m, flux m / err m * (t m / err m) := by
  rw [accum_eq]
  refine Finset.sum_congr rfl fun m _ => ?_
  unfold weight
  rw [one_div, mul_inv, div_eq_mul_inv, div_eq_mul_inv]; ring

/-- the denominator of the amplitude vanishes only for the zero template, and then the numerator too -/
theorem den_zero (err t : Fin q → K) (he : ∀ m, err m ≠ 0) :
    (accum fun m => weight err m * t m * t m) = 0 ↔ ∀ m, t m = 0 := by
  rw [den_eq, Finset.sum_eq_zero_iff_of_nonneg fun m _ => sq_nonneg _]
  constructor
  · intro h m
    have := pow_eq_zero_iff (by norm_num) |>.1 (h m (Finset.mem_univ m))
    exact (div_eq_zero_iff.1 this).resolve_right (he m)
  · intro h m _; simp [h m]

/-- the misfit of a multiple of the template, from that of the least-squares multiple -/
theorem misfit_split (flux err t : Fin q → K) (a b : K)
    (ha : a * ∑ m, (t m / err m) ^ 2 = ∑ m, flux m / err m * (t m / err m)) :
    misfit flux err (fun m => b * t m) = misfit flux err (fun m => a * t m) + (b - a) ^ 2 * ∑ m, (t m / err m) ^ 2 := by
  have e : ∀ x, misfit flux err (fun m => x * t m) =
      ∑ m, (flux m / err m) ^ 2 - 2 * x * ∑ m, flux m / err m * (t m / err m) + x ^ 2 * ∑ m, (t m / err m) ^ 2 := by
    intro x
    unfold misfit
    rw [Finset.mul_sum, Finset.mul_sum, ← Finset.sum_sub_distrib, ← Finset.sum_add_distrib]
    refine Finset.sum_congr rfl fun m _ => ?_
    rw [sub_div, mul_div_assoc]; ring
  rw [e, e, ← ha]; ring

theorem amplitude_eq (flux err t : Fin q → K) (he : ∀ m, err m ≠ 0) (ht : ∃ m, t m ≠ 0) :
    ∃ a, amplitude (weight err) flux t = some a ∧ a * ∑ m, (t m / err m) ^ 2 = ∑ m, flux m / err m * (t m / err m) ∧
      0 < ∑ m, (t m / err m) ^ 2 := by
  have hd : (accum fun m => weight err m * t m * t m) ≠ 0 := by
    rw [Ne, den_zero err t he]; push Not; exact ht
  refine ⟨_, by unfold amplitude quot; rw [if_neg hd], ?_, ?_⟩
  · rw [← den_eq, div_mul_cancel₀ _ hd, num_eq]
  · rw [den_eq] at hd
    exact lt_of_le_of_ne (Finset.sum_nonneg fun m _ => sq_nonneg _) (Ne.symm hd)

theorem amplitude_none (flux err t : Fin q → K) (he : ∀ m, err m ≠ 0) (ht : ∀ m, t m = 0) :
    amplitude (weight err) flux t = none := by
  unfold amplitude quot; rw [if_pos ((den_zero err t he).2 ht)]

theorem fit_inv {renorm : Bool} {flux err : Fin q → K} {lib draws : List (Fin q → K)} {r : Fit q K}
    (h : templateFit renorm flux err lib draws = .ok r) :
    ∃ x, vmin (lib.map (chi2One renorm (weight err) flux)) = .ok (r.bfit, x) ∧
      r.chi2 = lib.map (chi2One renorm (weight err) flux) ∧ r.amp = lib.map (amplitude (weight err) flux) ∧
      r.flux = List.zipWith (fun t a m => a.map fun a => t m * a) lib (lib.map (amplitude (weight err) flux)) ∧
      draws.mapM (simulate renorm flux err lib r.bfit) = .ok r.sims := by
  unfold templateFit at h
  simp only [Res.bind_eq_ok] at h
  obtain ⟨b, hb, s, hs, hr⟩ := h
  cases hr
  exact ⟨b.2, hb, rfl, rfl, rfl, hs⟩

/-- **C111** the amplitude reported for a template that is not zero in all the filters is the one that minimises the misfit, and the only
one -/
theorem C111_amplitude (renorm : Bool) (flux err : Fin q → K) (lib draws : List (Fin q → K)) (r : Fit q K) (he : ∀ m, err m ≠ 0)
    (h : templateFit renorm flux err lib draws = .ok r) (i : Nat) (t : Fin q → K) (hi : lib[i]? = some t) (ht : ∃ m, t m ≠ 0) :
    ∃ a, r.amp[i]? = some (some a) ∧ ∀ b, misfit flux err (fun m => a * t m) ≤ misfit flux err (fun m => b * t m) ∧
      (misfit flux err (fun m => b * t m) = misfit flux err (fun m => a * t m) → b = a) := by
  obtain ⟨x, -, -, ha, -, -⟩ := fit_inv h
  obtain ⟨a, h1, h2, h3⟩ := amplitude_eq flux err t he ht
  refine ⟨a, by rw [ha, List.getElem?_map, hi]; simp [h1], fun b => ?_⟩
  rw [misfit_split flux err t a b h2]
  refine ⟨le_add_of_nonneg_right (mul_nonneg (sq_nonneg _) h3.le), fun hb => ?_⟩
  have : (b - a) ^ 2 * ∑ m, (t m / err m) ^ 2 = 0 := by linarith
  rcases mul_eq_zero.1 this with h0 | h0
  · exact sub_eq_zero.1 (pow_eq_zero_iff (by norm_num) |>.1 h0)
  · exact absurd h0 h3.ne'

/-- **C111** the `chi2` reported for a template is the misfit of the template, multiplied by its amplitude if `renorm` is set; the fluxes
reported are those of the template multiplied by its amplitude -/
theorem C111_chi2_flux (renorm : Bool) (flux err : Fin q → K) (lib draws : List (Fin q → K)) (r : Fit q K) (he : ∀ m, err m ≠ 0)
    (h : templateFit renorm flux err lib draws = .ok r) (i : Nat) (t : Fin q → K) (hi : lib[i]? = some t) (ht : ∃ m, t m ≠ 0) :
    ∃ a, r.amp[i]? = some (some a) ∧
      r.chi2[i]? = some (some (misfit flux err (if renorm then fun m => a * t m else t))) ∧
      r.flux[i]? = some fun m => some (a * t m) := by
  obtain ⟨x, -, hc, ha, hf, -⟩ := fit_inv h
  obtain ⟨a, h1, h2, h3⟩ := amplitude_eq flux err t he ht
  refine ⟨a, by rw [ha, List.getElem?_map, hi]; simp [h1], ?_, ?_⟩
  · rw [hc, List.getElem?_map, hi]
    simp only [Option.map_some, chi2One, h1]
    cases renorm <;> simp [wsum_eq]
  · rw [hf, List.getElem?_zipWith, List.getElem?_map, hi]
    simp [h1, mul_comm]

/-- **C111** with `renorm`, when at least one template is not zero in all the filters: the best fit template, multiplied by its amplitude, has the
smallest misfit among all the multiples of all the templates -/
theorem C111_best_renorm (flux err : Fin q → K) (lib draws : List (Fin q → K)) (r : Fit q K) (he : ∀ m, err m ≠ 0)
    (h : templateFit true flux err lib draws = .ok r) (hz : ∃ t ∈ lib, ∃ m, t m ≠ 0) :
    ∃ t a, lib[r.bfit]? = some t ∧ r.amp[r.bfit]? = some (some a) ∧ r.chi2[r.bfit]? = some (some (misfit flux err fun m => a * t m)) ∧
      ∀ t' ∈ lib, ∀ b, misfit flux err (fun m => a * t m) ≤ misfit flux err (fun m => b * t' m) := by
  obtain ⟨x, hb, hc, ha, -, -⟩ := fit_inv h
  have hne : lib.map (chi2One true (weight err) flux) ≠ [] := by
    obtain ⟨t, ht, -⟩ := hz
    intro h0
    rw [List.map_eq_nil_iff] at h0
    rw [h0] at ht; cases ht
  obtain ⟨pr, hp, ⟨hm1, hm2⟩, -⟩ := C25_min _ hne
  rw [hb] at hp
  cases hp
  simp only at hm1 hm2
  obtain ⟨t0, ht0, hnz0⟩ := hz
  -- the value of a non-zero template
  have val : ∀ t ∈ lib, (∃ m, t m ≠ 0) → ∃ a, amplitude (weight err) flux t = some a ∧
      chi2One true (weight err) flux t = some (misfit flux err fun m => a * t m) ∧
      ∀ b, misfit flux err (fun m => a * t m) ≤ misfit flux err (fun m => b * t m) := by
    intro t ht hnz
    obtain ⟨a, h1, h2, h3⟩ := amplitude_eq flux err t he hnz
    refine ⟨a, h1, by simp [chi2One, h1, wsum_eq], fun b => ?_⟩
    rw [misfit_split flux err t a b h2]
    exact le_add_of_nonneg_right (mul_nonneg (sq_nonneg _) h3.le)
  have hq : q ≠ 0 := by
    obtain ⟨m, -⟩ := hnz0
    rintro rfl; exact m.elim0
  obtain ⟨a0, -, hv0, -⟩ := val t0 ht0 hnz0
  obtain ⟨y, hy, hle0⟩ := hm2 _ (List.mem_map.2 ⟨t0, ht0, hv0⟩)
  rw [List.getElem?_map, Option.map_eq_some_iff] at hm1
  obtain ⟨t, ht, hct⟩ := hm1
  have htm : t ∈ lib := List.mem_of_getElem? ht
  have hnz : ∃ m, t m ≠ 0 := by
    by_contra hno
    push Not at hno
    have := amplitude_none flux err t he hno
    simp only [chi2One, this, if_true, hq, if_false] at hct
    rw [← hct] at hy; cases hy
  obtain ⟨a, h1, h2, h3⟩ := val t htm hnz
  refine ⟨t, a, ht, by rw [ha, List.getElem?_map, ht]; simp [h1], by rw [hc, List.getElem?_map, ht]; simp [h2], fun t' ht' b => ?_⟩
  have hyv : y = misfit flux err fun m => a * t m := by
    rw [hy, h2] at hct; exact (Option.some.inj hct).symm
  by_cases hnz' : ∃ m, t' m ≠ 0
  · obtain ⟨a', -, g2, g3⟩ := val t' ht' hnz'
    obtain ⟨y', hy', hle⟩ := hm2 _ (List.mem_map.2 ⟨t', ht', g2⟩)
    rw [hy] at hy'; cases hy'
    rw [← hyv]
    exact hle.trans (g3 b)
  · push Not at hnz'
    have := h3 0
    simp only [zero_mul] at this
    simpa only [hnz', mul_zero] using this

/-- **C111** without `renorm`: the best fit template is the first of the templates with the smallest misfit -/
theorem C111_best_fixed (flux err : Fin q → K) (lib draws : List (Fin q → K)) (r : Fit q K)
    (h : templateFit false flux err lib draws = .ok r) :
    ∃ t, lib[r.bfit]? = some t ∧ r.chi2[r.bfit]? = some (some (misfit flux err t)) ∧
      ∀ i t', lib[i]? = some t' → misfit flux err t ≤ misfit flux err t' ∧ (i < r.bfit → misfit flux err t < misfit flux err t') := by
  obtain ⟨x, hb, hc, ha, -, -⟩ := fit_inv h
  have hne : lib.map (chi2One false (weight err) flux) ≠ [] := by
    intro h0; rw [h0] at hb; cases hb
  obtain ⟨pr, hp, ⟨hm1, hm2⟩, hm3⟩ := C25_min _ hne
  rw [hb] at hp
  cases hp
  simp only at hm1 hm2 hm3
  have hv : ∀ t, chi2One false (weight err) flux t = some (misfit flux err t) := fun t => by simp [chi2One, wsum_eq]
  rw [List.getElem?_map, Option.map_eq_some_iff] at hm1
  obtain ⟨t, ht, hct⟩ := hm1
  rw [hv] at hct
  refine ⟨t, ht, by rw [hc, List.getElem?_map, ht]; simp [hv], fun i t' ht' => ?_⟩
  obtain ⟨y, hy, hle⟩ := hm2 _ (List.mem_map.2 ⟨t', List.mem_of_getElem? ht', hv t'⟩)
  rw [← hct] at hy
  cases hy
  refine ⟨hle, fun hi => lt_of_le_of_ne hle fun heq => ?_⟩
  refine hm3 i _ hi (by rw [List.getElem?_map, ht']; rfl) ?_
  rw [hv, ← hct, heq]

/-- **C111** each simulation is the fit of the same templates to the data plus the simulated errors: the template is that of this fit, and the amplitudes
are those of this fit for this template and for the best fit of the data -/
theorem C111_simulations (renorm : Bool) (flux err : Fin q → K) (lib draws : List (Fin q → K)) (r : Fit q K)
    (h : templateFit renorm flux err lib draws = .ok r) :
    r.sims.length = draws.length ∧ ∀ (s : Nat) (g : Fin q → K), draws[s]? = some g → ∃ r' a b,
      templateFit renorm (fun m => flux m + g m * err m) err lib [] = .ok r' ∧ r'.amp[r'.bfit]? = some a ∧ r'.amp[r.bfit]? = some b ∧
      r.sims[s]? = some (r'.bfit, a, b) := by
  obtain ⟨x, hb, -, -, -, hs⟩ := fit_inv h
  have key : ∀ (l : List (Fin q → K)) (o : List (Nat × Option K × Option K)),
      l.mapM (simulate renorm flux err lib r.bfit) = .ok o → o.length = l.length ∧
        ∀ (s : Nat) g, l[s]? = some g → ∃ y, o[s]? = some y ∧ simulate renorm flux err lib r.bfit g = .ok y := by
    intro l
    induction l with
    | nil => intro o ho; cases ho; exact ⟨rfl, by simp⟩
    | cons g l ih =>
      intro o ho
      rw [List.mapM_cons] at ho
      simp only [Res.bind_eq_ok] at ho
      obtain ⟨y, hy, o', ho', heq⟩ := ho
      cases heq
      obtain ⟨e1, e2⟩ := ih o' ho'
      refine ⟨by simp [e1], fun s g' hg' => ?_⟩
      cases s with
      | zero => simp only [List.getElem?_cons_zero, Option.some.injEq] at hg' ⊢; subst hg'; exact ⟨y, rfl, hy⟩
      | succ s => simpa using e2 s g' (by simpa using hg')
  obtain ⟨e1, e2⟩ := key draws r.sims hs
  refine ⟨e1, fun s g hg => ?_⟩
  obtain ⟨y, hy, hsim⟩ := e2 s g hg
  unfold simulate at hsim
  simp only [Res.bind_eq_ok] at hsim
  obtain ⟨is, h1, ab, h2, ai, h3, h4⟩ := hsim
  cases h4
  refine ⟨_, ai, ab, by unfold templateFit; dsimp only; rw [h1]; simp only [Res.ok_bind, List.mapM_nil, Res.pure_def]; rfl, ?_, ?_, hy⟩
  · exact Res.rd_eq_ok.1 h3
  · exact Res.rd_eq_ok.1 h2

/-- **C111** the fit returns for every library that is not empty, and aborts for the others -/
theorem C111_returns (renorm : Bool) (flux err : Fin q → K) (lib draws : List (Fin q → K)) :
    (lib ≠ [] → ∃ r, templateFit renorm flux err lib draws = .ok r) ∧ (lib = [] → templateFit renorm flux err lib draws = .abort) := by
  constructor
  · intro hl
    have hmin : ∀ f : Fin q → K, ∃ pr, vmin (lib.map (chi2One renorm (weight err) f)) = .ok pr ∧ pr.1 < lib.length := by
      intro f
      obtain ⟨pr, h1, h2, -⟩ := C25_min (lib.map (chi2One renorm (weight err) f)) (by simpa using hl)
      refine ⟨pr, h1, ?_⟩
      have := (List.getElem?_eq_some_iff.1 h2.1).1
      simpa using this
    obtain ⟨pr, h1, h2⟩ := hmin flux
    have hsim : ∀ g, ∃ y, simulate renorm flux err lib pr.1 g = .ok y := by
      intro g
      obtain ⟨pg, g1, g2⟩ := hmin fun m => flux m + g m * err m
      unfold simulate
      dsimp only
      rw [g1, Res.ok_bind, Res.rd_lt (by simpa using h2), Res.ok_bind, Res.rd_lt (by simpa using g2), Res.ok_bind]
      exact ⟨_, rfl⟩
    have hall : ∃ o, draws.mapM (simulate renorm flux err lib pr.1) = .ok o := by
      clear h1
      induction draws with
      | nil => exact ⟨[], rfl⟩
      | cons g l ih =>
        obtain ⟨y, hy⟩ := hsim g
        obtain ⟨o, ho⟩ := ih
        rw [List.mapM_cons, hy, Res.ok_bind, ho]; exact ⟨_, rfl⟩
    obtain ⟨o, ho⟩ := hall
    unfold templateFit
    dsimp only
    rw [h1, Res.ok_bind, ho, Res.ok_bind]
    exact ⟨_, rfl⟩
  · rintro rfl; rfl

/-- **C111** a template without flux in the filters has a NaN amplitude and NaN fluxes; without `renorm` it can nevertheless be the best
fit -/
theorem C111_zero_refuted :
    ∃ r, templateFit false (fun _ : Fin 1 => (0 : ℚ)) (fun _ => 1) [fun _ => 1, fun _ => 0] [] = .ok r ∧ r.bfit = 1 ∧
      r.amp[r.bfit]? = some none ∧ r.chi2 = [some 1, some 0] ∧ (r.flux[r.bfit]?.map fun f => f 0) = some none := by
  exact ⟨_, rfl, by decide +kernel, by decide +kernel, by decide +kernel, by decide +kernel⟩

/-- **C111** with upper limits and without `renorm`: the best fit is the first of the templates with the smallest sum of the squared differences
of the measurements and of the weights of the upper limits; filters with a zero error are ignored -/
theorem C111_ulim (lim : K → K) (flux err : Fin q → K) (lib : List (Fin q → K)) (r : Nat × List K)
    (h : ulimFit lim flux err lib = .ok r) :
    let merit (t : Fin q → K) : K := ∑ m, if 0 < err m then ((flux m - t m) / err m) ^ 2 else if err m < 0 then lim ((flux m - t m) / |err m|) else 0
    r.2 = lib.map merit ∧ ∃ t, lib[r.1]? = some t ∧ ∀ i t', lib[i]? = some t' → merit t ≤ merit t' ∧ (i < r.1 → merit t < merit t') := by
  intro merit
  have hv : ∀ t, ulimChi2 lim flux err t = merit t := by
    intro t
    simp only [ulimChi2, accum_eq, merit, ← Finset.sum_add_distrib]
    refine Finset.sum_congr rfl fun m _ => ?_
    rcases lt_trichotomy (err m) 0 with hm | hm | hm
    · rw [if_neg (not_lt.2 hm.le), if_pos hm, if_pos hm, if_neg (not_lt.2 hm.le), if_pos hm, zero_add, abs_of_neg hm, sub_div, mul_neg_one]
    · simp [hm]
    · rw [if_pos hm, if_neg (not_lt.2 hm.le), if_neg (not_lt.2 hm.le), if_pos hm, add_zero, sub_div, sq]
  unfold ulimFit at h
  simp only [Res.bind_eq_ok] at h
  obtain ⟨b, hb, hr⟩ := h
  cases hr
  have hf : ulimChi2 lim flux err = merit := funext hv
  rw [hf] at hb ⊢
  refine ⟨rfl, ?_⟩
  have hne : (lib.map merit).map some ≠ [] := by
    intro h0; rw [h0] at hb; cases hb
  obtain ⟨pr, hp, ⟨hm1, hm2⟩, hm3⟩ := C25_min _ hne
  rw [hb] at hp; cases hp
  rw [List.map_map, List.getElem?_map, Option.map_eq_some_iff] at hm1
  obtain ⟨t, ht, hct⟩ := hm1
  refine ⟨t, ht, fun i t' ht' => ?_⟩
  obtain ⟨y, hy, hle⟩ := hm2 (merit t') (by rw [List.map_map]; exact List.mem_map.2 ⟨t', List.mem_of_getElem? ht', rfl⟩)
  rw [← hct] at hy
  simp only [Function.comp, Option.some.injEq] at hy
  subst hy
  refine ⟨hle, fun hi => lt_of_le_of_ne hle fun heq => ?_⟩
  refine hm3 i (some (merit t')) hi (by rw [List.map_map, List.getElem?_map, ht']; rfl) ?_
  rw [← hct]; simp [heq]

/-- two filters, two templates, one simulation -/
example : ((templateFit true ![2, (4 : ℚ)] ![1, 2] [![1, 1], ![1, 2]] [![1, 0]]).map fun r => (r.bfit, r.amp, r.chi2)) =
    .ok (1, [some (12 / 5), some 2], [some (4 / 5), some 0]) := by decide +kernel

example : ((templateFit true ![2, (4 : ℚ)] ![1, 2] [![1, 1], ![1, 2]] [![1, 0]]).map fun r => r.sims) =
    .ok [(0, some (16 / 5), some (5 / 2))] := by decide +kernel

example : ulimFit (fun d : ℚ => if d < 0 then d * d else 0) ![2, 4] ![1, -2] [![1, 1], ![2, 6], ![2, 3]] = .ok (2, [1, 1, 0]) := by
  decide +kernel

/-! ## Several libraries -/

/-- the sum of the templates of a combination, multiplied by the amplitudes -/
def model (lib : Fin p → List (Fin q → K)) (ilib : List Nat) (v : Fin p → K) : Fin q → K := fun m => ∑ k, v k * combo lib ilib k m

/-- the combinations visited by `n` iterations that all increment the indices -/
def visit (nsed : List Nat) : Nat → List Nat → List (List Nat)
  | 0, _ => []
  | n + 1, il => il :: match incrementIndexList il nsed with
    | .ok il' => visit nsed n il'
    | _ => []

theorem visit_mem (nsed : List Nat) (hn : nsed ≠ []) (n : Nat) (il : List Nat) (h : InRange nsed il) (x : List Nat) :
    x ∈ visit nsed n il ↔ ∃ k < n, incTimes nsed k il = .ok x := by
  induction n generalizing il with
  | zero => simp [visit]
  | succ n ih =>
    obtain ⟨il', h1, h2, -⟩ := C23_step nsed il hn h
    simp only [visit, h1, List.mem_cons, ih il' h2]
    constructor
    · rintro (rfl | ⟨k, hk, he⟩)
      · exact ⟨0, by omega, rfl⟩
      · exact ⟨k + 1, by omega, by simp only [incTimes, h1, Res.ok_bind, he]⟩
    · rintro ⟨k, hk, he⟩
      cases k with
      | zero => left; simp only [incTimes, Res.ok.injEq] at he; exact he.symm
      | succ k =>
        right
        simp only [incTimes, h1, Res.ok_bind] at he
        exact ⟨k, by omega, he⟩

theorem visit_all (nsed : List Nat) (hn : nsed ≠ []) (hpos : ∀ d ∈ nsed, 0 < d) (x : List Nat) :
    x ∈ visit nsed nsed.prod (List.replicate nsed.length 0) ↔ InRange nsed x := by
  rw [visit_mem nsed hn _ _ (inRange_zeros nsed hpos)]
  constructor
  · rintro ⟨k, -, hk⟩
    obtain ⟨ids, h1, h2, -⟩ := C23_enumerates nsed hn hpos k
    rw [h1] at hk; cases hk; exact h2
  · intro h
    obtain ⟨k, ⟨h1, h2⟩, -⟩ := C23_once nsed hn hpos x h
    exact ⟨k, h1, h2⟩

/-- the effect of one combination on the best fit of one set of data -/
def stepBest (F : List Nat → (Fin p → K) × K) (constr : List Nat → Bool) (b : Best p K) (il : List Nat) : Best p K :=
  if constr il then better (F il).2 il (F il).1 b else b

/-- the best of the allowed combinations of a list -/
def IsBest (F : List Nat → (Fin p → K) × K) (constr : List Nat → Bool) (l : List (List Nat)) : Best p K → Prop
  | none => ∀ il ∈ l, constr il = false
  | some (c, il, v) => il ∈ l ∧ constr il = true ∧ v = (F il).1 ∧ c = (F il).2 ∧ ∀ il' ∈ l, constr il' = true → c ≤ (F il').2

theorem stepBest_spec (F : List Nat → (Fin p → K) × K) (constr : List Nat → Bool) (l pre : List (List Nat)) (b : Best p K)
    (h : IsBest F constr pre b) : IsBest F constr (pre ++ l) (l.foldl (stepBest F constr) b) := by
  induction l generalizing pre b with
  | nil => simpa using h
  | cons il l ih =>
    rw [List.foldl_cons, ← List.singleton_append, ← List.append_assoc]
    refine ih _ _ ?_
    unfold stepBest
    by_cases hc : constr il = true
    · rw [if_pos hc]
      match b, h with
      | none, h =>
        refine ⟨by simp, hc, rfl, rfl, fun il' hil' hc' => ?_⟩
        rcases List.mem_append.1 hil' with h' | h'
        · rw [h il' h'] at hc'; cases hc'
        · rw [List.mem_singleton.1 h']
      | some (c, i0, v), h =>
        obtain ⟨g1, g2, g3, g4, g5⟩ := h
        simp only [better]
        split
        · rename_i hlt
          refine ⟨by simp, hc, rfl, rfl, fun il' hil' hc' => ?_⟩
          rcases List.mem_append.1 hil' with h' | h'
          · exact hlt.le.trans (g5 il' h' hc')
          · rw [List.mem_singleton.1 h']
        · rename_i hlt
          refine ⟨by simp [g1], g2, g3, g4, fun il' hil' hc' => ?_⟩
          rcases List.mem_append.1 hil' with h' | h'
          · exact g5 il' h' hc'
          · rw [List.mem_singleton.1 h']; exact not_lt.1 hlt
    · rw [if_neg hc]
      match b, h with
      | none, h =>
        intro il' hil'
        rcases List.mem_append.1 hil' with h' | h'
        · exact h il' h'
        · rw [List.mem_singleton.1 h']; simpa using hc
      | some (c, i0, v), h =>
        obtain ⟨g1, g2, g3, g4, g5⟩ := h
        refine ⟨by simp [g1], g2, g3, g4, fun il' hil' hc' => ?_⟩
        rcases List.mem_append.1 hil' with h' | h'
        · exact g5 il' h' hc'
        · rw [List.mem_singleton.1 h'] at hc'; exact absurd hc' hc

/-- the fit of one combination, given that its matrix is inverted -/
def fitOf (inv : M p K → Option (M p K)) (conv : Fin p → List (Fin q → K)) (f : Fin q → K) (il : List Nat) : (Fin p → K) × K :=
  comboFit (symmetrize ((inv (lowerAlpha (combo conv il))).getD fun _ _ => 0)) (combo conv il) f

omit [IsStrictOrderedRing K] in
theorem multiLoop_eq (inv : M p K → Option (M p K)) (constr : List Nat → Bool) (conv : Fin p → List (Fin q → K)) (nsed : List Nat)
    (hn : nsed ≠ []) (hinv : ∀ il, InRange nsed il → constr il = true → (inv (lowerAlpha (combo conv il))).isSome = true)
    (n : Nat) (il : List Nat) (h : InRange nsed il) (s : List ((Fin q → K) × Best p K)) :
    multiLoop inv constr conv nsed n il s =
      .ok (s.map fun d => (d.1, (visit nsed n il).foldl (stepBest (fitOf inv conv d.1) constr) d.2)) := by
  induction n generalizing il s with
  | zero => simp [multiLoop, visit]
  | succ n ih =>
    obtain ⟨il', h1, h2, -⟩ := C23_step nsed il hn h
    rw [multiLoop]
    by_cases hc : constr il = true
    · rw [if_pos hc]
      obtain ⟨a, ha⟩ := Option.isSome_iff_exists.1 (hinv il h hc)
      simp only [ha, h1, Res.ok_bind, ih il' h2, visit, List.foldl_cons, List.map_map]
      congr 1
      refine List.map_congr_left fun d _ => ?_
      simp only [Function.comp, stepBest, if_pos hc, fitOf, ha, Option.getD_some]
    · rw [if_neg hc]
      simp only [h1, Res.ok_bind, ih il' h2, visit, List.foldl_cons, stepBest, if_neg hc]

omit [IsStrictOrderedRing K] in
/-- LAPACK reads only the part of the matrix that is filled -/
theorem sytri_lower (sytri : (Nat → K) → Option (Nat → K)) (hs : IsSytri p sytri) (c : Fin p → Fin q → K) (b : M p K)
    (h : lapackInvertSymmetric sytri (lowerAlpha c) = some b) :
    ∀ i j, ∑ k, makeAlpha c i k * symmetrize b k j = if i = j then 1 else 0 := by
  unfold lapackInvertSymmetric at h
  rw [Option.map_eq_some_iff] at h
  obtain ⟨r, hr, rfl⟩ := h
  obtain ⟨d, h1, h2, -⟩ := hs _ _ hr
  have hA : ∀ i k : Fin p, makeAlpha c i k = makeAlpha c k i := by
    intro i k
    rw [makeAlpha_eq, makeAlpha_eq]
    exact Finset.sum_congr rfl fun m _ => mul_comm _ _
  have hac : Matrix.of (makeAlpha c) * Matrix.of d = 1 := by
    ext i j
    rw [Matrix.mul_apply, Matrix.one_apply, ← h1 i j]
    refine Finset.sum_congr rfl fun k _ => ?_
    simp only [raw_colMajor, Matrix.of_apply]
    congr 1
    by_cases hik : i ≤ k
    · rw [if_pos hik, lowerAlpha, if_pos hik, accum_eq, makeAlpha_eq]
    · rw [if_neg hik, lowerAlpha, if_pos (le_of_lt (not_le.1 hik)), accum_eq, hA, makeAlpha_eq]
  have hcs : ∀ i j, d i j = d j i := by
    have ht : (Matrix.of (makeAlpha c)).transpose = Matrix.of (makeAlpha c) := by
      ext r c; exact hA c r
    have h3 : (Matrix.of d).transpose * Matrix.of (makeAlpha c) = 1 := by
      have := congrArg Matrix.transpose hac
      rwa [Matrix.transpose_mul, ht, Matrix.transpose_one] at this
    have h4 : (Matrix.of d).transpose = Matrix.of d := by
      have h5 : ((Matrix.of d).transpose * Matrix.of (makeAlpha c)) * Matrix.of d = Matrix.of d := by rw [h3, Matrix.one_mul]
      rwa [Matrix.mul_assoc, hac, Matrix.mul_one] at h5
    exact fun i j => congrFun (congrFun h4 j) i
  have hd : symmetrize (ofRaw (n := p) r) = d := by
    funext i j
    rw [symmetrize_apply]
    simp only [ofRaw]
    split
    · rename_i hlt
      rw [Nat.add_comm, h2 i j (le_of_lt hlt)]
    · rename_i hlt
      rw [Nat.add_comm, h2 j i (not_lt.1 hlt), hcs]
  intro i j
  have := congrFun (congrFun hac i) j
  rw [Matrix.mul_apply, Matrix.one_apply] at this
  rw [hd]; exact this

/-- the amplitudes of a combination solve the normal equations, hence minimise the sum -/
theorem comboFit_spec (b : M p K) (c : Fin p → Fin q → K) (f : Fin q → K)
    (hb : ∀ i j, ∑ k, makeAlpha c i k * b k j = if i = j then 1 else 0) :
    (comboFit b c f).2 = chi2Of c f (comboFit b c f).1 ∧ ∀ w, (comboFit b c f).2 ≤ chi2Of c f w := by
  have e0 : (comboFit b c f).2 = chi2Of c f (comboFit b c f).1 := by
    rw [chi2Of_eq]
    simp only [comboFit, accum_eq, ← sq]
  refine ⟨e0, fun w => ?_⟩
  have hbeta : (comboFit b c f).1 = mulVec b (makeBeta c f) := by
    simp only [comboFit]
    congr 1
    funext k
    rw [makeBeta_eq, accum_eq]
    exact Finset.sum_congr rfl fun m _ => mul_comm _ _
  have hne : ∀ i, ∑ m, c i m * (f m - ∑ j, (comboFit b c f).1 j * c j m) = 0 := by
    intro i
    rw [hbeta]
    have e : ∑ m, c i m * ∑ j, mulVec b (makeBeta c f) j * c j m = ∑ j, makeAlpha c i j * mulVec b (makeBeta c f) j := by
      simp only [Finset.mul_sum, makeAlpha_eq, Finset.sum_mul]
      rw [Finset.sum_comm]
      exact Finset.sum_congr rfl fun j _ => Finset.sum_congr rfl fun m _ => by ring
    have e2 : ∑ j, makeAlpha c i j * mulVec b (makeBeta c f) j = makeBeta c f i := by
      simp only [mulVec_eq, Finset.mul_sum]
      rw [Finset.sum_comm]
      have : ∀ k, ∑ j, makeAlpha c i j * (b j k * makeBeta c f k) = (if i = k then 1 else 0) * makeBeta c f k := by
        intro k
        rw [← hb i k, Finset.sum_mul]
        exact Finset.sum_congr rfl fun j _ => by ring
      simp [this]
    simp only [mul_sub, Finset.sum_sub_distrib]
    rw [e, e2, makeBeta_eq, sub_self]
  rw [chi2_split c f _ w hne, ← e0]
  exact le_add_of_nonneg_right (Finset.sum_nonneg fun m _ => sq_nonneg _)

theorem combo_div (lib : Fin p → List (Fin q → K)) (err : Fin q → K) (il : List Nat) (k : Fin p) (m : Fin q) :
    combo (fun l => (lib l).map fun t m => t m / err m) il k m = combo lib il k m / err m := by
  unfold combo
  simp only [List.getD_eq_getElem?_getD, List.getElem?_map]
  cases (lib k)[il[(k : Nat)]?.getD 0]? <;> simp

theorem chi2Of_misfit (lib : Fin p → List (Fin q → K)) (flux err : Fin q → K) (il : List Nat) (v : Fin p → K) :
    chi2Of (combo (fun l => (lib l).map fun t m => t m / err m) il) (fun m => flux m / err m) v = misfit flux err (model lib il v) := by
  rw [chi2Of_eq]
  unfold misfit model
  refine Finset.sum_congr rfl fun m _ => ?_
  simp only [combo_div]
  rw [sub_div, Finset.sum_div]
  simp only [mul_div_assoc]

/-- **C112** (partial: every allowed combination must have linearly independent templates, so that LAPACK inverts its matrix; otherwise see
`C112_singular_refuted`). With LAPACK, the best fit of `multi_template_fit` is an allowed combination of one template of each library, with
amplitudes such that no allowed combination with any amplitudes has a smaller misfit; the fluxes are those of the templates multiplied by
the amplitudes. There is no best fit only when no combination is allowed. -/
theorem C112_multi_partial (sytri : (Nat → K) → Option (Nat → K)) (hs : IsSytri p sytri) (constr : List Nat → Bool)
    (flux err : Fin q → K) (lib : Fin p → List (Fin q → K)) (draws : List (Fin q → K)) (hp : 0 < p) (he : ∀ m, err m ≠ 0)
    (hinv : ∀ il, InRange (nseds lib) il → constr il = true →
      (sytri (raw (lowerAlpha (combo (fun l => (lib l).map fun t m => t m / err m) il)))).isSome = true) :
    ∃ r, multiFit (lapackInvertSymmetric sytri) constr flux err lib draws = .ok r ∧
      (r.best = none ↔ ∀ il, InRange (nseds lib) il → constr il = false) ∧
      ∀ c il v, r.best = some (c, il, v) → InRange (nseds lib) il ∧ constr il = true ∧ c = misfit flux err (model lib il v) ∧
        (∀ il' v', InRange (nseds lib) il' → constr il' = true → c ≤ misfit flux err (model lib il' v')) ∧
        ∀ l m, r.flux l m = some (v l * combo lib il l m) := by
  have hlen : (nseds lib).length = p := by simp [nseds]
  have hn : nseds lib ≠ [] := by
    intro h0; rw [h0] at hlen; simp at hlen; omega
  set conv : Fin p → List (Fin q → K) := fun l => (lib l).map fun t m => t m / err m with hconv
  by_cases hpos : ∀ d ∈ nseds lib, 0 < d
  · have h0 := inRange_zeros (nseds lib) hpos
    have hinv' : ∀ il, InRange (nseds lib) il → constr il = true →
        (lapackInvertSymmetric sytri (lowerAlpha (combo conv il))).isSome = true := by
      intro il h1 h2
      have := hinv il h1 h2
      unfold lapackInvertSymmetric
      rw [Option.isSome_map]; exact this
    have hloop := multiLoop_eq (lapackInvertSymmetric sytri) constr conv (nseds lib) hn hinv' (nseds lib).prod _ h0
      (((fun m => flux m / err m) :: draws.map fun g m => flux m / err m + g m).map fun f => (f, none))
    rw [hlen] at hloop
    have hbest := stepBest_spec (fitOf (lapackInvertSymmetric sytri) conv fun m => flux m / err m) constr
      (visit (nseds lib) (nseds lib).prod (List.replicate p 0)) [] none (by simp [IsBest])
    rw [List.nil_append] at hbest
    have hvis : ∀ x, x ∈ visit (nseds lib) (nseds lib).prod (List.replicate p 0) ↔ InRange (nseds lib) x := by
      intro x
      have := visit_all (nseds lib) hn hpos x
      rwa [hlen] at this
    unfold multiFit
    dsimp only
    rw [hloop]
    simp only [List.map_cons, Res.ok_bind]
    refine ⟨_, rfl, ?_, ?_⟩
    · simp only
      generalize List.foldl (stepBest (fitOf (lapackInvertSymmetric sytri) conv fun m => flux m / err m) constr) none
        (visit (nseds lib) (nseds lib).prod (List.replicate p 0)) = B at hbest
      match B, hbest with
      | none, hb => simp only [true_iff]; exact fun il hil => hb il ((hvis il).2 hil)
      | some (c, il, v), hb =>
        simp only [reduceCtorEq, false_iff]
        intro hno
        have := hno il ((hvis il).1 hb.1)
        rw [hb.2.1] at this; cases this
    · intro c il v hr
      simp only at hr
      rw [hr] at hbest
      obtain ⟨g1, g2, g3, g4, g5⟩ := hbest
      have spec : ∀ il, InRange (nseds lib) il → constr il = true →
          (fitOf (lapackInvertSymmetric sytri) conv (fun m => flux m / err m) il).2 =
            misfit flux err (model lib il (fitOf (lapackInvertSymmetric sytri) conv (fun m => flux m / err m) il).1) ∧
          ∀ w, (fitOf (lapackInvertSymmetric sytri) conv (fun m => flux m / err m) il).2 ≤ misfit flux err (model lib il w) := by
        intro il h1 h2
        obtain ⟨b, hb⟩ := Option.isSome_iff_exists.1 (hinv' il h1 h2)
        have := comboFit_spec (symmetrize b) (combo conv il) (fun m => flux m / err m) (sytri_lower sytri hs _ b hb)
        simp only [hconv, chi2Of_misfit] at this
        simpa only [fitOf, hb, Option.getD_some] using this
      have hil := (hvis il).1 g1
      refine ⟨hil, g2, ?_, fun il' v' h1 h2 => ?_, fun l m => ?_⟩
      · rw [g3, g4]; exact (spec il hil g2).1
      · exact (g5 il' ((hvis il').2 h1) h2).trans ((spec il' h1 h2).2 v')
      · simp only [multiFlux]
        rw [hr]
        simp only [Option.map_some, hconv, combo_div]
        rw [mul_assoc, div_mul_cancel₀ _ (he m)]
  · -- an empty library: there is no combination
    push Not at hpos
    obtain ⟨d, hd, hd0⟩ := hpos
    have hprod : (nseds lib).prod = 0 := by
      rw [List.prod_eq_zero_iff]
      rw [Nat.le_zero.1 hd0] at hd; exact hd
    have hno : ∀ il, ¬ InRange (nseds lib) il := by
      intro il hil
      have := rowMajor_lt _ _ hil
      omega
    unfold multiFit
    dsimp only
    rw [hprod]
    simp only [multiLoop, Res.ok_bind, List.map_cons]
    refine ⟨_, rfl, ?_, ?_⟩
    · simp only [true_iff]; exact fun il hil => absurd hil (hno il)
    · intro c il v h; cases h

/-- **C112** the sum of no template and a template equal to the data: the first combination is singular, and the loop never leaves it. The
fit fails although the second combination is perfect. -/
theorem C112_singular_refuted (sytri : (Nat → ℚ) → Option (Nat → ℚ)) (hs : IsSytri 1 sytri) :
    let lib : Fin 1 → List (Fin 1 → ℚ) := fun _ => [fun _ => 0, fun _ => 1]
    (∃ r, multiFit (lapackInvertSymmetric sytri) (fun _ => true) (fun _ => 1) (fun _ => 1) lib [] = .ok r ∧ r.best = none) ∧
      InRange (nseds lib) [1] ∧ misfit (fun _ => 1) (fun _ => 1) (model lib [1] fun _ => 1) = 0 := by
  intro lib
  have hsing : sytri (raw (lowerAlpha (combo (fun l => (lib l).map fun t m => t m / 1) [0]))) = none := by
    cases hr : sytri (raw (lowerAlpha (combo (fun l => (lib l).map fun t m => t m / 1) [0]))) with
    | none => rfl
    | some r =>
      obtain ⟨b, h1, -⟩ := hs _ _ hr
      have := h1 0 0
      rw [Fin.sum_univ_one, raw_colMajor] at this
      have e : lowerAlpha (combo (fun l => (lib l).map fun t (m : Fin 1) => t m / (1 : ℚ)) [0]) 0 0 = 0 := by decide +kernel
      rw [e] at this
      simp at this
  refine ⟨?_, .cons (by decide) .nil, by decide +kernel⟩
  have hstall : ∀ n s, multiLoop (lapackInvertSymmetric sytri) (fun _ => true) (fun l => (lib l).map fun t (m : Fin 1) => t m / (1 : ℚ))
      (nseds lib) n [0] s = .ok s := by
    intro n s
    induction n with
    | zero => rfl
    | succ n ih =>
      rw [multiLoop]
      simp only [if_true, lapackInvertSymmetric, hsing, Option.map_none]
      exact ih
  unfold multiFit
  dsimp only
  rw [show List.replicate 1 0 = [0] from rfl, hstall]
  exact ⟨_, rfl, rfl⟩

/-- **C112** with upper limits, a combination refused by the constraints stalls the loop in the same way: if the first combination is refused
no other one is tried -/
theorem C112_ulim_constraint_refuted (solver : (Fin p → Fin q → K) → (Fin p → K) × K) (constr : List Nat → Bool) (err : Fin q → K)
    (lib : Fin p → List (Fin q → K)) (h : constr (List.replicate p 0) = false) :
    ∃ r, multiUlim solver constr err lib = .ok r ∧ r.best = none := by
  have : ∀ n, ulimLoop solver constr lib (nseds lib) n (List.replicate p 0) none = .ok none := by
    intro n
    induction n with
    | zero => rfl
    | succ n ih => rw [ulimLoop, if_pos (by simp [h])]; exact ih
  unfold multiUlim
  rw [this]
  exact ⟨_, rfl, rfl⟩

/-- **C112** (partial: no constraint) with upper limits, the best fit is the combination for which the solver found the smallest value -/
theorem C112_ulim_partial (solver : (Fin p → Fin q → K) → (Fin p → K) × K) (err : Fin q → K) (lib : Fin p → List (Fin q → K)) (hp : 0 < p)
    (hpos : ∀ l, lib l ≠ []) :
    ∃ r c il v, multiUlim solver (fun _ => true) err lib = .ok r ∧ r.best = some (c, il, v) ∧ InRange (nseds lib) il ∧
      (v, c) = solver (combo lib il) ∧ ∀ il', InRange (nseds lib) il' → c ≤ (solver (combo lib il')).2 := by
  have hlen : (nseds lib).length = p := by simp [nseds]
  have hn : nseds lib ≠ [] := by
    intro h0; rw [h0] at hlen; simp at hlen; omega
  have hpos' : ∀ d ∈ nseds lib, 0 < d := by
    intro d hd
    rw [nseds, List.mem_ofFn] at hd
    obtain ⟨l, rfl⟩ := hd
    exact List.length_pos_iff.2 (hpos l)
  have hloop : ∀ n il b, InRange (nseds lib) il → ulimLoop solver (fun _ => true) lib (nseds lib) n il b =
      .ok ((visit (nseds lib) n il).foldl (stepBest (fun il => solver (combo lib il)) fun _ => true) b) := by
    intro n
    induction n with
    | zero => intro il b _; rfl
    | succ n ih =>
      intro il b h
      obtain ⟨il', h1, h2, -⟩ := C23_step (nseds lib) il hn h
      rw [ulimLoop, if_neg (by simp)]
      simp only [h1, Res.ok_bind, ih il' _ h2, visit, List.foldl_cons, stepBest, if_true]
  have h0 := inRange_zeros (nseds lib) hpos'
  have hb := stepBest_spec (fun il => solver (combo lib il)) (fun _ => true)
    (visit (nseds lib) (nseds lib).prod (List.replicate p 0)) [] none (by simp [IsBest])
  have hl := hloop (nseds lib).prod _ none h0
  have hvis := visit_all (nseds lib) hn hpos'
  rw [hlen] at hl hvis h0
  rw [List.nil_append] at hb
  unfold multiUlim
  dsimp only
  rw [hl]
  generalize List.foldl (stepBest (fun il => solver (combo lib il)) fun _ => true) none
        (visit (nseds lib) (nseds lib).prod (List.replicate p 0)) = B at hb
  match B, hb with
  | none, hb => have := hb _ ((hvis _).2 h0); cases this
  | some (c, il, v), hb =>
    obtain ⟨g1, -, g3, g4, g5⟩ := hb
    exact ⟨_, c, il, v, rfl, rfl, (hvis il).1 g1, by rw [g3, g4], fun il' h' => g5 il' ((hvis il').2 h') rfl⟩

/-- **C112** with upper limits, the fluxes returned are not those of the best fit but these fluxes multiplied by the errors -/
theorem C112_ulim_flux_refuted (solver : (Fin p → Fin q → K) → (Fin p → K) × K) (constr : List Nat → Bool) (err : Fin q → K)
    (lib : Fin p → List (Fin q → K)) (r : Multi p q K) (h : multiUlim solver constr err lib = .ok r) (c : K) (il : List Nat) (v : Fin p → K)
    (hr : r.best = some (c, il, v)) (l : Fin p) (m : Fin q) : r.flux l m = some (v l * combo lib il l m * |err m|) := by
  unfold multiUlim at h
  simp only [Res.bind_eq_ok] at h
  obtain ⟨b, -, hb⟩ := h
  cases hb
  simp only at hr
  simp only [multiFlux, hr, Option.map_some]
  split
  · rename_i hm; rw [abs_of_neg hm, mul_neg_one]
  · rename_i hm; rw [abs_of_nonneg (not_lt.1 hm)]

/-- the two templates and the data of `C112_no_lapack_refuted` -/
def exLib : Fin 2 → List (Fin 2 → ℚ) := fun l => if l = 0 then [![1, 0]] else [![1, 1]]

/-- **C112** without LAPACK the triangle of zeros is not ignored: the amplitudes `(-1/2, 1/2)` are returned where `(-1, 1)` is an exact solution -/
theorem C112_no_lapack_refuted :
    ((multiFit invert (fun _ => true) ![0, 1] (fun _ => 1) exLib []).map fun r => r.best.map fun b => (b.1, b.2.1, b.2.2 0, b.2.2 1)) =
      .ok (some (1 / 4, [0, 0], -1 / 2, 1 / 2)) ∧ misfit ![0, 1] (fun _ => 1) (model exLib [0, 0] ![-1, 1]) = 0 := by
  exact ⟨by decide +kernel, by decide +kernel⟩

/-- the same data with LAPACK, and with a second template in the first library -/
example : ((multiFit (lapackInvertSymmetric (sytriEx 2)) (fun _ => true) ![0, 1] (fun _ => 1) exLib []).map fun r =>
    r.best.map fun b => (b.1, b.2.1, b.2.2 0, b.2.2 1)) = .ok (some (0, [0, 0], -1, 1)) := by decide +kernel

end Verif.Tfit
