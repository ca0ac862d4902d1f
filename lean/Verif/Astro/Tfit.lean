import Verif.Math.Lapack
import Verif.Math.Reduce
import Verif.Index.Model
/-!
# Template fitting (`astro/template_fit.hpp`)

`double` is an ordered field. `q` filters; the fluxes of the templates in the filters (`template_observed`) are an input: a library is the list
of its templates, each of them being a function of the filter. The simulated errors `randomn(seed, nflux)` are an input too. The sizes of the
flux, of the errors and of the list of filters are the same (otherwise the operators abort). No error is zero.
-/
namespace Verif.Tfit
open Verif Verif.Linfit Verif.Mat Verif.Index

variable {p q : Nat} {K : Type} [Field K] [LinearOrder K]

/-- a quotient of sums: `0/0` is NaN. In this file the numerator is zero when the denominator is (`den_zero` in `TfitProps`). -/
def quot (a b : K) : Option K := if b = 0 then none else some (a / b)

/-- `weight = invsqr(err)` (template_fit.hpp:279, math/base.hpp:125) -/
def weight (err : Fin q → K) (m : Fin q) : K := 1 / (err m * err m)

/-- `tmp1[i]/tmp2[i]` (template_fit.hpp:281-288; 316-320 for the simulations) -/
def amplitude (w flux t : Fin q → K) : Option K :=
  quot (accum fun m => w m * flux m * t m) (accum fun m => w m * t m * t m)

/-- `total(weight*sqr(flux - model))` (template_fit.hpp:293, 297) -/
def wsum (w flux model : Fin q → K) : K := accum fun m => w m * ((flux m - model m) * (flux m - model m))

/-- `chi2` of one template (template_fit.hpp:290-299, 322-331): with a NaN amplitude the sum is NaN unless it has no term -/
def chi2One (renorm : Bool) (w flux t : Fin q → K) : Option K :=
  if renorm then
    match amplitude w flux t with
    | some a => some (wsum w flux fun m => a * t m)
    | none => if q = 0 then some 0 else none
  else some (wsum w flux t)

/-- `template_fit_res_t` (template_fit.hpp:85-94); a simulation is `(sed_sim, amp_sim, amp_bfit_sim)` -/
structure Fit (q : Nat) (K : Type) where
  bfit : Nat
  chi2 : List (Option K)
  amp : List (Option K)
  flux : List (Fin q → Option K)
  sims : List (Nat × Option K × Option K)

/-- one simulation (template_fit.hpp:313-337) -/
def simulate (renorm : Bool) (flux err : Fin q → K) (lib : List (Fin q → K)) (bfit : Nat) (g : Fin q → K) :
    Res (Nat × Option K × Option K) := do
  let w := weight err
  let fsim : Fin q → K := fun m => flux m + g m * err m
  let amp := lib.map (amplitude w fsim)
  let ised ← Math.vmin (lib.map (chi2One renorm w fsim))
  let ab ← Res.rd amp bfit
  let ai ← Res.rd amp ised.1
  .ok (ised.1, ai, ab)

/-- `template_fit` without upper limits (template_fit.hpp:142-148, 277-343) -/
def templateFit (renorm : Bool) (flux err : Fin q → K) (lib : List (Fin q → K)) (draws : List (Fin q → K)) : Res (Fit q K) := do
  let w := weight err
  let amp := lib.map (amplitude w flux)
  let chi2 := lib.map (chi2One renorm w flux)
  let bfit ← Math.vmin chi2
  let sims ← draws.mapM (simulate renorm flux err lib bfit.1)
  .ok { bfit := bfit.1, chi2 := chi2, amp := amp, sims := sims,
        flux := List.zipWith (fun t a m => a.map fun a => t m * a) lib amp }

/-! ### With upper limits, templates not renormalised

`lim` is `limweight`, `solver` the amplitude found by `mpfit`. -/

/-- `chi2` of one template (template_fit.hpp:149-158, 216-219); `idm` and `idu` are the filters with positive and negative errors -/
def ulimChi2 (lim : K → K) (flux err t : Fin q → K) : K :=
  let e : Fin q → K := fun m => if err m < 0 then err m * (-1) else err m
  let dev : Fin q → K := fun m => flux m / e m - t m / e m
  (accum fun m => if 0 < err m then dev m * dev m else 0) + accum fun m => if err m < 0 then lim (dev m) else 0

/-- `template_fit` with `ulim` and without `renorm`: `chi2`, `bfit` (template_fit.hpp:211-223) -/
def ulimFit (lim : K → K) (flux err : Fin q → K) (lib : List (Fin q → K)) : Res (Nat × List K) := do
  let chi2 := lib.map (ulimChi2 lim flux err)
  let bfit ← Math.vmin (chi2.map some)
  .ok (bfit.1, chi2)

/-! ### Several libraries -/

/-- the templates of a combination: `convflux[k](ilib[k],_)` -/
def combo (conv : Fin p → List (Fin q → K)) (ilib : List Nat) : Fin p → Fin q → K := fun k => (conv k).getD (ilib.getD k 0) 0

/-- the matrix filled at template_fit.hpp:467-471: only `alpha(k2,k1)` with `k1 ≤ k2`, the others keep their initial zero -/
def lowerAlpha (c : Fin p → Fin q → K) : M p K := fun k2 k1 => if k1 ≤ k2 then accum fun m => c k1 m * c k2 m else 0

/-- the best fit so far: `none` for an infinite `chi2` -/
abbrev Best (p : Nat) (K : Type) := Option (K × List Nat × (Fin p → K))

/-- `if (chi2 < res.chi2) {...}` (template_fit.hpp:492-497) -/
def better (chi2 : K) (ilib : List Nat) (amp : Fin p → K) (b : Best p K) : Best p K :=
  match b with
  | none => some (chi2, ilib, amp)
  | some (c, _, _) => if chi2 < c then some (chi2, ilib, amp) else b

/-- the amplitudes and the `chi2` of one combination for one set of data (template_fit.hpp:479-491, 500-511) -/
def comboFit (a : M p K) (c : Fin p → Fin q → K) (flux : Fin q → K) : (Fin p → K) × K :=
  let beta : Fin p → K := fun k => accum fun m => flux m * c k m
  let amp := mulVec a beta
  (amp, accum fun m =>
    let d := flux m - accum fun k => amp k * c k m
    d * d)

/-- the loop on the combinations (template_fit.hpp:463-522): the first argument is the number of iterations left, the data are the flux and the
simulated fluxes, each with its best fit. `continue` skips `increment_index_list`. -/
def multiLoop (inv : M p K → Option (M p K)) (constr : List Nat → Bool) (conv : Fin p → List (Fin q → K)) (nsed : List Nat) :
    Nat → List Nat → List ((Fin q → K) × Best p K) → Res (List ((Fin q → K) × Best p K))
  | 0, _, s => .ok s
  | n + 1, ilib, s =>
    if constr ilib then
      match inv (lowerAlpha (combo conv ilib)) with
      | none => multiLoop inv constr conv nsed n ilib s
      | some a => do
        let a := symmetrize a
        let s := s.map fun d =>
          let f := comboFit a (combo conv ilib) d.1
          (d.1, better f.2 ilib f.1 d.2)
        let ilib ← incrementIndexList ilib nsed
        multiLoop inv constr conv nsed n ilib s
    else do
      let ilib ← incrementIndexList ilib nsed
      multiLoop inv constr conv nsed n ilib s

/-- `multi_template_fit_res_t`; `none` when no combination was fitted: `bfit` is then full of `npos` and `amp` and `flux` of NaN -/
structure Multi (p q : Nat) (K : Type) where
  best : Option (K × List Nat × (Fin p → K))
  flux : Fin p → Fin q → Option K
  sims : List (Best p K)

/-- template_fit.hpp:526-535 -/
def multiFlux (conv : Fin p → List (Fin q → K)) (err : Fin q → K) (b : Best p K) : Fin p → Fin q → Option K := fun l m =>
  b.map fun r => r.2.2 l * combo conv r.2.1 l m * err m

/-- number of templates in each library (template_fit.hpp:375-379) -/
def nseds (conv : Fin p → List (Fin q → K)) : List Nat := List.ofFn fun l => (conv l).length

/-- `multi_template_fit` without upper limits (template_fit.hpp:371-390, 443-538). The libraries are `conv` before the division by the errors. -/
def multiFit (inv : M p K → Option (M p K)) (constr : List Nat → Bool) (flux err : Fin q → K) (lib : Fin p → List (Fin q → K))
    (draws : List (Fin q → K)) : Res (Multi p q K) := do
  let nflux : Fin q → K := fun m => flux m / err m
  let rflux : List (Fin q → K) := draws.map fun g m => nflux m + g m
  let conv : Fin p → List (Fin q → K) := fun l => (lib l).map fun t m => t m / err m
  let s ← multiLoop inv constr conv (nseds lib) (nseds lib).prod (List.replicate p 0) ((nflux :: rflux).map fun f => (f, none))
  match s with
  | [] => .ub  -- not reached: the list keeps its length
  | (_, b) :: sims => .ok { best := b, flux := multiFlux conv err b, sims := sims.map (·.2) }

/-- the loop with upper limits (template_fit.hpp:402-442), for the data only; `solver` is `mpfit` -/
def ulimLoop (solver : (Fin p → Fin q → K) → (Fin p → K) × K) (constr : List Nat → Bool) (conv : Fin p → List (Fin q → K)) (nsed : List Nat) :
    Nat → List Nat → Best p K → Res (Best p K)
  | 0, _, b => .ok b
  | n + 1, ilib, b =>
    if ¬ constr ilib then ulimLoop solver constr conv nsed n ilib b
    else do
      let f := solver (combo conv ilib)
      let b := better f.2 ilib f.1 b
      let ilib ← incrementIndexList ilib nsed
      ulimLoop solver constr conv nsed n ilib b

/-- `multi_template_fit` with upper limits: the templates are not divided by the errors, but the best fit is multiplied by them
(template_fit.hpp:391-394, 526-530) -/
def multiUlim (solver : (Fin p → Fin q → K) → (Fin p → K) × K) (constr : List Nat → Bool) (err : Fin q → K) (lib : Fin p → List (Fin q → K)) :
    Res (Multi p q K) := do
  let e : Fin q → K := fun m => if err m < 0 then err m * (-1) else err m
  let b ← ulimLoop solver constr lib (nseds lib) (nseds lib).prod (List.replicate p 0) none
  .ok { best := b, flux := multiFlux lib e b, sims := [] }

end Verif.Tfit
