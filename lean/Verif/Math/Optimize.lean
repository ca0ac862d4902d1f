import Verif.Basic
/-!
# Minimisation of a function

Models `math/optimize.hpp:30-150` (`minimize_bfgs`). The GSL minimiser is a parameter: an arbitrary
state machine whose steps may throw (the function of the user is called through it, and the error
handler of GSL may be one that throws).
-/
namespace Verif.Optimize
open Verif
variable {S K : Type}

/-- `GSL_SUCCESS`, `GSL_CONTINUE`, `GSL_ENOPROG` (`gsl_errno.h`) -/
def success : Int := 0
def continue_ : Int := -2
def enoprog : Int := 27

/-- what `minimize_bfgs` uses of GSL; `none` is a thrown exception -/
structure Gsl (S K : Type) where
  /-- `gsl_vector_alloc` returns or throws -/
  allocX : Bool
  /-- `gsl_multimin_fdfminimizer_alloc` returns or throws -/
  allocM : Bool
  /-- `gsl_multimin_fdfminimizer_set(m, &mf, x, initial_step, ftol)` for this start -/
  set : List K → K → K → Option S
  /-- `gsl_multimin_fdfminimizer_iterate(m)` : status and new state -/
  iterate : S → Option (Int × S)
  /-- `gsl_multimin_test_gradient(m->gradient, ftol)` -/
  test : S → K → Option Int
  /-- `m->x`, `m->f` -/
  x : S → List K
  f : S → K

/-- `minimize_params` (`optimize.hpp:13-17`) -/
structure Params (K : Type) where
  initialStep : K
  ftol : K
  maxIter : Nat

/-- `minimize_result` (`optimize.hpp:19-24`); the value is `none` for NaN -/
structure Result (K : Type) where
  success : Bool
  params : List K
  value : Option K
  niter : Nat
deriving DecidableEq, Repr

/-- calls that take and give back memory -/
inductive Event
  | allocX | allocM | freeX | freeM
deriving DecidableEq, Repr

/-- outcome of the loop: the number of turns, and the success flag with the state of the minimiser,
or an exception -/
abbrev Loop (S : Type) := Nat × Option (Bool × S)

/-- the `do ... while` loop, `optimize.hpp:112-133`; `fuel` bounds the turns (`C171_loop` shows that
it is never used up) -/
def loop (G : Gsl S K) (o : Params K) : Nat → Nat → S → Res (Loop S)
  | 0, _, _ => .diverge
  | fuel + 1, niter, s =>
    let niter := niter + 1
    match G.iterate s with
    | none => .ok (niter, none)
    | some (status, s) =>
      if status ≠ 0 then .ok (niter, some (decide (status = enoprog), s))
      else match G.test s o.ftol with
        | none => .ok (niter, none)
        | some status =>
          if status = success then .ok (niter, some (true, s))
          else if status = continue_ ∧ niter < o.maxIter then loop G o fuel niter s
          else .ok (niter, some (false, s))

/-- the result when an exception is caught after `n` turns: parameters as `resize` made them,
value as initialised -/
def failed [Zero K] (start : List K) (n : Nat) : Result K :=
  ⟨false, List.replicate start.length 0, none, n⟩

/-- `minimize_bfgs(opts, start, func)`, `optimize.hpp:31-148`: the result and the trace of the
memory calls. -/
def minimize [Zero K] (G : Gsl S K) (o : Params K) (start : List K) : Res (Result K × List Event) :=
  if ¬ G.allocX then .ok (failed start 0, [])
  else if ¬ G.allocM then .ok (failed start 0, [.allocX, .freeX])
  else match G.set start o.initialStep o.ftol with
    | none => .ok (failed start 0, [.allocX, .allocM, .freeM, .freeX])
    | some s => do
      let r ← loop G o (o.maxIter + 1) 0 s
      match r.2 with
      | none => .ok (failed start r.1, [.allocX, .allocM, .freeM, .freeX])
      | some (suc, s) => do
        let p ← (List.range start.length).mapM fun i => Res.rd (G.x s) i
        .ok (⟨suc, p, some (G.f s), r.1⟩, [.allocX, .allocM, .freeM, .freeX])

/-- `mf.f` (`optimize.hpp:50-61`): the value asked by GSL, from what the function of the user
returns -/
def valueOf (func : List K → List K) (x : List K) : Res K := Res.rd (func x) 0

/-- `mf.df` (`optimize.hpp:63-76`) -/
def gradOf (func : List K → List K) (x : List K) : Res (List K) :=
  let r := func x
  (List.range x.length).mapM fun i => Res.rd r (i + 1)

/-- `mf.fdf` (`optimize.hpp:78-93`) -/
def bothOf (func : List K → List K) (x : List K) : Res (K × List K) := do
  let r := func x
  let f ← Res.rd r 0
  let g ← (List.range x.length).mapM fun i => Res.rd r (i + 1)
  .ok (f, g)

end Verif.Optimize
