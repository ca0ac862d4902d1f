import Verif.Math.LU
/-!
# Linear fits (`math/linfit.hpp`, without LAPACK)

Same conventions as `Verif.Math.LU`: `double` is an ordered field. `p` templates, `q` data points; the data are already flattened, which is
what `flatten(t/ye)` and `x.safe[i*x.pitch(0) + j]` do for data of more than one dimension.
-/
namespace Verif.Linfit
open Verif Verif.Mat

variable {p q : Nat} {K : Type} [Field K] [LinearOrder K]

/-- `for (uint_t m : range(nm)) s += f(m);` from zero -/
def accum (f : Fin q → K) : K := (List.finRange q).foldl (fun s m => s + f m) 0

/-- the matrix of `linfit_make_alpha_beta_` (`linfit.hpp:57-69`) and `update_matrix_` (`linfit.hpp:301-313`) -/
def makeAlpha (c : Fin p → Fin q → K) : M p K :=
  (List.finRange p).foldl (fun a i => (List.finRange p).foldl (fun a j =>
    if i ≤ j then upd a i j (accum fun m => c i m * c j m) else upd a i j (a j i)) a) fun _ _ => 0

/-- the vector of `linfit_make_alpha_beta_` (`linfit.hpp:71-75`) -/
def makeBeta (c : Fin p → Fin q → K) (ny : Fin q → K) : Fin p → K := fun i => accum fun m => c i m * ny m

/-- `inplace_symmetrize` (`matrix-functions.hpp:105-113`) -/
def symmetrize (a : M p K) : M p K :=
  (List.finRange p).foldl (fun a i => (above i).foldl (fun a j => upd a i j (a j i)) a) a

/-- the product of a matrix and a vector (`matrix-types.hpp:500-516`) -/
def mulVec (a : M p K) (b : Fin p → K) : Fin p → K := fun i => accum fun j => a i j * b j

/-- `model - ny`, squared and summed (`linfit.hpp:104-112`, `linfit.hpp:433-444`) -/
def chi2Of (c : Fin p → Fin q → K) (ny : Fin q → K) (params : Fin p → K) : K :=
  accum fun m =>
    let d := (accum fun i => params i * c i m) - ny m
    d * d

/-- `linfit_result`, when successful -/
structure Result (p : Nat) (K : Type) where
  chi2 : K
  params : Fin p → K
  errors : Fin p → K
  cov : M p K

/-- `linfit_do_` (`linfit.hpp:80-115`): `none` is `success = false` -/
def fitDo (sq : K → K) (ny : Fin q → K) (c : Fin p → Fin q → K) : Option (Result p K) :=
  (invert (makeAlpha c)).map fun a =>
    let a := symmetrize a
    let params := mulVec a (makeBeta c ny)
    { chi2 := chi2Of c ny params, params := params, errors := fun i => sq (a i i), cov := a }

/-- `linfit` and `linfit_pack` (`linfit.hpp:186-232`) on data of the right dimensions -/
def linfit (sq : K → K) (y ye : Fin q → K) (x : Fin p → Fin q → K) : Option (Result p K) :=
  fitDo sq (fun m => y m / ye m) fun i m => x i m / ye m

/-! ### `linfit_batch_t` -/

/-- `linfit_batch_t` (`linfit.hpp:286-296`); `cov` is `none` when `fr.success` is false -/
structure Batch (p q : Nat) (K : Type) where
  ye : Fin q → K
  cache : Fin p → Fin q → K
  alpha : M p K
  cov : Option (M p K)

/-- `invert_matrix_` (`linfit.hpp:328-343`) -/
def Batch.invertMatrix (b : Batch p q K) : Batch p q K := { b with cov := (invert b.alpha).map symmetrize }

/-- the constructors (`linfit.hpp:362-389`) -/
def Batch.make (ye : Fin q → K) (x : Fin p → Fin q → K) : Batch p q K :=
  let c : Fin p → Fin q → K := fun i m => x i m / ye m
  Batch.invertMatrix ⟨ye, c, makeAlpha c, none⟩

/-- `update_matrix_(i)` (`linfit.hpp:316-327`) -/
def updateMatrix (c : Fin p → Fin q → K) (a : M p K) (i : Fin p) : M p K :=
  (List.finRange p).foldl (fun a j =>
    let a := upd a i j (accum fun m => c i m * c j m)
    upd a j i (a i j)) a

/-- `update_model_` (`linfit.hpp:345-358`) for an index in range -/
def Batch.updateModel_ (b : Batch p q K) (i : Fin p) (x : Fin q → K) : Batch p q K :=
  let c : Fin p → Fin q → K := fun r m => if r = i then x m / b.ye m else b.cache r m
  { b with cache := c, alpha := updateMatrix c b.alpha i }

/-- `update_models` (`linfit.hpp:397-405`); `update_model` is the case of one model -/
def Batch.updateModels (b : Batch p q K) (l : List (Fin p × (Fin q → K))) : Batch p q K :=
  (l.foldl (fun b ix => b.updateModel_ ix.1 ix.2) b).invertMatrix

/-- `fit` (`linfit.hpp:402-445`): the parameters and the chi-square; `none` when `fr.success` is false (`params` is then full of NaN) -/
def Batch.fit (b : Batch p q K) (y : Fin q → K) : Option ((Fin p → K) × K) :=
  b.cov.map fun cov =>
    let ny : Fin q → K := fun m => y m / b.ye m
    let params := mulVec cov (makeBeta b.cache ny)
    (params, chi2Of b.cache ny params)

/-! ### Non-negative fits

A division by zero makes the parameter infinite or NaN (`v*(b/0)`); this outcome is `none`. -/

/-- one update of the loop on `m0` (`linfit.hpp:143-155`) -/
def nnUpdate (a : M p K) (b : Fin p → K) (v : Fin p → K) (m0 : Fin p) : Option (Fin p → K) :=
  let av := accum fun m1 => a m0 m1 * v m1
  if av = 0 then none else some (vset v m0 (v m0 * (b m0 / av)))

/-- one iteration of the `do ... while` loop (`linfit.hpp:141-158`): the new parameters and the pair `(ta, tb)` -/
def nnSweep (a : M p K) (b : Fin p → K) (v : Fin p → K) : Option ((Fin p → K) × K × K) :=
  (List.finRange p).foldl (fun (s : Option ((Fin p → K) × K × K)) m0 => s.bind fun s =>
    (nnUpdate a b s.1 m0).map fun v' => (v', s.2.1 + |v' m0 - s.1 m0|, s.2.2 + s.1 m0)) (some (v, 0, 0))

/-- the loop itself (`linfit.hpp:136-159`); the number is that of the iterations left, and `tol` the tolerance. `ta/tb` with `tb = 0` is
`none` unless there is no parameter (it is NaN when `ta = 0`, and the loop stops; the sweep fails before that when `p > 0`, see
`nnSweep_zero`). -/
def nnLoop (tol : K) (a : M p K) (b : Fin p → K) : Nat → (Fin p → K) → Nat → Option ((Fin p → K) × Nat)
  | 0, v, titer => some (v, titer)
  | fuel + 1, v, titer =>
    (nnSweep a b v).bind fun s =>
    if tol < s.2.1 / s.2.2 then nnLoop tol a b fuel s.1 (titer + 1) else some (s.1, titer + 1)

/-- `linfit_nn_result` -/
structure NNResult (p : Nat) (K : Type) where
  success : Bool
  chi2 : K
  params : Fin p → K

/-- `linfit_do_nn_` (`linfit.hpp:117-176`) with at most `titermax` iterations -/
def fitNN (titermax : Nat) (tol : K) (ny : Fin q → K) (c : Fin p → Fin q → K) : Option (NNResult p K) :=
  let a := makeAlpha c
  let b := makeBeta c ny
  let success := false  -- the value in a fresh result
  let v0 : Fin p → K := fun m => if 0 < b m then 1 else 0
  (nnLoop tol a b titermax v0 0).map fun r =>
    let success := if r.2 = titermax then false else success
    { success := success, chi2 := chi2Of c ny r.1, params := r.1 }

/-- `linfit_nn` and `linfit_nn_pack` (`linfit.hpp:234-284`) on data of the right dimensions -/
def linfitNN (y ye : Fin q → K) (x : Fin p → Fin q → K) : Option (NNResult p K) :=
  fitNN 10000 (1 / 10000) (fun m => y m / ye m) fun i m => x i m / ye m

end Verif.Linfit
