import Verif.Basic
import Mathlib.Algebra.Order.Field.Basic
import Mathlib.Algebra.Order.Group.Abs
/-!
# Model of the Levenberg-Marquardt fit `mpfit` (`math/mpfit.hpp:30-176, 524-869`)

Numbers are those of an ordered field (no rounding, no infinities). The function to minimize may give NaN (`none`). The linear algebra
(`mpfit_qrfac`, `mpfit_lmpar`, `mpfit_covar`) is a parameter here (`Alg`): the theorems on `mpfit` hold for whatever it computes. It is modelled in
`MpfitAlg`. The state remembers the points where the function has been evaluated, which is what the caller can observe.

A norm that is NaN or zero never reaches the divisions by `fnorm` when `gtol` is positive: a zero norm gives `gnorm = 0`, and when the norm is NaN
each row of the Jacobian contains a NaN, so that there is either an overflow or rows that are otherwise zero, with `gnorm = 0`. This case
is `diverge` in the model.
-/
namespace Verif.Mpfit
open Verif

variable {K : Type} [Field K] [LinearOrder K]

/-- the reasons of `mpfit_result` (`mpfit.hpp:33-39`) -/
inductive Reason
  | overflow | maxIter | gtol | ftol | xtol | ftolXtol
deriving DecidableEq, Repr

/-- `mpfit_options` (`mpfit.hpp:49-88`); `none` is NaN -/
structure Opts (K : Type) where
  nparam : Nat
  upper : List (Option K)
  lower : List (Option K)
  frozen : List Bool
  maxStep : List K
  deriv : List Int
  derivStep : List K
  derivRstep : List K
  maxIter : Nat
  gtol : K
  ftol : K
  xtol : K
  nocovar : Bool

/-- `mpfit_options(np)` (`mpfit.hpp:52-62`) -/
def Opts.default (np : Nat) : Opts K :=
  { nparam := np, upper := List.replicate np none, lower := List.replicate np none, frozen := List.replicate np false
    maxStep := List.replicate np 0, deriv := List.replicate np 0, derivStep := List.replicate np 0, derivRstep := List.replicate np 0
    maxIter := 200, gtol := 1 / 10 ^ 10, ftol := 1 / 10 ^ 10, xtol := 1 / 10 ^ 10, nocovar := false }

/-- the Jacobian in the form used by the fit: permutation, factor `R` (`r p i` is the line `i` of the column `p`), norms of the columns and
`Q^T f` -/
structure QR (K : Type) where
  ipiv : Nat → Nat
  r : Nat → Nat → K
  acnorm : Nat → K
  qtf : Nat → K

/-- the numerical part: the norm of a vector, the square root, the factorization of the Jacobian with `n` rows (`none`: not all elements
are finite), the step with the damping parameter (which overwrites part of `R`), and the covariance -/
structure Alg (K : Type) where
  eps : K
  sqrtEps : K
  sqrt : K → K
  norm : List K → K
  qr : Nat → List (List (Option K)) → List (Option K) → Option (QR K)
  lm : Nat → QR K → (Nat → K) → K → K → QR K × (Nat → K) × K
  covar : Nat → QR K → Nat → Nat → K

/-- `mpfit_enorm` (`mpfit.hpp:91-114`): `minmax` refuses an empty vector and ignores NaN -/
def enorm (A : Alg K) (v : List (Option K)) : Res (Option K) :=
  if v = [] then .abort
  else if ∀ a ∈ v, a = none then .ok none
  else if ∀ a ∈ v, a = none ∨ a = some 0 then .ok (some 0)
  else if none ∈ v then .ok none
  else .ok (some (A.norm (v.filterMap id)))

/-- the comparison of numbers that may be NaN -/
def ltO (a b : Option K) : Bool :=
  match a, b with
  | some a, some b => decide (a < b)
  | _, _ => false

/-- `total` -/
def totalO (l : List (Option K)) : Option K := l.foldl (fun s a => s.bind fun s => a.map fun a => s + a) (some 0)

/-- an operation on two numbers -/
def opO (f : K → K → K) (a b : Option K) : Option K := a.bind fun a => b.map fun b => f a b

/-- a parameter is fitted (`mpfit.hpp:539`) -/
def isFree (o : Opts K) (i : Nat) : Bool :=
  !(o.frozen.getD i false) && !(match o.upper.getD i none, o.lower.getD i none with | some a, some b => decide (a = b) | _, _ => false)

/-- `ifree` (`mpfit.hpp:539`) -/
def ifree (o : Opts K) : List Nat := (List.range o.nparam).filter fun i => isFree o i

/-- `v[ids] = x` -/
def scatter {T : Type} (v : List T) (ids : List Nat) (x : List T) : List T := (ids.zip x).foldl (fun v p => v.set p.1 p.2) v

/-- the step of the derivative (`mpfit.hpp:129-152`) -/
def derivH (A : Alg K) (o : Opts K) (ip : Nat) (x : K) : K :=
  let h := if o.derivRstep.getD ip 0 ≠ 0 then |o.derivRstep.getD ip 0 * x|
    else if o.derivStep.getD ip 0 ≠ 0 then o.derivStep.getD ip 0
    else A.sqrtEps * |x|
  let h := if h = 0 then A.sqrtEps else h
  if o.deriv.getD ip 0 = -1 ∨ (o.upper.getD ip none).any (fun u => decide (u - h < x)) = true then -h else h

/-- a row of the Jacobian (`mpfit.hpp:155-173`), with the points of evaluation, the last one first -/
def jacRow (A : Alg K) (o : Opts K) (dev : List K → List (Option K)) (xall : List K) (fvec : List (Option K)) (ip : Nat) (x : K) :
    Res (List (Option K) × List (List K)) := do
  let h := derivH A o ip x
  let xp := xall.set ip (xall.getD ip 0 + h)
  let fp := dev xp
  if o.deriv.getD ip 0 = -1 ∨ o.deriv.getD ip 0 = 1 ∨ o.deriv.getD ip 0 = 0 then
    Res.check (fp.length = fvec.length)
    .ok (List.zipWith (opO fun a b => (a - b) / h) fp fvec, [xp])
  else
    let xm := xp.set ip (xall.getD ip 0 - h)
    let fm := dev xm
    Res.check (fp.length = fm.length)
    Res.check (fp.length = fvec.length)
    .ok (List.zipWith (opO fun a b => (a - b) / (2 * h)) fp fm, [xm, xp])

/-- the derivatives of limited parameters that are set to zero (`mpfit.hpp:577-584`) -/
def zeroRow (o : Opts K) (fvec : List (Option K)) (ip : Nat) (row : List (Option K)) : List (Option K) :=
  let row := if (o.lower.getD ip none).isSome ∧ ltO (some 0) (totalO (List.zipWith (opO (· * ·)) fvec row)) then row.map fun _ => some 0 else row
  if (o.upper.getD ip none).isSome ∧ ltO (totalO (List.zipWith (opO (· * ·)) fvec row)) (some 0) then row.map fun _ => some 0 else row

/-- the state of the fit -/
structure St (K : Type) where
  xall : List K
  x : List K
  fvec : List (Option K)
  fnorm : Option K
  fnorm1 : Option K
  iter : Nat
  delta : K
  par : K
  xnorm : K
  diag : Nat → K
  q : QR K
  gnorm : K
  ratio : K
  evals : List (List K)

/-- the products `d*x` -/
def scaled (d : Nat → K) (x : List K) : List K := x.zipIdx.map fun (a, p) => d p * a

/-- `mpfit_enorm` of finite numbers -/
def normK (A : Alg K) (v : List K) : Res K := do
  match ← enorm A (v.map some) with
  | some a => .ok a
  | none => .diverge

/-- the Jacobian (`mpfit.hpp:574-584`) -/
def jacobian (A : Alg K) (o : Opts K) (dev : List K → List (Option K)) (s : St K) : Res (List (List (Option K)) × List (List K)) :=
  ((ifree o).zip s.x).foldlM (fun (acc : List (List (Option K)) × List (List K)) p => do
    let r ← jacRow A o dev s.xall s.fvec p.1 p.2
    .ok (acc.1 ++ [zeroRow o s.fvec p.1 r.1], r.2 ++ acc.2)) ([], s.evals)

/-- the norm of the gradient (`mpfit.hpp:634-642`) -/
def gradNorm (n : Nat) (q : QR K) (fnorm : Option K) : K :=
  if fnorm = some 0 then 0
  else (List.range n).foldl (fun g p =>
    if q.acnorm (q.ipiv p) ≠ 0 then max g |((List.range (p + 1)).map fun i => q.r p i * q.qtf i).sum / q.acnorm (q.ipiv p)| else g) 0

/-- the first iteration (`mpfit.hpp:591-601`) -/
def firstScale (A : Alg K) (s : St K) (q : QR K) : Res (St K) :=
  if s.iter = 1 then do
    let diag := fun p => if q.acnorm p = 0 then 1 else q.acnorm p
    let xnorm ← normK A (scaled diag s.x)
    let delta := 100 * xnorm
    .ok { s with diag := diag, xnorm := xnorm, delta := if delta = 0 then 100 else delta }
  else .ok s

/-- the beginning of an iteration (`mpfit.hpp:574-652`): the reason to stop, if any -/
def top (A : Alg K) (o : Opts K) (dev : List K → List (Option K)) (s : St K) : Res (St K × Option (Bool × Reason)) := do
  let n := (ifree o).length
  let (jac, evals) ← jacobian A o dev s
  Res.check (0 < n ∧ n ≤ s.fvec.length)
  let s := { s with evals := evals }
  match A.qr n jac s.fvec with
  | none => .ok (s, some (false, .overflow))
  | some q =>
    let s ← firstScale A s q
    let g := gradNorm n q s.fnorm
    let s := { s with q := q, gnorm := g, ratio := 0 }
    if g < o.gtol then .ok (s, some (true, .gtol))
    else .ok ({ s with diag := fun p => max (s.diag p) (q.acnorm p) }, none)

/-- a step with the directions that are allowed (`mpfit.hpp:673-674`) -/
def clipStep (o : Opts K) (ip : Nat) (w : K) : K :=
  let w := if (o.lower.getD ip none).isSome then max w 0 else w
  if (o.upper.getD ip none).isSome then min w 0 else w

/-- the fraction of the step before a limit is reached (`mpfit.hpp:676-687`), for one parameter; `none` when it is not reached -/
def limFrac (A : Alg K) (ip : Nat) (o : Opts K) (x w : K) : List K :=
  let l := match o.lower.getD ip none with
    | some l => if A.eps < |w| ∧ x + w < l then [(l - x) / w] else []
    | none => []
  let u := match o.upper.getD ip none with
    | some u => if A.eps < |w| ∧ u < x + w then [(u - x) / w] else []
    | none => []
  l ++ u

/-- `ulim1` (`mpfit.hpp:706`) -/
def upEdge (A : Alg K) (u : K) : K := u * (1 - (if 0 ≤ u then 1 else -1) * A.eps) - (if u = 0 then A.eps else 0)

/-- `llim1` (`mpfit.hpp:707`) -/
def lowEdge (A : Alg K) (l : K) : K := l * (1 + (if 0 ≤ l then 1 else -1) * A.eps) + (if l = 0 then A.eps else 0)

/-- a parameter put on its upper limit (`mpfit.hpp:709-710`) -/
def pegUp (A : Alg K) (y : K) : Option K → K
  | some u => if upEdge A u ≤ y then u else y
  | none => y

/-- a parameter put on its lower limit (`mpfit.hpp:711-712`) -/
def pegLow (A : Alg K) (y : K) : Option K → K
  | some l => if y ≤ lowEdge A l then l else y
  | none => y

/-- a parameter put on its limits (`mpfit.hpp:706-712`) -/
def peg (A : Alg K) (o : Opts K) (ip : Nat) (y : K) : K := pegLow A (pegUp A y (o.upper.getD ip none)) (o.lower.getD ip none)

/-- some fitted parameter has a limit (`mpfit.hpp:545`) -/
def anyLim (o : Opts K) : Bool := (ifree o).any fun ip => (o.lower.getD ip none).isSome || (o.upper.getD ip none).isSome

/-- some fitted parameter has a largest step (`mpfit.hpp:548-549`) -/
def anyMima (o : Opts K) : Bool := (ifree o).any fun ip => decide (o.maxStep.getD ip 0 ≠ 0)

/-- the fraction of the step before the limits (`mpfit.hpp:676-687`) -/
def limAlpha (A : Alg K) (o : Opts K) (x w : List K) : K :=
  ((((ifree o).zip x).zip w).flatMap fun p => limFrac A p.1.1 o p.1.2 p.2).foldl min 1

/-- the fraction of the step for the largest steps (`mpfit.hpp:690-696`) -/
def mimaAlpha (o : Opts K) (w : List K) (alpha : K) : K :=
  let m := ((((ifree o).zip w).filter fun p => decide (o.maxStep.getD p.1 0 ≠ 0)).map fun p => |p.2 * alpha| / |o.maxStep.getD p.1 0|).foldl max 0
  if 1 < m then alpha / m else alpha

/-- the step, the fraction that is taken of it, and the new parameters (`mpfit.hpp:662-714`) -/
def move (A : Alg K) (o : Opts K) (x : List K) (step : Nat → K) : List K × K × List K :=
  let w := (List.range x.length).map fun p => -(step p)
  if anyLim o = false ∧ anyMima o = false then (w, 1, List.zipWith (· + ·) x w)
  else
    let w := if anyLim o then List.zipWith (clipStep o) (ifree o) w else w
    let alpha := if anyLim o then limAlpha A o x w else 1
    let alpha := if anyMima o then mimaAlpha o w alpha else alpha
    let w := w.map (· * alpha)
    let y := List.zipWith (· + ·) x w
    (w, alpha, if anyLim o then List.zipWith (peg A o) (ifree o) y else y)

/-- what to do after a trial -/
inductive Next
  | inner | outer | stop (success : Bool) (reason : Reason)
deriving DecidableEq

/-- the tests of convergence (`mpfit.hpp:788-831`); `actred` and `prered` are the actual and predicted reductions -/
def converge (A : Alg K) (o : Opts K) (s : St K) (actred prered : K) (success : Bool) : Next :=
  let ftol := |actred| ≤ o.ftol ∧ prered ≤ o.ftol ∧ s.ratio / 2 ≤ 1
  let xtol := s.delta ≤ o.xtol * s.xnorm
  if ftol ∨ xtol then .stop true (if ftol ∧ xtol then .ftolXtol else if ftol then .ftol else .xtol)
  else if o.maxIter ≤ s.iter then .stop false .maxIter
  else if |actred| ≤ A.eps ∧ prered ≤ A.eps ∧ s.ratio / 2 ≤ 1 then .stop false .ftol
  else if s.delta ≤ A.eps * s.xnorm then .stop false .xtol
  else if s.gnorm ≤ A.eps then .stop false .gtol
  else if success then .outer
  else .inner

/-- the new bound on the steps and damping parameter (`mpfit.hpp:758-773`) -/
def newBound (s : St K) (fnorm : K) (actred dirder pnorm : K) : K × K :=
  if s.ratio ≤ 1 / 4 then
    let temp := if actred < 0 then 1 / 2 * dirder / (dirder + 1 / 2 * actred) else 1 / 2
    let temp := if s.fnorm1.any (fun f1 => decide (fnorm ≤ 1 / 10 * f1)) = true ∨ temp < 1 / 10 then 1 / 10 else temp
    (temp * min s.delta (pnorm * 10), s.par / temp)
  else if s.par = 0 ∨ 3 / 4 ≤ s.ratio then (pnorm * 2, 1 / 2 * s.par)
  else (s.delta, s.par)

/-- the actual reduction (`mpfit.hpp:731-734`) -/
def actualRed (fnorm : K) : Option K → K
  | some f1 => if 1 / 10 * f1 < fnorm then 1 - (f1 / fnorm) ^ 2 else -1
  | none => -1

/-- the predicted direction in the space of deviates (`mpfit.hpp:738-741`) -/
def predicted (n : Nat) (q : QR K) (w : List K) : List K :=
  (List.range n).foldl (fun wa j => ((List.range n).map fun i =>
    (if i = j then 0 else wa.getD i 0) + (if i ≤ j then q.r j i * w.getD (q.ipiv j) 0 else 0))) (List.replicate n 0)

/-- the decision on a trial (`mpfit.hpp:752-831`): `s` has the trial point in `xall`, `y` are its fitted parameters and `wa4` its deviates -/
def judge (A : Alg K) (o : Opts K) (s : St K) (y : List K) (wa4 : List (Option K)) (fnorm actred prered dirder pnorm : K) : Res (St K × Next) :=
  let ratio := if prered ≠ 0 then actred / prered else s.ratio
  let db := newBound { s with ratio := ratio } fnorm actred dirder pnorm
  if 1 / 10000 ≤ ratio then do
    let xnorm ← normK A (scaled s.diag y)
    let s := { s with ratio := ratio, delta := db.1, par := db.2, x := y, fvec := wa4, xnorm := xnorm, fnorm := s.fnorm1, iter := s.iter + 1 }
    .ok (s, converge A o s actred prered true)
  else
    let s := { s with ratio := ratio, delta := db.1, par := db.2 }
    .ok (s, converge A o s actred prered false)

/-- a trial for the step `l.2.1` and the damping parameter `l.2.2` (`mpfit.hpp:661-831`) -/
def trialAt (A : Alg K) (o : Opts K) (dev : List K → List (Option K)) (s : St K) (fnorm : K) (l : QR K × (Nat → K) × K) : Res (St K × Next) := do
  let mv := move A o s.x l.2.1
  let pnorm ← normK A (scaled s.diag mv.1)
  let xall := scatter s.xall (ifree o) mv.2.2
  let fnorm1 ← enorm A (dev xall)
  let wn ← normK A ((predicted (ifree o).length l.1 mv.1).map (mv.2.1 * ·))
  let temp1 := wn / fnorm
  let temp2 := A.sqrt (mv.2.1 * l.2.2) * pnorm / fnorm
  judge A o { s with q := l.1, par := l.2.2, delta := if s.iter = 1 then min s.delta pnorm else s.delta, xall := xall, fnorm1 := fnorm1
                     evals := xall :: s.evals } mv.2.2 (dev xall) fnorm (actualRed fnorm fnorm1) (temp1 ^ 2 + temp2 ^ 2 / (1 / 2))
    (-(temp1 ^ 2 + temp2 ^ 2)) pnorm

/-- one trial (`mpfit.hpp:659-831`) -/
def trial (A : Alg K) (o : Opts K) (dev : List K → List (Option K)) (s : St K) : Res (St K × Next) :=
  match s.fnorm with
  | none => .diverge
  | some fnorm => if fnorm = 0 then .diverge else trialAt A o dev s fnorm (A.lm (ifree o).length s.q s.diag s.delta s.par)

/-- the two loops (`mpfit.hpp:573-843`), for at most `fuel` trials -/
def loop (A : Alg K) (o : Opts K) (dev : List K → List (Option K)) : Nat → Bool → St K → Res (St K × Bool × Reason)
  | 0, _, _ => .diverge
  | fuel + 1, new, s =>
    (if new = true then top A o dev s else .ok (s, none)) >>= fun t =>
    match t.2 with
    | some (b, r) => .ok (t.1, b, r)
    | none =>
      trial A o dev t.1 >>= fun t =>
      match t.2 with
      | .stop b r => .ok (t.1, b, r)
      | .outer => loop A o dev fuel true t.1
      | .inner => loop A o dev fuel false t.1

/-- `mpfit_result` (`mpfit.hpp:30-47`), with all the points of evaluation -/
structure Result (K : Type) where
  success : Bool
  reason : Reason
  chi2 : Option K
  dof : Nat
  iter : Nat
  params : List K
  errors : List K
  covar : List (List K)
  evals : List (List K)

/-- the options that are used (`mpfit.hpp:530-536`) -/
def useOpts (o : Opts K) (np : Nat) : Res (Opts K) :=
  if o.nparam = 0 then .ok (Opts.default np) else do
    Res.check (o.nparam = np)
    .ok o

/-- the state at the beginning (`mpfit.hpp:554-570`); the values of `delta`, `xnorm`, `diag` and of the matrix are not used before they are set -/
def start (A : Alg K) (o : Opts K) (dev : List K → List (Option K)) (xall : List K) : Res (St K) := do
  let x := (ifree o).map fun i => xall.getD i 0
  let fvec := dev xall
  let fnorm ← enorm A fvec
  .ok { xall := xall, x := x, fvec := fvec, fnorm := fnorm, fnorm1 := fnorm, iter := 1, delta := 0, par := 0, xnorm := 0, diag := fun _ => 0
        q := ⟨fun _ => 0, fun _ _ => 0, fun _ => 0, fun _ => 0⟩, gnorm := 0, ratio := 0, evals := [xall] }

/-- the covariance of all parameters (`mpfit.hpp:859-860`) -/
def fullCovar (A : Alg K) (o : Opts K) (np : Nat) (q : QR K) : List (List K) :=
  let n := (ifree o).length
  (List.range np).map fun i => (List.range np).map fun j =>
    match (ifree o).idxOf? i, (ifree o).idxOf? j with
    | some a, some b => A.covar n q a b
    | _, _ => 0

/-- `std::max` -/
def maxO (a b : Option K) : Option K := if ltO a b then b else a

/-- `mpfit` (`mpfit.hpp:524-869`); `fuel` bounds the number of trials -/
def mpfit (A : Alg K) (fuel : Nat) (dev : List K → List (Option K)) (xall : List K) (o : Opts K) : Res (Result K) := do
  let o ← useOpts o xall.length
  let s ← start A o dev xall
  let npt := s.fvec.length
  let (s, success, reason) ← loop A o dev fuel true s
  let xall := scatter s.xall (ifree o) s.x
  let fnorm ← enorm A (dev xall)
  let cov := if o.nocovar then [] else fullCovar A o xall.length s.q
  let err := if o.nocovar then [] else (List.range xall.length).map fun i =>
    let v := (cov.getD i []).getD i 0
    if 0 ≤ v then A.sqrt v else v
  .ok { success := success, reason := reason, chi2 := (maxO fnorm s.fnorm1).map fun a => a ^ 2, dof := npt - (ifree o).length, iter := s.iter
        params := xall, errors := err, covar := cov, evals := xall :: s.evals }

end Verif.Mpfit
