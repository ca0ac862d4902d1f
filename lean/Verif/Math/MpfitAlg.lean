import Verif.Math.Mpfit
import Mathlib.Algebra.BigOperators.Group.Finset.Basic
import Mathlib.Algebra.BigOperators.Intervals
/-!
# Model of the linear algebra of `mpfit` (`math/mpfit.hpp:90-114, 178-522, 586-618`)

The matrices are functions of two indices, of which the first `n` and `m` values count: `a p c` is the derivative of the deviate `c` with respect to
the fitted parameter `p`. As in the code, the matrix is transposed when compared with the books: `r p i` for `i ≤ p` is the element `(i, p)` of the upper
triangular factor. `sq` is the square root.
-/
namespace Verif.Mpfit
open Verif

variable {K : Type} [Field K] [LinearOrder K]

/-- the numbers of the machine that are used -/
structure Num (K : Type) where
  sq : K → K
  eps : K
  sqrtEps : K
  dwarf : K
  giant : K

/-- `mpfit_enorm` of finite numbers (`mpfit.hpp:91-114`) -/
def vnorm (N : Num K) : List K → K
  | [] => 0
  | a :: l =>
    let mx := max |l.foldl min a| |l.foldl max a|
    let size : K := ((l.length + 1 : Nat) : K)
    if mx = 0 then 0
    else if N.giant / size < mx ∨ mx < N.dwarf * size then mx * N.sq (((a :: l).map fun x => (x / mx) ^ 2).sum)
    else N.sq (((a :: l).map fun x => x ^ 2).sum)

/-- `v[i-_]` -/
def tail (v : Nat → K) (i m : Nat) : List K := (List.range' i (m - i)).map v

/-- the state of `mpfit_qrfac` -/
structure QF (K : Type) where
  a : Nat → Nat → K
  ipiv : Nat → Nat
  rdiag : Nat → K
  wa : Nat → K

/-- the position of the first largest element of `v[i-_]` (`mpfit.hpp:197-198`, `reduce.hpp:280-289`) -/
def argmax (v : Nat → K) (i n : Nat) : Nat := (List.range' i (n - i)).foldl (fun b k => if v b < v k then k else b) i

/-- the exchange of rows (`mpfit.hpp:196-206`) -/
def pivot (n i : Nat) (s : QF K) : QF K :=
  let k := argmax s.rdiag i n
  if k = i then s
  else { s with ipiv := fun p => if p = i then s.ipiv k else if p = k then s.ipiv i else s.ipiv p
                rdiag := fun p => if p = k then s.rdiag i else s.rdiag p
                wa := fun p => if p = k then s.wa i else s.wa p }

/-- `a(l,i-_) = v` -/
def setTail (a : Nat → Nat → K) (l i : Nat) (v : Nat → K) : Nat → Nat → K := fun r c => if r = l ∧ i ≤ c then v c else a r c

/-- the scalar product of `v[i-_]` and `w[i-_]` -/
def dot (i m : Nat) (v w : Nat → K) : K := ∑ c ∈ Finset.Ico i m, v c * w c

/-- the reflection of a row: `w - v*total(w*v)/v[0]` (`mpfit.hpp:225, 609`) -/
def reflect (i m : Nat) (v w : Nat → K) : Nat → K := fun c => w c - v c * dot i m w v / v i

/-- the norm that remains in a row (`mpfit.hpp:227-238`) -/
def downdate (N : Num K) (m i : Nat) (row : Nat → K) (rk wk : K) : K × K :=
  if rk ≠ 0 then
    let t := 1 - (row i / rk) ^ 2
    let t := if t < 0 then 0 else t
    let rk := rk * N.sq t
    if 1 / 20 * (rk / wk) ^ 2 ≤ N.eps then (vnorm N (tail row (i + 1) m), vnorm N (tail row (i + 1) m)) else (rk, wk)
  else (rk, wk)

/-- one row (`mpfit.hpp:221-238`): `v` is the vector of the reflection -/
def rowStep (N : Num K) (m i : Nat) (v : Nat → K) (s : QF K) (k : Nat) : QF K :=
  let l := s.ipiv k
  let a := if v i ≠ 0 then setTail s.a l i (reflect i m v (s.a l)) else s.a
  let d := downdate N m i (a l) (s.rdiag k) (s.wa k)
  { s with a := a, rdiag := fun p => if p = k then d.1 else s.rdiag p, wa := fun p => if p = k then d.2 else s.wa p }

/-- the signed norm of the row (`mpfit.hpp:209-213`) -/
def ajnorm (N : Num K) (m i : Nat) (row : Nat → K) : K := if row i < 0 then -vnorm N (tail row i m) else vnorm N (tail row i m)

/-- the vector of the reflection (`mpfit.hpp:215-217`) -/
def hvec (aj : K) (i : Nat) (row : Nat → K) : Nat → K := fun c => row c / aj + if c = i then 1 else 0

/-- the reflection for the row `i`, after the exchange (`mpfit.hpp:208-243`) -/
def qrReflect (N : Num K) (n m i : Nat) (s : QF K) : QF K :=
  let l := s.ipiv i
  let aj := ajnorm N m i (s.a l)
  let t := if aj ≠ 0 then
      (List.range' (i + 1) (n - (i + 1))).foldl (rowStep N m i (hvec aj i (s.a l))) { s with a := setTail s.a l i (hvec aj i (s.a l)) }
    else s
  { t with rdiag := fun p => if p = i then -aj else t.rdiag p }

/-- a step of the factorization (`mpfit.hpp:195-244`) -/
def qrStep (N : Num K) (n m : Nat) (s : QF K) (i : Nat) : QF K := qrReflect N n m i (pivot n i s)

/-- `mpfit_qrfac` (`mpfit.hpp:179-245`), without `acnorm` -/
def qrfac (N : Num K) (n m : Nat) (a : Nat → Nat → K) : QF K :=
  let d := fun p => vnorm N (tail (a p) 0 m)
  (List.range (min n m)).foldl (qrStep N n m) { a := a, ipiv := id, rdiag := d, wa := d }

/-- a step of the product of the transpose of `Q` and of the deviates (`mpfit.hpp:606-614`): the matrix, the deviates and `qtf` -/
def qtfStep (m : Nat) (ipiv : Nat → Nat) (rdiag : Nat → K) (s : (Nat → Nat → K) × (Nat → K) × (Nat → K)) (p : Nat) :
    (Nat → Nat → K) × (Nat → K) × (Nat → K) :=
  let l := ipiv p
  let w := if s.1 l p ≠ 0 then fun c => if p ≤ c then reflect p m (s.1 l) s.2.1 c else s.2.1 c else s.2.1
  (fun r c => if r = l ∧ c = p then rdiag p else s.1 r c, w, fun c => if c = p then w p else s.2.2 c)

/-- the factorization as the fit uses it (`mpfit.hpp:586-618`) -/
def factor (N : Num K) (n m : Nat) (a : Nat → Nat → K) (f : Nat → K) : QR K :=
  let s := qrfac N n m a
  let t := (List.range n).foldl (qtfStep m s.ipiv s.rdiag) (s.a, f, fun _ => 0)
  { ipiv := s.ipiv, r := fun p i => t.1 (s.ipiv p) i, acnorm := fun p => vnorm N (tail (a p) 0 m), qtf := t.2.2 }

/-! ### The damped system -/

/-- the state of `mpfit_qrsolv`: the matrix, the right hand side, the row that is eliminated (or the diagonal), and the last element of the right hand
side -/
structure QS (K : Type) where
  r : Nat → Nat → K
  wa : Nat → K
  sdiag : Nat → K
  qtbpj : K

/-- the rotation that eliminates `s` (`mpfit.hpp:280-289`): cosine and sine -/
def givens (N : Num K) (r s : K) : K × K :=
  if |r| < |s| then
    let cotan := r / s
    let sine := 1 / 2 / N.sq (1 / 4 + 1 / 4 * cotan ^ 2)
    (sine * cotan, sine)
  else
    let tang := s / r
    let cosine := 1 / 2 / N.sq (1 / 4 + 1 / 4 * tang ^ 2)
    (cosine, cosine * tang)

/-- a rotation (`mpfit.hpp:278-303`) -/
def rotate (N : Num K) (n : Nat) (q : QS K) (k : Nat) : QS K :=
  if q.sdiag k = 0 then q
  else
    let g := givens N (q.r k k) (q.sdiag k)
    { r := fun p c => if p = k ∧ c = k then g.1 * q.r k k + g.2 * q.sdiag k
                      else if p = k ∧ k < c ∧ c < n then g.1 * q.r k c + g.2 * q.sdiag c else q.r p c
      wa := fun c => if c = k then g.1 * q.wa k + g.2 * q.qtbpj else q.wa c
      sdiag := fun c => if k < c ∧ c < n then -g.2 * q.r k c + g.1 * q.sdiag c else q.sdiag c
      qtbpj := -g.2 * q.wa k + g.1 * q.qtbpj }

/-- the elimination of a line of the diagonal matrix (`mpfit.hpp:267-307`); `false` in the second component once the loop has been left -/
def elim (N : Num K) (n : Nat) (ipiv : Nat → Nat) (diag x : Nat → K) (q : QS K × Bool) (j : Nat) : QS K × Bool :=
  if q.2 = false ∨ diag (ipiv j) = 0 then (q.1, false)
  else
    let q0 : QS K := { q.1 with sdiag := fun k => if k < j then q.1.sdiag k else if k = j then diag (ipiv j) else 0, qtbpj := 0 }
    let q1 := (List.range' j (n - j)).foldl (rotate N n) q0
    ({ q1 with sdiag := fun k => if k = j then q1.r j j else q1.sdiag k, r := fun p c => if p = j ∧ c = j then x j else q1.r p c }, true)

/-- the solution of the triangular system (`mpfit.hpp:312-330`): backward substitution, with zeros from the first zero of the diagonal -/
def backSub (n : Nat) (q : QS K) : Nat → K :=
  let nsing := ((List.range n).find? fun j => decide (q.sdiag j = 0)).getD n
  let wa := fun j => if nsing ≤ j then 0 else q.wa j
  (List.range nsing).reverse.foldl (fun wa j => fun c =>
    if c = j then (wa j - ∑ k ∈ Finset.Ico (j + 1) nsing, q.r j k * wa k) / q.sdiag j else wa c) wa

/-- `x[ipiv] = wa` -/
def unpiv (n : Nat) (ipiv : Nat → Nat) (x wa : Nat → K) : Nat → K :=
  (List.range n).foldl (fun x p => fun c => if c = ipiv p then wa p else x c) x

/-- `mpfit_qrsolv` (`mpfit.hpp:248-334`): the matrix, the solution and the diagonal of the triangular matrix -/
def qrsolv (N : Num K) (n : Nat) (r : Nat → Nat → K) (ipiv : Nat → Nat) (diag qtf sdiag : Nat → K) : QS K × (Nat → K) :=
  let r1 := fun p c => if p ≤ c ∧ c < n then r c p else r p c
  let x := fun p => r1 p p
  let q := ((List.range n).foldl (elim N n ipiv diag x) ({ r := r1, wa := qtf, sdiag := sdiag, qtbpj := 0 }, true)).1
  (q, unpiv n ipiv x (backSub n q))

/-- the number of lines before the first one whose diagonal element is small (`mpfit.hpp:350-359`) -/
def rank (N : Num K) (n : Nat) (r : Nat → Nat → K) : Nat :=
  let t := ((List.range n).map fun j => |r j j|).foldl max 0 * N.eps
  ((List.range n).find? fun j => decide (|r j j| < t)).getD n

/-- the Gauss-Newton direction, not permuted (`mpfit.hpp:361-371`) -/
def newton (N : Num K) (n : Nat) (r : Nat → Nat → K) (qtf : Nat → K) : Nat → K :=
  let ns := rank N n r
  (List.range ns).reverse.foldl (fun wa j => fun c => if c = j then wa j / r j j else if c < j then wa c - r j c * (wa j / r j j) else wa c)
    (fun j => if ns ≤ j then 0 else qtf j)

/-- the solution of `R^T y = b` (`mpfit.hpp:392-396`) -/
def forwSub (n : Nat) (r : Nat → Nat → K) (b : Nat → K) : Nat → K :=
  (List.range n).foldl (fun wa j => fun c => if c = j then (wa j - ∑ k ∈ Finset.range j, r j k * wa k) / r j j else wa c) b

/-- the solution of `S^T y = b` (`mpfit.hpp:441-445`) -/
def forwSub' (n : Nat) (r : Nat → Nat → K) (sdiag b : Nat → K) : Nat → K :=
  (List.range n).foldl (fun wa j => fun c =>
    if c = j then wa j / sdiag j else if j < c ∧ c < n then wa c - r j c * (wa j / sdiag j) else wa c) b

/-- `clamp` (`math/base.hpp:88-92`) -/
def clampK (t mi ma : K) : K := if t < mi then mi else if ma < t then ma else t

/-- the damping parameter to begin with (`mpfit.hpp:415-418`): `clamp` is called with the bounds exchanged -/
def firstPar (par parl paru gnorm dxnorm : K) : K :=
  let p := clampK par paru parl
  if p = 0 then gnorm / dxnorm else p

/-- the loop on the damping parameter (`mpfit.hpp:420-459`): at most `fuel` times -/
def lmLoop (N : Num K) (n : Nat) (ipiv : Nat → Nat) (diag qtf : Nat → K) (delta : K) :
    Nat → (Nat → Nat → K) → (Nat → K) → (Nat → K) → K → K → K → K → (Nat → Nat → K) × (Nat → K) × K
  | 0, r, x, _, _, par, _, _ => (r, x, par)
  | fuel + 1, r, _, sdiag, fp, par, parl, paru =>
    let par := if par = 0 then max N.dwarf (paru * (1 / 1000)) else par
    let q := qrsolv N n r ipiv (fun c => N.sq par * diag c) qtf sdiag
    let wa2 := fun c => diag c * q.2 c
    let dxnorm := vnorm N (tail wa2 0 n)
    let fp' := dxnorm - delta
    if |fp'| ≤ 1 / 10 * delta ∨ (parl = 0 ∧ fp' ≤ fp ∧ fp < 0) then (q.1.r, q.2, par)
    else
      let wa1 := forwSub' n q.1.r q.1.sdiag (fun j => diag (ipiv j) * wa2 (ipiv j) / dxnorm)
      let temp := vnorm N (tail wa1 0 n)
      let parc := fp' / delta / temp / temp
      let parl' := if 0 < fp' then max parl par else parl
      let paru' := if 0 < fp' then paru else if fp' < 0 then min paru par else paru
      lmLoop N n ipiv diag qtf delta fuel q.1.r q.2 q.1.sdiag fp' (max parl' (par + parc)) parl' paru'

/-- `mpfit_lmpar` (`mpfit.hpp:337-460`): the matrix, the step and the damping parameter -/
def lmpar (N : Num K) (n : Nat) (q : QR K) (diag : Nat → K) (delta par : K) : QR K × (Nat → K) × K :=
  let x := unpiv n q.ipiv (fun _ => 0) (newton N n q.r q.qtf)
  let wa2 := fun c => diag c * x c
  let dxnorm := vnorm N (tail wa2 0 n)
  let fp := dxnorm - delta
  if fp ≤ 1 / 10 * delta then (q, x, 0)
  else
    let temp := vnorm N (tail (forwSub n q.r fun j => diag (q.ipiv j) * wa2 (q.ipiv j) / dxnorm) 0 n)
    let parl := if n ≤ rank N n q.r then fp / delta / temp / temp else 0
    let gnorm := vnorm N (tail (fun j => (∑ k ∈ Finset.range (j + 1), q.r j k * q.qtf k) / diag (q.ipiv j)) 0 n)
    let paru := if gnorm / delta = 0 then N.dwarf / min delta (1 / 10) else gnorm / delta
    let t := lmLoop N n q.ipiv diag q.qtf delta 10 q.r x (fun _ => 0) fp (firstPar par parl paru gnorm dxnorm) parl paru
    ({ q with r := t.1 }, t.2.1, t.2.2)

/-! ### The covariance -/

/-- a line of the inverse (`mpfit.hpp:473-478`) -/
def invLine (r : Nat → Nat → K) (k : Nat) : Nat → Nat → K :=
  let r0 := fun p c => if p = k ∧ c = k then 1 / r k k else r p c
  (List.range k).foldl (fun r j =>
    let temp := r k k * r k j
    fun p c => if p = k ∧ c ≤ j then (if c = j then 0 else r k c) - temp * r j c else r p c) r0

/-- the inverse of `R` (`mpfit.hpp:467-481`) and the number of lines before a small diagonal element -/
def invR (n : Nat) (r : Nat → Nat → K) : (Nat → Nat → K) × Nat :=
  let tolr := 1 / 10 ^ 14 * |r 0 0|
  let t := (List.range n).foldl (fun (s : (Nat → Nat → K) × Nat × Bool) k =>
    if s.2.2 = false ∨ |s.1 k k| ≤ tolr then (s.1, s.2.1, false) else (invLine s.1 k, k + 1, true)) (r, 0, true)
  (t.1, t.2.1)

/-- the product of the inverse and of its transpose (`mpfit.hpp:483-491`) -/
def gramInv (l : Nat) (r : Nat → Nat → K) : Nat → Nat → K :=
  (List.range l).foldl (fun r k =>
    let r := (List.range k).foldl (fun r j => fun p c => if p = j ∧ c ≤ j then r j c + r k j * r k c else r p c) r
    fun p c => if p = k ∧ c ≤ k then r k c * r k k else r p c) r

/-- the permutation (`mpfit.hpp:493-513`): the matrix and its diagonal -/
def unpivot (n l : Nat) (ipiv : Nat → Nat) (r : Nat → Nat → K) : (Nat → Nat → K) × (Nat → K) :=
  (List.range n).foldl (fun (s : (Nat → Nat → K) × (Nat → K)) j =>
    let jj := ipiv j
    let r := (List.range j).foldl (fun r i =>
      let r := if l < j + 1 then fun p c => if p = j ∧ c = i then 0 else r p c else r
      let ii := ipiv i
      if jj < ii then fun p c => if p = jj ∧ c = ii then r j i else r p c
      else if ii < jj then fun p c => if p = ii ∧ c = jj then r j i else r p c
      else r) s.1
    (r, fun c => if c = jj then r j j else s.2 c)) (r, fun _ => 0)

/-- `mpfit_covar` (`mpfit.hpp:463-522`) -/
def covar (n : Nat) (q : QR K) : Nat → Nat → K :=
  let t := invR n q.r
  let u := unpivot n t.2 q.ipiv (gramInv t.2 t.1)
  (List.range n).foldl (fun r j => fun p c => if p = j ∧ c ≤ j then (if c = j then u.2 j else r c j) else r p c) u.1

/-- the numerical part of `mpfit`. A Jacobian with a NaN gives an overflow here; in the code it can also give a gradient that is zero, when the
row has only zeros besides. -/
def realAlg (N : Num K) : Alg K where
  eps := N.eps
  sqrtEps := N.sqrtEps
  sqrt := N.sq
  norm := vnorm N
  qr := fun n jac f =>
    if (∀ row ∈ jac, none ∉ row) ∧ none ∉ f then
      some (factor N n f.length (fun p c => ((jac.getD p []).getD c none).getD 0) (fun c => (f.getD c none).getD 0))
    else none
  lm := lmpar N
  covar := covar

end Verif.Mpfit
