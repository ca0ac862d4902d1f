import Mathlib.Algebra.Field.Basic
import Mathlib.Algebra.Order.Field.Basic
import Mathlib.Algebra.Order.Group.Abs
import Mathlib.Logic.Function.Basic
import Verif.Basic
/-!
# LU decomposition (`math/bits/matrix-functions.hpp:117-284`)

A square matrix of size `n` is a function of two indices below `n`: every access in the source uses loop variables of
`range(n)` (and pivots, which are such variables), so that no access can be out of range. `double` is an ordered field: no rounding,
no infinities. Division by a zero pivot only happens after `bad` has been set, and nothing is claimed then.
-/
namespace Verif.Mat
open Verif

variable {n : Nat} {K : Type} [Field K] [LinearOrder K]

/-- `mat2d` of `n` rows and columns -/
abbrev M (n : Nat) (K : Type) := Fin n → Fin n → K

/-- `a.safe(i,j) = v` -/
def upd (a : M n K) (i j : Fin n) (v : K) : M n K := fun r c => if r = i ∧ c = j then v else a r c

/-- `x.safe[i] = v` -/
def vset (x : Fin n → K) (i : Fin n) (v : K) : Fin n → K := fun r => if r = i then v else x r

/-- `range(k+1, n)` -/
def above (k : Fin n) : List (Fin n) := (List.finRange n).filter fun j => decide (k < j)

/-- `range(k)` -/
def below (k : Fin n) : List (Fin n) := (List.finRange n).filter fun j => decide (j < k)

/-- `decompose_lu` -/
structure LU (n : Nat) (K : Type) where
  noPivot : Bool
  lu : M n K
  ipiv : Fin n → Fin n
  bad : Bool
  ns : Nat

/-- the search of the pivot (`matrix-functions.hpp:153-161`): the pair `(akk, ipiv[k])` -/
def findPivot (a : M n K) (k : Fin n) : K × Fin n :=
  (above k).foldl (fun s j => if s.1 < |a j k| then (|a j k|, j) else s) (|a k k|, k)

/-- the exchange of two rows (`matrix-functions.hpp:167-169`) -/
def swapRows (a : M n K) (p k : Fin n) : M n K :=
  (List.finRange n).foldl (fun a j => upd (upd a p j (a k j)) k j (a p j)) a

/-- `matrix-functions.hpp:178-181` -/
def scaleRow (a : M n K) (k : Fin n) : M n K := (above k).foldl (fun a j => upd a k j (a k j / a k k)) a

/-- `matrix-functions.hpp:183-187` -/
def eliminate (a : M n K) (k : Fin n) : M n K :=
  (above k).foldl (fun a i => (above k).foldl (fun a j => upd a i j (a i j - a i k * a k j)) a) a

/-- one iteration of `decompose` (`matrix-functions.hpp:149-188`) -/
def luStep (s : LU n K) (k : Fin n) : LU n K :=
  let s := if s.noPivot then s
    else
      let p := (findPivot s.lu k).2
      let s := { s with ipiv := Function.update s.ipiv k p }
      if p ≠ k then { s with ns := s.ns + 1, lu := swapRows s.lu p k } else s
  let s := if s.lu k k = 0 then { s with bad := true } else s
  { s with lu := eliminate (scaleRow s.lu k) k }

/-- `decompose` (`matrix-functions.hpp:135-191`), for a square matrix -/
def luDecompose (noPivot : Bool) (a : M n K) : LU n K :=
  (List.finRange n).foldl luStep ⟨noPivot, a, id, false, 0⟩

/-- `std::swap(x[k], x[pk])` -/
def vswap (x : Fin n → K) (k p : Fin n) : Fin n → K := vset (vset x k (x p)) p (x k)

/-- row `k` of the forward substitution: `r[k] = v; for (i : range(k)) r[k] -= r[i]*lu(k,i); r[k] /= lu(k,k)` -/
def fwdRow (a : M n K) (r : Fin n → K) (k : Fin n) (v : K) : Fin n → K :=
  let r := vset r k v
  let r := (below k).foldl (fun r i => vset r k (r k - r i * a k i)) r
  vset r k (r k / a k k)

/-- row `k` of the backward substitution -/
def bwdRow (a : M n K) (r : Fin n → K) (k : Fin n) : Fin n → K :=
  (above k).foldl (fun r i => vset r k (r k - r i * a k i)) r

/-- `solve` (`matrix-functions.hpp:193-226`); the vector has the size of the matrix -/
def luSolve (s : LU n K) (x : Fin n → K) : Fin n → K :=
  let (_, r) := (List.finRange n).foldl (fun (xr : (Fin n → K) × (Fin n → K)) k =>
    let x := if s.noPivot then xr.1 else if s.ipiv k ≠ k then vswap xr.1 k (s.ipiv k) else xr.1
    (x, fwdRow s.lu xr.2 k (x k))) (x, fun _ => 0)
  (List.finRange n).reverse.foldl (fun r k => bwdRow s.lu r k) r

/-- `invert` (`matrix-functions.hpp:228-273`); the vector `r` is kept from one column to the next -/
def luInvert (s : LU n K) : M n K :=
  let (inv, _) := (List.finRange n).foldl (fun (st : M n K × (Fin n → K)) c =>
    let (_, r) := (List.finRange n).foldl (fun (ir : Fin n × (Fin n → K)) k =>
      let i1 := if s.noPivot then ir.1 else if k = ir.1 then s.ipiv k else if s.ipiv k = ir.1 then k else ir.1
      (i1, fwdRow s.lu ir.2 k (if s.noPivot then 1 else if i1 = k then 1 else 0))) (c, st.2)
    (List.finRange n).reverse.foldl (fun (st : M n K × (Fin n → K)) k =>
      let r := bwdRow s.lu st.2 k
      (upd st.1 k c (r k), r)) (st.1, r)) (fun _ _ => 0, fun _ => 0)
  inv

/-- `determinant` (`matrix-functions.hpp:275-283`) -/
def luDet (s : LU n K) : K :=
  (List.finRange n).foldl (fun d i => d * s.lu i i) (if s.ns % 2 = 0 then 1 else -1)

/-- the free function `determinant` (`matrix-functions.hpp:560-573`) -/
def determinant (a : M n K) : K :=
  let s := luDecompose false a
  if s.bad then 0 else luDet s

/-- `solve` and `invert` without LAPACK (`matrix-functions.hpp:613-626`, `717-729`): `none` is the return value `false` -/
def solve (a : M n K) (b : Fin n → K) : Option (Fin n → K) :=
  let s := luDecompose false a
  if s.bad then none else some (luSolve s b)

def invert (a : M n K) : Option (M n K) :=
  let s := luDecompose false a
  if s.bad then none else some (luInvert s)

end Verif.Mat
