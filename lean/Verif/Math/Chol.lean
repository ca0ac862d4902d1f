import Verif.Math.LU
/-!
# Cholesky decomposition (`math/bits/matrix-functions.hpp:286-502`, `NO_LAPACK` branches)

Same conventions as `Verif.Math.LU`. The square root is a parameter `sq`, on which the theorems assume that it is a positive square
root of every positive number. `alpha.dims` is read after `alpha` has been moved from: `dims` is a `std::array` of integers, whose move
is a copy, so that the value is the right one.
-/
namespace Verif.Mat
open Verif

variable {n : Nat} {K : Type} [Field K] [LinearOrder K]

/-- `range(i+1)` -/
def upto (i : Fin n) : List (Fin n) := (List.finRange n).filter fun j => decide (j ≤ i)

/-- the body of the loop on `j` (`matrix-functions.hpp:312-327`); `none` is the `return false` -/
def cholEntry (sq : K → K) (l : M n K) (i j : Fin n) : Option (M n K) :=
  let s := (below j).foldl (fun s k => s + l i k * l j k) 0
  if i = j then
    let s := l i i - s
    if s ≤ 0 then none else some (upd l i i (sq s))
  else some (upd l i j ((l i j - s) / l j j))

/-- the body of the loop on `i` (`matrix-functions.hpp:311-332`) -/
def cholRow (sq : K → K) (l : M n K) (i : Fin n) : Option (M n K) :=
  ((upto i).foldl (fun (st : Option (M n K)) j => st.bind fun l => cholEntry sq l i j) (some l)).map fun l =>
    (above i).foldl (fun l j => upd l i j 0) l

/-- `decompose`: `none` is the return value `false` -/
def cholDecompose (sq : K → K) (a : M n K) : Option (M n K) :=
  (List.finRange n).foldl (fun (st : Option (M n K)) i => st.bind fun l => cholRow sq l i) (some a)

/-- `substitute_forward_inplace` (`matrix-functions.hpp:353-367`) -/
def substForward (l : M n K) (x : Fin n → K) : Fin n → K :=
  (List.finRange n).foldl (fun x k =>
    let x := (below k).foldl (fun x i => vset x k (x k - x i * l k i)) x
    vset x k (x k / l k k)) x

/-- `substitute_backward_inplace` (`matrix-functions.hpp:374-391`) -/
def substBackward (l : M n K) (x : Fin n → K) : Fin n → K :=
  (List.finRange n).reverse.foldl (fun x k =>
    let x := (above k).foldl (fun x i => vset x k (x k - x i * l i k)) x
    vset x k (x k / l k k)) x

/-- `solve_inplace` (`matrix-functions.hpp:398-404`) -/
def cholSolve (l : M n K) (x : Fin n → K) : Fin n → K := substBackward l (substForward l x)

/-- the loop on `c` common to `invert` and `lower_inverse`: the solution for a unit vector is stored in the row `c`, and the vector is
cleared -/
def unitRows (f : (Fin n → K) → Fin n → K) : M n K :=
  ((List.finRange n).foldl (fun (st : M n K × (Fin n → K)) c =>
    let x := f (vset st.2 c 1)
    (List.finRange n).foldl (fun (st : M n K × (Fin n → K)) i => (upd st.1 c i (st.2 i), vset st.2 i 0)) (st.1, x))
    (fun _ _ => 0, fun _ => 0)).1

/-- `invert` (`matrix-functions.hpp:422-453`) -/
def cholInvert (l : M n K) : M n K := unitRows fun x => substBackward l (substForward l x)

/-- `lower_inverse` (`matrix-functions.hpp:455-481`) -/
def cholLowerInverse (l : M n K) : M n K := unitRows fun x => substBackward l x

/-- `lower_determinant` (`matrix-functions.hpp:483-491`) -/
def cholLowerDet (l : M n K) : K := (List.finRange n).foldl (fun d i => d * l i i) 1

end Verif.Mat
