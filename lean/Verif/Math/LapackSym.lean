import Verif.Math.Lapack
/-!
# `solve_symmetric`, `eigen_symmetric` and `decompose_svd` (`math/bits/matrix-functions.hpp:505-557`, `:742-852`)

As in `Math/Lapack`, the drivers of LAPACK are parameters described by their documented contract (column-major
storage). With `uplo = 'U'` a driver for symmetric matrices reads only the entries with row ≤ column, the others
standing for their transpose. The sizes of the work arrays are not modelled.
-/
namespace Verif.Mat
open Verif

variable {n : Nat} {K : Type} [Field K]

/-- the symmetric matrix that LAPACK reads with `uplo = 'U'` -/
def upperOf (n : Nat) (a : Nat → K) (i j : Fin n) : K := if i ≤ j then a (i + j * n) else a (j + i * n)

/-- contract of `dsysv_` with `uplo = 'U'` for one right-hand side -/
def IsSysv (n : Nat) (sysv : (Nat → K) → (Fin n → K) → Option (Fin n → K)) : Prop :=
  ∀ a b x, sysv a b = some x → ∀ i : Fin n, ∑ j : Fin n, upperOf n a i j * x j = b i

/-- contract of `dsyev_` with `jobz = 'V'` and `uplo = 'U'`: the array becomes the orthonormal eigenvectors, one for each
column, and the eigenvalues are given in ascending order -/
def IsSyev [LE K] (n : Nat) (syev : (Nat → K) → Option ((Nat → K) × (Fin n → K))) : Prop :=
  ∀ a r w, syev a = some (r, w) →
    (∀ k i : Fin n, ∑ j : Fin n, upperOf n a i j * r (j + k * n) = w k * r (i + k * n)) ∧
    (∀ k l : Fin n, ∑ i : Fin n, r (i + k * n) * r (i + l * n) = if k = l then 1 else 0) ∧
    ∀ k l : Fin n, k ≤ l → w k ≤ w l

/-- the results of `dgesdd_`: the arrays `u` and `vt`, and the singular values -/
structure Gesdd (n : Nat) (K : Type) where
  u : Nat → K
  vt : Nat → K
  s : Fin n → K

/-- contract of `dgesdd_` with `jobz = 'A'` for a square matrix -/
def IsGesdd [LE K] (n : Nat) (gesdd : (Nat → K) → Option (Gesdd n K)) : Prop :=
  ∀ a r, gesdd a = some r →
    (∀ i j : Fin n, ∑ k : Fin n, r.u (i + k * n) * r.s k * r.vt (k + j * n) = a (i + j * n)) ∧
    (∀ k l : Fin n, ∑ i : Fin n, r.u (i + k * n) * r.u (i + l * n) = if k = l then 1 else 0) ∧
    (∀ k l : Fin n, ∑ i : Fin n, r.vt (k + i * n) * r.vt (l + i * n) = if k = l then 1 else 0) ∧
    (∀ k : Fin n, 0 ≤ r.s k) ∧ ∀ k l : Fin n, k ≤ l → r.s l ≤ r.s k

/-- `inplace_solve_symmetric` and `solve_symmetric` with LAPACK (`matrix-functions.hpp:748-801`) -/
def lapackSolveSymmetric (sysv : (Nat → K) → (Fin n → K) → Option (Fin n → K)) (a : M n K) (b : Fin n → K) : Option (Fin n → K) :=
  sysv (raw a) b

/-- `solve_symmetric` without LAPACK (`matrix-functions.hpp:786-795`) -/
def plainSolveSymmetric [LinearOrder K] (a : M n K) (b : Fin n → K) : Option (Fin n → K) := solve a b

/-- `inplace_eigen_symmetric` and `eigen_symmetric` (`matrix-functions.hpp:803-852`): the matrix `vecs` and the values -/
def eigenSymmetric (syev : (Nat → K) → Option ((Nat → K) × (Fin n → K))) (a : M n K) : Option (M n K × (Fin n → K)) :=
  (syev (raw a)).map fun r => (ofRaw r.1, r.2)

/-- the results of `decompose_svd` (`matrix-functions.hpp:507-509`) -/
structure Svd (n : Nat) (K : Type) where
  u : M n K
  vt : M n K
  s : Fin n → K

/-- `decompose_svd::decompose` (`matrix-functions.hpp:519-556`): `u` and `vt` are exchanged -/
def decomposeSvd (gesdd : (Nat → K) → Option (Gesdd n K)) (a : M n K) : Option (Svd n K) :=
  (gesdd (raw a)).map fun r => { u := ofRaw r.vt, vt := ofRaw r.u, s := r.s }

end Verif.Mat
