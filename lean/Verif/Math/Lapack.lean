import Verif.Math.Linfit
import Verif.Math.LUProps
/-!
# `solve`, `invert` and `invert_symmetric` through LAPACK (`math/bits/matrix-functions.hpp:575-735`)

LAPACK is not modelled: the three drivers are parameters described by their documented contract. LAPACK reads an `n × n` array column by
column: the entry of row `i` and column `j` is at position `i + j*n`. The data of a matrix of this library are stored row by row.
-/
namespace Verif.Mat
open Verif

variable {n : Nat} {K : Type} [Field K]

/-- `raw_data()` of a matrix: row by row -/
def raw (a : M n K) (k : Nat) : K := if h : k < n * n then a ⟨k / n, Nat.div_lt_of_lt_mul h⟩ ⟨k % n, Nat.mod_lt _ (by
  rcases Nat.eq_zero_or_pos n with h0 | h0
  · simp [h0] at h
  · exact h0)⟩ else 0

/-- the matrix of which the array is the data -/
def ofRaw (r : Nat → K) : M n K := fun i j => r (i * n + j)

/-- contract of `dgesv_` for one right-hand side: on success, the solution of the system of the matrix in column-major storage -/
def IsGesv (n : Nat) (gesv : (Nat → K) → (Fin n → K) → Option (Fin n → K)) : Prop :=
  ∀ a b x, gesv a b = some x → ∀ i : Fin n, ∑ j : Fin n, a (i + j * n) * x j = b i

/-- contract of `dgetrf_` followed by `dgetri_`: on success, the inverse, in column-major storage -/
def IsGetri (n : Nat) (getri : (Nat → K) → Option (Nat → K)) : Prop :=
  ∀ a r, getri a = some r → ∀ i j : Fin n, ∑ k : Fin n, a (i + k * n) * r (k + j * n) = if i = j then 1 else 0

/-- contract of `dsytrf_` followed by `dsytri_` with `uplo = 'U'`: only the entries with row ≤ column are read, the others standing for their
transpose; on success the entries with row ≤ column are those of the inverse, and the others are those of the input -/
def IsSytri (n : Nat) (sytri : (Nat → K) → Option (Nat → K)) : Prop :=
  ∀ a r, sytri a = some r → ∃ b : M n K,
    (∀ i j : Fin n, ∑ k : Fin n, (if i ≤ k then a (i + k * n) else a (k + i * n)) * b k j = if i = j then 1 else 0) ∧
    (∀ i j : Fin n, i ≤ j → r (i + j * n) = b i j) ∧ ∀ i j : Fin n, j < i → r (i + j * n) = a (i + j * n)

/-- `inplace_solve` and `solve` with LAPACK (`matrix-functions.hpp:690-715`, `717-735`) -/
def lapackSolve (gesv : (Nat → K) → (Fin n → K) → Option (Fin n → K)) (a : M n K) (b : Fin n → K) : Option (Fin n → K) := gesv (raw a) b

/-- `inplace_invert` and `invert` with LAPACK (`matrix-functions.hpp:580-626`) -/
def lapackInvert (getri : (Nat → K) → Option (Nat → K)) (a : M n K) : Option (M n K) := (getri (raw a)).map ofRaw

/-- `inplace_invert_symmetric` and `invert_symmetric` with LAPACK (`matrix-functions.hpp:635-683`) -/
def lapackInvertSymmetric (sytri : (Nat → K) → Option (Nat → K)) (a : M n K) : Option (M n K) := (sytri (raw a)).map ofRaw

end Verif.Mat
