import Verif.Tools.Qaper
import Mathlib.LinearAlgebra.Matrix.DotProduct
import Mathlib.LinearAlgebra.Matrix.ToLin
import Mathlib.LinearAlgebra.FiniteDimensional.Lemmas
import Mathlib.LinearAlgebra.Matrix.Rank
/-!
# There are least squares fits

`LeastSquares` is a hypothesis of C207, C208 and C219. Here is a function with this property, made with the normal equations.
-/
namespace Verif.Qaper
open Verif Matrix

variable {K : Type} [Field K] [LinearOrder K] [IsStrictOrderedRing K] {n : Nat}

/-- the matrix of the templates -/
def design (pix : List (Fin n)) (ts : List (Fin n → K)) : Matrix (Fin pix.length) (Fin ts.length) K := fun k i => ts.get i (pix.get k)

omit [LinearOrder K] [IsStrictOrderedRing K] in
theorem comb_ofFn (ts : List (Fin n → K)) (c : Fin ts.length → K) (p : Fin n) : comb (List.ofFn c) ts p = ∑ i, c i * ts.get i p := by
  unfold comb
  induction ts with
  | nil => simp
  | cons t ts ih =>
    rw [List.ofFn_succ, List.zipWith_cons_cons, List.sum_cons]
    have := ih (fun i => c i.succ)
    rw [this]
    exact (Fin.sum_univ_succ (fun k : Fin (ts.length + 1) => c k * (t :: ts).get k p)).symm

omit [LinearOrder K] [IsStrictOrderedRing K] in
theorem comb_design (pix : List (Fin n)) (ts : List (Fin n → K)) (c : Fin ts.length → K) (k : Fin pix.length) : comb (List.ofFn c) ts (pix.get k) = (design pix ts *ᵥ c) k := by
  rw [comb_ofFn]
  unfold design Matrix.mulVec dotProduct
  exact Finset.sum_congr rfl fun i _ => mul_comm _ _

omit [LinearOrder K] [IsStrictOrderedRing K] in
theorem sum_pix (pix : List (Fin n)) (g : Fin n → K) : (pix.map g).sum = ∑ k, g (pix.get k) := by
  induction pix with
  | nil => simp
  | cons p pix ih =>
    rw [List.map_cons, List.sum_cons, ih]
    exact (Fin.sum_univ_succ (fun k : Fin (pix.length + 1) => g ((p :: pix).get k))).symm

omit [LinearOrder K] [IsStrictOrderedRing K] in
theorem sum_sq (pix : List (Fin n)) (data : Fin n → K) (ts : List (Fin n → K)) (c : Fin ts.length → K) :
    (pix.map fun p => (data p - comb (List.ofFn c) ts p) ^ 2).sum = ((fun k => data (pix.get k)) - design pix ts *ᵥ c) ⬝ᵥ ((fun k => data (pix.get k)) - design pix ts *ᵥ c) := by
  rw [sum_pix]
  unfold dotProduct
  apply Finset.sum_congr rfl
  intro k _
  rw [comb_design, Pi.sub_apply, sq]

omit [Field K] [LinearOrder K] [IsStrictOrderedRing K] in
theorem exists_ofFn (ps : List K) (m : Nat) (h : ps.length = m) : ∃ c : Fin m → K, ps = List.ofFn c := by
  subst h
  exact ⟨ps.get, (List.ofFn_get ps).symm⟩

/-- the normal equations have a solution, and it is the best one -/
theorem exists_best (pix : List (Fin n)) (data : Fin n → K) (ts : List (Fin n → K)) (hi : Independent pix ts) : ∃ ps : List K, ps.length = ts.length ∧
    ∀ qs : List K, qs.length = ts.length → (pix.map fun p => (data p - comb ps ts p) ^ 2).sum ≤ (pix.map fun p => (data p - comb qs ts p) ^ 2).sum := by
  let A := design pix ts
  have hinj : Function.Injective (Aᵀ * A).mulVecLin := by
    rw [← LinearMap.ker_eq_bot, Matrix.ker_mulVecLin_transpose_mul_self, LinearMap.ker_eq_bot']
    intro c hc
    have h0 := hi (List.ofFn c) (by simp) (fun p hp => by
      obtain ⟨k, rfl⟩ := List.get_of_mem hp
      rw [comb_design]
      exact congrFun hc k)
    funext i
    exact h0 (c i) (by rw [List.mem_ofFn]; exact ⟨i, rfl⟩)
  obtain ⟨x, hx⟩ := LinearMap.injective_iff_surjective.1 hinj (Aᵀ *ᵥ fun k => data (pix.get k))
  refine ⟨List.ofFn x, by simp, fun qs hqs => ?_⟩
  obtain ⟨z, rfl⟩ := exists_ofFn qs _ hqs
  rw [sum_sq, sum_sq]
  set y : Fin pix.length → K := fun k => data (pix.get k)
  have hx' : Aᵀ *ᵥ (A *ᵥ x) = Aᵀ *ᵥ y := by rw [Matrix.mulVec_mulVec]; exact hx
  have horth : (y - A *ᵥ x) ⬝ᵥ (A *ᵥ (x - z)) = 0 := by
    rw [Matrix.dotProduct_mulVec, ← Matrix.mulVec_transpose, Matrix.mulVec_sub, hx', sub_self, zero_dotProduct]
  have hsplit : y - A *ᵥ z = (y - A *ᵥ x) + A *ᵥ (x - z) := by rw [Matrix.mulVec_sub]; abel
  have e : (y - A *ᵥ z) ⬝ᵥ (y - A *ᵥ z) = (y - A *ᵥ x) ⬝ᵥ (y - A *ᵥ x) + (A *ᵥ (x - z)) ⬝ᵥ (A *ᵥ (x - z)) := by
    rw [hsplit, add_dotProduct, dotProduct_add, dotProduct_add, dotProduct_comm (A *ᵥ (x - z)) (y - A *ᵥ x), horth]
    ring
  show (y - A *ᵥ x) ⬝ᵥ (y - A *ᵥ x) ≤ (y - A *ᵥ z) ⬝ᵥ (y - A *ᵥ z)
  rw [e, le_add_iff_nonneg_right]
  exact Finset.sum_nonneg fun k _ => mul_self_nonneg _

open Classical in
/-- there is a least squares fit -/
theorem exists_leastSquares : ∃ fit : Fitter K n, LeastSquares fit := by
  refine ⟨fun pix data ts => if h : Independent pix ts then some (exists_best pix data ts h).choose else none, ?_, ?_⟩
  · intro pix data ts
    split <;> simp_all
  · intro pix data ts ps h
    split at h
    · rename_i hi
      rw [← Option.some.inj h]
      exact (exists_best pix data ts hi).choose_spec
    · exact absurd h (by simp)

end Verif.Qaper
