import Verif.Math.HullDist
/-!
# C93: signed distances of several points
-/
namespace Verif.Hull
open Verif

/-- `convex_hull_distance` of vectors (`convex_hull.hpp:247-299`): the loop on the edges is the outer one. The distance before the sign, and whether the point is inside, for each point. Different dimensions abort. -/
noncomputable def hullDistVec (hull : List (ℝ × ℝ)) (orient : ℝ) (xdims ydims : List Nat) (x y : List ℝ) : Res (List (WithTop ℝ × Bool)) := do
  Res.check (xdims = ydims)
  .ok ((hull.zip hull.tail).foldl (fun acc e => List.zipWith (fun p a => distStep orient p a e) (x.zip y) acc) (List.replicate x.length (⊤, true)))

theorem foldl_zipWith (orient : ℝ) (ps : List (ℝ × ℝ)) (es : List ((ℝ × ℝ) × (ℝ × ℝ))) (acc : List (WithTop ℝ × Bool)) :
    es.foldl (fun acc e => List.zipWith (fun p a => distStep orient p a e) ps acc) (List.zipWith (fun _ a => a) ps acc) =
      List.zipWith (fun p a => es.foldl (distStep orient p) a) ps acc := by
  induction es generalizing acc with
  | nil => rfl
  | cons e es ih =>
    rw [List.foldl_cons]
    have h1 : List.zipWith (fun p a => distStep orient p a e) ps (List.zipWith (fun _ a => a) ps acc) =
        List.zipWith (fun _ a => a) ps (List.zipWith (fun p a => distStep orient p a e) ps acc) := by
      apply List.ext_getElem?
      intro i
      simp only [List.getElem?_zipWith]
      cases ps[i]? <;> cases acc[i]? <;> rfl
    rw [h1, ih]
    apply List.ext_getElem?
    intro i
    simp only [List.getElem?_zipWith, List.foldl_cons]
    cases ps[i]? <;> cases acc[i]? <;> rfl

/-- **C93** several points: each has its own distance, as if it were alone. -/
theorem C93_vector (hull : List (ℝ × ℝ)) (orient : ℝ) (dims : List Nat) (x y : List ℝ) (h : x.length = y.length) :
    hullDistVec hull orient dims dims x y = .ok ((x.zip y).map (hullDist hull orient)) := by
  unfold hullDistVec
  rw [Res.check_pos rfl, Res.ok_bind]
  congr 1
  have e : List.replicate x.length ((⊤ : WithTop ℝ), true) = List.zipWith (fun _ a => a) (x.zip y) (List.replicate x.length (⊤, true)) := by
    apply List.ext_getElem?
    intro i
    rw [List.getElem?_zipWith]
    by_cases hi : i < x.length
    · have : i < (x.zip y).length := by rw [List.length_zip]; omega
      rw [List.getElem?_eq_getElem this]
      simp [hi]
    · rw [List.getElem?_eq_none (by simpa using hi), List.getElem?_eq_none (by rw [List.length_zip]; omega)]
  rw [e, foldl_zipWith]
  apply List.ext_getElem?
  intro i
  rw [List.getElem?_zipWith, List.getElem?_map]
  by_cases hi : i < x.length
  · have : i < (x.zip y).length := by rw [List.length_zip]; omega
    rw [List.getElem?_eq_getElem this, List.getElem?_replicate, if_pos hi]
    rfl
  · have : (x.zip y).length ≤ i := by rw [List.length_zip]; omega
    rw [List.getElem?_eq_none this]
    rfl

/-- **C93** different dimensions are refused -/
theorem C93_vector_refused (hull : List (ℝ × ℝ)) (orient : ℝ) (xdims ydims : List Nat) (x y : List ℝ) (h : xdims ≠ ydims) : hullDistVec hull orient xdims ydims x y = .abort := by
  unfold hullDistVec
  rw [Res.check_neg h]
  rfl

/-- not vacuous: two points -/
example : ([1, 2] : List ℝ).length = ([3, 4] : List ℝ).length := rfl

end Verif.Hull
