import Verif.Math.HullProps
import Mathlib.Analysis.Real.Sqrt
import Mathlib.Order.WithBot
/-!
# C93: signed distance to a convex hull
-/
namespace Verif.Hull
open Verif

/-- length of a vector -/
noncomputable def norm2 (d : ℝ × ℝ) : ℝ := √(d.1 * d.1 + d.2 * d.2)

/-- the data of one edge (`build_vectors`, `convex_hull.hpp:61-83`): unit vector, normal vector, length -/
noncomputable def edgeVec (orient : ℝ) (a b : ℝ × ℝ) : (ℝ × ℝ) × (ℝ × ℝ) × ℝ :=
  let nx := if orient = 1 then b.2 - a.2 else a.2 - b.2
  let ny := if orient = 1 then a.1 - b.1 else b.1 - a.1
  let l := norm2 (nx, ny)
  (((b.1 - a.1) / l, (b.2 - a.2) / l), (nx / l, ny / l), l)

/-- the body of the loop of `convex_hull_distance` (`convex_hull.hpp:210-238`). With an edge of zero length the vectors are NaN, the
comparisons are false and the edge is ignored. -/
noncomputable def distStep (orient : ℝ) (p : ℝ × ℝ) (acc : WithTop ℝ × Bool) (e : (ℝ × ℝ) × (ℝ × ℝ)) : WithTop ℝ × Bool :=
  let (u, n, l) := edgeVec orient e.1 e.2
  if l = 0 then acc else
  let dx := p.1 - e.1.1
  let dy := p.2 - e.1.2
  let d := dx * n.1 + dy * n.2
  let inh := if 0 < d then false else acc.2
  let d := |d|
  if ((d : ℝ) : WithTop ℝ) < acc.1 then
    let proj := dx * u.1 + dy * u.2
    let d := if proj < 0 then norm2 (dx, dy) else if l < proj then norm2 (p.1 - e.2.1, p.2 - e.2.2) else d
    (if ((d : ℝ) : WithTop ℝ) < acc.1 then ((d : ℝ) : WithTop ℝ) else acc.1, inh)
  else (acc.1, inh)

/-- `convex_hull_distance` (`convex_hull.hpp:198-246`) on a closed hull: the distance before the sign, and whether the point is inside; the
result is the distance, negated when the point is outside -/
noncomputable def hullDist (hull : List (ℝ × ℝ)) (orient : ℝ) (p : ℝ × ℝ) : WithTop ℝ × Bool :=
  (hull.zip hull.tail).foldl (distStep orient p) (⊤, true)

/-- points of a segment -/
noncomputable def segPt (a b : ℝ × ℝ) (t : ℝ) : ℝ × ℝ := (a.1 + t * (b.1 - a.1), a.2 + t * (b.2 - a.2))

/-- distance of two points -/
noncomputable def dist2 (p q : ℝ × ℝ) : ℝ := norm2 (p.1 - q.1, p.2 - q.2)

theorem norm2_nonneg (d : ℝ × ℝ) : 0 ≤ norm2 d := Real.sqrt_nonneg _

theorem norm2_sq (d : ℝ × ℝ) : norm2 d * norm2 d = d.1 * d.1 + d.2 * d.2 :=
  Real.mul_self_sqrt (add_nonneg (mul_self_nonneg _) (mul_self_nonneg _))

theorem norm2_le {d e : ℝ × ℝ} (h : d.1 * d.1 + d.2 * d.2 ≤ e.1 * e.1 + e.2 * e.2) : norm2 d ≤ norm2 e := Real.sqrt_le_sqrt h

/-- the candidate distance of an edge -/
noncomputable def segDist (a b p : ℝ × ℝ) : ℝ :=
  let l := norm2 (b.1 - a.1, b.2 - a.2)
  let proj := (p.1 - a.1) * ((b.1 - a.1) / l) + (p.2 - a.2) * ((b.2 - a.2) / l)
  if proj < 0 then dist2 p a else if l < proj then dist2 p b else |cross3 a b p| / l

theorem le_sqrt_of {x y : ℝ} (hy : 0 ≤ y) (h : x * x ≤ y) : x ≤ √y := by
  rcases le_total 0 x with hx | hx
  · rw [← Real.sqrt_mul_self hx]; exact Real.sqrt_le_sqrt h
  · exact hx.trans (Real.sqrt_nonneg _)

/-- the line is nearer than any of its points -/
theorem line_le {a b p : ℝ × ℝ} {l : ℝ} (hl : 0 < l) (hll : l * l = (b.1 - a.1) * (b.1 - a.1) + (b.2 - a.2) * (b.2 - a.2)) (t : ℝ) :
    |cross3 a b p| / l ≤ dist2 p (segPt a b t) := by
  refine le_sqrt_of (add_nonneg (mul_self_nonneg _) (mul_self_nonneg _)) ?_
  rw [div_mul_div_comm, abs_mul_abs_self, div_le_iff₀ (mul_pos hl hl), hll]
  simp only [segPt, cross3]
  have := mul_self_nonneg ((b.1 - a.1) * (p.1 - (a.1 + t * (b.1 - a.1))) + (b.2 - a.2) * (p.2 - (a.2 + t * (b.2 - a.2))))
  nlinarith [this]

theorem segDist_le {a b p : ℝ × ℝ} (hne : norm2 (b.1 - a.1, b.2 - a.2) ≠ 0) {t : ℝ} (h0 : 0 ≤ t) (h1 : t ≤ 1) :
    segDist a b p ≤ dist2 p (segPt a b t) := by
  have hl : 0 < norm2 (b.1 - a.1, b.2 - a.2) := lt_of_le_of_ne (norm2_nonneg _) (Ne.symm hne)
  have hll := norm2_sq (b.1 - a.1, b.2 - a.2)
  simp only at hll
  unfold segDist
  simp only
  generalize norm2 (b.1 - a.1, b.2 - a.2) = l at *
  have hproj : ((p.1 - a.1) * ((b.1 - a.1) / l) + (p.2 - a.2) * ((b.2 - a.2) / l)) * l = (p.1 - a.1) * (b.1 - a.1) + (p.2 - a.2) * (b.2 - a.2) := by
    field_simp
  split
  · rename_i hneg
    have hs : (p.1 - a.1) * (b.1 - a.1) + (p.2 - a.2) * (b.2 - a.2) < 0 := by
      rw [← hproj]; exact mul_neg_of_neg_of_pos hneg hl
    refine norm2_le ?_
    simp only [segPt]
    have k1 := mul_nonneg h0 (neg_nonneg.2 hs.le)
    have k2 := mul_nonneg (mul_nonneg h0 h0) (mul_self_nonneg l)
    rw [hll] at k2
    nlinarith [k1, k2]
  · split
    · rename_i hneg hgt
      have hs : l * l < (p.1 - a.1) * (b.1 - a.1) + (p.2 - a.2) * (b.2 - a.2) := by
        rw [← hproj]; exact mul_lt_mul_of_pos_right hgt hl
      rw [hll] at hs
      refine norm2_le ?_
      simp only [segPt]
      have k1 := mul_nonneg (sub_nonneg.2 h1) (sub_nonneg.2 hs.le)
      have k2 := mul_nonneg (mul_nonneg (sub_nonneg.2 h1) (sub_nonneg.2 h1)) (mul_self_nonneg l)
      rw [hll] at k2
      nlinarith [k1, k2]
    · exact line_le hl hll t

theorem segDist_attained {a b p : ℝ × ℝ} (hne : norm2 (b.1 - a.1, b.2 - a.2) ≠ 0) :
    ∃ t, 0 ≤ t ∧ t ≤ 1 ∧ segDist a b p = dist2 p (segPt a b t) := by
  have hl : 0 < norm2 (b.1 - a.1, b.2 - a.2) := lt_of_le_of_ne (norm2_nonneg _) (Ne.symm hne)
  have hll := norm2_sq (b.1 - a.1, b.2 - a.2)
  simp only at hll
  unfold segDist
  simp only
  generalize norm2 (b.1 - a.1, b.2 - a.2) = l at *
  split
  · exact ⟨0, le_rfl, zero_le_one, by simp [segPt]⟩
  · rename_i h0
    split
    · exact ⟨1, zero_le_one, le_rfl, by simp [segPt]⟩
    · rename_i h1
      set proj := (p.1 - a.1) * ((b.1 - a.1) / l) + (p.2 - a.2) * ((b.2 - a.2) / l) with hproj
      refine ⟨proj / l, div_nonneg (not_lt.1 h0) hl.le, (div_le_one hl).2 (not_lt.1 h1), ?_⟩
      have hp : proj * l = (p.1 - a.1) * (b.1 - a.1) + (p.2 - a.2) * (b.2 - a.2) := by rw [hproj]; field_simp
      have hsq : (|cross3 a b p| / l) * (|cross3 a b p| / l) =
          (p.1 - (segPt a b (proj / l)).1) * (p.1 - (segPt a b (proj / l)).1) + (p.2 - (segPt a b (proj / l)).2) * (p.2 - (segPt a b (proj / l)).2) := by
        rw [div_mul_div_comm, abs_mul_abs_self, div_eq_iff (mul_pos hl hl).ne']
        have hT : proj / l * (l * l) = (p.1 - a.1) * (b.1 - a.1) + (p.2 - a.2) * (b.2 - a.2) := by
          rw [← hp]; field_simp
        rw [hll] at hT ⊢
        generalize proj / l = T at hT ⊢
        simp only [segPt, cross3]
        linear_combination (-(T * ((b.1 - a.1) * (b.1 - a.1) + (b.2 - a.2) * (b.2 - a.2)) -
          ((p.1 - a.1) * (b.1 - a.1) + (p.2 - a.2) * (b.2 - a.2)))) * hT
      unfold dist2 norm2
      rw [← hsq, Real.sqrt_mul_self (div_nonneg (abs_nonneg _) hl.le)]

theorem edgeVec_spec {orient : ℝ} (ho : orient = 1 ∨ orient = -1) (a b : ℝ × ℝ) :
    edgeVec orient a b = (((b.1 - a.1) / norm2 (b.1 - a.1, b.2 - a.2), (b.2 - a.2) / norm2 (b.1 - a.1, b.2 - a.2)),
      (orient * (b.2 - a.2) / norm2 (b.1 - a.1, b.2 - a.2), orient * (a.1 - b.1) / norm2 (b.1 - a.1, b.2 - a.2)),
      norm2 (b.1 - a.1, b.2 - a.2)) := by
  rcases ho with rfl | rfl
  · have e : norm2 (b.2 - a.2, a.1 - b.1) = norm2 (b.1 - a.1, b.2 - a.2) := by
      unfold norm2; congr 1; simp only; ring
    simp [edgeVec, e]
  · have hne : (-1 : ℝ) ≠ 1 := by norm_num
    have e : norm2 (a.2 - b.2, b.1 - a.1) = norm2 (b.1 - a.1, b.2 - a.2) := by
      unfold norm2; congr 1; simp only; ring
    simp [edgeVec, hne, e]

/-- one step keeps the smaller distance -/
theorem distStep_spec {orient : ℝ} (ho : orient = 1 ∨ orient = -1) (p : ℝ × ℝ) (acc : WithTop ℝ × Bool) (a b : ℝ × ℝ) :
    distStep orient p acc (a, b) = if norm2 (b.1 - a.1, b.2 - a.2) = 0 then acc else
      (min acc.1 ((segDist a b p : ℝ) : WithTop ℝ), acc.2 && !decide (cross3 a b p * orient < 0)) := by
  unfold distStep
  rw [edgeVec_spec ho]
  simp only
  by_cases h0 : norm2 (b.1 - a.1, b.2 - a.2) = 0
  · rw [if_pos h0, if_pos h0]
  rw [if_neg h0, if_neg h0]
  have hl : 0 < norm2 (b.1 - a.1, b.2 - a.2) := lt_of_le_of_ne (norm2_nonneg _) (Ne.symm h0)
  have hll := norm2_sq (b.1 - a.1, b.2 - a.2)
  simp only at hll
  have hseg : ∀ t, |cross3 a b p| / norm2 (b.1 - a.1, b.2 - a.2) ≤ dist2 p (segPt a b t) := fun t => line_le hl hll t
  obtain ⟨t, _, _, hatt⟩ := segDist_attained (p := p) h0
  have hle : |cross3 a b p| / norm2 (b.1 - a.1, b.2 - a.2) ≤ segDist a b p := by rw [hatt]; exact hseg t
  have hd : (p.1 - a.1) * (orient * (b.2 - a.2) / norm2 (b.1 - a.1, b.2 - a.2)) +
      (p.2 - a.2) * (orient * (a.1 - b.1) / norm2 (b.1 - a.1, b.2 - a.2)) = - (cross3 a b p * orient) / norm2 (b.1 - a.1, b.2 - a.2) := by
    simp only [cross3]; field_simp; ring
  rw [hd]
  have habs : |-(cross3 a b p * orient) / norm2 (b.1 - a.1, b.2 - a.2)| = |cross3 a b p| / norm2 (b.1 - a.1, b.2 - a.2) := by
    rw [abs_div, abs_neg, abs_mul, abs_of_pos hl]
    rcases ho with rfl | rfl <;> simp
  rw [habs]
  have hin : (if 0 < -(cross3 a b p * orient) / norm2 (b.1 - a.1, b.2 - a.2) then false else acc.2) =
      (acc.2 && !decide (cross3 a b p * orient < 0)) := by
    by_cases h : cross3 a b p * orient < 0
    · rw [if_pos (div_pos (by linarith) hl)]; simp [h]
    · rw [if_neg (not_lt.2 (div_nonpos_of_nonpos_of_nonneg (by linarith [not_lt.1 h]) hl.le))]; simp [h]
  rw [hin]
  have hseg2 : (if (p.1 - a.1) * ((b.1 - a.1) / norm2 (b.1 - a.1, b.2 - a.2)) + (p.2 - a.2) * ((b.2 - a.2) / norm2 (b.1 - a.1, b.2 - a.2)) < 0 then
      norm2 (p.1 - a.1, p.2 - a.2) else if norm2 (b.1 - a.1, b.2 - a.2) < (p.1 - a.1) * ((b.1 - a.1) / norm2 (b.1 - a.1, b.2 - a.2)) +
        (p.2 - a.2) * ((b.2 - a.2) / norm2 (b.1 - a.1, b.2 - a.2)) then norm2 (p.1 - b.1, p.2 - b.2) else
        |cross3 a b p| / norm2 (b.1 - a.1, b.2 - a.2)) = segDist a b p := rfl
  rw [hseg2]
  split
  · refine Prod.ext ?_ rfl
    show (if _ then _ else _) = _
    split
    · rename_i h; exact (min_eq_right h.le).symm
    · rename_i h; exact (min_eq_left (not_lt.1 h)).symm
  · rename_i h
    refine Prod.ext ?_ rfl
    exact (min_eq_left ((not_lt.1 h).trans (WithTop.coe_le_coe.2 hle))).symm

/-- the edges that count -/
theorem fold_spec {orient : ℝ} (ho : orient = 1 ∨ orient = -1) (p : ℝ × ℝ) : ∀ (es : List ((ℝ × ℝ) × (ℝ × ℝ))) (acc : WithTop ℝ × Bool),
    (∀ e ∈ es, e.1 ≠ e.2) →
    es.foldl (distStep orient p) acc = (es.foldl (fun m e => min m ((segDist e.1 e.2 p : ℝ) : WithTop ℝ)) acc.1,
      acc.2 && es.all fun e => !decide (cross3 e.1 e.2 p * orient < 0))
  | [], acc, _ => by simp
  | e :: es, acc, h => by
    have hne : norm2 (e.2.1 - e.1.1, e.2.2 - e.1.2) ≠ 0 := by
      intro h0
      have := norm2_sq (e.2.1 - e.1.1, e.2.2 - e.1.2)
      rw [h0] at this
      simp only [mul_zero] at this
      have h1 := mul_self_nonneg (e.2.1 - e.1.1)
      have h2 := mul_self_nonneg (e.2.2 - e.1.2)
      have h3 : (e.2.1 - e.1.1) * (e.2.1 - e.1.1) = 0 := by linarith
      have h4 : (e.2.2 - e.1.2) * (e.2.2 - e.1.2) = 0 := by linarith
      exact h e (by simp) (Prod.ext (by linarith [mul_self_eq_zero.1 h3]) (by linarith [mul_self_eq_zero.1 h4]))
    rw [List.foldl_cons, show e = (e.1, e.2) from rfl, distStep_spec ho, if_neg hne, fold_spec ho p es _ fun e he => h e (by simp [he])]
    simp [List.all_cons, Bool.and_assoc]

theorem minfold_le (f : (ℝ × ℝ) × (ℝ × ℝ) → ℝ) : ∀ (es : List ((ℝ × ℝ) × (ℝ × ℝ))) (m : WithTop ℝ),
    es.foldl (fun m e => min m ((f e : ℝ) : WithTop ℝ)) m ≤ m ∧
    (∀ e ∈ es, es.foldl (fun m e => min m ((f e : ℝ) : WithTop ℝ)) m ≤ ((f e : ℝ) : WithTop ℝ)) ∧
    (es.foldl (fun m e => min m ((f e : ℝ) : WithTop ℝ)) m = m ∨ ∃ e ∈ es, es.foldl (fun m e => min m ((f e : ℝ) : WithTop ℝ)) m = ((f e : ℝ) : WithTop ℝ))
  | [], m => by simp
  | e :: es, m => by
    obtain ⟨h1, h2, h3⟩ := minfold_le f es (min m ((f e : ℝ) : WithTop ℝ))
    rw [List.foldl_cons]
    refine ⟨h1.trans (min_le_left _ _), ?_, ?_⟩
    · intro x hx
      rcases List.mem_cons.1 hx with rfl | hx
      · exact h1.trans (min_le_right _ _)
      · exact h2 x hx
    · rcases h3 with h3 | ⟨x, hx, h3⟩
      · rw [h3]
        rcases min_choice m ((f e : ℝ) : WithTop ℝ) with h | h
        · exact .inl h
        · exact .inr ⟨e, by simp, h⟩
      · exact .inr ⟨x, by simp [hx], h3⟩

/-- **C93**: on a hull of at least one edge, none of zero length, `convex_hull_distance` is the distance of the point to the boundary: no
point of the boundary is nearer and one is at this distance; and the sign is negative exactly when `in_convex_hull` is false -/
theorem C93_distance_partial {hull : List (ℝ × ℝ)} {orient : ℝ} (ho : orient = 1 ∨ orient = -1) (h2 : 2 ≤ hull.length)
    (hne : ∀ e ∈ hull.zip hull.tail, e.1 ≠ e.2) (p : ℝ × ℝ) :
    ∃ d : ℝ, hullDist hull orient p = ((d : WithTop ℝ), inHull hull orient p) ∧
      (∀ e ∈ hull.zip hull.tail, ∀ t : ℝ, 0 ≤ t → t ≤ 1 → d ≤ dist2 p (segPt e.1 e.2 t)) ∧
      ∃ e ∈ hull.zip hull.tail, ∃ t : ℝ, 0 ≤ t ∧ t ≤ 1 ∧ d = dist2 p (segPt e.1 e.2 t) := by
  have hn0 : ∀ e ∈ hull.zip hull.tail, norm2 (e.2.1 - e.1.1, e.2.2 - e.1.2) ≠ 0 := by
    intro e he h0
    have := norm2_sq (e.2.1 - e.1.1, e.2.2 - e.1.2)
    rw [h0] at this
    simp only [mul_zero] at this
    have h1 := mul_self_nonneg (e.2.1 - e.1.1)
    have h2 := mul_self_nonneg (e.2.2 - e.1.2)
    have h3 : (e.2.1 - e.1.1) * (e.2.1 - e.1.1) = 0 := by linarith
    have h4 : (e.2.2 - e.1.2) * (e.2.2 - e.1.2) = 0 := by linarith
    exact hne e he (Prod.ext (by linarith [mul_self_eq_zero.1 h3]) (by linarith [mul_self_eq_zero.1 h4]))
  have hf := fold_spec ho p (hull.zip hull.tail) (⊤, true) hne
  obtain ⟨-, m2, m3⟩ := minfold_le (fun e => segDist e.1 e.2 p) (hull.zip hull.tail) ⊤
  obtain ⟨e0, he0⟩ : ∃ e, e ∈ hull.zip hull.tail := by
    match hull, h2 with
    | a :: b :: t, _ => exact ⟨(a, b), by simp⟩
  have hex : ∃ e ∈ hull.zip hull.tail, (hull.zip hull.tail).foldl (fun m e => min m ((segDist e.1 e.2 p : ℝ) : WithTop ℝ)) ⊤ =
      ((segDist e.1 e.2 p : ℝ) : WithTop ℝ) := by
    rcases m3 with m3 | m3
    · exfalso
      have := m2 e0 he0
      rw [m3] at this
      exact absurd this (WithTop.coe_lt_top _).not_ge
    · exact m3
  obtain ⟨e, he, hval⟩ := hex
  refine ⟨segDist e.1 e.2 p, ?_, ?_, ?_⟩
  · unfold hullDist
    rw [hf, hval]
    simp [inHull]
  · intro e' he' t h0 h1
    have := m2 e' he'
    rw [hval] at this
    exact (WithTop.coe_le_coe.1 this).trans (segDist_le (hn0 e' he') h0 h1)
  · obtain ⟨t, h0, h1, h⟩ := segDist_attained (p := p) (hn0 e he)
    exact ⟨e, he, t, h0, h1, h⟩

/-- a triangle satisfies the hypotheses -/
example : ∀ e ∈ ([(0, 0), (1, 0), (0, 1), (0, 0)] : List (ℝ × ℝ)).zip ([(0, 0), (1, 0), (0, 1), (0, 0)] : List (ℝ × ℝ)).tail, e.1 ≠ e.2 := by
  simp

/-- **C93**: the hull of points not on a line has no edge of zero length -/
theorem C93_built {pts : List (ℝ × ℝ)} {ids : List Nat} (hs : Sorted pts ids) (hn : ¬ Collinear pts) {H : List Nat}
    (hH : build pts ids = .ok H) : ∀ e ∈ (H.map (ptOf pts)).zip (H.map (ptOf pts)).tail, e.1 ≠ e.2 := by
  obtain ⟨h4, ht⟩ := C33_turns hs hn hH
  intro e he heq
  obtain ⟨i, hi, rfl⟩ := List.mem_iff_getElem.1 he
  simp only [List.length_zip, List.length_map, List.length_tail] at hi
  have hi' : i + 1 < H.length := by omega
  obtain ⟨c, hc⟩ : ∃ c, (H ++ H.tail.take 1)[i + 2]? = some c := by
    refine ⟨_, List.getElem?_eq_getElem ?_⟩
    simp; omega
  have ha : (H ++ H.tail.take 1)[i]? = some (H[i]'(by omega)) := by
    rw [List.getElem?_append_left (by omega), List.getElem?_eq_getElem]
  have hb : (H ++ H.tail.take 1)[i + 1]? = some (H[i + 1]) := by
    rw [List.getElem?_append_left (by omega), List.getElem?_eq_getElem]
  have := ht i _ _ c ha hb hc
  simp at heq
  rw [heq] at this
  simp [cross3] at this

/-- **C93** refuted for coincident points: the distance is infinite, and it is positive as if the point were inside -/
theorem C93_point_refuted : ∃ H, build ([(0, 0), (0, 0)] : List (ℝ × ℝ)) [0, 1] = .ok H ∧ Sorted ([(0, 0), (0, 0)] : List (ℝ × ℝ)) [0, 1] ∧
    hullDist (H.map (ptOf ([(0, 0), (0, 0)] : List (ℝ × ℝ)))) 1 (1, 0) = (⊤, true) := by
  refine ⟨[0, 1, 0], ?_, ⟨by decide, by simp [ptLess]⟩, ?_⟩
  · simp [build, addPoint, popLoop, Res.ok_bind, Res.pure_def]
  · simp [hullDist, ptOf, distStep, edgeVec, norm2]

end Verif.Hull
