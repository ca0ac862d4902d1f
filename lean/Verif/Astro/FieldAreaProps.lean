import Verif.Astro.FieldArea
import Verif.Astro.CoordProps
import Mathlib.Tactic.LinearCombination
import Mathlib.Algebra.BigOperators.Intervals
import Mathlib.Analysis.Real.Pi.Bounds
/-!
# C173: area of a field from its convex hull
-/
namespace Verif.Astro
open Verif Verif.Coord Real InnerProductGeometry Finset

/-- Spec: the area of the triangle of three points of the plane -/
noncomputable def triArea (a b c : ℝ × ℝ) : ℝ := |(b.1 - a.1) * (c.2 - a.2) - (b.2 - a.2) * (c.1 - a.1)| / 2

/-- Spec: the distance of two points of the plane -/
noncomputable def planeDist (a b : ℝ × ℝ) : ℝ := sqrt ((a.1 - b.1) ^ 2 + (a.2 - b.2) ^ 2)

/-- Spec: the angular distance in degrees of two positions in degrees -/
noncomputable def degDist (p q : ℝ × ℝ) : ℝ := angdist p.1 p.2 q.1 q.2 / 3600

/-- Spec: `A` is the area of a flat triangle whose sides have the lengths of the sides of the triangle
of the positions `o`, `a`, `b` on the sky -/
def FlatArea (o a b : ℝ × ℝ) (A : ℝ) : Prop :=
  ∃ P Q R : ℝ × ℝ, planeDist P Q = degDist o a ∧ planeDist Q R = degDist a b ∧ planeDist R P = degDist b o ∧
    A = triArea P Q R

/-- the formula of Heron, for lengths that satisfy the triangle inequalities -/
theorem heron_plane {a b c : ℝ} (ha : 0 ≤ a) (hb : 0 ≤ b) (hc : 0 ≤ c) (h1 : a ≤ b + c) (h2 : b ≤ a + c) (h3 : c ≤ a + b) :
    0 ≤ (0.5 * (a + b + c)) * (0.5 * (a + b + c) - a) * (0.5 * (a + b + c) - b) * (0.5 * (a + b + c) - c) ∧
    ∃ P Q R : ℝ × ℝ, planeDist P Q = a ∧ planeDist Q R = b ∧ planeDist R P = c ∧
      sqrt ((0.5 * (a + b + c)) * (0.5 * (a + b + c) - a) * (0.5 * (a + b + c) - b) * (0.5 * (a + b + c) - c)) = triArea P Q R := by
  have hpos : 0 ≤ (0.5 * (a + b + c)) * (0.5 * (a + b + c) - a) * (0.5 * (a + b + c) - b) * (0.5 * (a + b + c) - c) := by
    apply mul_nonneg
    · apply mul_nonneg
      · apply mul_nonneg <;> linarith
      · linarith
    · linarith
  refine ⟨hpos, ?_⟩
  rcases eq_or_lt_of_le ha with h0 | h0
  · subst h0
    have : b = c := by linarith
    subst this
    refine ⟨(0, 0), (0, 0), (b, 0), by simp [planeDist], ?_, ?_, ?_⟩
    · simp [planeDist, sqrt_sq_eq_abs, abs_of_nonneg hb]
    · simp [planeDist, sqrt_sq_eq_abs, abs_of_nonneg hb]
    · rw [show (0.5 * (0 + b + b)) * (0.5 * (0 + b + b) - 0) * (0.5 * (0 + b + b) - b) * (0.5 * (0 + b + b) - b) = 0 by ring]
      simp [triArea]
  · set x := (a ^ 2 + c ^ 2 - b ^ 2) / (2 * a) with hx
    have hxa : 2 * a * x = a ^ 2 + c ^ 2 - b ^ 2 := by rw [hx]; field_simp
    have hy : 4 * a ^ 2 * (c ^ 2 - x ^ 2) = 16 * ((0.5 * (a + b + c)) * (0.5 * (a + b + c) - a) * (0.5 * (a + b + c) - b) * (0.5 * (a + b + c) - c)) := by
      have : 4 * a ^ 2 * (c ^ 2 - x ^ 2) = 4 * a ^ 2 * c ^ 2 - (2 * a * x) ^ 2 := by ring
      rw [this, hxa]; ring
    have hy0 : 0 ≤ c ^ 2 - x ^ 2 := by
      have h4 : 0 < 4 * a ^ 2 := by positivity
      by_contra hn
      have : 4 * a ^ 2 * (c ^ 2 - x ^ 2) < 0 := mul_neg_of_pos_of_neg h4 (not_le.1 hn)
      linarith
    refine ⟨(0, 0), (a, 0), (x, sqrt (c ^ 2 - x ^ 2)), ?_, ?_, ?_, ?_⟩
    · simp [planeDist, sqrt_sq_eq_abs, abs_of_nonneg ha]
    · rw [planeDist]
      simp only [zero_sub, neg_sq, sq_sqrt hy0]
      rw [show (a - x) ^ 2 + (c ^ 2 - x ^ 2) = b ^ 2 by linear_combination -hxa, sqrt_sq hb]
    · rw [planeDist]
      simp only [sub_zero, sq_sqrt hy0]
      rw [show x ^ 2 + (c ^ 2 - x ^ 2) = c ^ 2 by ring, sqrt_sq hc]
    · rw [triArea]
      simp only [sub_zero, zero_mul]
      rw [abs_of_nonneg (mul_nonneg ha (sqrt_nonneg _)), ← sqrt_sq ha, ← sqrt_mul (sq_nonneg a), sqrt_sq ha]
      rw [sqrt_eq_iff_mul_self_eq hpos (by positivity)]
      have := mul_self_sqrt (mul_nonneg (sq_nonneg a) hy0)
      linear_combination -(1 / 4) * this - (1 / 16) * hy

theorem degDist_angle (p q : ℝ × ℝ) : degDist p q = angle (sky p.1 p.2) (sky q.1 q.2) / d2r := by
  rw [degDist, C97_great_circle, d2r]
  have := pi_ne_zero
  field_simp

theorem angdistr_deg (p q : ℝ × ℝ) : angdistr (p.1 * d2r) (p.2 * d2r) (q.1 * d2r) (q.2 * d2r) = degDist p q * d2r := by
  have := pi_ne_zero
  have hd : d2r ≠ 0 := by unfold d2r; positivity
  rw [degDist_angle, ← C97_radian p.1 p.2 q.1 q.2, div_mul_cancel₀ _ hd]
  simp only [mul_comm]

theorem degDist_nonneg (p q : ℝ × ℝ) : 0 ≤ degDist p q := by
  have := (C97_range p.1 p.2 q.1 q.2).1
  rw [degDist]; positivity

theorem degDist_comm (p q : ℝ × ℝ) : degDist p q = degDist q p := by
  rw [degDist, degDist, C97_symm]

theorem degDist_triangle (p q r : ℝ × ℝ) : degDist p r ≤ degDist p q + degDist q r := by
  have := C97_triangle p.1 p.2 q.1 q.2 r.1 r.2
  rw [degDist, degDist, degDist]; linarith

/-- vertex in radian -/
noncomputable def rad (p : ℝ × ℝ) : ℝ × ℝ := (p.1 * d2r, p.2 * d2r)

theorem heron_spec (o a b : ℝ × ℝ) : ∃ A, FlatArea o a b A ∧ heron (rad o) (rad a) (rad b) = some (A * (d2r * d2r)) := by
  have hd : 0 < d2r := by unfold d2r; have := pi_pos; positivity
  obtain ⟨h0, P, Q, R, h1, h2, h3, h4⟩ := heron_plane (degDist_nonneg o a) (degDist_nonneg a b) (degDist_nonneg b o)
    (by have := degDist_triangle o b a; rw [degDist_comm o b, degDist_comm b a] at this; linarith)
    (by have := degDist_triangle a o b; rw [degDist_comm a o, degDist_comm o b] at this; linarith)
    (by have := degDist_triangle b a o; rw [degDist_comm b a, degDist_comm a o] at this; linarith)
  refine ⟨triArea P Q R, ⟨P, Q, R, h1, h2, h3, rfl⟩, ?_⟩
  unfold heron rad
  simp only [angdistr_deg]
  rw [← h4]
  set e1 := degDist o a
  set e2 := degDist a b
  set e3 := degDist b o
  have e : 0.5 * (e1 * d2r + e2 * d2r + e3 * d2r) * (0.5 * (e1 * d2r + e2 * d2r + e3 * d2r) - e1 * d2r) *
      (0.5 * (e1 * d2r + e2 * d2r + e3 * d2r) - e2 * d2r) * (0.5 * (e1 * d2r + e2 * d2r + e3 * d2r) - e3 * d2r) =
      (0.5 * (e1 + e2 + e3)) * (0.5 * (e1 + e2 + e3) - e1) * (0.5 * (e1 + e2 + e3) - e2) * (0.5 * (e1 + e2 + e3) - e3) * (d2r * d2r) ^ 2 := by
    ring
  rw [e, sqrtF, if_pos (mul_nonneg h0 (sq_nonneg _)), sqrt_mul h0, sqrt_sq (by positivity)]

/-- Spec: `A` is the sum of the flat areas of the triangles of vertex 0 with vertices `i` and `i+1` -/
def IsFan (h : List (ℝ × ℝ)) (A : ℝ) : Prop :=
  ∃ T : Nat → ℝ, (∀ i, 1 ≤ i → i + 1 < h.length → FlatArea (h.getD 0 (0, 0)) (h.getD i (0, 0)) (h.getD (i + 1) (0, 0)) (T i)) ∧
    A = ∑ i ∈ Finset.Ico 1 (h.length - 1), T i

theorem validate_closed {eps : ℝ} {h : List (ℝ × ℝ)} (h3 : 3 ≤ h.length) (he : 0 < eps)
    (hc : h.getLast? = h.head?) : ∃ o, Hull.validate eps h = .ok (true, o) := by
  match h, h3, hc with
  | a :: b :: c :: t, _, hc =>
    refine ⟨if 0 < (b.1 - a.1) * (c.2 - b.2) - (b.2 - a.2) * (c.1 - b.1) then 1 else -1, ?_⟩
    unfold Hull.validate
    simp only
    have : (c :: t).getLastD c = a := by
      have e : (a :: b :: c :: t).getLast? = some ((c :: t).getLastD c) := by
        simp [List.getLast?_cons_cons, List.getLast?_cons]
      rw [hc] at e
      simpa using e.symm
    rw [this]
    simp [he]

/-- **C173.** For a closed hull of at least three vertices `field_area_hull` gives a number (not NaN, for
any positions on the sky), the sum over the fan of triangles from the first vertex of the areas of flat
triangles with the same sides, in square degrees. What is missing: for large fields this is not the area
on the sphere, see `C173_refuted`. -/
theorem C173_fan_partial (eps : ℝ) (he : 0 < eps) (h : List (ℝ × ℝ)) (h3 : 3 ≤ h.length) (hc : h.getLast? = h.head?) :
    ∃ A, fieldAreaHull eps h = .ok (some A) ∧ IsFan h A ∧ 0 ≤ A := by
  have hd : 0 < d2r := by unfold d2r; have := pi_pos; positivity
  obtain ⟨o, ho⟩ := validate_closed h3 he hc
  choose T hT1 hT2 using fun i : Nat => heron_spec (h.getD 0 (0, 0)) (h.getD i (0, 0)) (h.getD (i + 1) (0, 0))
  have loop : ∀ m, m ≤ h.length - 2 → (List.range' 2 m).foldlM (fun (area : Option ℝ) (i : Nat) => do
      let o ← Res.rd (h.map fun q : ℝ × ℝ => (q.1 * d2r, q.2 * d2r)) 0
      let a ← Res.rd (h.map fun q : ℝ × ℝ => (q.1 * d2r, q.2 * d2r)) (i - 1)
      let b ← Res.rd (h.map fun q : ℝ × ℝ => (q.1 * d2r, q.2 * d2r)) i
      pure (addF area (heron o a b))) (some 0) = (Res.ok (some ((∑ i ∈ Finset.Ico 1 (m + 1), T i) * (d2r * d2r))) : Res (Option ℝ)) := by
    intro m
    induction m with
    | zero => intro _; simp
    | succ m ih =>
      intro hm
      rw [List.range'_1_concat, List.foldlM_append, ih (by omega), Res.ok_bind, List.foldlM_cons]
      have rd : ∀ j, j < h.length → Res.rd (h.map fun q : ℝ × ℝ => (q.1 * d2r, q.2 * d2r)) j = .ok (rad (h.getD j (0, 0))) := by
        intro j hj
        rw [Res.rd_lt (by simpa using hj)]
        simp [rad, hj]
      rw [rd 0 (by omega), Res.ok_bind, rd (2 + m - 1) (by omega), Res.ok_bind, rd (2 + m) (by omega), Res.ok_bind]
      have e := hT2 (m + 1)
      rw [show m + 1 + 1 = 2 + m by omega] at e
      rw [show 2 + m - 1 = m + 1 by omega, e]
      rw [Finset.sum_Ico_succ_top (show 1 ≤ m + 1 by omega) T]
      simp only [addF, Option.bind_eq_bind, Option.bind_some, List.foldlM_nil]
      rw [← add_mul]; rfl
  refine ⟨∑ i ∈ Finset.Ico 1 (h.length - 2 + 1), T i, ?_, ⟨T, ?_, ?_⟩, ?_⟩
  · unfold fieldAreaHull
    rw [ho, Res.ok_bind, Res.check_pos rfl, Res.ok_bind]
    simp only
    rw [loop _ le_rfl, Res.ok_bind]
    simp only [Option.map_some]
    rw [mul_div_cancel_right₀ _ (by positivity)]
  · intro i _ _; exact hT1 i
  · rw [show h.length - 2 + 1 = h.length - 1 by omega]
  · apply Finset.sum_nonneg
    intro i _
    obtain ⟨P, Q, R, -, -, -, e⟩ := hT1 i
    rw [e, triArea]; positivity

/-- **C173 (refused).** A hull that is not closed, or of fewer than three vertices, is refused. -/
theorem C173_refused (eps : ℝ) (h : List (ℝ × ℝ)) :
    (h.length < 3 → fieldAreaHull eps h = .abort) ∧
    (∀ a b, h.head? = some a → h.getLast? = some b → (eps ≤ |a.1 - b.1| ∨ eps ≤ |a.2 - b.2|) → fieldAreaHull eps h = .abort) := by
  constructor
  · intro hl
    match h, hl with
    | [], _ => rfl
    | [a], _ => rfl
    | [a, b], _ => rfl
  · intro a z h1 h2 h3
    match h, h1, h2 with
    | [b], _, _ => rfl
    | [b, c], _, _ => rfl
    | a' :: b :: c :: t, h1, h2 =>
      have e1 : a' = a := by simpa using h1
      subst e1
      have e2 : (c :: t).getLastD c = z := by
        have e : (a' :: b :: c :: t).getLast? = some ((c :: t).getLastD c) := by
          simp [List.getLast?_cons_cons, List.getLast?_cons]
        rw [h2] at e
        exact (Option.some.inj e).symm
      unfold fieldAreaHull Hull.validate
      simp only [Res.ok_bind, e2]
      rw [Res.check_neg]
      · rfl
      · simp only [decide_eq_true_eq, not_and_or, not_lt]; exact h3

theorem foldlM_congr_mem {σ β : Type} (l : List β) (f g : σ → β → Res σ) (h : ∀ s, ∀ i ∈ l, f s i = g s i) (s : σ) :
    l.foldlM f s = l.foldlM g s := by
  induction l generalizing s with
  | nil => rfl
  | cons b l ih =>
    rw [List.foldlM_cons, List.foldlM_cons, h s b (by simp)]
    congr 1
    funext t
    exact ih (fun s i hi => h s i (by simp [hi])) t

/-- **C173 (rotation of the sky).** The area depends on the distances between the vertices only: moving
all the vertices without changing the distances on the sky does not change it. -/
theorem C173_rotation (eps : ℝ) (he : 0 < eps) (h h' : List (ℝ × ℝ)) (h3 : 3 ≤ h.length) (hl : h'.length = h.length)
    (hc : h.getLast? = h.head?) (hc' : h'.getLast? = h'.head?)
    (hd : ∀ i j, i < h.length → j < h.length → degDist (h'.getD i (0, 0)) (h'.getD j (0, 0)) = degDist (h.getD i (0, 0)) (h.getD j (0, 0))) :
    fieldAreaHull eps h' = fieldAreaHull eps h := by
  obtain ⟨o, ho⟩ := validate_closed h3 he hc
  obtain ⟨o', ho'⟩ := validate_closed (by omega) he hc'
  unfold fieldAreaHull
  rw [ho, ho', Res.ok_bind, Res.ok_bind, Res.check_pos rfl, Res.ok_bind]
  simp only [hl]
  have rd : ∀ (l : List (ℝ × ℝ)) j, j < l.length → Res.rd (l.map fun q => (q.1 * d2r, q.2 * d2r)) j = .ok (rad (l.getD j (0, 0))) := by
    intro l j hj
    rw [Res.rd_lt (by simpa using hj)]
    simp [rad, hj]
  congr 1
  apply foldlM_congr_mem
  intro s i hi
  rw [List.mem_range'_1] at hi
  have e : heron (rad (h'.getD 0 (0, 0))) (rad (h'.getD (i - 1) (0, 0))) (rad (h'.getD i (0, 0))) =
      heron (rad (h.getD 0 (0, 0))) (rad (h.getD (i - 1) (0, 0))) (rad (h.getD i (0, 0))) := by
    unfold heron rad
    simp only [angdistr_deg]
    rw [hd 0 (i - 1) (by omega) (by omega), hd (i - 1) i (by omega) (by omega), hd i 0 (by omega) (by omega)]
  rw [rd h' 0 (by omega), rd h' (i - 1) (by omega), rd h' i (by omega), rd h 0 (by omega), rd h (i - 1) (by omega), rd h i (by omega)]
  simp only [Res.ok_bind]
  rw [e]

/-- moving a field along the right ascension, across 0 as well, does not change its area -/
theorem C173_shift (eps : ℝ) (he : 0 < eps) (h : List (ℝ × ℝ)) (h3 : 3 ≤ h.length) (hc : h.getLast? = h.head?) (c : ℝ) :
    fieldAreaHull eps (h.map fun p => (p.1 + c, p.2)) = fieldAreaHull eps h := by
  apply C173_rotation eps he h _ h3 (by simp) hc
  · simp [hc]
  · intro i j hi hj
    have e : ∀ k, k < h.length → (h.map fun p => (p.1 + c, p.2)).getD k (0, 0) = ((h.getD k (0, 0)).1 + c, (h.getD k (0, 0)).2) := by
      intro k hk; simp [hk]
    rw [e i hi, e j hj, degDist, degDist, angdist, angdist]
    simp only [hav]
    have e2 : ∀ a b : ℝ, d2r * (a + c) - d2r * (b + c) = d2r * a - d2r * b := fun a b => by ring
    rw [e2]

theorem degDist_equator {a b : ℝ} (h : |b - a| ≤ 180) : degDist (a, 0) (b, 0) = |b - a| := by
  rw [degDist, C97_equator h]; ring

theorem degDist_meridian {d e : ℝ} (a : ℝ) (h : |e - d| ≤ 180) : degDist (a, d) (a, e) = |e - d| := by
  rw [degDist, C97_meridian a h]; ring

theorem degDist_octant : degDist (90, 0) (0, 90) = 90 := by
  rw [degDist_angle]
  have : inner ℝ (sky 90 0) (sky 0 90) = 0 := by
    rw [sky_inner]
    rw [show (90 : ℝ) * (π / 180) = π / 2 by ring]
    simp
  rw [(inner_eq_zero_iff_angle_eq_pi_div_two _ _).1 this, d2r]
  have := pi_ne_zero
  field_simp
  norm_num

/-- **C173 (refuted).** One eighth of the sphere, between the points (0,0), (90,0) and the pole, has an area of
`16200/π` (more than 5100) square degrees; the result is less than 3600. -/
theorem C173_refuted (eps : ℝ) (he : 0 < eps) : ∃ A, fieldAreaHull eps [(0, 0), (90, 0), (0, 90), (0, 0)] = .ok (some A) ∧
    A < 3600 ∧ 5100 < 4 * π * (180 / π) ^ 2 / 8 := by
  obtain ⟨A, h1, ⟨T, hT, hA⟩, -⟩ := C173_fan_partial eps he [(0, 0), (90, 0), (0, 90), (0, 0)] (by simp) rfl
  refine ⟨A, h1, ?_, ?_⟩
  · have hsum : A = T 1 + T 2 := by
      rw [hA]
      simp [Finset.sum_Ico_succ_top]
    obtain ⟨P, Q, R, p1, p2, p3, e1⟩ := hT 1 (by simp) (by simp)
    obtain ⟨P', Q', R', q1, q2, q3, e2⟩ := hT 2 (by simp) (by simp)
    simp only [List.getD_cons_zero, List.getD_cons_succ] at p1 p2 p3 q1 q2 q3
    rw [degDist_equator (by norm_num), abs_of_nonneg (by norm_num)] at p1
    rw [degDist_octant] at p2
    rw [degDist_meridian _ (by norm_num), abs_of_nonpos (by norm_num)] at p3
    rw [degDist_meridian _ (by norm_num), abs_of_nonneg (by norm_num)] at q1
    rw [degDist_meridian _ (by norm_num), abs_of_nonpos (by norm_num)] at q2
    rw [degDist_equator (by norm_num), abs_of_nonneg (by norm_num)] at q3
    have sq : ∀ {X Y : ℝ × ℝ} {d : ℝ}, planeDist X Y = d → (X.1 - Y.1) ^ 2 + (X.2 - Y.2) ^ 2 = d ^ 2 := by
      intro X Y d h
      rw [← h, planeDist, sq_sqrt (by positivity)]
    have s1 := sq p1
    have s2 := sq p2
    have s3 := sq p3
    have s4 := sq q3
    norm_num at s4
    -- the second triangle is degenerate
    have z1 : R'.1 = P'.1 := by
      have h1 := sq_nonneg (R'.1 - P'.1)
      have h2 := sq_nonneg (R'.2 - P'.2)
      have : (R'.1 - P'.1) ^ 2 = 0 := by linarith
      have := pow_eq_zero_iff (two_ne_zero) |>.1 this
      linarith
    have z2 : R'.2 = P'.2 := by
      have h1 := sq_nonneg (R'.1 - P'.1)
      have h2 := sq_nonneg (R'.2 - P'.2)
      have : (R'.2 - P'.2) ^ 2 = 0 := by linarith
      have := pow_eq_zero_iff (two_ne_zero) |>.1 this
      linarith
    have t2 : T 2 = 0 := by rw [e2, triArea, z1, z2]; simp
    have t1 : T 1 < 3600 := by
      rw [e1, triArea]
      set u := (Q.1 - P.1) * (R.2 - P.2) - (Q.2 - P.2) * (R.1 - P.1)
      -- cross product and scalar product
      have hdot : (Q.1 - P.1) * (R.1 - P.1) + (Q.2 - P.2) * (R.2 - P.2) = 4050 := by linear_combination (1 / 2) * (s1 + s3 - s2)
      have hu : u ^ 2 = 8100 * 8100 - 4050 ^ 2 := by
        have id : u ^ 2 = ((P.1 - Q.1) ^ 2 + (P.2 - Q.2) ^ 2) * ((R.1 - P.1) ^ 2 + (R.2 - P.2) ^ 2) -
            ((Q.1 - P.1) * (R.1 - P.1) + (Q.2 - P.2) * (R.2 - P.2)) ^ 2 := by simp only [u]; ring
        rw [id, s1, s3, hdot]; norm_num
      have : |u| < 7200 := by
        apply abs_lt_of_sq_lt_sq _ (by norm_num)
        rw [hu]; norm_num
      linarith
    rw [hsum, t2]; linarith
  · have h1 := pi_pos
    have h2 := pi_lt_d2
    rw [show 4 * π * (180 / π) ^ 2 / 8 = 16200 / π by field_simp; ring, lt_div_iff₀ h1]
    nlinarith

/-- a square degree at the equator as an example of a hull -/
example : ([(0, 0), (1, 0), (1, 1), (0, 1), (0, 0)] : List (ℝ × ℝ)).getLast? = ([(0, 0), (1, 0), (1, 1), (0, 1), (0, 0)] : List (ℝ × ℝ)).head? := rfl

end Verif.Astro
