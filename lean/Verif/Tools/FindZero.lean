import Mathlib.Analysis.SpecialFunctions.Exp
import Mathlib.Tactic.Linarith
import Mathlib.Tactic.FieldSimp
import Mathlib.Tactic.Ring
import Mathlib.Tactic.NormNum
import Verif.Math.Interp
/-!
# The limits on the temperature in `pixfit-gfit` (C193)

`none` is a value that is not a number. The positions are finite.
-/
namespace Verif.FindZero
open Verif Verif.Math

variable {K : Type} [Field K] [LinearOrder K] [IsStrictOrderedRing K]

/-- the loop of `find_zero` (`pixfit-common.hpp:289-293`) on the points; the interpolation between two zeros is 0/0 -/
def loop : List (K × Option K) → Option K
  | p :: q :: r => match p.2, q.2 with
    | some a, some b => if a * b ≤ 0 then (if a = b then none else some (interp2 p.1 q.1 a b 0)) else loop (q :: r)
    | _, _ => loop (q :: r)
  | _ => none

/-- `find_zero` (`pixfit-common.hpp:284-297`); `none` for `dnan` -/
def findZero (x : List K) (y : List (Option K)) : Res (Option K) := do
  Res.check (x.length = y.length)
  .ok (loop (x.zip y))

/-- the limits around the maximum (`pixfit-gfit.cpp:821-833`): `tx` the temperatures, `p` the probabilities, `k` the position of the maximum, `s` the level -/
def limits (tx p : List K) (k : Nat) (s : K) : Res (Option K × Option K) := do
  let low ← findZero (tx.take (k + 1)).reverse ((p.take (k + 1)).reverse.map fun v => some (v - s))
  let up ← findZero (tx.drop k) ((p.drop k).map fun v => some (v - s))
  .ok (low.or tx.head?, up.or tx.getLast?)

/-- the probability of a temperature with the chi2 `c`, the best chi2 `b` and `n` degrees of freedom (`pixfit-gfit.cpp:801, 816`): the chi2 is divided by `n`, the best is not -/
noncomputable def probability (n c b : ℝ) : ℝ := Real.exp (-(c / n - b))

/-! ### Specification -/

/-- the line through successive points has the value `v` at `z`; only between points with finite values -/
def Value (pts : List (K × Option K)) (z v : K) : Prop :=
  ∃ u w x0 x1 a b t, pts = u ++ (x0, some a) :: (x1, some b) :: w ∧ 0 ≤ t ∧ t ≤ 1 ∧ z = x0 + t * (x1 - x0) ∧ v = a + t * (b - a)

/-- two successive zeros -/
def Flat (pts : List (K × Option K)) : Prop := ∃ u w x0 x1, pts = u ++ (x0, some (0 : K)) :: (x1, some 0) :: w

/-! ### Helpers -/

theorem value_cons {p : K × Option K} {pts : List (K × Option K)} {z v : K} (h : Value pts z v) : Value (p :: pts) z v := by
  obtain ⟨u, w, x0, x1, a, b, t, e, h⟩ := h
  exact ⟨p :: u, w, x0, x1, a, b, t, by rw [e]; rfl, h⟩

theorem value_two {x0 x1 : K} {y0 y1 : Option K} {r : List (K × Option K)} {z v : K} :
    Value ((x0, y0) :: (x1, y1) :: r) z v ↔ (∃ a b t, y0 = some a ∧ y1 = some b ∧ 0 ≤ t ∧ t ≤ 1 ∧ z = x0 + t * (x1 - x0) ∧ v = a + t * (b - a)) ∨ Value ((x1, y1) :: r) z v := by
  constructor
  · rintro ⟨u, w, q0, q1, a, b, t, e, h⟩
    cases u with
    | nil =>
      simp only [List.nil_append, List.cons.injEq, Prod.mk.injEq] at e
      obtain ⟨⟨rfl, rfl⟩, ⟨rfl, rfl⟩, -⟩ := e
      exact Or.inl ⟨a, b, t, rfl, rfl, h⟩
    | cons p u =>
      simp only [List.cons_append, List.cons.injEq] at e
      exact Or.inr ⟨u, w, q0, q1, a, b, t, e.2, h⟩
  · rintro (⟨a, b, t, rfl, rfl, h⟩ | h)
    · exact ⟨[], r, x0, x1, a, b, t, rfl, h⟩
    · exact value_cons h

theorem value_one {p : K × Option K} {z v : K} : ¬ Value [p] z v := by
  rintro ⟨u, w, x0, x1, a, b, t, e, -⟩
  have := congrArg List.length e
  simp only [List.length_append, List.length_cons, List.length_nil] at this
  omega

/-- a line crosses zero only if the values at its ends do not have the same sign -/
theorem cross {a b t : K} (h0 : 0 ≤ t) (h1 : t ≤ 1) (h : 0 = a + t * (b - a)) : a * b ≤ 0 := by
  have e : (1 - t) * a + t * b = 0 := by linarith [h, show t * (b - a) = t * b - t * a by ring, show (1 - t) * a = a - t * a by ring]
  by_contra hn
  push Not at hn
  rcases pos_and_pos_or_neg_and_neg_of_mul_pos hn with ⟨ha, hb⟩ | ⟨ha, hb⟩
  · have p1 : 0 ≤ (1 - t) * a := mul_nonneg (by linarith) ha.le
    have p2 : 0 ≤ t * b := mul_nonneg h0 hb.le
    have q1 : (1 - t) * a = 0 := by linarith
    have q2 : t * b = 0 := by linarith
    have r1 : t = 0 := (mul_eq_zero.1 q2).resolve_right hb.ne'
    rw [r1] at q1
    linarith
  · have p1 : (1 - t) * a ≤ 0 := mul_nonpos_of_nonneg_of_nonpos (by linarith) ha.le
    have p2 : t * b ≤ 0 := mul_nonpos_of_nonneg_of_nonpos h0 hb.le
    have q1 : (1 - t) * a = 0 := by linarith
    have q2 : t * b = 0 := by linarith
    have r1 : t = 0 := (mul_eq_zero.1 q2).resolve_right hb.ne
    rw [r1] at q1
    linarith

/-- the root of a line -/
theorem root {a b : K} (h : a * b ≤ 0) (hab : a ≠ b) : 0 ≤ (0 - a) / (b - a) ∧ (0 - a) / (b - a) ≤ 1 ∧ a + (0 - a) / (b - a) * (b - a) = 0 := by
  have hne : b - a ≠ 0 := sub_ne_zero.2 hab.symm
  refine ⟨?_, ?_, by field_simp; ring⟩
  · rcases lt_or_gt_of_ne hab with hlt | hgt
    · apply div_nonneg _ (by linarith)
      by_contra hn
      push Not at hn
      nlinarith
    · apply div_nonneg_of_nonpos _ (by linarith)
      by_contra hn
      push Not at hn
      nlinarith
  · rcases lt_or_gt_of_ne hab with hlt | hgt
    · rw [div_le_one (by linarith)]
      by_contra hn
      push Not at hn
      nlinarith
    · rw [div_le_one_of_neg (by linarith)]
      by_contra hn
      push Not at hn
      nlinarith

theorem value_ge {pts : List (K × Option K)} {z v : K} (hs : (pts.map Prod.fst).Pairwise (· < ·)) (h : Value pts z v) (x : K) (hx : ∀ p ∈ pts, x ≤ p.1) : x ≤ z := by
  obtain ⟨u, w, x0, x1, a, b, t, rfl, h0, h1, rfl, -⟩ := h
  have a1 := hx (x0, some a) (by simp)
  have a2 : x0 < x1 := by
    rw [List.map_append, List.pairwise_append] at hs
    exact (List.pairwise_cons.1 hs.2.1).1 x1 (by simp)
  have := mul_nonneg h0 (by linarith : 0 ≤ x1 - x0)
  linarith

/-- the loop, on increasing positions -/
theorem loop_spec (pts : List (K × Option K)) (hs : (pts.map Prod.fst).Pairwise (· < ·)) :
    (∀ z, loop pts = some z → Value pts z 0 ∧ ∀ z', Value pts z' 0 → z ≤ z') ∧ (loop pts = none → (∀ z, ¬ Value pts z 0) ∨ Flat pts) := by
  induction pts with
  | nil =>
    refine ⟨fun z hz => (by cases hz), fun _ => Or.inl fun z hz => ?_⟩
    obtain ⟨u, w, x0, x1, a, b, t, e, -⟩ := hz
    exact absurd e.symm (by simp)
  | cons p l ih =>
    cases l with
    | nil => exact ⟨fun z hz => (by cases hz), fun _ => Or.inl fun z hz => value_one hz⟩
    | cons q r =>
      obtain ⟨x0, y0⟩ := p
      obtain ⟨x1, y1⟩ := q
      obtain ⟨i1, i2⟩ := ih (List.pairwise_cons.1 hs).2
      have step : (∀ a b, y0 = some a → y1 = some b → ¬ a * b ≤ 0) → loop ((x0, y0) :: (x1, y1) :: r) = loop ((x1, y1) :: r) := by
        intro hno
        cases y0 with
        | none => rfl
        | some a =>
          cases y1 with
          | none => rfl
          | some b => exact if_neg (hno a b rfl rfl)
      by_cases hno : ∀ a b, y0 = some a → y1 = some b → ¬ a * b ≤ 0
      · rw [step hno]
        have key : ∀ z, Value ((x0, y0) :: (x1, y1) :: r) z 0 → Value ((x1, y1) :: r) z 0 := by
          intro z hz
          rcases value_two.1 hz with ⟨a', b', t, e1, e2, t0, t1, -, e3⟩ | h'
          · exact absurd (cross t0 t1 e3) (hno a' b' e1 e2)
          · exact h'
        refine ⟨fun z hz => ⟨value_cons (i1 z hz).1, fun z' hz' => (i1 z hz).2 z' (key z' hz')⟩, fun hz => ?_⟩
        rcases i2 hz with hn | ⟨u, w, q0, q1, e⟩
        · exact Or.inl fun z hv => hn z (key z hv)
        · exact Or.inr ⟨(x0, y0) :: u, w, q0, q1, by rw [e]; rfl⟩
      · push Not at hno
        obtain ⟨a, b, rfl, rfl, h⟩ := hno
        have hl : loop ((x0, some a) :: (x1, some b) :: r) = if a = b then none else some (interp2 x0 x1 a b 0) := if_pos h
        rw [hl]
        by_cases hab : a = b
        · subst hab
          have h0 : a = 0 := by
            have : a * a = 0 := le_antisymm h (mul_self_nonneg a)
            exact mul_self_eq_zero.1 this
          subst h0
          exact ⟨fun z hz => (by simp at hz), fun _ => Or.inr ⟨[], r, x0, x1, rfl⟩⟩
        · rw [if_neg hab]
          obtain ⟨r1, r2, r3⟩ := root h hab
          refine ⟨fun z hz => ?_, fun hz => by cases hz⟩
          obtain rfl : interp2 x0 x1 a b 0 = z := Option.some.inj hz
          have hlt : x0 < x1 := (List.pairwise_cons.1 hs).1 x1 (by simp)
          have hval : interp2 x0 x1 a b 0 = x0 + (0 - a) / (b - a) * (x1 - x0) := by unfold interp2; ring
          refine ⟨value_two.2 (Or.inl ⟨a, b, _, rfl, rfl, r1, r2, hval, r3.symm⟩), fun z' hz' => ?_⟩
          rw [hval]
          rcases value_two.1 hz' with ⟨a', b', t, e1, e2, t0, t1, rfl, e3⟩ | h'
          · cases e1; cases e2
            have : t = (0 - a) / (b - a) := by
              have hne : b - a ≠ 0 := sub_ne_zero.2 (Ne.symm hab)
              field_simp
              linarith
            rw [this]
          · have h2 := value_ge (List.pairwise_cons.1 hs).2 h' x1 (by
              intro p hp
              rcases List.mem_cons.1 hp with rfl | hp
              · exact le_refl _
              · exact ((List.pairwise_cons.1 (List.pairwise_cons.1 hs).2).1 p.1 (List.mem_map_of_mem hp)).le)
            have h3 : (0 - a) / (b - a) * (x1 - x0) ≤ 1 * (x1 - x0) := mul_le_mul_of_nonneg_right r2 (by linarith)
            linarith

/-- positions with the other sign -/
def neg (pts : List (K × Option K)) : List (K × Option K) := pts.map fun p => (-p.1, p.2)

theorem loop_neg (pts : List (K × Option K)) : loop (neg pts) = (loop pts).map (- ·) := by
  induction pts with
  | nil => rfl
  | cons p l ih =>
    cases l with
    | nil => rfl
    | cons q r =>
      obtain ⟨x0, y0⟩ := p
      obtain ⟨x1, y1⟩ := q
      cases y0 with
      | none => exact ih
      | some a =>
        cases y1 with
        | none => exact ih
        | some b =>
          have e1 : loop (neg ((x0, some a) :: (x1, some b) :: r)) = if a * b ≤ 0 then (if a = b then none else some (interp2 (-x0) (-x1) a b 0)) else loop (neg ((x1, some b) :: r)) := rfl
          have e2 : loop ((x0, some a) :: (x1, some b) :: r) = if a * b ≤ 0 then (if a = b then none else some (interp2 x0 x1 a b 0)) else loop ((x1, some b) :: r) := rfl
          rw [e1, e2, ih]
          split
          · split
            · rfl
            · simp only [Option.map_some, Option.some.injEq]
              unfold interp2
              ring
          · rfl

theorem value_neg {pts : List (K × Option K)} {z v : K} : Value (neg pts) (-z) v ↔ Value pts z v := by
  have one : ∀ (pts : List (K × Option K)) (z : K), Value pts z v → Value (neg pts) (-z) v := by
    rintro pts z ⟨u, w, x0, x1, a, b, t, rfl, h0, h1, rfl, e⟩
    refine ⟨neg u, neg w, -x0, -x1, a, b, t, ?_, h0, h1, by ring, e⟩
    simp [neg]
  have back : neg (neg pts) = pts := by
    unfold neg
    rw [List.map_map]
    conv_rhs => rw [← List.map_id pts]
    congr 1
    funext p
    simp
  refine ⟨fun h => ?_, one pts z⟩
  have := one _ _ h
  rwa [back, neg_neg] at this

theorem neg_neg' (pts : List (K × Option K)) : neg (neg pts) = pts := by
  unfold neg
  rw [List.map_map]
  conv_rhs => rw [← List.map_id pts]
  congr 1
  funext p
  simp

/-- values moved by a level -/
def shift (s : K) (pts : List (K × Option K)) : List (K × Option K) := pts.map fun p => (p.1, p.2.map (· - s))

theorem value_shift {s : K} {pts : List (K × Option K)} {z v : K} : Value (shift s pts) z (v - s) ↔ Value pts z v := by
  have one : ∀ (s : K) (pts : List (K × Option K)) (v : K), Value pts z v → Value (shift s pts) z (v - s) := by
    rintro s pts v ⟨u, w, x0, x1, a, b, t, rfl, h0, h1, e, rfl⟩
    refine ⟨shift s u, shift s w, x0, x1, a - s, b - s, t, ?_, h0, h1, e, by ring⟩
    simp [shift]
  refine ⟨fun h => ?_, one s pts v⟩
  have := one (-s) _ _ h
  have back : shift (-s) (shift s pts) = pts := by
    unfold shift
    rw [List.map_map]
    conv_rhs => rw [← List.map_id pts]
    congr 1
    funext p
    obtain ⟨x, y⟩ := p
    cases y <;> simp
  rw [back] at this
  simpa using this

theorem value_reverse {pts : List (K × Option K)} {z v : K} : Value pts.reverse z v ↔ Value pts z v := by
  have one : ∀ pts : List (K × Option K), Value pts z v → Value pts.reverse z v := by
    rintro pts ⟨u, w, x0, x1, a, b, t, rfl, h0, h1, rfl, rfl⟩
    exact ⟨w.reverse, u.reverse, x1, x0, b, a, 1 - t, by simp, by linarith, by linarith, by ring, by ring⟩
  refine ⟨fun h => ?_, one pts⟩
  have := one _ h
  rwa [List.reverse_reverse] at this

/-- a line that starts above a level and is not above it later has the level in between -/
theorem between (pts : List (K × Option K)) (hs : (pts.map Prod.fst).Pairwise (· < ·)) (s x0 a0 : K) (r : List (K × Option K)) (hp : pts = (x0, some a0) :: r) (ha : s < a0)
    (hall : ∀ p ∈ pts, p.2 ≠ none) (z v : K) (hv : Value pts z v) (hle : v ≤ s) : ∃ z', z' ≤ z ∧ Value pts z' s := by
  induction r generalizing pts x0 a0 with
  | nil => rw [hp] at hv; exact absurd hv value_one
  | cons q r ih =>
    obtain ⟨x1, y1⟩ := q
    subst hp
    have hy := hall (x1, y1) (by simp)
    obtain ⟨b, rfl⟩ := Option.ne_none_iff_exists'.1 hy
    have hlt : x0 < x1 := (List.pairwise_cons.1 hs).1 x1 (by simp)
    have first : b ≤ s → ∃ t, 0 ≤ t ∧ t ≤ 1 ∧ s = a0 + t * (b - a0) := by
      intro hb
      have hne : b - a0 < 0 := by linarith
      refine ⟨(s - a0) / (b - a0), div_nonneg_of_nonpos (by linarith) hne.le, ?_, ?_⟩
      · rw [div_le_one_of_neg hne]; linarith
      · rw [div_mul_cancel₀ _ hne.ne]; ring
    rcases value_two.1 hv with ⟨a, b', t, e1, e2, t0, t1, rfl, rfl⟩ | h'
    · cases e1; cases e2
      have hb : b ≤ s := by
        by_contra hn
        push Not at hn
        have : 0 ≤ t * (b - s) := mul_nonneg t0 (by linarith)
        have h2 : 0 ≤ (1 - t) * (a0 - s) := mul_nonneg (by linarith) (by linarith)
        have h3 : a0 + t * (b - a0) - s = t * (b - s) + (1 - t) * (a0 - s) := by ring
        have h4 : t * (b - s) = 0 := by linarith
        have h5 : (1 - t) * (a0 - s) = 0 := by linarith
        rcases mul_eq_zero.1 h4 with h | h
        · rw [h] at h5; linarith
        · linarith
      obtain ⟨t', t0', t1', e⟩ := first hb
      refine ⟨x0 + t' * (x1 - x0), ?_, value_two.2 (Or.inl ⟨a0, b, t', rfl, rfl, t0', t1', rfl, e⟩)⟩
      have htt : t' ≤ t := by
        by_contra hn
        push Not at hn
        have : (t' - t) * (b - a0) < 0 := mul_neg_of_pos_of_neg (by linarith) (by linarith)
        have h3 : (t' - t) * (b - a0) = (a0 + t' * (b - a0)) - (a0 + t * (b - a0)) := by ring
        linarith
      have := mul_le_mul_of_nonneg_right htt (by linarith : 0 ≤ x1 - x0)
      linarith
    · by_cases hb : s < b
      · obtain ⟨z', h1, h2⟩ := ih _ (List.pairwise_cons.1 hs).2 x1 b rfl hb (fun p hp => hall p (List.mem_cons_of_mem _ hp)) h'
        exact ⟨z', h1, value_cons h2⟩
      · obtain ⟨t', t0', t1', e⟩ := first (not_lt.1 hb)
        refine ⟨x0 + t' * (x1 - x0), ?_, value_two.2 (Or.inl ⟨a0, b, t', rfl, rfl, t0', t1', rfl, e⟩)⟩
        have h2 := value_ge (List.pairwise_cons.1 hs).2 h' x1 (by
          intro p hp
          rcases List.mem_cons.1 hp with rfl | hp
          · exact le_refl _
          · exact ((List.pairwise_cons.1 (List.pairwise_cons.1 hs).2).1 p.1 (List.mem_map_of_mem hp)).le)
        have := mul_le_mul_of_nonneg_right t1' (by linarith : 0 ≤ x1 - x0)
        linarith

/-- one side of the maximum -/
theorem side (pts : List (K × Option K)) (hs : (pts.map Prod.fst).Pairwise (· < ·)) (s x0 a0 : K) (r : List (K × Option K)) (hp : pts = (x0, some a0) :: r) (ha : s < a0)
    (hall : ∀ p ∈ pts, p.2 ≠ none) (hf : ¬ Flat (shift s pts)) (l : K) (hl : (pts.map Prod.fst).getLast? = some l) :
    ∃ up, (loop (shift s pts)).or (some l) = some up ∧ x0 ≤ up ∧ (up = l ∨ Value pts up s) ∧ ∀ z v, z < up → Value pts z v → s < v := by
  obtain ⟨h1, h2⟩ := loop_spec (shift s pts) (by unfold shift; rw [List.map_map]; exact hs)
  have h0 : ∀ z, Value (shift s pts) z 0 ↔ Value pts z s := by
    intro z
    have := value_shift (s := s) (pts := pts) (z := z) (v := s)
    rwa [sub_self] at this
  have hx : ∀ p ∈ pts, x0 ≤ p.1 := by
    rw [hp] at hs ⊢
    intro p hq
    rcases List.mem_cons.1 hq with rfl | hq
    · exact le_refl _
    · exact ((List.pairwise_cons.1 hs).1 p.1 (List.mem_map_of_mem hq)).le
  cases e : loop (shift s pts) with
  | none =>
    refine ⟨l, rfl, ?_, Or.inl rfl, fun z v _ hv => ?_⟩
    · obtain ⟨p, hp1, hp2⟩ := List.mem_map.1 (List.mem_of_getLast? hl)
      rw [← hp2]; exact hx p hp1
    · by_contra hn
      obtain ⟨z', -, hz⟩ := between pts hs s x0 a0 r hp ha hall z v hv (not_lt.1 hn)
      exact (h2 e).resolve_right hf z' ((h0 z').2 hz)
  | some up =>
    obtain ⟨a1, a2⟩ := h1 up e
    have hu := (h0 up).1 a1
    refine ⟨up, rfl, value_ge hs hu x0 hx, Or.inr hu, fun z v hz hv => ?_⟩
    by_contra hn
    obtain ⟨z', hle, hz'⟩ := between pts hs s x0 a0 r hp ha hall z v hv (not_lt.1 hn)
    have := a2 z' ((h0 z').2 hz')
    linarith

/-! ### C193 -/

/-- On increasing positions, `find_zero` gives the first zero of the line through the points. It gives no value exactly if there is no zero, unless two successive points are zero. -/
theorem C193_first (x : List K) (y : List (Option K)) (hl : x.length = y.length) (hs : x.Pairwise (· < ·)) (hf : ¬ Flat (x.zip y)) :
    ∃ o, findZero x y = .ok o ∧ (o = none ↔ ∀ z, ¬ Value (x.zip y) z 0) ∧ ∀ z, o = some z → Value (x.zip y) z 0 ∧ ∀ z', Value (x.zip y) z' 0 → z ≤ z' := by
  obtain ⟨h1, h2⟩ := loop_spec (x.zip y) (by rw [List.map_fst_zip hl.le]; exact hs)
  refine ⟨loop (x.zip y), by unfold findZero; rw [Res.check_pos hl]; rfl, ⟨fun h => (h2 h).resolve_right hf, fun h => ?_⟩, h1⟩
  cases e : loop (x.zip y) with
  | none => rfl
  | some z => exact absurd (h1 z e).1 (h z)

/-- On decreasing positions it is the zero with the highest position. -/
theorem C193_last (x : List K) (y : List (Option K)) (hl : x.length = y.length) (hs : x.Pairwise (· > ·)) (hf : ¬ Flat (x.zip y)) :
    ∃ o, findZero x y = .ok o ∧ (o = none ↔ ∀ z, ¬ Value (x.zip y) z 0) ∧ ∀ z, o = some z → Value (x.zip y) z 0 ∧ ∀ z', Value (x.zip y) z' 0 → z' ≤ z := by
  have hn : (x.map (- ·)).zip y = neg (x.zip y) := by
    unfold neg
    rw [List.zip_map_left]
    rfl
  have hfn : ¬ Flat ((x.map (- ·)).zip y) := by
    rintro ⟨u, w, x0, x1, e⟩
    apply hf
    refine ⟨neg u, neg w, -x0, -x1, ?_⟩
    have e' := congrArg neg (hn.symm.trans e)
    have back : neg (neg (x.zip y)) = x.zip y := by
      unfold neg
      rw [List.map_map]
      conv_rhs => rw [← List.map_id (x.zip y)]
      congr 1
      funext p
      simp
    rw [back] at e'
    rw [e']
    simp [neg]
  obtain ⟨o, h1, h2, h3⟩ := C193_first (x.map (- ·)) y (by simpa using hl) (by rw [List.pairwise_map]; exact hs.imp (by intro a b h; linarith [show b < a from h])) hfn
  rw [hn] at h2 h3
  have hlo : o = loop (neg (x.zip y)) := by
    unfold findZero at h1
    rw [Res.check_pos (by simpa using hl), hn] at h1
    exact (Res.ok.inj h1).symm
  rw [loop_neg] at hlo
  refine ⟨loop (x.zip y), by unfold findZero; rw [Res.check_pos hl]; rfl, ⟨fun h z hz => ?_, fun h => ?_⟩, fun z hz => ?_⟩
  · exact h2.1 (by rw [hlo, h]; rfl) (-z) (value_neg.2 hz)
  · have : o = none := h2.2 fun z hz => by
      rw [← neg_neg z] at hz
      exact h (-z) (value_neg.1 hz)
    rw [this] at hlo
    exact Option.map_eq_none_iff.1 hlo.symm
  · rw [hz] at hlo
    obtain ⟨a1, a2⟩ := h3 (-z) hlo
    refine ⟨value_neg.1 a1, fun z' hz' => ?_⟩
    have := a2 (-z') (value_neg.2 hz')
    linarith

/-- The limits on the temperature are the ends of the largest interval around the maximum of the probability in which the probability, interpolated between the grid
points, is above the level; or the ends of the grid. -/
theorem C193_limits (tx p : List K) (k : Nat) (s : K) (hl : tx.length = p.length) (hs : tx.Pairwise (· < ·)) (hk : k < p.length) (hm : s < p[k])
    (hf : ∀ i (hi : i + 1 < p.length), ¬ (p[i] = s ∧ p[i + 1] = s)) :
    ∃ lo up, limits tx p k s = .ok (some lo, some up) ∧ lo ≤ tx[k] ∧ tx[k] ≤ up ∧ (some lo = tx.head? ∨ Value (tx.zip (p.map some)) lo s) ∧
      (some up = tx.getLast? ∨ Value (tx.zip (p.map some)) up s) ∧ ∀ z v, lo < z → z < up → Value (tx.zip (p.map some)) z v → s < v := by
  set pts := tx.zip (p.map some) with hpts
  have hlen : pts.length = p.length := by rw [hpts, List.length_zip, List.length_map, hl, Nat.min_self]
  have hfst : pts.map Prod.fst = tx := List.map_fst_zip (by rw [List.length_map]; exact hl.le)
  have hall : ∀ q ∈ pts, q.2 ≠ none := by
    intro q hq
    have := (List.of_mem_zip (a := q.1) (b := q.2) hq).2
    obtain ⟨a, -, h⟩ := List.mem_map.1 this
    rw [← h]; simp
  have hget : pts[k] = (tx[k], some p[k]) := by simp [hpts]
  have hflat : ∀ u w x0 x1 : List (K × Option K), ∀ q0 q1 : K × Option K, pts = u ++ q0 :: q1 :: w → ¬ (q0.2 = some s ∧ q1.2 = some s) := by
    rintro u w - - q0 q1 e ⟨e0, e1⟩
    have hu : u.length + 1 < p.length := by rw [← hlen, e]; simp
    have g0 : pts[u.length]? = some q0 := by rw [e]; simp
    have g1 : pts[u.length + 1]? = some q1 := by rw [e, List.getElem?_append_right (by omega)]; simp
    rw [List.getElem?_eq_getElem (by omega)] at g0 g1
    refine hf u.length hu ⟨?_, ?_⟩
    · have := congrArg Prod.snd (Option.some.inj g0)
      rw [e0] at this
      simpa [hpts] using this
    · have := congrArg Prod.snd (Option.some.inj g1)
      rw [e1] at this
      simpa [hpts] using this
  have flat_of : ∀ u w (x0 x1 : K), ∀ ps : List (K × Option K), shift s ps = u ++ (x0, some 0) :: (x1, some 0) :: w →
      ∃ u' w' q0 q1, ps = u' ++ q0 :: q1 :: w' ∧ q0.2 = some s ∧ q1.2 = some s := by
    intro u w x0 x1 ps e
    unfold shift at e
    obtain ⟨u', r1, rfl, -, e⟩ := List.map_eq_append_iff.1 e
    obtain ⟨q0, r2, rfl, e0, e⟩ := List.map_eq_cons_iff.1 e
    obtain ⟨q1, r3, rfl, e1, -⟩ := List.map_eq_cons_iff.1 e
    refine ⟨u', r3, q0, q1, rfl, ?_, ?_⟩
    · obtain ⟨x, y⟩ := q0
      have := congrArg Prod.snd e0
      cases y with
      | none => simp at this
      | some y => simp only [Option.map_some, Option.some.injEq] at this ⊢; linarith
    · obtain ⟨x, y⟩ := q1
      have := congrArg Prod.snd e1
      cases y with
      | none => simp at this
      | some y => simp only [Option.map_some, Option.some.injEq] at this ⊢; linarith
  -- to the right
  have hR : pts.drop k = (tx[k], some p[k]) :: pts.drop (k + 1) := by rw [← hget]; exact List.drop_eq_getElem_cons (by omega)
  have hRs : ((pts.drop k).map Prod.fst).Pairwise (· < ·) := by rw [List.map_drop, hfst]; exact hs.sublist (List.drop_sublist _ _)
  have hne : tx ≠ [] := by rintro rfl; simp at hl; omega
  obtain ⟨up, u1, u2, u3, u4⟩ := side (pts.drop k) hRs s tx[k] p[k] _ hR hm (fun q hq => hall q (List.mem_of_mem_drop hq))
    (by
      rintro ⟨u, w, x0, x1, e⟩
      obtain ⟨u', w', q0, q1, e', e0, e1⟩ := flat_of _ _ _ _ _ e
      refine hflat (pts.take k ++ u') w' [] [] q0 q1 ?_ ⟨e0, e1⟩
      conv_lhs => rw [← List.take_append_drop k pts, e']
      simp)
    (tx.getLast hne) (by
      rw [List.map_drop, hfst, List.getLast?_drop, if_neg (by omega), List.getLast?_eq_getLast_of_ne_nil hne])
  -- to the left
  have hL : neg (pts.take (k + 1)).reverse = (-tx[k], some p[k]) :: neg (pts.take k).reverse := by
    rw [List.take_succ_eq_append_getElem (by omega), hget, List.reverse_append]
    rfl
  have hLs : ((neg (pts.take (k + 1)).reverse).map Prod.fst).Pairwise (· < ·) := by
    have e : (neg (pts.take (k + 1)).reverse).map Prod.fst = ((tx.take (k + 1)).reverse).map (- ·) := by
      unfold neg
      rw [List.map_map, ← hfst, ← List.map_take, ← List.map_reverse, List.map_map]
      rfl
    rw [e, List.pairwise_map, List.pairwise_reverse]
    exact (hs.sublist (List.take_sublist _ _)).imp (by intro a b h; linarith)
  obtain ⟨lo', l1, l2, l3, l4⟩ := side (neg (pts.take (k + 1)).reverse) hLs s (-tx[k]) p[k] _ hL hm
    (by
      intro q hq
      obtain ⟨q', hq', rfl⟩ := List.mem_map.1 hq
      exact hall q' (List.mem_of_mem_take (List.mem_reverse.1 hq')))
    (by
      rintro ⟨u, w, x0, x1, e⟩
      obtain ⟨u', w', q0, q1, e', e0, e1⟩ := flat_of _ _ _ _ _ e
      have e2 : (pts.take (k + 1)).reverse = neg u' ++ (-q0.1, q0.2) :: (-q1.1, q1.2) :: neg w' := by
        rw [← neg_neg' (pts.take (k + 1)).reverse, e']
        simp [neg]
      have e3 : pts.take (k + 1) = (neg w').reverse ++ (-q1.1, q1.2) :: (-q0.1, q0.2) :: (neg u').reverse := by
        rw [← List.reverse_reverse (pts.take (k + 1)), e2]
        simp
      refine hflat (neg w').reverse ((neg u').reverse ++ pts.drop (k + 1)) [] [] (-q1.1, q1.2) (-q0.1, q0.2) ?_ ⟨e1, e0⟩
      conv_lhs => rw [← List.take_append_drop (k + 1) pts, e3]
      simp)
    (-tx.head hne) (by
      have e : (neg (pts.take (k + 1)).reverse).map Prod.fst = ((tx.take (k + 1)).reverse).map (- ·) := by
        unfold neg
        rw [List.map_map, ← hfst, ← List.map_take, ← List.map_reverse, List.map_map]
        rfl
      rw [e, List.getLast?_map, List.getLast?_reverse, List.head?_take, if_neg (by omega), List.head?_eq_some_head hne]
      rfl)
  have hvl : ∀ z v, Value (neg (pts.take (k + 1)).reverse) (-z) v ↔ Value (pts.take (k + 1)) z v := fun z v => value_neg.trans value_reverse
  refine ⟨-lo', up, ?_, by linarith, u2, ?_, ?_, ?_⟩
  · have sh : ∀ a b : List K, a.zip (b.map fun v => some (v - s)) = shift s (a.zip (b.map some)) := by
      intro a b
      unfold shift
      rw [List.zip_map_right, List.zip_map_right, List.map_map]
      rfl
    have eR : (tx.drop k).zip ((p.drop k).map fun v => some (v - s)) = shift s (pts.drop k) := by
      rw [sh, hpts, List.map_drop]
      congr 1
      exact List.drop_zipWith.symm
    have eL : (tx.take (k + 1)).reverse.zip ((p.take (k + 1)).reverse.map fun v => some (v - s)) = shift s (pts.take (k + 1)).reverse := by
      rw [sh, hpts, List.map_reverse, List.map_take]
      congr 1
      have e1 : (tx.zip (p.map some)).take (k + 1) = List.zipWith Prod.mk (tx.take (k + 1)) ((p.map some).take (k + 1)) := List.take_zipWith
      rw [e1, List.reverse_zipWith (by simp [hl])]
      rfl
    have nr : shift s (neg (pts.take (k + 1)).reverse) = neg (shift s (pts.take (k + 1)).reverse) := by
      unfold shift neg
      rw [List.map_map, List.map_map]
      rfl
    rw [nr, loop_neg] at l1
    unfold limits findZero
    rw [Res.check_pos (by simp [hl]), Res.check_pos (by simp [hl]), eR, eL]
    have g1 : (loop (shift s (pts.take (k + 1)).reverse)).or tx.head? = some (-lo') := by
      rw [List.head?_eq_some_head hne]
      cases e : loop (shift s (pts.take (k + 1)).reverse) with
      | none =>
        rw [e] at l1
        have : -tx.head hne = lo' := Option.some.inj l1
        rw [← this]; simp
      | some q =>
        rw [e] at l1
        have : -q = lo' := Option.some.inj l1
        rw [← this]; simp
    have g2 : (loop (shift s (pts.drop k))).or tx.getLast? = some up := by rw [List.getLast?_eq_getLast_of_ne_nil hne]; exact u1
    show Res.ok (_, _) = _
    rw [g1, g2]
  · rcases l3 with h | h
    · left; rw [h, neg_neg, List.head?_eq_some_head hne]
    · right
      rw [← neg_neg lo', hvl] at h
      obtain ⟨u, w, x0, x1, a, b, t, e, h⟩ := h
      exact ⟨u, w ++ pts.drop (k + 1), x0, x1, a, b, t, by conv_lhs => rw [← List.take_append_drop (k + 1) pts, e]
                                                           simp, h⟩
  · rcases u3 with h | h
    · left; rw [h, List.getLast?_eq_getLast_of_ne_nil hne]
    · right
      obtain ⟨u, w, x0, x1, a, b, t, e, h⟩ := h
      exact ⟨pts.take k ++ u, w, x0, x1, a, b, t, by conv_lhs => rw [← List.take_append_drop k pts, e]
                                                     simp, h⟩
  · rintro z v hz1 hz2 ⟨u, w, x0, x1, a, b, t, e, h⟩
    by_cases hu : k ≤ u.length
    · refine u4 z v hz2 ⟨u.drop k, w, x0, x1, a, b, t, ?_, h⟩
      rw [e, List.drop_append_of_le_length hu]
    · have : Value (pts.take (k + 1)) z v := by
        refine ⟨u, w.take (k + 1 - u.length - 2), x0, x1, a, b, t, ?_, h⟩
        rw [e, List.take_append, List.take_of_length_le (by omega)]
        obtain ⟨m, hm⟩ : ∃ m, k + 1 - u.length = m + 2 := ⟨k + 1 - u.length - 2, by omega⟩
        rw [hm]
        rfl
      exact l4 (-z) v (by linarith) ((hvl z v).2 this)

/-- Two successive zeros give no value. -/
theorem C193_flat_refuted : findZero (K := ℚ) [1, 2, 3] [some 0, some 0, some 1] = .ok none ∧ Value ([1, 2, 3].zip [some 0, some 0, some 1]) (1 : ℚ) 0 := by
  refine ⟨by decide +kernel, [], [(3, some 1)], 1, 2, 0, 0, 0, rfl, le_refl _, zero_le_one, by norm_num, by norm_num⟩

/-- The level of one standard deviation is at `n` times the best chi2 plus `n`, not at the best chi2 plus one: only the chi2 of the grid is divided by the degrees of freedom. -/
theorem C193_level_refuted (n c b : ℝ) (hn : 0 < n) : (Real.exp (-1) ≤ probability n c b ↔ c ≤ n * (b + 1)) ∧ probability n b b = Real.exp (b * (1 - 1 / n)) := by
  unfold probability
  constructor
  · rw [Real.exp_le_exp, neg_le_neg_iff, sub_le_iff_le_add, div_le_iff₀ hn, add_comm 1 b, mul_comm]
  · congr 1
    field_simp
    ring

example : limits (K := ℚ) [10, 20, 30, 40, 50] [0, 1 / 2, 1, 3 / 4, 1 / 4] 2 (1 / 4) = .ok (some 15, some 50) := by decide +kernel

end Verif.FindZero
