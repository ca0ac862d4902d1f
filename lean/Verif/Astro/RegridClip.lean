import Verif.Astro.Regrid
import Mathlib.Data.List.Rotate
import Mathlib.Algebra.Order.Field.Basic
import Mathlib.Tactic.Linarith
import Mathlib.Tactic.FieldSimp
import Mathlib.Tactic.LinearCombination
/-!
# The common part of two rectangles, as `regrid_drizzle` computes it
-/
namespace Verif.Astro
open Verif

variable {K : Type} [Field K] [LinearOrder K] [IsStrictOrderedRing K]

/-- what one corner contributes -/
def chunk (tol orient : K) (c1 c2 q p : K × K) : List (K × K) :=
  (if inEdge orient c1 c2 q ≠ inEdge orient c1 c2 p then (segIntersect tol c1 c2 p q).toList else []) ++
    (if inEdge orient c1 c2 p then [p] else [])

omit [IsStrictOrderedRing K] in
theorem clipLoop_cons (tol orient : K) (c1 c2 q p : K × K) (l : List (K × K)) :
    clipLoop tol orient c1 c2 q (p :: l) = chunk tol orient c1 c2 q p ++ clipLoop tol orient c1 c2 p l := by
  simp [clipLoop, chunk, List.append_assoc]

omit [IsStrictOrderedRing K] in
theorem clipLoop_snoc (tol orient : K) (c1 c2 x : K × K) (l : List (K × K)) : ∀ q : K × K,
    clipLoop tol orient c1 c2 q (l ++ [x]) = clipLoop tol orient c1 c2 q l ++ chunk tol orient c1 c2 (l.getLast?.getD q) x := by
  induction l with
  | nil => intro q; simp [clipLoop_cons, clipLoop]
  | cons p l ih =>
    intro q
    rw [List.cons_append, clipLoop_cons, ih, clipLoop_cons, List.append_assoc, List.getLast?_cons]
    simp

omit [IsStrictOrderedRing K] in
theorem clipEdge_rotate1 (tol orient : K) (c1 c2 : K × K) (l : List (K × K)) :
    clipEdge tol orient c1 c2 l ~r clipEdge tol orient c1 c2 (l.rotate 1) := by
  cases l with
  | nil => exact List.IsRotated.refl _
  | cons x l =>
    rcases List.eq_nil_or_concat l with rfl | ⟨l', z, rfl⟩
    · rw [List.rotate_cons_succ, List.rotate_zero, List.nil_append]
    · rw [List.concat_eq_append]
      have e1 : clipEdge tol orient c1 c2 (x :: (l' ++ [z])) =
          chunk tol orient c1 c2 z x ++ clipLoop tol orient c1 c2 x (l' ++ [z]) := by
        unfold clipEdge
        rw [← List.cons_append, List.getLast?_concat]
        simp only
        rw [List.cons_append, clipLoop_cons]
      have e2 : clipEdge tol orient c1 c2 ((x :: (l' ++ [z])).rotate 1) =
          clipLoop tol orient c1 c2 x (l' ++ [z]) ++ chunk tol orient c1 c2 z x := by
        rw [List.rotate_cons_succ, List.rotate_zero]
        unfold clipEdge
        rw [List.getLast?_concat]
        simp only
        rw [clipLoop_snoc, List.getLast?_concat]
        rfl
      rw [e1, e2]
      exact List.isRotated_append

omit [IsStrictOrderedRing K] in
theorem clipEdge_rotated (tol orient : K) (c1 c2 : K × K) {l l' : List (K × K)} (h : l ~r l') :
    clipEdge tol orient c1 c2 l ~r clipEdge tol orient c1 c2 l' := by
  obtain ⟨n, rfl⟩ := h
  induction n with
  | zero => rw [List.rotate_zero]
  | succ n ih =>
    rw [← List.rotate_rotate]
    exact ih.trans (clipEdge_rotate1 _ _ _ _ _)

/-- the corners of the rectangle `[a,b] × [c,d]` -/
def rectL (a b c d : K) : List (K × K) := [(a, c), (b, c), (b, d), (a, d)]

/-- a polygon is the rectangle `[a,b] × [c,d]`, or empty when this has no inside -/
def IsRect (poly : List (K × K)) (a b c d : K) : Prop := if a < b ∧ c < d then poly ~r rectL a b c d else poly = []

omit [IsStrictOrderedRing K] in
theorem clip_nil (tol orient : K) (c1 c2 : K × K) : clipEdge tol orient c1 c2 [] = [] := rfl

/-- the intersection with a vertical line -/
theorem seg_vert {tol s u v x1 x2 y : K} (hx : x1 ≠ x2) (huv : u ≠ v) (ht : tol ≤ |v - u| * |x2 - x1|) :
    segIntersect tol (s, u) (s, v) (x1, y) (x2, y) = some (s, y) := by
  have h1 : v - u ≠ 0 := sub_ne_zero.2 (Ne.symm huv)
  have h2 : x2 - x1 ≠ 0 := sub_ne_zero.2 (Ne.symm hx)
  unfold segIntersect
  simp only [sub_self, zero_mul, zero_sub, abs_neg, abs_mul]
  rw [if_neg (by rw [not_lt]; exact ht)]
  simp only [Option.some.injEq, Prod.mk.injEq]
  constructor
  · ring
  · have : -((v - u) * (x2 - x1)) ≠ 0 := neg_ne_zero.2 (mul_ne_zero h1 h2)
    field_simp
    ring

/-- the intersection with a horizontal line -/
theorem seg_horiz {tol s u v x y1 y2 : K} (hy : y1 ≠ y2) (huv : u ≠ v) (ht : tol ≤ |v - u| * |y2 - y1|) :
    segIntersect tol (u, s) (v, s) (x, y1) (x, y2) = some (x, s) := by
  have h1 : v - u ≠ 0 := sub_ne_zero.2 (Ne.symm huv)
  have h2 : y2 - y1 ≠ 0 := sub_ne_zero.2 (Ne.symm hy)
  unfold segIntersect
  simp only [sub_self, zero_mul, sub_zero, zero_sub, abs_mul]
  rw [if_neg (by rw [not_lt]; exact ht)]
  simp only [Option.some.injEq, Prod.mk.injEq]
  constructor
  · field_simp
    ring
  · ring

theorem clip_low_x {tol orient : K} {s u v a b c d : K} {poly : List (K × K)} (hp : IsRect poly a b c d) (huv : u ≠ v)
    (hin : ∀ x y : K, inEdge orient (s, u) (s, v) (x, y) = decide (s < x)) (ht : a ≤ s → s < b → tol ≤ |v - u| * (b - a)) :
    IsRect (clipEdge tol orient (s, u) (s, v) poly) (max a s) b c d := by
  unfold IsRect at hp ⊢
  by_cases h : a < b ∧ c < d
  · rw [if_pos h] at hp
    have hr := clipEdge_rotated tol orient (s, u) (s, v) hp
    rcases lt_or_ge s b with h1 | h1
    · rcases lt_or_ge s a with h2 | h2
      · rw [if_pos ⟨max_lt h.1 h1, h.2⟩, max_eq_left h2.le]
        refine hr.trans (?_ : _ ~r _)
        have e : clipEdge tol orient (s, u) (s, v) (rectL a b c d) = rectL a b c d := by
          simp [clipEdge, rectL, clipLoop, hin, h1, h2]
        rw [e]
      · rw [if_pos ⟨max_lt h.1 h1, h.2⟩, max_eq_right h2]
        refine hr.trans (?_ : _ ~r _)
        have ht' := ht h2 h1
        have e : clipEdge tol orient (s, u) (s, v) (rectL a b c d) = rectL s b c d := by
          have i1 : segIntersect tol (s, u) (s, v) (b, c) (a, c) = some (s, c) :=
            seg_vert (ne_of_gt h.1) huv (by rw [abs_sub_comm a b, abs_of_pos (sub_pos.2 h.1)]; exact ht')
          have i2 : segIntersect tol (s, u) (s, v) (a, d) (b, d) = some (s, d) :=
            seg_vert (ne_of_lt h.1) huv (by rw [abs_of_pos (sub_pos.2 h.1)]; exact ht')
          simp [clipEdge, rectL, clipLoop, hin, h1, not_lt.2 h2, i1, i2]
        rw [e]
    · rw [if_neg (fun hc => absurd (lt_of_le_of_lt (le_max_right a s) hc.1) (not_lt.2 h1))]
      have e : clipEdge tol orient (s, u) (s, v) (rectL a b c d) = [] := by
        simp [clipEdge, rectL, clipLoop, hin, not_lt.2 h1, not_lt.2 (h.1.le.trans h1)]
      rw [e] at hr
      exact List.isRotated_nil_iff.1 hr
  · rw [if_neg h] at hp
    rw [if_neg (fun hc => h ⟨lt_of_le_of_lt (le_max_left a s) hc.1, hc.2⟩), hp]
    rfl

theorem clip_high_x {tol orient : K} {s u v a b c d : K} {poly : List (K × K)} (hp : IsRect poly a b c d) (huv : u ≠ v)
    (hin : ∀ x y : K, inEdge orient (s, u) (s, v) (x, y) = decide (x < s)) (ht : a < s → s ≤ b → tol ≤ |v - u| * (b - a)) :
    IsRect (clipEdge tol orient (s, u) (s, v) poly) a (min b s) c d := by
  unfold IsRect at hp ⊢
  by_cases h : a < b ∧ c < d
  · rw [if_pos h] at hp
    have hr := clipEdge_rotated tol orient (s, u) (s, v) hp
    rcases lt_or_ge a s with h1 | h1
    · rcases lt_or_ge b s with h2 | h2
      · rw [if_pos ⟨lt_min h.1 h1, h.2⟩, min_eq_left h2.le]
        refine hr.trans (?_ : _ ~r _)
        have e : clipEdge tol orient (s, u) (s, v) (rectL a b c d) = rectL a b c d := by
          simp [clipEdge, rectL, clipLoop, hin, h1, h2]
        rw [e]
      · rw [if_pos ⟨lt_min h.1 h1, h.2⟩, min_eq_right h2]
        refine hr.trans (?_ : _ ~r _)
        have ht' := ht h1 h2
        have e : clipEdge tol orient (s, u) (s, v) (rectL a b c d) = rectL a s c d := by
          have i1 : segIntersect tol (s, u) (s, v) (b, c) (a, c) = some (s, c) :=
            seg_vert (ne_of_gt h.1) huv (by rw [abs_sub_comm a b, abs_of_pos (sub_pos.2 h.1)]; exact ht')
          have i2 : segIntersect tol (s, u) (s, v) (a, d) (b, d) = some (s, d) :=
            seg_vert (ne_of_lt h.1) huv (by rw [abs_of_pos (sub_pos.2 h.1)]; exact ht')
          simp [clipEdge, rectL, clipLoop, hin, h1, not_lt.2 h2, i1, i2]
        rw [e]
    · rw [if_neg (fun hc => absurd (lt_of_lt_of_le hc.1 (min_le_right b s)) (not_lt.2 h1))]
      have e : clipEdge tol orient (s, u) (s, v) (rectL a b c d) = [] := by
        simp [clipEdge, rectL, clipLoop, hin, not_lt.2 h1, not_lt.2 (h1.trans h.1.le)]
      rw [e] at hr
      exact List.isRotated_nil_iff.1 hr
  · rw [if_neg h] at hp
    rw [if_neg (fun hc => h ⟨lt_of_lt_of_le hc.1 (min_le_left b s), hc.2⟩), hp]
    rfl

theorem clip_low_y {tol orient : K} {s u v a b c d : K} {poly : List (K × K)} (hp : IsRect poly a b c d) (huv : u ≠ v)
    (hin : ∀ x y : K, inEdge orient (u, s) (v, s) (x, y) = decide (s < y)) (ht : c ≤ s → s < d → tol ≤ |v - u| * (d - c)) :
    IsRect (clipEdge tol orient (u, s) (v, s) poly) a b (max c s) d := by
  unfold IsRect at hp ⊢
  by_cases h : a < b ∧ c < d
  · rw [if_pos h] at hp
    have hr := clipEdge_rotated tol orient (u, s) (v, s) hp
    rcases lt_or_ge s d with h1 | h1
    · rcases lt_or_ge s c with h2 | h2
      · rw [if_pos ⟨h.1, max_lt h.2 h1⟩, max_eq_left h2.le]
        refine hr.trans (?_ : _ ~r _)
        have e : clipEdge tol orient (u, s) (v, s) (rectL a b c d) = rectL a b c d := by
          simp [clipEdge, rectL, clipLoop, hin, h1, h2]
        rw [e]
      · rw [if_pos ⟨h.1, max_lt h.2 h1⟩, max_eq_right h2]
        refine hr.trans (?_ : _ ~r _)
        have ht' := ht h2 h1
        have e : clipEdge tol orient (u, s) (v, s) (rectL a b c d) = rectL a b s d := by
          have i1 : segIntersect tol (u, s) (v, s) (a, c) (a, d) = some (a, s) :=
            seg_horiz (ne_of_lt h.2) huv (by rw [abs_of_pos (sub_pos.2 h.2)]; exact ht')
          have i2 : segIntersect tol (u, s) (v, s) (b, d) (b, c) = some (b, s) :=
            seg_horiz (ne_of_gt h.2) huv (by rw [abs_sub_comm c d, abs_of_pos (sub_pos.2 h.2)]; exact ht')
          simp [clipEdge, rectL, clipLoop, hin, h1, not_lt.2 h2, i1, i2]
        rw [e]
    · rw [if_neg (fun hc => absurd (lt_of_le_of_lt (le_max_right c s) hc.2) (not_lt.2 h1))]
      have e : clipEdge tol orient (u, s) (v, s) (rectL a b c d) = [] := by
        simp [clipEdge, rectL, clipLoop, hin, not_lt.2 h1, not_lt.2 (h.2.le.trans h1)]
      rw [e] at hr
      exact List.isRotated_nil_iff.1 hr
  · rw [if_neg h] at hp
    rw [if_neg (fun hc => h ⟨hc.1, lt_of_le_of_lt (le_max_left c s) hc.2⟩), hp]
    rfl

theorem clip_high_y {tol orient : K} {s u v a b c d : K} {poly : List (K × K)} (hp : IsRect poly a b c d) (huv : u ≠ v)
    (hin : ∀ x y : K, inEdge orient (u, s) (v, s) (x, y) = decide (y < s)) (ht : c < s → s ≤ d → tol ≤ |v - u| * (d - c)) :
    IsRect (clipEdge tol orient (u, s) (v, s) poly) a b c (min d s) := by
  unfold IsRect at hp ⊢
  by_cases h : a < b ∧ c < d
  · rw [if_pos h] at hp
    have hr := clipEdge_rotated tol orient (u, s) (v, s) hp
    rcases lt_or_ge c s with h1 | h1
    · rcases lt_or_ge d s with h2 | h2
      · rw [if_pos ⟨h.1, lt_min h.2 h1⟩, min_eq_left h2.le]
        refine hr.trans (?_ : _ ~r _)
        have e : clipEdge tol orient (u, s) (v, s) (rectL a b c d) = rectL a b c d := by
          simp [clipEdge, rectL, clipLoop, hin, h1, h2]
        rw [e]
      · rw [if_pos ⟨h.1, lt_min h.2 h1⟩, min_eq_right h2]
        refine hr.trans (?_ : _ ~r _)
        have ht' := ht h1 h2
        have e : clipEdge tol orient (u, s) (v, s) (rectL a b c d) = (rectL a b c s).rotate 3 := by
          have i1 : segIntersect tol (u, s) (v, s) (a, c) (a, d) = some (a, s) :=
            seg_horiz (ne_of_lt h.2) huv (by rw [abs_of_pos (sub_pos.2 h.2)]; exact ht')
          have i2 : segIntersect tol (u, s) (v, s) (b, d) (b, c) = some (b, s) :=
            seg_horiz (ne_of_gt h.2) huv (by rw [abs_sub_comm c d, abs_of_pos (sub_pos.2 h.2)]; exact ht')
          simp [clipEdge, rectL, clipLoop, hin, h1, not_lt.2 h2, i1, i2]
        rw [e]
        exact List.IsRotated.symm ⟨3, rfl⟩
    · rw [if_neg (fun hc => absurd (lt_of_lt_of_le hc.2 (min_le_right d s)) (not_lt.2 h1))]
      have e : clipEdge tol orient (u, s) (v, s) (rectL a b c d) = [] := by
        simp [clipEdge, rectL, clipLoop, hin, not_lt.2 h1, not_lt.2 (h1.trans h.2.le)]
      rw [e] at hr
      exact List.isRotated_nil_iff.1 hr
  · rw [if_neg h] at hp
    rw [if_neg (fun hc => h ⟨hc.1, lt_of_lt_of_le hc.2 (min_le_left d s)⟩), hp]
    rfl

/-- the area of a rectangle -/
theorem polyArea_rect {poly : List (K × K)} {a b c d : K} (h : poly ~r rectL a b c d) :
    poly.length = 4 ∧ polyArea poly = |b - a| * |d - c| := by
  refine ⟨h.perm.length_eq, ?_⟩
  obtain ⟨n, hn, rfl⟩ := List.isRotated_iff_mod.1 h.symm
  simp only [rectL, List.length_cons, List.length_nil] at hn
  have key : ∀ x y : K, 1 / 2 * |x * y| + (1 / 2 * |x * y| + 0) = |x| * |y| := by intro x y; rw [abs_mul]; ring
  have t : ∀ x y z w : K, x = z → y = w → 1 / 2 * |x| + (1 / 2 * |y| + 0) = 1 / 2 * |z| + (1 / 2 * |w| + 0) := by
    rintro x y _ _ rfl rfl; rfl
  have s : ∀ x y : K, |x| = |-x| := fun x _ => (abs_neg x).symm
  rcases (by omega : n = 0 ∨ n = 1 ∨ n = 2 ∨ n = 3 ∨ n = 4) with rfl | rfl | rfl | rfl | rfl
  all_goals
    simp only [rectL, List.rotate_zero, List.rotate_cons_succ, List.cons_append, List.nil_append, polyArea, List.length_cons,
      List.length_nil, fanArea]
    rw [if_neg (by omega), ← key (b - a) (d - c)]
    apply t <;> ring

end Verif.Astro
