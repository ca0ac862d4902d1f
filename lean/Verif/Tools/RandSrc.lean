import Verif.Astro.RandPosProps
import Verif.Math.HullProps
import Verif.Str.Std
import Mathlib.Order.Bounds.Basic
/-!
# Random sources in the field of a catalogue (C234): `randsrc` (`tools/randsrc/randsrc.cpp`)

Simplified: the catalogue is given by its positions, and the random numbers by a sequence. The coordinates are in an ordered field.
-/
namespace Verif.RandSrc
open Verif Verif.Str Verif.Hull Verif.RandPos

variable {K : Type} [Field K] [LinearOrder K]

/-! ### Model -/

/-- `min` and `max` of the coordinates (randsrc.cpp:62-63) -/
def bounds : List K → K × K
  | [] => (0, 0)
  | a :: l => (l.foldl min a, l.foldl max a)

/-- the name of the output file (randsrc.cpp:87-94) -/
def outName (file out : Str) : Str :=
  if out = [] then (if ".fits".toList <:+ file then file.take (file.length - 5) else file) ++ "-rnd.fits".toList else out

/-- what the program does -/
inductive Done (K : Type) where
  | error
  | wrote (path : Str) (ra dec : List K)
deriving DecidableEq

/-- `vif_main` (randsrc.cpp:23-100); `ids` are the indices of the positions sorted by `build_convex_hull`, `u` the random numbers. Of the model, the text before
the first colon is used. -/
def main (file out model : Str) (nsrc maxIter : Nat) (pts : List (K × K)) (ids : List Nat) (u : Nat → K) : Res (Done K) :=
  let n := if nsrc = 0 then pts.length else nsrc
  if pts.length < 3 then .ok .error
  else do
    let hull ← build pts ids
    if model.takeWhile (· ≠ ':') = "uniform".toList then
      let r := uniformBox u n (bounds (pts.map (·.1))) (bounds (pts.map (·.2))) [] [] (fun x y => inHull (hull.map (ptOf pts)) 1 (x, y)) maxIter 0
      if r.1.1 then .ok (.wrote (outName file out) r.1.2.1 r.1.2.2) else .ok .error
    else .ok .error

/-! ### Specification -/

variable [IsStrictOrderedRing K]

/-- Spec: `(lo, hi)` are the least and the greatest of the elements of a list -/
def IsRange (l : List K) (b : K × K) : Prop := IsLeast {x | x ∈ l} b.1 ∧ IsGreatest {x | x ∈ l} b.2

/-- Spec: the `i`-th candidate, uniform in the box -/
def candidate (u : Nat → K) (bx bd : K × K) (i : Nat) : K × K := (bx.1 + u (2 * i) * (bx.2 - bx.1), bd.1 + u (2 * i + 1) * (bd.2 - bd.1))

/-! ### Helpers -/

omit [IsStrictOrderedRing K] [Field K] in
theorem fold_min (l : List K) : ∀ a, IsLeast {x | x ∈ a :: l} (l.foldl min a) := by
  induction l with
  | nil => intro a; exact ⟨by simp, fun x hx => by simpa using (show x = a by simpa using hx).ge⟩
  | cons b l ih =>
    intro a
    obtain ⟨h1, h2⟩ := ih (min a b)
    rw [List.foldl_cons]
    refine ⟨?_, fun x hx => ?_⟩
    · simp only [Set.mem_setOf_eq, List.mem_cons] at h1 ⊢
      rcases h1 with h1 | h1
      · rw [h1]
        rcases min_choice a b with h | h <;> rw [h] <;> simp
      · exact .inr (.inr h1)
    · simp only [Set.mem_setOf_eq, List.mem_cons] at hx
      have hm : l.foldl min (min a b) ≤ min a b := h2 (by simp)
      rcases hx with rfl | rfl | hx
      · exact hm.trans (min_le_left _ _)
      · exact hm.trans (min_le_right _ _)
      · exact h2 (by simp [hx])

omit [IsStrictOrderedRing K] [Field K] in
theorem fold_max (l : List K) : ∀ a, IsGreatest {x | x ∈ a :: l} (l.foldl max a) := by
  induction l with
  | nil => intro a; exact ⟨by simp, fun x hx => by simpa using (show x = a by simpa using hx).le⟩
  | cons b l ih =>
    intro a
    obtain ⟨h1, h2⟩ := ih (max a b)
    rw [List.foldl_cons]
    refine ⟨?_, fun x hx => ?_⟩
    · simp only [Set.mem_setOf_eq, List.mem_cons] at h1 ⊢
      rcases h1 with h1 | h1
      · rw [h1]
        rcases max_choice a b with h | h <;> rw [h] <;> simp
      · exact .inr (.inr h1)
    · simp only [Set.mem_setOf_eq, List.mem_cons] at hx
      have hm : max a b ≤ l.foldl max (max a b) := h2 (by simp)
      rcases hx with rfl | rfl | hx
      · exact (le_max_left _ _).trans hm
      · exact (le_max_right _ _).trans hm
      · exact h2 (by simp [hx])

omit [IsStrictOrderedRing K] in
theorem bounds_spec {l : List K} (h : l ≠ []) : IsRange l (bounds l) := by
  cases l with
  | nil => exact absurd rfl h
  | cons a l => exact ⟨fold_min l a, fold_max l a⟩

omit [IsStrictOrderedRing K] [LinearOrder K] in
theorem draws_box (u : Nat → K) (bx bd : K × K) (m : Nat) : ∀ k, draws (boxPos u bx bd) m (2 * k) = (List.range' k m).map (candidate u bx bd) := by
  induction m with
  | zero => intro k; rfl
  | succ m ih =>
    intro k
    rw [draws, List.range'_succ, List.map_cons]
    refine congrArg₂ _ ?_ (ih (k + 1))
    simp only [boxPos, candidate]
    rw [add_comm, add_comm (u (2 * k + 1) * _)]

omit [IsStrictOrderedRing K] [LinearOrder K] in
theorem after_box (u : Nat → K) (bx bd : K × K) (m : Nat) : ∀ k, after (boxPos u bx bd) m k = k + 2 * m := by
  induction m with
  | zero => intro k; rfl
  | succ m ih => intro k; rw [after, ih]; simp only [boxPos]; omega

/-! ### C234 -/

open Classical in
/-- **C234** for at least three positions not on a line: the program fails or writes the requested number of positions (by default, as many as in the catalogue), the
first candidates, uniform in the smallest box around the catalogue, which are in the convex hull of its positions. It fails only if `max_iter` candidates one
after the other are out of the hull. -/
theorem C234_positions_partial {file out model : Str} {nsrc maxIter : Nat} {pts : List (K × K)} {ids : List Nat} {u : Nat → K} (hs : Sorted pts ids) (h3 : 3 ≤ pts.length) (hn : ¬ Collinear pts)
    (h0 : maxIter ≠ 0) (hm : model.takeWhile (· ≠ ':') = "uniform".toList) :
    ∃ bx bd, IsRange (pts.map (·.1)) bx ∧ IsRange (pts.map (·.2)) bd ∧
      ((∃ ra dec, main file out model nsrc maxIter pts ids u = .ok (.wrote (outName file out) ra dec) ∧
          ra.length = (if nsrc = 0 then pts.length else nsrc) ∧ dec.length = ra.length ∧
          (∀ p ∈ ra.zip dec, p ∈ convexHull K {q | q ∈ pts}) ∧
          ∃ m, ra.zip dec = ((List.range m).map (candidate u bx bd)).filter (fun p => p ∈ convexHull K {q | q ∈ pts})) ∨
        (main file out model nsrc maxIter pts ids u = .ok .error ∧ ∃ m, ∀ i < maxIter, candidate u bx bd (m + i) ∉ convexHull K {q | q ∈ pts})) := by
  have hne : pts ≠ [] := by rintro rfl; simp at h3
  obtain ⟨H, hH, -⟩ := C33_hull_partial hs hne
  have hin := C33_inside hs hn hH
  refine ⟨_, _, bounds_spec (by simpa using hne), bounds_spec (by simpa using hne), ?_⟩
  have hn0 : (if nsrc = 0 then pts.length else nsrc) ≠ 0 := by split <;> omega
  have hf : (fun p : K × K => inHull (H.map (ptOf pts)) 1 (p.1, p.2)) = fun p => decide (p ∈ convexHull K {q | q ∈ pts}) := by
    funext p
    have := hin p
    rw [Bool.eq_iff_iff, decide_eq_true_eq]
    exact this
  unfold main
  dsimp only
  rw [if_neg (by omega), hH, Res.ok_bind, if_pos hm]
  unfold uniformBox
  rw [if_neg hn0]
  generalize hr : rejectionSampling (boxPos u (bounds (pts.map (·.1))) (bounds (pts.map (·.2)))) (fun x y => inHull (H.map (ptOf pts)) 1 (x, y)) [] []
    (if nsrc = 0 then pts.length else nsrc) maxIter 0 = r
  obtain ⟨⟨b, ra, dec⟩, k'⟩ := r
  cases b with
  | true =>
    left
    obtain ⟨l1, l2, m, -, -, -, l3, -⟩ := C148_selected _ _ _ _ _ _ _ _ _ _ hr
    have hd := draws_box u (bounds (pts.map (·.1))) (bounds (pts.map (·.2))) m 0
    rw [Nat.mul_zero, ← List.range_eq_range'] at hd
    rw [hd, hf] at l3
    refine ⟨ra, dec, rfl, l1, by rw [l1, l2], fun p hp => ?_, m, l3⟩
    rw [l3, List.mem_filter] at hp
    simpa using hp.2
  | false =>
    right
    obtain ⟨m, l1, -⟩ := C148_failed _ _ _ _ _ _ _ _ _ _ h0 hr
    refine ⟨rfl, m, fun i hi hc => ?_⟩
    have hd := draws_box u (bounds (pts.map (·.1))) (bounds (pts.map (·.2))) maxIter m
    rw [after_box, Nat.zero_add, hd] at l1
    have := l1 (candidate u _ _ (m + i)) (List.mem_map.2 ⟨m + i, by simp; omega, rfl⟩)
    rw [(hin _).2 hc] at this
    cases this

omit [IsStrictOrderedRing K] in
/-- Fewer than three positions, or another model, are refused. -/
theorem C234_refused {file out model : Str} {nsrc maxIter : Nat} {pts : List (K × K)} {ids : List Nat} {u : Nat → K} (h : pts.length < 3) :
    main file out model nsrc maxIter pts ids u = .ok .error := by
  unfold main
  dsimp only
  rw [if_pos h]

/-- **C234** fails for a field across RA = 0: with a catalogue within 1 degree of RA = 0, the program can write a position at RA = 180. -/
theorem C234_origin_refuted : main "a.fits".toList [] "uniform".toList 1 1000 [(1, 0), (359, 0), (359, 2)] [0, 1, 2] (fun i => if i % 2 = 0 then 1 / 2 else 1 / 4) =
      .ok (.wrote "a-rnd.fits".toList [180] [(1 / 2 : ℚ)]) ∧ Sorted ([(1, 0), (359, 0), (359, 2)] : List (ℚ × ℚ)) [0, 1, 2] ∧ ¬ Collinear ([(1, 0), (359, 0), (359, 2)] : List (ℚ × ℚ)) := by
  unfold Sorted Collinear ptLess
  decide +kernel

end Verif.RandSrc
