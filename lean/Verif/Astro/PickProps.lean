import Verif.Astro.Pick
import Verif.Astro.CutoutProps
/-!
# C152, C153: cutouts of many sources, choice of a band
-/
namespace Verif.Astro
open Verif Verif.Bil

variable {K : Type} [Field K] [LinearOrder K] [FloorRing K]

/-! ### Specification -/

/-- Spec: the source is not too close to the borders. -/
def InBounds (img : Img (Option K)) (h : Nat) (x y : K) : Prop := 1 ≤ x - h ∧ x + h < img.nx ∧ 1 ≤ y - h ∧ y + h < img.ny

/-- Spec: the pixel `(a,b)` of the square of `2h+1` pixels around the pixel of the source. -/
def squarePix (img : Img (Option K)) (h : Nat) (x y : K) (a b : Nat) : Option (Option K) := pixAt img (roundI x - h + a) (roundI y - h + b)

/-- Spec: a source that is kept: within bounds, and all the pixels of its square are in the image and finite. -/
def PickKept (img : Img (Option K)) (h : Nat) (x y : K) : Prop :=
  InBounds img h x y ∧ ∀ a b, a < 2 * h + 1 → b < 2 * h + 1 → ∃ v, squarePix img h x y a b = some (some v)

/-- Spec: the square of a source. -/
def IsSquare (img : Img (Option K)) (h : Nat) (x y : K) (c : Img (Option K)) : Prop :=
  c.WF ∧ c.nx = 2 * h + 1 ∧ c.ny = 2 * h + 1 ∧ ∀ a b, a < 2 * h + 1 → b < 2 * h + 1 → c.at a b = squarePix img h x y a b

/-! ### Lemmas -/

theorem roundI_ge [IsStrictOrderedRing K] {x : K} {n : Nat} (h : (n : K) ≤ x) : (n : Int) ≤ roundI x := by
  have h0 : 0 ≤ x := (Nat.cast_nonneg n).trans h
  unfold roundI
  rw [if_pos h0, Int.le_floor]
  push_cast
  linarith

theorem any_none {c : Img (Option K)} (hw : c.WF) : c.px.any (fun p => p.isNone) = false ↔ ∀ a b, a < c.nx → b < c.ny → ∃ v, c.at a b = some (some v) := by
  rw [List.any_eq_false]
  constructor
  · intro h a b ha hb
    obtain ⟨o, ho⟩ := at_isSome hw ha hb
    rw [ho]
    have hm : o ∈ c.px := by
      unfold Img.at at ho
      rw [if_pos ⟨ha, hb⟩] at ho
      exact List.mem_of_getElem? ho
    cases o with
    | none => exact absurd rfl (h none hm)
    | some v => exact ⟨v, rfl⟩
  · intro h p hp
    obtain ⟨k, hk⟩ := List.mem_iff_getElem?.1 hp
    have hk' : k < c.nx * c.ny := by
      obtain ⟨q, -⟩ := List.getElem?_eq_some_iff.1 hk
      rw [← hw]; exact q
    have hy : 0 < c.ny := by
      rcases Nat.eq_zero_or_pos c.ny with e | e
      · rw [e] at hk'; simp at hk'
      · exact e
    obtain ⟨v, hv⟩ := h (k / c.ny) (k % c.ny) (by rw [Nat.div_lt_iff_lt_mul hy]; exact hk') (Nat.mod_lt _ hy)
    unfold Img.at at hv
    rw [if_pos ⟨by rw [Nat.div_lt_iff_lt_mul hy]; exact hk', Nat.mod_lt _ hy⟩, Nat.div_add_mod' k c.ny, hk, Option.some.injEq] at hv
    rw [hv]; simp

theorem cubePush_ok {α : Type} {cube : List (Img α)} {c : Img α} (h : ∀ d ∈ cube, d.nx = c.nx ∧ d.ny = c.ny) : cubePush cube c = .ok (cube ++ [c]) := by
  cases cube with
  | nil => rfl
  | cons d l => unfold cubePush; dsimp only; rw [Res.check_pos (h d (by simp)), Res.ok_bind]

theorem pickOne_spec [IsStrictOrderedRing K] {img : Img (Option K)} (hw : img.WF) (h : Nat) {ys : List (Option K)} {i : Nat} {x y : K} (hy : ys[i]? = some (some y))
    (he : InBounds img h x y → roundI x + h < img.nx ∧ roundI y + h < img.ny) (s : List (Img (Option K)) × List Nat) (hs : ∀ d ∈ s.1, d.nx = 2 * h + 1 ∧ d.ny = 2 * h + 1) :
    (PickKept img h x y ∧ ∃ c, IsSquare img h x y c ∧ pickOne img h ys i (some x) s = .ok (s.1 ++ [c], s.2 ++ [i])) ∨
      (¬ PickKept img h x y ∧ pickOne img h ys i (some x) s = .ok s) := by
  unfold pickOne
  have hi : i < ys.length := (List.getElem?_eq_some_iff.1 hy).1
  by_cases b1 : outAxis img.nx h (some x) = true
  · rw [if_pos b1]
    refine Or.inr ⟨fun hk => ?_, rfl⟩
    have b1 := of_decide_eq_true b1
    rcases b1 with b | b
    · exact absurd hk.1.1 (not_le.2 b)
    · exact absurd hk.1.2.1 (not_lt.2 b)
  · rw [if_neg b1, Res.check_pos hi, Res.ok_bind, show Res.rd ys i = .ok (some y) by unfold Res.rd; rw [hy], Res.ok_bind]
    have b1 : ¬ (x - h < 1 ∨ (img.nx : K) ≤ x + h) := fun hc => b1 (decide_eq_true hc)
    rw [not_or, not_lt, not_le] at b1
    by_cases b2 : outAxis img.ny h (some y) = true
    · rw [if_pos b2]
      refine Or.inr ⟨fun hk => ?_, rfl⟩
      have b2 := of_decide_eq_true b2
      rcases b2 with b | b
      · exact absurd hk.1.2.2.1 (not_le.2 b)
      · exact absurd hk.1.2.2.2 (not_lt.2 b)
    · rw [if_neg b2]
      have b2 : ¬ (y - h < 1 ∨ (img.ny : K) ≤ y + h) := fun hc => b2 (decide_eq_true hc)
      rw [not_or, not_lt, not_le] at b2
      have hb : InBounds img h x y := ⟨b1.1, b1.2, b2.1, b2.2⟩
      have rx : ((h + 1 : Nat) : Int) ≤ roundI x := roundI_ge (by push_cast; linarith [b1.1])
      have ry : ((h + 1 : Nat) : Int) ≤ roundI y := roundI_ge (by push_cast; linarith [b2.1])
      obtain ⟨ex, ey⟩ := he hb
      simp only [pixOf, Res.ok_bind]
      generalize hX : roundI x = X at rx ex
      generalize hY : roundI y = Y at ry ey
      obtain ⟨r, r1, r2, r3, r4, r5⟩ := readRect_spec hw (y0 := X.toNat - h) (y1 := X.toNat + h) (x0 := Y.toNat - h) (x1 := Y.toNat + h) (by omega) (by omega) (by omega) (by omega)
      rw [r1, Res.ok_bind]
      have hsq : IsSquare img h x y r := by
        refine ⟨r2, by omega, by omega, fun a b ha hb => ?_⟩
        rw [r5 a b (by omega) (by omega)]
        unfold squarePix pixAt
        rw [hX, hY, if_pos (by omega)]
        congr 1 <;> omega
      have hfin : r.px.any (fun p => p.isNone) = false ↔ PickKept img h x y := by
        rw [any_none r2]
        constructor
        · intro hf
          refine ⟨hb, fun a b ha hb => ?_⟩
          rw [← hsq.2.2.2 a b ha hb]
          exact hf a b (by omega) (by omega)
        · intro hk a b ha hb
          rw [hsq.2.1] at ha
          rw [hsq.2.2.1] at hb
          rw [hsq.2.2.2 a b ha hb]
          exact hk.2 a b ha hb
      by_cases hk : PickKept img h x y
      · refine Or.inl ⟨hk, r, hsq, ?_⟩
        rw [if_neg (by rw [hfin.2 hk]; simp), cubePush_ok (fun d hd => by rw [hsq.2.1, hsq.2.2.1]; exact hs d hd), Res.ok_bind]
      · refine Or.inr ⟨hk, ?_⟩
        rw [if_pos (by simpa using fun hc => hk (hfin.1 hc))]

theorem pickLoop_spec [IsStrictOrderedRing K] {img : Img (Option K)} (hw : img.WF) (h : Nat) (xs ys : List K) (hl : xs.length = ys.length)
    (he : ∀ (i : Nat) (x y : K), xs[i]? = some x → ys[i]? = some y → InBounds img h x y → roundI x + h < img.nx ∧ roundI y + h < img.ny) :
    ∀ (l : List K) (i : Nat) (s : List (Img (Option K)) × List Nat), (∀ d ∈ s.1, d.nx = 2 * h + 1 ∧ d.ny = 2 * h + 1) → xs.drop i = l →
      ∃ cuts good, pickLoop img h (ys.map some) (l.map some) i s = .ok (s.1 ++ cuts, s.2 ++ good) ∧ cuts.length = good.length ∧ good.Pairwise (· < ·) ∧
        (∀ j, j ∈ good ↔ i ≤ j ∧ ∃ x y, xs[j]? = some x ∧ ys[j]? = some y ∧ PickKept img h x y) ∧
        ∀ (k j : Nat) (x y : K), good[k]? = some j → xs[j]? = some x → ys[j]? = some y → ∃ c, cuts[k]? = some c ∧ IsSquare img h x y c := by
  intro l
  induction l with
  | nil =>
    intro i s hs hd
    refine ⟨[], [], by simp [pickLoop], rfl, List.Pairwise.nil, fun j => ?_, by simp⟩
    simp only [List.not_mem_nil, false_iff, not_and, not_exists]
    intro hij x y hx _
    have := List.drop_eq_nil_iff.1 hd
    have := (List.getElem?_eq_some_iff.1 hx).1
    omega
  | cons x l ih =>
    intro i s hs hd
    have hx : xs[i]? = some x := by
      have := congrArg (fun l => l[0]?) hd
      simpa using this
    have hi : i < ys.length := by rw [← hl]; exact (List.getElem?_eq_some_iff.1 hx).1
    have hy : ys[i]? = some ys[i] := List.getElem?_eq_getElem hi
    have hd' : xs.drop (i + 1) = l := by
      have := congrArg List.tail hd
      simpa using this
    rw [List.map_cons, pickLoop]
    rcases pickOne_spec hw h (ys := ys.map some) (i := i) (x := x) (y := ys[i]) (by rw [List.getElem?_map, hy]; rfl) (he i x _ hx hy) s hs with ⟨hk, c, hc, e⟩ | ⟨hk, e⟩
    · rw [e, Res.ok_bind]
      obtain ⟨cuts, good, g1, g2, g3, g4, g5⟩ := ih (i + 1) (s.1 ++ [c], s.2 ++ [i]) (fun d hd => by
        rcases List.mem_append.1 hd with hd | hd
        · exact hs d hd
        · rw [List.mem_singleton.1 hd]; exact ⟨hc.2.1, hc.2.2.1⟩) hd'
      refine ⟨c :: cuts, i :: good, by rw [g1]; simp, by simp [g2], List.pairwise_cons.2 ⟨fun j hj => ((g4 j).1 hj).1, g3⟩, fun j => ?_, fun k j x' y' hk' hx' hy' => ?_⟩
      · rw [List.mem_cons, g4]
        constructor
        · rintro (rfl | ⟨h1, h2⟩)
          · exact ⟨le_refl _, x, _, hx, hy, hk⟩
          · exact ⟨by omega, h2⟩
        · rintro ⟨h1, h2⟩
          rcases Nat.lt_or_eq_of_le h1 with h1 | h1
          · exact Or.inr ⟨h1, h2⟩
          · exact Or.inl h1.symm
      · cases k with
        | zero =>
          simp only [List.getElem?_cons_zero, Option.some.injEq] at hk'
          subst hk'
          rw [hx, Option.some.injEq] at hx'
          rw [hy, Option.some.injEq] at hy'
          exact ⟨c, rfl, hx' ▸ hy' ▸ hc⟩
        | succ k => exact g5 k j x' y' (by simpa using hk') hx' hy'
    · rw [e, Res.ok_bind]
      obtain ⟨cuts, good, g1, g2, g3, g4, g5⟩ := ih (i + 1) s hs hd'
      refine ⟨cuts, good, g1, g2, g3, fun j => ?_, g5⟩
      rw [g4]
      constructor
      · rintro ⟨h1, h2⟩; exact ⟨by omega, h2⟩
      · rintro ⟨h1, x', y', h2, h3, h4⟩
        rcases Nat.lt_or_eq_of_le h1 with h1 | h1
        · exact ⟨h1, x', y', h2, h3, h4⟩
        · subst h1
          rw [hx, Option.some.injEq] at h2
          rw [hy, Option.some.injEq] at h3
          exact absurd (h2 ▸ h3 ▸ h4) hk

/-! ### C152 -/

/-- The sources that are kept, in order, are the ones within the bounds whose square is finite; the cube gets the square of each of them, and the identifiers their positions in
the lists, after what they contained. This needs that the square of a source which passes the test is in the image. -/
theorem C152_sources_partial [IsStrictOrderedRing K] (img : Img (Option K)) (hw : img.WF) (h : Nat) (xs ys : List K) (hl : xs.length = ys.length)
    (cube : List (Img (Option K))) (ids : List Nat) (hc : ∀ d ∈ cube, d.nx = 2 * h + 1 ∧ d.ny = 2 * h + 1)
    (he : ∀ (i : Nat) (x y : K), xs[i]? = some x → ys[i]? = some y → InBounds img h x y → roundI x + h < img.nx ∧ roundI y + h < img.ny) :
    ∃ cuts good, pickSources img (xs.map some) (ys.map some) h cube ids = .ok (cube ++ cuts, ids ++ good) ∧ cuts.length = good.length ∧ good.Pairwise (· < ·) ∧
      (∀ j, j ∈ good ↔ ∃ x y, xs[j]? = some x ∧ ys[j]? = some y ∧ PickKept img h x y) ∧
      ∀ (k j : Nat) (x y : K), good[k]? = some j → xs[j]? = some x → ys[j]? = some y → ∃ c, cuts[k]? = some c ∧ IsSquare img h x y c := by
  obtain ⟨cuts, good, g1, g2, g3, g4, g5⟩ := pickLoop_spec hw h xs ys hl he xs 0 (cube, ids) hc rfl
  exact ⟨cuts, good, g1, g2, g3, fun j => by rw [g4]; simp, g5⟩

/-- A source in the last half of a pixel passes the test, but its square is not in the image: the program stops. -/
theorem C152_edge_refuted [IsStrictOrderedRing K] (img : Img (Option K)) (h : Nat) (x y : K) (hb : InBounds img h x y) (hr : roundI x + h = img.nx) :
    pickSources img [some x] [some y] h [] [] = .abort := by
  have b1 : outAxis img.nx h (some x) = false := decide_eq_false (by rw [not_or, not_lt, not_le]; exact ⟨hb.1, hb.2.1⟩)
  have b2 : outAxis img.ny h (some y) = false := decide_eq_false (by rw [not_or, not_lt, not_le]; exact ⟨hb.2.2.1, hb.2.2.2⟩)
  have rx : ((h + 1 : Nat) : Int) ≤ roundI x := roundI_ge (by push_cast; linarith [hb.1])
  unfold pickSources pickLoop pickOne
  simp only [b1, b2, Bool.false_eq_true, if_false, List.length_singleton, Res.check_pos (show 0 < 1 by omega), Res.ok_bind, Res.rd, List.getElem?_cons_zero, pixOf]
  unfold readRect
  rw [if_neg (by omega)]
  rfl

/-- such a source: 4x4 pixels, half size 1, x = 5/2 -/
example : InBounds (⟨4, 4, List.replicate 16 (some 0)⟩ : Img (Option ℚ)) 1 (5 / 2) 2 ∧ roundI (5 / 2 : ℚ) + (1 : Nat) = (4 : Nat) := by
  refine ⟨⟨by norm_num, by norm_num, by norm_num, by norm_num⟩, ?_⟩
  decide +kernel

/-- A source whose square begins at the first row is left out, although its square is in the image and finite. -/
theorem C152_first_row_refuted [IsStrictOrderedRing K] (img : Img (Option K)) (h : Nat) (x y : K) (hx : x < h + 1) : pickSources img [some x] [some y] h [] [] = .ok ([], []) := by
  have b1 : outAxis img.nx h (some x) = true := decide_eq_true (Or.inl (by linarith))
  unfold pickSources pickLoop pickOne
  rw [if_pos b1]
  rfl

example : (1 : ℚ) < (1 : Nat) + 1 ∧ ∀ a b, a < 2 * 1 + 1 → b < 2 * 1 + 1 → squarePix (⟨4, 4, List.replicate 16 (some 0)⟩ : Img (Option ℚ)) 1 1 1 a b = some (some 0) := by
  refine ⟨by norm_num, fun a b ha hb => ?_⟩
  have : (List.range 3).all (fun a => (List.range 3).all fun b => squarePix (⟨4, 4, List.replicate 16 (some 0)⟩ : Img (Option ℚ)) 1 1 1 a b == some (some 0)) = true := by decide +kernel
  rw [List.all_eq_true] at this
  have := this a (List.mem_range.2 (by omega))
  rw [List.all_eq_true] at this
  simpa using this b (List.mem_range.2 (by omega))

/-- A coordinate that is not a number passes the test, and its conversion to an integer is undefined. -/
theorem C152_nan_refuted [IsStrictOrderedRing K] (img : Img (Option K)) (h : Nat) : pickSources img [none] [none] h [] [] = .ub := rfl

/-- two sources out of four -/
example : pickSources (⟨5, 5, (List.range 25).map fun (i : Nat) => if i = 23 then none else some (i : ℚ)⟩ : Img (Option ℚ)) [some 2, some 3, some 0, some (9 / 4)] [some 2, some 3, some 2, some 3] 1 [] [7] =
    .ok ([⟨3, 3, [some 6, some 7, some 8, some 11, some 12, some 13, some 16, some 17, some 18]⟩, ⟨3, 3, [some 7, some 8, some 9, some 12, some 13, some 14, some 17, some 18, some 19]⟩], [7, 0, 3]) := by
  decide +kernel

/-! ### C153 -/

/-- A band is found exactly if it is the only one that matches. -/
theorem C153_band (m : List Bool) (i : Nat) : getBand m = some i ↔ m[i]? = some true ∧ ∀ j, m[j]? = some true → j = i := by
  unfold getBand
  dsimp only
  have hm : ∀ j, j ∈ (List.range m.length).filter (fun i => m.getD i false) ↔ m[j]? = some true := by
    intro j
    rw [List.mem_filter, List.mem_range]
    constructor
    · rintro ⟨h1, h2⟩
      rw [List.getD_eq_getElem?_getD, List.getElem?_eq_getElem h1, Option.getD_some] at h2
      rw [List.getElem?_eq_getElem h1, h2]
    · intro h
      obtain ⟨h1, h2⟩ := List.getElem?_eq_some_iff.1 h
      exact ⟨h1, by rw [List.getD_eq_getElem?_getD, h, Option.getD_some]⟩
  have hn : ((List.range m.length).filter (fun i => m.getD i false)).Nodup := List.nodup_range.filter _
  generalize (List.range m.length).filter (fun i => m.getD i false) = id at hm hn
  match id, hm, hn with
  | [], hm, _ => simp only [List.length_nil, if_true]; simp [← hm]
  | [a], hm, _ =>
    simp only [List.length_singleton, Nat.one_ne_zero, if_false, gt_iff_lt, lt_self_iff_false, List.head?_cons, Option.some.injEq]
    constructor
    · rintro rfl
      exact ⟨(hm a).1 (by simp), fun j hj => by simpa using (hm j).2 hj⟩
    · rintro ⟨h1, -⟩
      have := (hm i).2 h1
      simpa [eq_comm] using this
  | a :: b :: l, hm, hn =>
    rw [if_neg (by simp), if_pos (by simp)]
    simp only [reduceCtorEq, false_iff, not_and, not_forall]
    intro hi
    have ha := (hm a).1 (by simp)
    have hb := (hm b).1 (by simp)
    by_cases e : a = i
    · refine ⟨b, hb, fun e' => ?_⟩
      rw [← e'] at e
      subst e
      simp at hn
    · exact ⟨a, ha, e⟩

example : getBand [false, true, false] = some 1 ∧ getBand [true, false, true] = none ∧ getBand [] = none := by decide

end Verif.Astro
