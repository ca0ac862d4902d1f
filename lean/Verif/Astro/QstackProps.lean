import Verif.Astro.Qstack
import Mathlib.Data.List.Nodup
import Mathlib.Data.List.Induction
import Mathlib.Data.Rat.Floor
import Mathlib.Tactic.Linarith
import Mathlib.Tactic.Ring
/-!
# C118: cutouts of sources
-/
namespace Verif.Qstack
open Verif Verif.Astro

section
variable {K : Type} [Field K] [LinearOrder K] [IsStrictOrderedRing K] [FloorRing K] {α : Type}

/-! ### Specification -/

/-- Spec: the pixel `(X, Y)` of an image, numbered from 1; NaN out of the image -/
def pixel (N : Num α) (im : Image K α) (X Y : Int) : α :=
  if 1 ≤ X ∧ X ≤ im.width ∧ 1 ≤ Y ∧ Y ≤ im.height then im.px.getD ((Y.toNat - 1) * im.width + (X.toNat - 1)) N.nan else N.nan

/-- Spec: the square of `2h+1` pixels around the pixel `(X, Y)`; rows are `Y` -/
def square (N : Num α) (h : Nat) (im : Image K α) (X Y : Int) : Img α :=
  ⟨2 * h + 1, 2 * h + 1, (List.range (2 * h + 1)).flatMap fun j : Nat => (List.range (2 * h + 1)).map fun i : Nat => pixel N im (X - h + i) (Y - h + j)⟩

/-- Spec: the code ignores a source if its square has no pixel in the image, or only some of the last row or column -/
def Ignored (h : Nat) (im : Image K α) (X Y : Int) : Prop := X + h < 1 ∨ (im.width : Int) ≤ X - h ∨ Y + h < 1 ∨ (im.height : Int) ≤ Y - h

instance (h : Nat) (im : Image K α) (X Y : Int) : Decidable (Ignored h im X Y) := by unfold Ignored; infer_instance

/-- Spec: the cutout that is kept -/
def kept (N : Num α) (keepNan : Bool) (h : Nat) (im : Image K α) (x y : K) : Option (Img α) :=
  if Ignored h im (rnd x) (rnd y) then none
  else if keepNan = false ∧ ∃ v ∈ (square N h im (rnd x) (rnd y)).px, N.fin v = false then none
  else some (square N h im (rnd x) (rnd y))

/-- Spec: positions whose square is around the rounded position -/
def Good (h : Nat) (x : K) : Prop := (h : K) ≤ x ∨ ∀ n : Int, x ≠ n + 1 / 2

/-! ### Rounding -/

theorem rnd_eq {x : K} (h : 0 ≤ x ∨ ∀ n : Int, x ≠ n + 1 / 2) : rnd x = ⌊x + 1 / 2⌋ := by
  unfold rnd
  split
  · rfl
  · rename_i hx
    have hne : ∀ n : Int, x ≠ n + 1 / 2 := h.resolve_left hx
    symm
    rw [Int.floor_eq_iff]
    have h1 := Int.floor_le (-x + 1 / 2)
    have h2 := Int.lt_floor_add_one (-x + 1 / 2)
    push_cast
    constructor
    · linarith
    · have h3 : (⌊-x + 1 / 2⌋ : K) ≠ -x + 1 / 2 := by
        intro he
        apply hne (-⌊-x + 1 / 2⌋)
        push_cast
        linarith
      have := lt_of_le_of_ne h1 h3
      linarith

theorem rnd_shift {h : Nat} {x : K} (hg : Good h x) : rnd (x - h) = rnd x - h ∧ rnd (x + h) = rnd x + h := by
  have hh : (0 : K) ≤ h := Nat.cast_nonneg h
  have a1 : 0 ≤ x - h ∨ ∀ n : Int, x - h ≠ n + 1 / 2 := hg.imp (by intro; linarith) (fun hn n he => hn (n + h) (by push_cast; linarith))
  have a2 : 0 ≤ x + h ∨ ∀ n : Int, x + h ≠ n + 1 / 2 := hg.imp (by intro; linarith) (fun hn n he => hn (n - h) (by push_cast; linarith))
  have a3 : 0 ≤ x ∨ ∀ n : Int, x ≠ n + 1 / 2 := hg.imp (by intro; linarith) id
  rw [rnd_eq a1, rnd_eq a2, rnd_eq a3]
  constructor
  · rw [show x - (h : K) + 1 / 2 = x + 1 / 2 - (h : K) by ring, Int.floor_sub_natCast]
  · rw [show x + (h : K) + 1 / 2 = x + 1 / 2 + (h : K) by ring, Int.floor_add_natCast]

/-! ### Lists of rows -/

theorem grid_length {β : Type} (a b : Nat) (f : Nat → Nat → β) : ((List.range a).flatMap fun j => (List.range b).map (f j)).length = a * b := by
  induction a with
  | zero => simp
  | succ a ih => rw [List.range_succ, List.flatMap_append, List.length_append, ih]; simp; ring

theorem grid_get {β : Type} (a b : Nat) (f : Nat → Nat → β) (j i : Nat) (hj : j < a) (hi : i < b) :
    ((List.range a).flatMap fun j => (List.range b).map (f j))[j * b + i]? = some (f j i) := by
  induction a with
  | zero => omega
  | succ a ih =>
    rw [List.range_succ, List.flatMap_append]
    rcases Nat.lt_or_ge j a with h | h
    · rw [List.getElem?_append_left (by rw [grid_length]; exact flat_lt h hi)]
      exact ih h
    · have : j = a := by omega
      subst this
      rw [List.getElem?_append_right (by rw [grid_length]; omega), grid_length]
      simp [hi]

theorem square_wf (N : Num α) (h : Nat) (im : Image K α) (X Y : Int) : (square N h im X Y).WF := by
  unfold Img.WF square
  exact grid_length _ _ _

theorem square_at (N : Num α) (h : Nat) (im : Image K α) (X Y : Int) (j i : Nat) (hj : j < 2 * h + 1) (hi : i < 2 * h + 1) :
    (square N h im X Y).at j i = some (pixel N im (X - h + i) (Y - h + j)) := by
  unfold Img.at
  rw [if_pos ⟨hj, hi⟩]
  exact grid_get _ _ _ j i hj hi

/-! ### One cutout -/

theorem readSubset_ok (N : Num α) (im : Image K α) (hn : im.naxis = 2) (x0 y0 x1 y1 : Int) (h : 1 ≤ x0 ∧ x0 ≤ x1 ∧ x1 ≤ im.width ∧ 1 ≤ y0 ∧ y0 ≤ y1 ∧ y1 ≤ im.height) :
    ∃ l, readSubset N im x0 y0 x1 y1 = .ok l ∧ l.length = (y1 - y0 + 1).toNat * (x1 - x0 + 1).toNat ∧
      ∀ j i, j < (y1 - y0 + 1).toNat → i < (x1 - x0 + 1).toNat → l[j * (x1 - x0 + 1).toNat + i]? = some (pixel N im (x0 + i) (y0 + j)) := by
  unfold readSubset
  rw [if_pos ⟨hn, h⟩]
  refine ⟨_, rfl, grid_length _ _ _, fun j i hj hi => ?_⟩
  rw [grid_get _ _ _ j i hj hi]
  unfold pixel
  rw [if_pos (by omega)]
  have e1 : (y0 + (j : Int)).toNat = y0.toNat + j := by omega
  have e2 : (x0 + (i : Int)).toNat = x0.toNat + i := by omega
  rw [e1, e2]

theorem partialCut_eq (N : Num α) (h : Nat) (im : Image K α) (hn : im.naxis = 2) (hw : 0 < im.width) (hht : 0 < im.height) (X Y : Int) (hi : ¬ Ignored h im X Y) :
    partialCut N h im (X - h) (Y - h) (X + h) (Y + h) = .ok (square N h im X Y) := by
  unfold Ignored at hi
  unfold partialCut
  obtain ⟨l, l1, l2, l3⟩ := readSubset_ok N im hn (max 1 (X - h)) (max 1 (Y - h)) (min (im.width : Int) (X + h)) (min (im.height : Int) (Y + h)) (by omega)
  simp only [l1, Res.ok_bind]
  generalize hx0 : max 1 (X - (h : Int)) = bx0 at *
  generalize hy0 : max 1 (Y - (h : Int)) = by0 at *
  generalize hx1 : min (im.width : Int) (X + h) = bx1 at *
  generalize hy1 : min (im.height : Int) (Y + h) = by1 at *
  rw [Res.check_pos (by omega)]
  simp only [Res.ok_bind]
  obtain ⟨s, s1, s2, s3, s4, s5, s6⟩ := for2_write (nx := (by1 - (Y - h)).toNat + 1 - (by0 - (Y - h)).toNat) (ny := (bx1 - (X - h)).toNat + 1 - (bx0 - (X - h)).toNat)
    (body := fun i j c => c.put ((by0 - (Y - h)).toNat + i) ((bx0 - (X - h)).toNat + j) (l.getD (i * ((bx1 - (X - h)).toNat + 1 - (bx0 - (X - h)).toNat) + j) N.nan))
    (fun i => (by0 - (Y - h)).toNat + i) (fun j => (bx0 - (X - h)).toNat + j)
    (fun i j => l.getD (i * ((bx1 - (X - h)).toNat + 1 - (bx0 - (X - h)).toNat) + j) N.nan) (Img.fill (2 * h + 1) (2 * h + 1) N.nan) (fill_wf _ _ _)
    (by intro x hx; simp only [Img.fill]; omega) (by intro x hx; simp only [Img.fill]; omega) (by intros; omega) (by intros; omega) (fun _ _ _ _ _ _ _ _ => rfl)
  rw [s1]
  congr 1
  refine img_ext s2 (square_wf ..) s3 s4 fun j i hj hi' => ?_
  have hj : j < 2 * h + 1 := by rw [s3] at hj; exact hj
  have hi' : i < 2 * h + 1 := by rw [s4] at hi'; exact hi'
  rw [square_at N h im X Y j i hj hi']
  by_cases hin : 1 ≤ X - h + i ∧ X - h + i ≤ im.width ∧ 1 ≤ Y - h + j ∧ Y - h + j ≤ im.height
  · have := s5 (j - (by0 - (Y - h)).toNat) (i - (bx0 - (X - h)).toNat) (by omega) (by omega)
    rw [show (by0 - (Y - h)).toNat + (j - (by0 - (Y - h)).toNat) = j by omega, show (bx0 - (X - h)).toNat + (i - (bx0 - (X - h)).toNat) = i by omega] at this
    rw [this]
    have e := l3 (j - (by0 - (Y - h)).toNat) (i - (bx0 - (X - h)).toNat) (by omega) (by omega)
    rw [show (bx1 - bx0 + 1).toNat = (bx1 - (X - h)).toNat + 1 - (bx0 - (X - h)).toNat by omega] at e
    rw [List.getD_eq_getElem?_getD, e, Option.getD_some]
    congr 2 <;> omega
  · rw [s6 j i (by rintro ⟨a, b, ha, hb, rfl, rfl⟩; apply hin; omega), fill_at, if_pos ⟨hj, hi'⟩]
    unfold pixel
    rw [if_neg hin]

theorem fullCut_eq (N : Num α) (h : Nat) (im : Image K α) (hn : im.naxis = 2) (X Y : Int) (hi : 1 ≤ X - h ∧ X + h ≤ im.width ∧ 1 ≤ Y - h ∧ Y + h ≤ im.height) :
    fullCut N h im (X - h) (Y - h) (X + h) (Y + h) = .ok (square N h im X Y) := by
  obtain ⟨l, l1, l2, l3⟩ := readSubset_ok N im hn (X - h) (Y - h) (X + h) (Y + h) (by omega)
  unfold fullCut
  simp only [l1, Res.ok_bind]
  rw [show (Y + h - (Y - h) + 1 : Int).toNat = 2 * h + 1 by omega, show (X + h - (X - h) + 1 : Int).toNat = 2 * h + 1 by omega] at l2 l3
  rw [if_pos l2.le, l2, Nat.sub_self, List.replicate_zero, List.append_nil]
  congr 1
  refine img_ext (v := ⟨2 * h + 1, 2 * h + 1, l⟩) l2 (square_wf ..) rfl rfl fun j i hj hi' => ?_
  rw [square_at N h im X Y j i hj hi']
  unfold Img.at
  rw [if_pos ⟨hj, hi'⟩]
  exact l3 j i hj hi'

/-- **C118** (partial: positions that are not half-integers out of the image, images with two axes) the cutout of a source in an image is the
square of `2h+1` pixels centred on the rounded position, filled with NaN out of the image; it is discarded if it is out of the image, and
without `keep_nan` if one of its pixels is not finite -/
theorem C118_cut_partial (N : Num α) (keepNan : Bool) (h : Nat) (im : Image K α) (hn : im.naxis = 2) (hw : 0 < im.width) (hht : 0 < im.height) (x y : K) (hx : Good h x) (hy : Good h y) :
    makeCut N keepNan h im x y = .ok (kept N keepNan h im x y) := by
  obtain ⟨e1, e2⟩ := rnd_shift hx
  obtain ⟨e3, e4⟩ := rnd_shift hy
  unfold makeCut kept
  simp only [e1, e2, e3, e4]
  by_cases hi : Ignored h im (rnd x) (rnd y)
  · rw [if_pos hi, if_pos]
    exact hi
  · rw [if_neg hi, if_neg (by exact hi)]
    have hc : rawCut N h im (rnd x - h) (rnd y - h) (rnd x + h) (rnd y + h) = .ok (square N h im (rnd x) (rnd y)) := by
      unfold rawCut
      split
      · exact partialCut_eq N h im hn hw hht _ _ hi
      · exact fullCut_eq N h im hn _ _ (by omega)
    rw [hc]
    simp only [Res.ok_bind]
    cases keepNan
    · simp only [Bool.not_false, Bool.true_and, List.any_eq_true, Bool.not_eq_eq_eq_not, Bool.not_true, true_and]
      split <;> rfl
    · simp

/-! ### All the sources -/

/-- Spec: the cutout of source `ki.2` in image `ki.1`, if it is kept -/
def cutOf (N : Num α) (keepNan : Bool) (h : Nat) (imgs : List (Image K α)) (ki : Nat × Nat) : Option (Img α) :=
  (imgs[ki.1]?).bind fun im => (im.pos[ki.2]?).bind fun xy => kept N keepNan h im xy.1 xy.2

/-- Spec: the order of the loops -/
def Lex (p q : Nat × Nat) : Prop := p.1 < q.1 ∨ (p.1 = q.1 ∧ p.2 < q.2)

/-- the pairs that add a source -/
def firsts (C : Nat × Nat → Option (Img α)) (Q : List (Nat × Nat)) : List (Nat × Nat) :=
  Q.foldl (fun fs p => if (C p).isSome ∧ p.2 ∉ fs.map (·.2) then fs ++ [p] else fs) []

theorem firsts_snoc (C : Nat × Nat → Option (Img α)) (Q : List (Nat × Nat)) (p : Nat × Nat) :
    firsts C (Q ++ [p]) = if (C p).isSome ∧ p.2 ∉ (firsts C Q).map (·.2) then firsts C Q ++ [p] else firsts C Q := by
  unfold firsts
  rw [List.foldl_append]
  rfl

theorem firsts_sublist (C : Nat × Nat → Option (Img α)) (Q : List (Nat × Nat)) : (firsts C Q).Sublist Q := by
  induction Q using List.reverseRecOn with
  | nil => exact List.Sublist.refl _
  | append_singleton Q p ih =>
    rw [firsts_snoc]
    split
    · exact ih.append (List.Sublist.refl _)
    · exact ih.trans (List.sublist_append_left _ _)

theorem firsts_nodup (C : Nat × Nat → Option (Img α)) (Q : List (Nat × Nat)) : ((firsts C Q).map (·.2)).Nodup := by
  induction Q using List.reverseRecOn with
  | nil => exact List.nodup_nil
  | append_singleton Q p ih =>
    rw [firsts_snoc]
    split
    · rename_i h
      rw [List.map_append, List.nodup_append]
      refine ⟨ih, by simp, ?_⟩
      rintro a ha b hb rfl
      simp only [List.map_cons, List.map_nil, List.mem_singleton] at hb
      exact h.2 (hb ▸ ha)
    · exact ih

theorem mem_firsts_map (C : Nat × Nat → Option (Img α)) (Q : List (Nat × Nat)) (i : Nat) :
    i ∈ (firsts C Q).map (·.2) ↔ ∃ q ∈ Q, q.2 = i ∧ (C q).isSome := by
  induction Q using List.reverseRecOn with
  | nil => simp [firsts]
  | append_singleton Q p ih =>
    rw [firsts_snoc]
    split
    · rename_i h
      rw [List.map_append, List.mem_append, ih]
      constructor
      · rintro (⟨q, hq, e⟩ | e)
        · exact ⟨q, List.mem_append_left _ hq, e⟩
        · simp only [List.map_cons, List.map_nil, List.mem_singleton] at e
          exact ⟨p, by simp, e.symm, h.1⟩
      · rintro ⟨q, hq, e⟩
        rcases List.mem_append.1 hq with hq | hq
        · exact Or.inl ⟨q, hq, e⟩
        · rw [List.mem_singleton] at hq
          subst hq
          right; simp [e.1]
    · rename_i h
      rw [ih]
      constructor
      · rintro ⟨q, hq, e⟩
        exact ⟨q, List.mem_append_left _ hq, e⟩
      · rintro ⟨q, hq, e⟩
        rcases List.mem_append.1 hq with hq | hq
        · exact ⟨q, hq, e⟩
        · rw [List.mem_singleton] at hq
          subst hq
          have : q.2 ∈ (firsts C Q).map (·.2) := by
            by_contra hc
            exact h ⟨e.2, hc⟩
          rw [← e.1]
          exact (ih.trans (by simp only [e.1])).1 (e.1 ▸ this)

theorem mem_firsts (C : Nat × Nat → Option (Img α)) (Q : List (Nat × Nat)) (hQ : Q.Pairwise Lex) (p : Nat × Nat) :
    p ∈ firsts C Q ↔ p ∈ Q ∧ (C p).isSome ∧ ∀ q ∈ Q, q.2 = p.2 → q.1 < p.1 → C q = none := by
  induction Q using List.reverseRecOn with
  | nil => simp [firsts]
  | append_singleton Q r ih =>
    obtain ⟨h1, -, h3⟩ := List.pairwise_append.1 hQ
    have ih := ih h1
    have hlt : ∀ q ∈ Q, Lex q r := fun q hq => h3 q hq r (by simp)
    have hold : p ∈ Q → ((p ∈ Q ++ [r] ∧ (C p).isSome ∧ ∀ q ∈ Q ++ [r], q.2 = p.2 → q.1 < p.1 → C q = none) ↔
        (p ∈ Q ∧ (C p).isSome ∧ ∀ q ∈ Q, q.2 = p.2 → q.1 < p.1 → C q = none)) := by
      intro hp
      constructor
      · rintro ⟨a, b, c⟩
        exact ⟨hp, b, fun q hq => c q (List.mem_append_left _ hq)⟩
      · rintro ⟨a, b, c⟩
        refine ⟨List.mem_append_left _ hp, b, fun q hq e1 e2 => ?_⟩
        rcases List.mem_append.1 hq with hq | hq
        · exact c q hq e1 e2
        · rw [List.mem_singleton] at hq
          subst hq
          have := hlt p hp
          unfold Lex at this
          omega
    have hnew : p ∉ Q → p = r → (C r).isSome → r.2 ∉ (firsts C Q).map (·.2) → ∀ q ∈ Q ++ [r], q.2 = p.2 → q.1 < p.1 → C q = none := by
      rintro hp rfl hs hn q hq e1 e2
      rcases List.mem_append.1 hq with hq | hq
      · by_contra hc
        exact hn ((mem_firsts_map C Q p.2).2 ⟨q, hq, e1, Option.isSome_iff_ne_none.2 hc⟩)
      · rw [List.mem_singleton] at hq
        subst hq
        omega
    have hrQ : r ∉ Q := fun hr => by have := hlt r hr; unfold Lex at this; omega
    rw [firsts_snoc]
    split
    · rename_i h
      rw [List.mem_append, List.mem_singleton]
      by_cases hp : p ∈ Q
      · rw [hold hp, ← ih]
        constructor
        · rintro (h | rfl)
          · exact h
          · exact absurd hp hrQ
        · exact Or.inl
      · constructor
        · rintro (h' | rfl)
          · exact absurd (ih.1 h').1 hp
          · exact ⟨by simp, h.1, hnew hp rfl h.1 h.2⟩
        · rintro ⟨a, -⟩
          right
          rcases List.mem_append.1 a with a | a
          · exact absurd a hp
          · simpa using a
    · rename_i h
      by_cases hp : p ∈ Q
      · rw [hold hp, ← ih]
      · constructor
        · intro h'
          exact absurd (ih.1 h').1 hp
        · rintro ⟨a, b, c⟩
          exfalso
          rcases List.mem_append.1 a with a | a
          · exact hp a
          · rw [List.mem_singleton] at a
            subst a
            apply h
            refine ⟨b, fun hm => ?_⟩
            obtain ⟨q, hq, e1, e2⟩ := (mem_firsts_map C Q p.2).1 hm
            have := hlt q hq
            unfold Lex at this
            rw [c q (List.mem_append_left _ hq) e1 (by omega)] at e2
            simp at e2

/-- the cutouts of a source, in order -/
def cutsOf (C : Nat × Nat → Option (Img α)) (Q : List (Nat × Nat)) (i : Nat) : List (Img α) := Q.filterMap fun q => if q.2 = i then C q else none

/-- two cutouts combined -/
def mix (N : Num α) (o c : Img α) : Img α := { o with px := List.zipWith (fun a b => if N.fin a then a else b) o.px c.px }

/-- several cutouts combined -/
def merged (N : Num α) : List (Img α) → Img α
  | [] => ⟨0, 0, []⟩
  | c :: cs => cs.foldl (mix N) c

theorem cutsOf_snoc (C : Nat × Nat → Option (Img α)) (Q : List (Nat × Nat)) (p : Nat × Nat) (i : Nat) :
    cutsOf C (Q ++ [p]) i = cutsOf C Q i ++ (if p.2 = i then (C p).toList else []) := by
  unfold cutsOf
  rw [List.filterMap_append]
  congr 1
  by_cases h : p.2 = i
  · rcases hcp : C p with _ | c <;> simp [h, hcp]
  · simp [h]

theorem merged_snoc (N : Num α) (l : List (Img α)) (c : Img α) (h : l ≠ []) : merged N (l ++ [c]) = mix N (merged N l) c := by
  cases l with
  | nil => exact absurd rfl h
  | cons a l => simp [merged, List.foldl_append]

theorem whereLast_eq (ids new : List Nat) (hnd : new.Nodup) (t : Nat) (i : Nat) (h : new[t]? = some i) : whereLast (ids ++ new) i = ids.length + t := by
  obtain ⟨ht, e⟩ := List.getElem?_eq_some_iff.1 h
  unfold whereLast
  have hm : i ∈ new.reverse := List.mem_reverse.2 (e ▸ List.getElem_mem ht)
  rw [List.reverse_append, List.idxOf_append_of_mem hm]
  have e2 : new.reverse[new.length - 1 - t]'(by rw [List.length_reverse]; omega) = i := by
    rw [List.getElem_reverse]
    simp only [show new.length - 1 - (new.length - 1 - t) = t by omega]
    exact e
  have := (List.nodup_reverse.2 hnd).idxOf_getElem (new.length - 1 - t) (by rw [List.length_reverse]; omega)
  rw [e2] at this
  rw [this, List.length_append]
  omega

/-- the position of a source -/
def posOf (imgs : List (Image K α)) (p : Nat × Nat) : K × K := (imgs[p.1]?.bind fun im => im.pos[p.2]?).getD (0, 0)

/-- the state after the pairs `Q` -/
structure Inv (N : Num α) (p : Params) (C : Nat × Nat → Option (Img α)) (pos : Nat × Nat → K × K) (n : Nat) (ids : List Nat) (cube : List (Img α)) (Q : List (Nat × Nat)) (s : St K α) : Prop where
  ids : s.ids = ids ++ (firsts C Q).map (·.2)
  cube : s.cube = cube ++ (firsts C Q).map fun q => merged N (cutsOf C Q q.2)
  found : s.found.length = n ∧ ∀ i < n, s.found.getD i false = decide (i ∈ (firsts C Q).map (·.2))
  dx : s.dx = if p.saveOffsets then (firsts C Q).map (fun q => (pos q).1 - rnd (pos q).1) else []
  dy : s.dy = if p.saveOffsets then (firsts C Q).map (fun q => (pos q).2 - rnd (pos q).2) else []
  sect : s.sect = if p.saveSection then (firsts C Q).map (·.1) else []

theorem cutsOf_ne (C : Nat × Nat → Option (Img α)) (Q : List (Nat × Nat)) (i : Nat) (h : i ∈ (firsts C Q).map (·.2)) : cutsOf C Q i ≠ [] := by
  obtain ⟨q, hq, e1, e2⟩ := (mem_firsts_map C Q i).1 h
  obtain ⟨c, hc⟩ := Option.isSome_iff_exists.1 e2
  have : c ∈ cutsOf C Q i := List.mem_filterMap.2 ⟨q, hq, by simp [e1, hc]⟩
  exact List.ne_nil_of_mem this

theorem cutsOf_empty (C : Nat × Nat → Option (Img α)) (Q : List (Nat × Nat)) (i : Nat) (h : i ∉ (firsts C Q).map (·.2)) : cutsOf C Q i = [] := by
  rw [cutsOf, List.filterMap_eq_nil_iff]
  intro q hq
  by_cases e : q.2 = i
  · rw [if_pos e]
    by_contra hc
    exact h ((mem_firsts_map C Q i).2 ⟨q, hq, e, Option.isSome_iff_ne_none.2 hc⟩)
  · rw [if_neg e]

theorem merged_dims (N : Num α) (d : Nat) : ∀ (l : List (Img α)), (∀ c ∈ l, c.nx = d ∧ c.ny = d) → l ≠ [] → (merged N l).nx = d ∧ (merged N l).ny = d := by
  intro l hl hne
  cases l with
  | nil => exact absurd rfl hne
  | cons a l =>
    have ha := hl a (List.mem_cons_self ..)
    have : ∀ (l : List (Img α)) (a : Img α), (l.foldl (mix N) a).nx = a.nx ∧ (l.foldl (mix N) a).ny = a.ny := by
      intro l
      induction l with
      | nil => intro a; exact ⟨rfl, rfl⟩
      | cons b l ih => intro a; exact ih (mix N a b)
    unfold merged
    rw [(this l a).1, (this l a).2]
    exact ha

/-- one pair -/
theorem record_inv (N : Num α) (p : Params) (d : Nat) (C : Nat × Nat → Option (Img α)) (hC : ∀ q c, C q = some c → c.nx = d ∧ c.ny = d) (pos : Nat × Nat → K × K)
    (n : Nat) (ids : List Nat) (cube : List (Img α)) (hlen : ids.length = cube.length) (hcube : ∀ c ∈ cube, c.nx = d ∧ c.ny = d)
    (Q : List (Nat × Nat)) (s : St K α) (h : Inv N p C pos n ids cube Q s) (q : Nat × Nat) (hq : q.2 < n) (c : Img α) (hc : C q = some c) :
    ∃ s', record N p q.1 q.2 (pos q).1 (pos q).2 c s = .ok s' ∧ Inv N p C pos n ids cube (Q ++ [q]) s' := by
  have hmd : ∀ i ∈ (firsts C Q).map (·.2), (merged N (cutsOf C Q i)).nx = d ∧ (merged N (cutsOf C Q i)).ny = d := by
    intro i hi
    refine merged_dims N d _ ?_ (cutsOf_ne C Q i hi)
    intro c hc
    obtain ⟨r, -, e⟩ := List.mem_filterMap.1 hc
    split at e
    · exact hC r c e
    · cases e
  unfold record
  rw [h.found.2 q.2 hq]
  by_cases hm : q.2 ∈ (firsts C Q).map (·.2)
  · rw [if_pos (by simpa using hm)]
    have hf : firsts C (Q ++ [q]) = firsts C Q := by rw [firsts_snoc, if_neg (fun h => h.2 hm)]
    obtain ⟨t, ht⟩ := List.mem_iff_getElem?.1 hm
    obtain ⟨r, hr, hr2⟩ := List.getElem?_map .. ▸ ht |> Option.map_eq_some_iff.1
    have hw : whereLast s.ids q.2 = cube.length + t := by
      rw [h.ids, ← hlen]
      exact whereLast_eq ids _ (firsts_nodup C Q) t q.2 ht
    have hget : s.cube[cube.length + t]? = some (merged N (cutsOf C Q q.2)) := by
      rw [h.cube, List.getElem?_append_right (by omega), Nat.add_sub_cancel_left, List.getElem?_map, hr]
      simp [hr2]
    unfold combine
    rw [hw, hget]
    simp only
    have hd := hmd q.2 hm
    have hcd := hC q c hc
    rw [if_pos ⟨hd.1.trans hcd.1.symm, hd.2.trans hcd.2.symm⟩]
    refine ⟨_, rfl, ?_⟩
    refine ⟨by rw [hf]; exact h.ids, ?_, by rw [hf]; exact h.found, by rw [hf]; exact h.dx, by rw [hf]; exact h.dy, by rw [hf]; exact h.sect⟩
    simp only
    rw [hf, h.cube]
    apply List.ext_getElem?
    intro u
    rw [List.getElem?_set]
    by_cases hu : cube.length + t = u
    · subst hu
      have hlt : cube.length + t < (cube ++ (firsts C Q).map fun q => merged N (cutsOf C Q q.2)).length := by
        obtain ⟨ht', -⟩ := List.getElem?_eq_some_iff.1 hr
        simp; exact ht'
      rw [if_pos rfl, if_pos hlt, List.getElem?_append_right (by omega), Nat.add_sub_cancel_left, List.getElem?_map, hr]
      simp only [Option.map_some, hr2]
      rw [cutsOf_snoc, if_pos rfl, hc, Option.toList_some, merged_snoc N _ _ (cutsOf_ne C Q q.2 hm)]
      rfl
    · rw [if_neg hu]
      by_cases hu2 : u < cube.length
      · rw [List.getElem?_append_left hu2, List.getElem?_append_left hu2]
      · rw [List.getElem?_append_right (by omega), List.getElem?_append_right (by omega), List.getElem?_map, List.getElem?_map]
        rcases hx : (firsts C Q)[u - cube.length]? with _ | r'
        · rfl
        · simp only [Option.map_some]
          have hne : q.2 ≠ r'.2 := by
            intro he
            have e1 : ((firsts C Q).map (·.2))[u - cube.length]? = some q.2 := by rw [List.getElem?_map, hx, he]; rfl
            obtain ⟨a1, a2⟩ := List.getElem?_eq_some_iff.1 ht
            obtain ⟨b1, b2⟩ := List.getElem?_eq_some_iff.1 e1
            have := (List.Nodup.getElem_inj_iff (firsts_nodup C Q)).1 (a2.trans b2.symm)
            omega
          rw [cutsOf_snoc, if_neg hne, List.append_nil]
  · rw [if_neg (by simpa using hm)]
    have hf : firsts C (Q ++ [q]) = firsts C Q ++ [q] := by rw [firsts_snoc, if_pos ⟨by simp [hc], hm⟩]
    have hcd := hC q c hc
    have hpush : pushCube s.cube c = .ok (s.cube ++ [c]) := by
      unfold pushCube
      rcases hs : s.cube with _ | ⟨a, l⟩
      · rfl
      · simp only
        have ha : a.nx = d ∧ a.ny = d := by
          have : a ∈ s.cube := by rw [hs]; simp
          rw [h.cube] at this
          rcases List.mem_append.1 this with hm' | hm'
          · exact hcube a hm'
          · obtain ⟨r, hr, rfl⟩ := List.mem_map.1 hm'
            exact hmd r.2 (List.mem_map_of_mem hr)
        rw [if_pos ⟨ha.1.trans hcd.1.symm, ha.2.trans hcd.2.symm⟩]
    rw [hpush]
    refine ⟨_, rfl, ?_⟩
    refine ⟨?_, ?_, ⟨?_, ?_⟩, ?_, ?_, ?_⟩
    · simp only [hf, List.map_append, h.ids, List.append_assoc]; rfl
    · simp only [hf, List.map_append, h.cube, List.append_assoc]
      congr 2
      · refine List.map_congr_left fun r hr => ?_
        have hne : q.2 ≠ r.2 := fun he => hm (he ▸ List.mem_map_of_mem hr)
        rw [cutsOf_snoc, if_neg hne, List.append_nil]
      · simp only [List.map_cons, List.map_nil]
        rw [cutsOf_snoc, if_pos rfl, hc, cutsOf_empty C Q q.2 hm]
        rfl
    · simp [h.found.1]
    · intro i hi
      simp only [hf, List.map_append, List.mem_append, List.map_cons, List.map_nil, List.mem_singleton]
      rw [List.getD_eq_getElem?_getD, List.getElem?_set]
      by_cases he : q.2 = i
      · rw [if_pos he, if_pos (by rw [h.found.1]; omega)]
        simp [he]
      · rw [if_neg he, ← List.getD_eq_getElem?_getD, h.found.2 i hi]
        have : i ≠ q.2 := fun e => he e.symm
        simp [this]
    · simp only [hf, h.dx]; split <;> simp
    · simp only [hf, h.dy]; split <;> simp
    · simp only [hf, h.sect]; split <;> simp

theorem pairs_sorted (m n : Nat) : (pairs m n).Pairwise Lex := by
  unfold pairs
  rw [List.pairwise_flatMap]
  constructor
  · intro k _
    rw [List.pairwise_map]
    exact List.pairwise_lt_range.imp fun h => Or.inr ⟨rfl, h⟩
  · refine List.pairwise_lt_range.imp fun h => ?_
    intro x hx y hy
    obtain ⟨i, -, rfl⟩ := List.mem_map.1 hx
    obtain ⟨j, -, rfl⟩ := List.mem_map.1 hy
    exact Or.inl h

theorem mem_pairs {m n : Nat} {p : Nat × Nat} : p ∈ pairs m n ↔ p.1 < m ∧ p.2 < n := by
  unfold pairs
  rw [List.mem_flatMap]
  constructor
  · rintro ⟨k, hk, hp⟩
    obtain ⟨i, hi, rfl⟩ := List.mem_map.1 hp
    exact ⟨List.mem_range.1 hk, List.mem_range.1 hi⟩
  · rintro ⟨h1, h2⟩
    exact ⟨p.1, List.mem_range.2 h1, List.mem_map.2 ⟨p.2, List.mem_range.2 h2, rfl⟩⟩

theorem pick (n i : Nat) (hi : i < n) (c : Option (Img α)) (k : Nat) (C : Nat × Nat → Option (Img α)) (hc : C (k, i) = c) :
    ((List.range n).map fun j => (k, j)).filterMap (fun q => if q.2 = i then C q else none) = c.toList := by
  have key : ∀ n, ((List.range n).map fun j => (k, j)).filterMap (fun q => if q.2 = i then C q else none) = if i < n then c.toList else [] := by
    intro n
    induction n with
    | zero => simp
    | succ n ih =>
      rw [List.range_succ, List.map_append, List.filterMap_append, ih]
      by_cases h1 : i < n
      · have : ¬ n = i := by omega
        simp [h1, this, show i < n + 1 by omega]
      · by_cases h2 : n = i
        · subst h2
          rcases c with _ | c <;> simp [hc]
        · simp [h1, h2, show ¬ i < n + 1 by omega]
  rw [key n, if_pos hi]

theorem cutsOf_pairs (C : Nat × Nat → Option (Img α)) (m n i : Nat) (hi : i < n) : cutsOf C (pairs m n) i = (List.range m).filterMap fun k => C (k, i) := by
  unfold cutsOf pairs
  rw [List.filterMap_flatMap]
  induction m with
  | zero => simp
  | succ m ih =>
    rw [List.range_succ, List.flatMap_append, List.filterMap_append, ih]
    congr 1
    rw [List.flatMap_singleton, pick n i hi _ m C rfl]
    rcases hc : C (m, i) with _ | c <;> simp [hc]

/-- the value of a merged pixel -/
theorem mergeVal (N : Num α) : ∀ (vs : List α) (v : α),
    (∀ u, (v :: vs).find? N.fin = some u → vs.foldl (fun a b => if N.fin a then a else b) v = u) ∧
    ((v :: vs).find? N.fin = none → N.fin (vs.foldl (fun a b => if N.fin a then a else b) v) = false)
  | [], v => by
    constructor
    · intro u hu
      rw [List.find?_cons] at hu
      split at hu
      · exact Option.some.inj hu
      · simp at hu
    · intro hu
      rw [List.find?_cons] at hu
      split at hu
      · cases hu
      · rename_i h; simpa using h
  | w :: vs, v => by
    obtain ⟨h1, h2⟩ := mergeVal N vs (if N.fin v then v else w)
    by_cases hv : N.fin v = true
    · have e : (v :: w :: vs).find? N.fin = some v := by rw [List.find?_cons, hv]
      constructor
      · intro u hu
        rw [e] at hu
        rw [List.foldl_cons]
        refine h1 u ?_
        rw [hv, if_pos rfl, List.find?_cons, hv]
        exact hu
      · intro hu; rw [e] at hu; cases hu
    · have hv' : N.fin v = false := by simpa using hv
      have e : (v :: w :: vs).find? N.fin = (w :: vs).find? N.fin := by rw [List.find?_cons, hv']
      rw [e]
      rw [if_neg hv] at h1 h2
      rw [List.foldl_cons, if_neg hv]
      exact ⟨h1, h2⟩

theorem mix_at (N : Num α) (d : Nat) (o c : Img α) (ho : o.WF ∧ o.nx = d ∧ o.ny = d) (hc : c.WF ∧ c.nx = d ∧ c.ny = d) :
    ((mix N o c).WF ∧ (mix N o c).nx = d ∧ (mix N o c).ny = d) ∧
    ∀ a b u v, o.at a b = some u → c.at a b = some v → (mix N o c).at a b = some (if N.fin u then u else v) := by
  obtain ⟨h1, h2, h3⟩ := ho
  obtain ⟨g1, g2, g3⟩ := hc
  unfold Img.WF at h1 g1
  refine ⟨⟨?_, h2, h3⟩, ?_⟩
  · unfold Img.WF mix
    simp only [List.length_zipWith, h1, g1, h2, h3, g2, g3, Nat.min_self]
  · intro a b u v hu hv
    obtain ⟨a1, a2⟩ := at_lt hu
    unfold Img.at at hu hv ⊢
    rw [if_pos ⟨a1, a2⟩] at hu
    rw [if_pos ⟨by omega, by omega⟩] at hv
    rw [if_pos ⟨a1, a2⟩]
    show (List.zipWith _ o.px c.px)[a * o.ny + b]? = _
    rw [List.getElem?_zipWith, hu, show a * o.ny + b = a * c.ny + b by rw [h3, g3], hv]

theorem merged_at (N : Num α) (d : Nat) (cs : List (Img α)) (hne : cs ≠ []) (h : ∀ c ∈ cs, c.WF ∧ c.nx = d ∧ c.ny = d) (a b : Nat) (ha : a < d) (hb : b < d) :
    ((merged N cs).WF ∧ (merged N cs).nx = d ∧ (merged N cs).ny = d) ∧
    ∃ v, (merged N cs).at a b = some v ∧ (∀ u, (cs.filterMap fun c => c.at a b).find? N.fin = some u → v = u) ∧
      ((cs.filterMap fun c => c.at a b).find? N.fin = none → N.fin v = false) := by
  cases cs with
  | nil => exact absurd rfl hne
  | cons c cs =>
    have key : ∀ (cs : List (Img α)) (c : Img α), (∀ c' ∈ c :: cs, c'.WF ∧ c'.nx = d ∧ c'.ny = d) → ∀ v, c.at a b = some v →
        ((cs.foldl (mix N) c).WF ∧ (cs.foldl (mix N) c).nx = d ∧ (cs.foldl (mix N) c).ny = d) ∧
        (cs.foldl (mix N) c).at a b = some ((cs.filterMap fun c => c.at a b).foldl (fun x y => if N.fin x then x else y) v) := by
      intro cs
      induction cs with
      | nil => intro c hc v hv; exact ⟨hc c (by simp), hv⟩
      | cons c2 cs ih =>
        intro c hc v hv
        have g := hc c2 (by simp)
        obtain ⟨w, hw⟩ := at_isSome g.1 (x := a) (y := b) (by omega) (by omega)
        obtain ⟨m1, m2⟩ := mix_at N d c c2 (hc c (by simp)) g
        have := ih (mix N c c2) (by
          intro c' hc'
          rcases List.mem_cons.1 hc' with rfl | hc'
          · exact m1
          · exact hc c' (by simp [hc'])) _ (m2 a b v w hv hw)
        rw [List.foldl_cons, List.filterMap_cons, hw]
        exact this
    have g := h c (by simp)
    obtain ⟨w, hw⟩ := at_isSome g.1 (x := a) (y := b) (by omega) (by omega)
    obtain ⟨k1, k2⟩ := key cs c h w hw
    refine ⟨k1, _, k2, ?_⟩
    rw [List.filterMap_cons, hw]
    obtain ⟨m1, m2⟩ := mergeVal N (cs.filterMap fun c => c.at a b) w
    exact ⟨m1, m2⟩

theorem kept_dims {N : Num α} {keepNan : Bool} {h : Nat} {im : Image K α} {x y : K} {c : Img α} (hk : kept N keepNan h im x y = some c) :
    c.WF ∧ c.nx = 2 * h + 1 ∧ c.ny = 2 * h + 1 := by
  unfold kept at hk
  split at hk
  · cases hk
  · split at hk
    · cases hk
    · cases hk
      exact ⟨square_wf .., rfl, rfl⟩

theorem cutOf_dims {N : Num α} {keepNan : Bool} {h : Nat} {imgs : List (Image K α)} {q : Nat × Nat} {c : Img α} (hk : cutOf N keepNan h imgs q = some c) :
    c.WF ∧ c.nx = 2 * h + 1 ∧ c.ny = 2 * h + 1 := by
  unfold cutOf at hk
  obtain ⟨im, -, hk⟩ := Option.bind_eq_some_iff.1 hk
  obtain ⟨xy, -, hk⟩ := Option.bind_eq_some_iff.1 hk
  exact kept_dims hk

/-- **C118** (partial: as for one cutout) stacking `n` sources on any number of images adds one cutout per source that is kept in some image, in the
order of the first such image and then of the sources, with its identifier, its image and its distance to the centre of the pixel. A pixel
of the cutout holds the first finite value found in the images, in order, and is not finite if there is none. What was in the cube and in the
identifiers before is kept in front. -/
theorem C118_stack_partial (N : Num α) (p : Params) (h n : Nat) (imgs : List (Image K α)) (ids : List Nat) (cube : List (Img α))
    (hlen : ids.length = cube.length) (hcube : ∀ c ∈ cube, c.nx = 2 * h + 1 ∧ c.ny = 2 * h + 1)
    (himg : ∀ im ∈ imgs, im.naxis = 2 ∧ 0 < im.width ∧ 0 < im.height ∧ im.pos.length = n ∧ ∀ xy ∈ im.pos, Good h xy.1 ∧ Good h xy.2) :
    ∃ (s : St K α) (fs : List (Nat × Nat)) (new : List (Img α)), qstack N p h n imgs ids cube = .ok s ∧
      s.ids = ids ++ fs.map (·.2) ∧ s.cube = cube ++ new ∧ new.length = fs.length ∧
      fs.Pairwise Lex ∧ (fs.map (·.2)).Nodup ∧
      (∀ q, q ∈ fs ↔ q.1 < imgs.length ∧ q.2 < n ∧ (cutOf N p.keepNan h imgs q).isSome ∧ ∀ k < q.1, cutOf N p.keepNan h imgs (k, q.2) = none) ∧
      (p.saveSection = true → s.sect = fs.map (·.1)) ∧
      (p.saveOffsets = true → s.dx = fs.map (fun q => (posOf imgs q).1 - rnd (posOf imgs q).1) ∧ s.dy = fs.map (fun q => (posOf imgs q).2 - rnd (posOf imgs q).2)) ∧
      ∀ (t : Nat) q c, fs[t]? = some q → new[t]? = some c → c.WF ∧ c.nx = 2 * h + 1 ∧ c.ny = 2 * h + 1 ∧ ∀ a b, a < 2 * h + 1 → b < 2 * h + 1 →
        ∃ v, c.at a b = some v ∧
          (∀ u, (((List.range imgs.length).filterMap fun k => cutOf N p.keepNan h imgs (k, q.2)).filterMap fun c => c.at a b).find? N.fin = some u → v = u) ∧
          ((((List.range imgs.length).filterMap fun k => cutOf N p.keepNan h imgs (k, q.2)).filterMap fun c => c.at a b).find? N.fin = none → N.fin v = false) := by
  set C := cutOf N p.keepNan h imgs with hCdef
  have hC : ∀ q c, C q = some c → c.nx = 2 * h + 1 ∧ c.ny = 2 * h + 1 := fun q c hc => (cutOf_dims hc).2
  have hstep : ∀ (Q : List (Nat × Nat)) (s : St K α) (q : Nat × Nat), q.1 < imgs.length → q.2 < n → Inv N p C (posOf imgs) n ids cube Q s →
      ∃ s', step N p h imgs s q = .ok s' ∧ Inv N p C (posOf imgs) n ids cube (Q ++ [q]) s' := by
    intro Q s q h1 h2 hI
    have him := himg _ (List.getElem_mem h1)
    have h3 : q.2 < (imgs[q.1]).pos.length := by rw [him.2.2.2.1]; exact h2
    have hg := him.2.2.2.2 _ (List.getElem_mem h3)
    have e1 : Res.rd imgs q.1 = .ok imgs[q.1] := Res.rd_eq_ok.2 (List.getElem?_eq_getElem h1)
    have e2 : Res.rd (imgs[q.1]).pos q.2 = .ok (imgs[q.1]).pos[q.2] := Res.rd_eq_ok.2 (List.getElem?_eq_getElem h3)
    have hk := C118_cut_partial N p.keepNan h imgs[q.1] him.1 him.2.1 him.2.2.1 _ _ hg.1 hg.2
    have hcq : C q = kept N p.keepNan h imgs[q.1] (imgs[q.1]).pos[q.2].1 (imgs[q.1]).pos[q.2].2 := by
      rw [hCdef]; unfold cutOf
      rw [List.getElem?_eq_getElem h1, Option.bind_some, List.getElem?_eq_getElem h3, Option.bind_some]
    have hpos : posOf imgs q = (imgs[q.1]).pos[q.2] := by
      unfold posOf
      rw [List.getElem?_eq_getElem h1, Option.bind_some, List.getElem?_eq_getElem h3, Option.getD_some]
    unfold step
    simp only [e1, e2, Res.ok_bind, hk, ← hcq]
    rcases hcc : C q with _ | c
    · refine ⟨s, rfl, ?_⟩
      have hf : firsts C (Q ++ [q]) = firsts C Q := by rw [firsts_snoc, if_neg (by simp [hcc])]
      refine ⟨by rw [hf]; exact hI.ids, ?_, by rw [hf]; exact hI.found, by rw [hf]; exact hI.dx, by rw [hf]; exact hI.dy, by rw [hf]; exact hI.sect⟩
      rw [hf, hI.cube]
      congr 1
      refine List.map_congr_left fun r _ => ?_
      rw [cutsOf_snoc, hcc]
      simp
    · obtain ⟨s', a1, a2⟩ := record_inv N p (2 * h + 1) C hC (posOf imgs) n ids cube hlen hcube Q s hI q h2 c hcc
      rw [hpos] at a1
      exact ⟨s', a1, a2⟩
  have hfold : ∀ (R Q : List (Nat × Nat)) (s : St K α), (∀ q ∈ R, q.1 < imgs.length ∧ q.2 < n) → Inv N p C (posOf imgs) n ids cube Q s →
      ∃ s', R.foldlM (step N p h imgs) s = .ok s' ∧ Inv N p C (posOf imgs) n ids cube (Q ++ R) s' := by
    intro R
    induction R with
    | nil => intro Q s _ hI; exact ⟨s, rfl, by rw [List.append_nil]; exact hI⟩
    | cons q R ih =>
      intro Q s hR hI
      have hq := hR q (by simp)
      obtain ⟨s1, a1, a2⟩ := hstep Q s q hq.1 hq.2 hI
      obtain ⟨s2, b1, b2⟩ := ih (Q ++ [q]) s1 (fun r hr => hR r (by simp [hr])) a2
      refine ⟨s2, by rw [List.foldlM_cons, a1]; exact b1, ?_⟩
      rw [List.append_assoc] at b2
      exact b2
  obtain ⟨s, hs, hI⟩ := hfold (pairs imgs.length n) [] ⟨ids, cube, List.replicate n false, [], [], []⟩ (fun q hq => mem_pairs.1 hq)
    ⟨by simp [firsts], by simp [firsts], ⟨by simp, fun i hi => by simp [firsts, List.getD_eq_getElem?_getD, List.getElem?_replicate, hi]⟩, by simp [firsts], by simp [firsts], by simp [firsts]⟩
  rw [List.nil_append] at hI
  refine ⟨s, firsts C (pairs imgs.length n), _, hs, hI.ids, hI.cube, by simp, (pairs_sorted _ _).sublist (firsts_sublist _ _), firsts_nodup _ _, ?_,
    fun e => by rw [hI.sect, if_pos e], fun e => ⟨by rw [hI.dx, if_pos e], by rw [hI.dy, if_pos e]⟩, ?_⟩
  · intro q
    rw [mem_firsts C _ (pairs_sorted _ _), mem_pairs]
    constructor
    · rintro ⟨⟨h1, h2⟩, h3, h4⟩
      exact ⟨h1, h2, h3, fun k hk => h4 (k, q.2) (mem_pairs.2 ⟨by simp only; omega, h2⟩) rfl hk⟩
    · rintro ⟨h1, h2, h3, h4⟩
      refine ⟨⟨h1, h2⟩, h3, fun r hr e hlt => ?_⟩
      have := h4 r.1 hlt
      rw [← e] at this
      exact this
  · intro t q c hq hc
    rw [List.getElem?_map, hq] at hc
    cases hc
    have hqm : q ∈ firsts C (pairs imgs.length n) := List.mem_iff_getElem?.2 ⟨t, hq⟩
    have hq2 : q.2 < n := (mem_pairs.1 ((firsts_sublist _ _).subset hqm)).2
    have hne := cutsOf_ne C _ q.2 (List.mem_map_of_mem hqm)
    have hdim : ∀ c ∈ cutsOf C (pairs imgs.length n) q.2, c.WF ∧ c.nx = 2 * h + 1 ∧ c.ny = 2 * h + 1 := by
      intro c hc
      obtain ⟨r, -, e⟩ := List.mem_filterMap.1 hc
      split at e
      · exact cutOf_dims e
      · cases e
    have e := cutsOf_pairs C imgs.length n q.2 hq2
    have m := fun a b ha hb => merged_at N (2 * h + 1) _ hne hdim a b ha hb
    refine ⟨(m 0 0 (by omega) (by omega)).1.1, (m 0 0 (by omega) (by omega)).1.2.1, (m 0 0 (by omega) (by omega)).1.2.2, fun a b ha hb => ?_⟩
    obtain ⟨-, v, h1, h2, h3⟩ := m a b ha hb
    rw [e] at h2 h3
    exact ⟨v, h1, h2, h3⟩

/-! ### With weights -/

/-- Spec: the square of the source is in the image and does not touch the last row or column -/
def Inside (h : Nat) (im : Image K α) (xy : K × K) : Prop :=
  1 ≤ rnd xy.1 - h ∧ rnd xy.1 + h < im.width ∧ 1 ≤ rnd xy.2 - h ∧ rnd xy.2 + h < im.height

instance (h : Nat) (im : Image K α) (xy : K × K) : Decidable (Inside h im xy) := by unfold Inside; infer_instance

/-- Spec: the sources that are kept with weights -/
def wkept (N : Num α) (keepNan : Bool) (h : Nat) (im w : Image K α) (xy : K × K) : Prop :=
  Inside h im xy ∧ (keepNan = false → (∀ v ∈ (square N h im (rnd xy.1) (rnd xy.2)).px, N.fin v = true) ∧ ∀ v ∈ (square N h w (rnd xy.1) (rnd xy.2)).px, N.fin v = true)

instance (N : Num α) (keepNan : Bool) (h : Nat) (im w : Image K α) (xy : K × K) : Decidable (wkept N keepNan h im w xy) := by unfold wkept; infer_instance

theorem pushCube_ok (cube : List (Img α)) (c : Img α) (d : Nat) (h : ∀ c ∈ cube, c.nx = d ∧ c.ny = d) (hc : c.nx = d ∧ c.ny = d) : pushCube cube c = .ok (cube ++ [c]) := by
  unfold pushCube
  cases cube with
  | nil => rfl
  | cons a l =>
    have ha := h a (by simp)
    simp only
    rw [if_pos ⟨ha.1.trans hc.1.symm, ha.2.trans hc.2.symm⟩]

/-- **C118** (partial: single images) with weights, the sources that are kept are exactly those whose square lies in the image, away from the last row and
column, and without `keep_nan` is finite in the image and in the weights; image and weight cutouts of a source have the same rank. -/
theorem C118_weights_partial (N : Num α) (p : Params) (h n : Nat) (im w : Image K α) (ids : List Nat) (cube wcube : List (Img α))
    (hcube : ∀ c ∈ cube, c.nx = 2 * h + 1 ∧ c.ny = 2 * h + 1) (hwcube : ∀ c ∈ wcube, c.nx = 2 * h + 1 ∧ c.ny = 2 * h + 1)
    (hn : im.naxis = 2) (hnw : w.naxis = 2) (hdim : im.width = w.width ∧ im.height = w.height) (hlen : im.pos.length = n)
    (hpos : ∀ xy ∈ im.pos, Good h xy.1 ∧ Good h xy.2) :
    ∃ s, wqstack N p h n im w ids cube wcube = .ok s ∧
      let sel := (List.range n).filter fun i => decide (wkept N p.keepNan h im w (im.pos.getD i (0, 0)))
      s.ids = ids ++ sel ∧
      s.cube = cube ++ sel.map (fun i => square N h im (rnd (im.pos.getD i (0, 0)).1) (rnd (im.pos.getD i (0, 0)).2)) ∧
      s.wcube = wcube ++ sel.map (fun i => square N h w (rnd (im.pos.getD i (0, 0)).1) (rnd (im.pos.getD i (0, 0)).2)) ∧
      (p.saveOffsets = true → s.dx = sel.map (fun i => (im.pos.getD i (0, 0)).1 - rnd (im.pos.getD i (0, 0)).1) ∧
        s.dy = sel.map (fun i => (im.pos.getD i (0, 0)).2 - rnd (im.pos.getD i (0, 0)).2)) := by
  unfold wqstack
  rw [Res.check_pos hdim]
  simp only [Res.ok_bind]
  refine Exists.imp ?_ (foldlM_range (n := n) (f := wstep N p h im w)
    (fun m s => m ≤ n ∧ s.ids = ids ++ (List.range m).filter (fun i => decide (wkept N p.keepNan h im w (im.pos.getD i (0, 0)))) ∧
      s.cube = cube ++ ((List.range m).filter (fun i => decide (wkept N p.keepNan h im w (im.pos.getD i (0, 0))))).map (fun i => square N h im (rnd (im.pos.getD i (0, 0)).1) (rnd (im.pos.getD i (0, 0)).2)) ∧
      s.wcube = wcube ++ ((List.range m).filter (fun i => decide (wkept N p.keepNan h im w (im.pos.getD i (0, 0))))).map (fun i => square N h w (rnd (im.pos.getD i (0, 0)).1) (rnd (im.pos.getD i (0, 0)).2)) ∧
      (s.dx = if p.saveOffsets then ((List.range m).filter (fun i => decide (wkept N p.keepNan h im w (im.pos.getD i (0, 0))))).map (fun i => (im.pos.getD i (0, 0)).1 - rnd (im.pos.getD i (0, 0)).1) else []) ∧
      (s.dy = if p.saveOffsets then ((List.range m).filter (fun i => decide (wkept N p.keepNan h im w (im.pos.getD i (0, 0))))).map (fun i => (im.pos.getD i (0, 0)).2 - rnd (im.pos.getD i (0, 0)).2) else []))
    ⟨ids, cube, wcube, [], [], []⟩ ⟨Nat.zero_le _, by simp, by simp, by simp, by simp, by simp⟩ ?_)
  · rintro s ⟨h0, -, h1, h2, h3, h4, h5⟩
    exact ⟨h0, h1, h2, h3, fun e => ⟨by rw [h4, if_pos e], by rw [h5, if_pos e]⟩⟩
  · rintro m s hm ⟨-, h1, h2, h3, h4, h5⟩
    have hm' : m < im.pos.length := by omega
    have hg := hpos _ (List.getElem_mem hm')
    obtain ⟨e1, e2⟩ := rnd_shift hg.1
    obtain ⟨e3, e4⟩ := rnd_shift hg.2
    have er : Res.rd im.pos m = .ok im.pos[m] := Res.rd_eq_ok.2 (List.getElem?_eq_getElem hm')
    have ed : im.pos.getD m (0, 0) = im.pos[m] := by rw [List.getD_eq_getElem?_getD, List.getElem?_eq_getElem hm', Option.getD_some]
    unfold wstep
    simp only [er, Res.ok_bind, e1, e2, e3, e4]
    have hsucc : (List.range (m + 1)).filter (fun i => decide (wkept N p.keepNan h im w (im.pos.getD i (0, 0)))) =
        (List.range m).filter (fun i => decide (wkept N p.keepNan h im w (im.pos.getD i (0, 0)))) ++ if wkept N p.keepNan h im w im.pos[m] then [m] else [] := by
      rw [List.range_succ, List.filter_append, List.filter_singleton, ed]
      simp
    rw [hsucc]
    by_cases hin : Inside h im im.pos[m]
    · rw [if_neg (by unfold Inside at hin; omega), fullCut_eq N h im hn _ _ (by unfold Inside at hin; omega),
        fullCut_eq N h w hnw _ _ (by unfold Inside at hin; omega)]
      simp only [Res.ok_bind]
      by_cases hk : wkept N p.keepNan h im w im.pos[m]
      · have hcond : ¬ ((!p.keepNan && ((square N h im (rnd im.pos[m].1) (rnd im.pos[m].2)).px.any (fun v => !N.fin v) || (square N h w (rnd im.pos[m].1) (rnd im.pos[m].2)).px.any (fun v => !N.fin v))) = true) := by
          intro hc
          rw [Bool.and_eq_true, Bool.or_eq_true, List.any_eq_true, List.any_eq_true] at hc
          obtain ⟨hc1, hc2⟩ := hc
          obtain ⟨g1, g2⟩ := hk.2 (by simpa using hc1)
          rcases hc2 with ⟨v, hv, e⟩ | ⟨v, hv, e⟩
          · rw [g1 v hv] at e; cases e
          · rw [g2 v hv] at e; cases e
        have pc : pushCube s.cube (square N h im (rnd im.pos[m].1) (rnd im.pos[m].2)) = .ok (s.cube ++ [square N h im (rnd im.pos[m].1) (rnd im.pos[m].2)]) := by
          refine pushCube_ok _ _ (2 * h + 1) ?_ ⟨rfl, rfl⟩
          intro c hc
          rw [h2] at hc
          rcases List.mem_append.1 hc with hc | hc
          · exact hcube c hc
          · obtain ⟨_, -, rfl⟩ := List.mem_map.1 hc
            exact ⟨rfl, rfl⟩
        have pw : pushCube s.wcube (square N h w (rnd im.pos[m].1) (rnd im.pos[m].2)) = .ok (s.wcube ++ [square N h w (rnd im.pos[m].1) (rnd im.pos[m].2)]) := by
          refine pushCube_ok _ _ (2 * h + 1) ?_ ⟨rfl, rfl⟩
          intro c hc
          rw [h3] at hc
          rcases List.mem_append.1 hc with hc | hc
          · exact hwcube c hc
          · obtain ⟨_, -, rfl⟩ := List.mem_map.1 hc
            exact ⟨rfl, rfl⟩
        rw [if_neg hcond, pc, pw]
        simp only [Res.ok_bind, if_pos hk]
        refine ⟨_, rfl, hm, ?_, ?_, ?_, ?_, ?_⟩
        · simp only [h1, List.append_assoc]
        · simp only [h2, List.map_append, List.append_assoc, List.map_cons, List.map_nil, ed]
        · simp only [h3, List.map_append, List.append_assoc, List.map_cons, List.map_nil, ed]
        · simp only [h4, List.map_append, List.map_cons, List.map_nil, ed]
          split <;> rfl
        · simp only [h5, List.map_append, List.map_cons, List.map_nil, ed]
          split <;> rfl
      · have hcond : ((!p.keepNan && ((square N h im (rnd im.pos[m].1) (rnd im.pos[m].2)).px.any (fun v => !N.fin v) || (square N h w (rnd im.pos[m].1) (rnd im.pos[m].2)).px.any (fun v => !N.fin v))) = true) := by
          by_contra hc
          apply hk
          refine ⟨hin, fun hkn => ?_⟩
          rw [hkn] at hc
          simp only [Bool.not_false, Bool.true_and, Bool.or_eq_true, List.any_eq_true, not_or, not_exists, not_and] at hc
          exact ⟨fun v hv => by simpa using hc.1 v hv, fun v hv => by simpa using hc.2 v hv⟩
        rw [if_pos hcond, if_neg hk, List.append_nil]
        exact ⟨s, rfl, hm, h1, h2, h3, h4, h5⟩
    · rw [if_pos (by unfold Inside at hin; omega), if_neg (fun hk : wkept N p.keepNan h im w im.pos[m] => hin hk.1), List.append_nil]
      exact ⟨s, rfl, hm, h1, h2, h3, h4, h5⟩

/-! ### What fails -/

/-- natural numbers, 0 stands for NaN -/
def exN : Num Nat := ⟨0, 0, fun v => v != 0⟩

/-- an image of 3 by 2 pixels -/
def exIm (pos : List (ℚ × ℚ)) : Image ℚ Nat := ⟨2, 3, 2, [11, 12, 13, 21, 22, 23], pos⟩

/-- **C118** a source at a half-integer position less than `h` from the first edge aborts the program, although it is in the image: the two ends of the
square are rounded in opposite directions -/
theorem C118_half_refuted : qstack (K := ℚ) exN ⟨true, false, false⟩ 3 1 [⟨2, 6, 1, [1, 2, 3, 4, 5, 6], [(5 / 2, 1)]⟩] [] [] = .abort ∧
    rnd (5 / 2 + 3 : ℚ) - rnd (5 / 2 - 3 : ℚ) + 1 = 8 := by
  constructor <;> decide +kernel

/-- **C118** an image with an additional axis of length 1, which the code accepts, makes cfitsio read out of the arrays -/
theorem C118_axes_refuted : qstack exN ⟨true, false, false⟩ 1 1 [{ exIm [(2, 2)] with naxis := 3 }] [] [] = .ub := by decide +kernel

/-- **C118** a source whose square has pixels of the image in the last column (or row) only is ignored, even if the square is this one pixel;
one that has pixels in the first column only is kept -/
theorem C118_last_refuted : ((qstack exN ⟨true, false, false⟩ 1 2 [exIm [(4, 1), (0, 1)]] [] []).map fun s => s.ids) = .ok [1] ∧
    ((qstack exN ⟨false, false, false⟩ 0 3 [exIm [(1, 1), (2, 1), (3, 1)]] [] []).map fun s => s.ids) = .ok [0, 1] ∧
    pixel exN (exIm []) (4 - 1) 1 = 13 := by
  refine ⟨?_, ?_, ?_⟩ <;> decide +kernel

/-- an image of 3 by 3 pixels -/
def exIm3 (pos : List (ℚ × ℚ)) : Image ℚ Nat := ⟨2, 3, 3, [11, 12, 13, 21, 22, 23, 31, 32, 33], pos⟩

/-- **C118** with weights, a source whose square is in the image but ends on its last column or row is ignored; without weights it is kept -/
theorem C118_weights_last_refuted : ((qstack exN ⟨false, false, false⟩ 1 1 [exIm3 [(2, 2)]] [] []).map fun s => s.ids) = .ok [0] ∧
    ((wqstack exN ⟨false, false, false⟩ 1 1 (exIm3 [(2, 2)]) (exIm3 []) [] [] []).map fun s => s.ids) = .ok [] := by
  constructor <;> decide +kernel

/-- **C118** with sections, the weights of a source can be those of another one: only the numbers of sources are compared -/
theorem C118_sections_refuted : ((wqstackSect exN ⟨false, false, false⟩ 0 2 [exIm [(1, 1), (9, 9)]] [exIm [(9, 9), (2, 1)]] [] [] []).map fun s => (s.ids, s.wcube.map (·.px))) =
    .ok ([0], [[12]]) := by decide +kernel

/-- **C118** with sections, the offsets are not returned -/
theorem C118_offsets_refuted : ((wqstackSect exN ⟨false, true, true⟩ 0 1 [exIm [(1, 1)]] [exIm [(1, 1)]] [] [] []).map fun s => (s.ids, s.dx, s.sect)) =
    .ok ([0], [], []) := by decide +kernel

/-- two sources on two images: the first is found in both and completed, the second only in the second one -/
example : ((qstack exN ⟨true, true, true⟩ 1 2 [exIm [(1, 1), (9, 9)], { exIm [(5 / 4, 1), (2, 2)] with px := [111, 112, 113, 121, 122, 123] }] [] []).map
    fun s => (s.ids, s.cube.map (·.px))) = .ok ([0, 1], [[0, 0, 0, 0, 11, 12, 0, 21, 22], [111, 112, 113, 121, 122, 123, 0, 0, 0]]) := by decide +kernel
example : ((qstack exN ⟨true, true, true⟩ 1 2 [exIm [(1, 1), (9, 9)], { exIm [(5 / 4, 1), (9 / 4, 2)] with px := [111, 112, 113, 121, 122, 123] }] [] []).map
    fun s => (s.dx, s.sect)) = .ok ([0, 1 / 4], [0, 1]) := by decide +kernel
/-- the positions are good -/
example : Good 1 (5 / 4 : ℚ) := Or.inl (by norm_num)

end
end Verif.Qstack
