import Verif.Astro.QxProps
import Mathlib.Tactic.Linarith
import Mathlib.Tactic.Positivity
import Mathlib.Tactic.Ring
import Mathlib.Tactic.NormNum
import Mathlib.Tactic.FieldSimp
import Mathlib.Algebra.Order.Field.Basic
import Mathlib.Algebra.Order.Floor.Ring
/-!
# The bucket search: geometry, visited buckets, termination
-/
namespace Verif.Qx
open Verif

section minmax
variable {K : Type} [LinearOrder K] [Field K]

theorem lmin_le {l : List K} {a : K} (h : a ∈ l) : lmin l ≤ a := by
  cases l with
  | nil => simp at h
  | cons b l =>
    have key : ∀ (l : List K) (b a : K), (a = b ∨ a ∈ l) → l.foldl min b ≤ a := by
      intro l
      induction l with
      | nil => intro b a h; simp at h; rw [h]; exact le_rfl
      | cons c l ih =>
        intro b a h
        rcases h with rfl | h
        · exact (ih (min a c) _ (.inl rfl)).trans (min_le_left _ _)
        · rcases List.mem_cons.1 h with rfl | h
          · exact (ih (min b a) _ (.inl rfl)).trans (min_le_right _ _)
          · exact ih _ _ (.inr h)
    exact key l b a (List.mem_cons.1 h)

theorem le_lmax {l : List K} {a : K} (h : a ∈ l) : a ≤ lmax l := by
  cases l with
  | nil => simp at h
  | cons b l =>
    have key : ∀ (l : List K) (b a : K), (a = b ∨ a ∈ l) → a ≤ l.foldl max b := by
      intro l
      induction l with
      | nil => intro b a h; simp at h; rw [h]; exact le_rfl
      | cons c l ih =>
        intro b a h
        rcases h with rfl | h
        · exact (le_max_left _ _).trans (ih (max a c) _ (.inl rfl))
        · rcases List.mem_cons.1 h with rfl | h
          · exact (le_max_right _ _).trans (ih (max b a) _ (.inl rfl))
          · exact ih _ _ (.inr h)
    exact key l b a (List.mem_cons.1 h)

theorem lmin_mem {l : List K} (h : l ≠ []) : lmin l ∈ l := by
  cases l with
  | nil => exact absurd rfl h
  | cons b l =>
    have key : ∀ (l : List K) (b : K), l.foldl min b = b ∨ l.foldl min b ∈ l := by
      intro l
      induction l with
      | nil => intro b; exact .inl rfl
      | cons c l ih =>
        intro b
        rcases ih (min b c) with h | h
        · rcases min_choice b c with e | e
          · left; rw [List.foldl_cons, h, e]
          · right; rw [List.foldl_cons, h, e]; simp
        · right; simp [h]
    rcases key l b with h | h
    · show l.foldl min b ∈ b :: l
      rw [h]; simp
    · exact List.mem_cons_of_mem _ h

theorem lmax_mem {l : List K} (h : l ≠ []) : lmax l ∈ l := by
  cases l with
  | nil => exact absurd rfl h
  | cons b l =>
    have key : ∀ (l : List K) (b : K), l.foldl max b = b ∨ l.foldl max b ∈ l := by
      intro l
      induction l with
      | nil => intro b; exact .inl rfl
      | cons c l ih =>
        intro b
        rcases ih (max b c) with h | h
        · rcases max_choice b c with e | e
          · left; rw [List.foldl_cons, h, e]
          · right; rw [List.foldl_cons, h, e]; simp
        · right; simp [h]
    rcases key l b with h | h
    · show l.foldl max b ∈ b :: l
      rw [h]; simp
    · exact List.mem_cons_of_mem _ h

end minmax

variable {K : Type} [LinearOrder K] [Field K] [IsStrictOrderedRing K] [FloorRing K]

/-! ### The grid -/

/-- what the choice of the buckets guarantees -/
structure Good (f : Field2 K) : Prop where
  cs : 0 < f.cs
  x : ∀ p ∈ f.c1 ++ f.c2, f.x0 ≤ p.1 ∧ ⌊(p.1 - f.x0) / f.cs⌋ < f.nra
  y : ∀ p ∈ f.c1 ++ f.c2, f.y0 ≤ p.2 ∧ ⌊(p.2 - f.y0) / f.cs⌋ < f.ndec
  two : 2 ≤ max f.nra f.ndec
  wx : ∀ p ∈ f.c1 ++ f.c2, ∀ q ∈ f.c1 ++ f.c2, p.1 - q.1 ≤ ((f.nra : K) - 1) * f.cs
  wy : ∀ p ∈ f.c1 ++ f.c2, ∀ q ∈ f.c1 ++ f.c2, p.2 - q.2 ≤ ((f.ndec : K) - 1) * f.cs

/-- one axis -/
theorem axis_good {cs a b : K} (hcs : 0 < cs) (hab : a ≤ b) :
    let n := ⌊((b + cs) - (a - cs)) / cs⌋.toNat
    2 ≤ n ∧ b - a ≤ ((n : K) - 1) * cs ∧ ∀ v, a ≤ v → v ≤ b → a - cs ≤ v ∧ ⌊(v - (a - cs)) / cs⌋ < n := by
  intro n
  have e : ((b + cs) - (a - cs)) / cs = (b - a) / cs + 2 := by field_simp; ring
  have hn : (n : Int) = ⌊(b - a) / cs⌋ + 2 := by
    have h0 : 0 ≤ ⌊(b - a) / cs⌋ := Int.floor_nonneg.2 (div_nonneg (by linarith) hcs.le)
    have e2 : ⌊((b + cs) - (a - cs)) / cs⌋ = ⌊(b - a) / cs⌋ + 2 := by
      rw [e]; exact_mod_cast Int.floor_add_intCast ((b - a) / cs) 2
    show ((⌊((b + cs) - (a - cs)) / cs⌋.toNat : Nat) : Int) = _
    rw [e2, Int.toNat_of_nonneg (by omega)]
  have h0 : 0 ≤ ⌊(b - a) / cs⌋ := Int.floor_nonneg.2 (div_nonneg (by linarith) hcs.le)
  have hK : (n : K) = (⌊(b - a) / cs⌋ : K) + 2 := by
    have := congrArg (fun z : Int => (z : K)) hn
    push_cast at this
    exact this
  refine ⟨by omega, ?_, fun v h1 h2 => ⟨by linarith, ?_⟩⟩
  · have := (Int.lt_floor_add_one ((b - a) / cs)).le
    rw [div_le_iff₀ hcs] at this
    rw [hK]
    linarith
  · rw [hn]
    have e3 : (v - (a - cs)) / cs = (v - a) / cs + 1 := by field_simp; ring
    have e4 : ⌊(v - (a - cs)) / cs⌋ = ⌊(v - a) / cs⌋ + 1 := by
      rw [e3]; exact_mod_cast Int.floor_add_intCast ((v - a) / cs) 1
    rw [e4]
    have : ⌊(v - a) / cs⌋ ≤ ⌊(b - a) / cs⌋ := Int.floor_le_floor (div_le_div_of_nonneg_right (by linarith) hcs.le)
    omega

theorem makeField_good {sq : K → K} (hsq0 : ∀ x, 0 ≤ sq x) (hsq : ∀ x, 0 ≤ x → sq x * sq x = x) {c1 c2 : List (K × K)} (h1 : c1 ≠ [])
    (hx : ∃ a ∈ c2, ∃ b ∈ c2, a.1 ≠ b.1) (hy : ∃ a ∈ c2, ∃ b ∈ c2, a.2 ≠ b.2) :
    ∃ f, makeField sq c1 c2 = .ok f ∧ Good f ∧ f.c1 = c1 ∧ f.c2 = c2 := by
  have h2 : c2 ≠ [] := by obtain ⟨a, ha, _⟩ := hx; exact List.ne_nil_of_mem ha
  have dx : 0 < lmax (c2.map Prod.fst) - lmin (c2.map Prod.fst) := by
    obtain ⟨a, ha, b, hb, hne⟩ := hx
    have a1 := lmin_le (List.mem_map_of_mem (f := Prod.fst) ha)
    have a2 := le_lmax (List.mem_map_of_mem (f := Prod.fst) ha)
    have b1 := lmin_le (List.mem_map_of_mem (f := Prod.fst) hb)
    have b2 := le_lmax (List.mem_map_of_mem (f := Prod.fst) hb)
    rcases lt_or_gt_of_ne hne with h | h <;> linarith
  have dy : 0 < lmax (c2.map Prod.snd) - lmin (c2.map Prod.snd) := by
    obtain ⟨a, ha, b, hb, hne⟩ := hy
    have a1 := lmin_le (List.mem_map_of_mem (f := Prod.snd) ha)
    have a2 := le_lmax (List.mem_map_of_mem (f := Prod.snd) ha)
    have b1 := lmin_le (List.mem_map_of_mem (f := Prod.snd) hb)
    have b2 := le_lmax (List.mem_map_of_mem (f := Prod.snd) hb)
    rcases lt_or_gt_of_ne hne with h | h <;> linarith
  have hprod := mul_pos dx dy
  set cs := sq ((lmax (c2.map Prod.fst) - lmin (c2.map Prod.fst)) * (lmax (c2.map Prod.snd) - lmin (c2.map Prod.snd))) with hcs
  have cpos : 0 < cs := by
    rcases (hsq0 ((lmax (c2.map Prod.fst) - lmin (c2.map Prod.fst)) * (lmax (c2.map Prod.snd) - lmin (c2.map Prod.snd)))).lt_or_eq with h | h
    · exact h
    · have := hsq _ hprod.le
      rw [← h] at this
      simp only [mul_zero] at this
      exact absurd hprod (by rw [← this]; exact lt_irrefl _)
  have hle1 : min (lmin (c1.map Prod.fst)) (lmin (c2.map Prod.fst)) ≤ max (lmax (c1.map Prod.fst)) (lmax (c2.map Prod.fst)) :=
    (min_le_right _ _).trans ((by linarith : lmin (c2.map Prod.fst) ≤ lmax (c2.map Prod.fst)).trans (le_max_right _ _))
  have hle2 : min (lmin (c1.map Prod.snd)) (lmin (c2.map Prod.snd)) ≤ max (lmax (c1.map Prod.snd)) (lmax (c2.map Prod.snd)) :=
    (min_le_right _ _).trans ((by linarith : lmin (c2.map Prod.snd) ≤ lmax (c2.map Prod.snd)).trans (le_max_right _ _))
  obtain ⟨x1, x2, x3⟩ := axis_good cpos hle1
  obtain ⟨y1, y2, y3⟩ := axis_good cpos hle2
  have bx : ∀ p ∈ c1 ++ c2, min (lmin (c1.map Prod.fst)) (lmin (c2.map Prod.fst)) ≤ p.1 ∧
      p.1 ≤ max (lmax (c1.map Prod.fst)) (lmax (c2.map Prod.fst)) := by
    intro p hp
    rcases List.mem_append.1 hp with h | h
    · exact ⟨(min_le_left _ _).trans (lmin_le (List.mem_map_of_mem h)), (le_lmax (List.mem_map_of_mem h)).trans (le_max_left _ _)⟩
    · exact ⟨(min_le_right _ _).trans (lmin_le (List.mem_map_of_mem h)), (le_lmax (List.mem_map_of_mem h)).trans (le_max_right _ _)⟩
  have by' : ∀ p ∈ c1 ++ c2, min (lmin (c1.map Prod.snd)) (lmin (c2.map Prod.snd)) ≤ p.2 ∧
      p.2 ≤ max (lmax (c1.map Prod.snd)) (lmax (c2.map Prod.snd)) := by
    intro p hp
    rcases List.mem_append.1 hp with h | h
    · exact ⟨(min_le_left _ _).trans (lmin_le (List.mem_map_of_mem h)), (le_lmax (List.mem_map_of_mem h)).trans (le_max_left _ _)⟩
    · exact ⟨(min_le_right _ _).trans (lmin_le (List.mem_map_of_mem h)), (le_lmax (List.mem_map_of_mem h)).trans (le_max_right _ _)⟩
  refine ⟨_, by unfold makeField; rw [if_neg (by rw [← hcs]; exact cpos.ne')], ⟨cpos, ?_, ?_, ?_, ?_, ?_⟩, rfl, rfl⟩
  · intro p hp; exact x3 _ (bx p hp).1 (bx p hp).2
  · intro p hp; exact y3 _ (by' p hp).1 (by' p hp).2
  · exact x1.trans (le_max_left _ _)
  · intro p hp q hq
    have := (bx p hp).2; have := (bx q hq).1
    exact le_trans (by linarith) x2
  · intro p hp q hq
    have := (by' p hp).2; have := (by' q hq).1
    exact le_trans (by linarith) y2

theorem axis_cell {cs x0 v : K} (hcs : 0 < cs) (h : x0 ≤ v) :
    x0 + (⌊(v - x0) / cs⌋.toNat : K) * cs ≤ v ∧ v < x0 + ((⌊(v - x0) / cs⌋.toNat : K) + 1) * cs := by
  have h0 : 0 ≤ ⌊(v - x0) / cs⌋ := Int.floor_nonneg.2 (div_nonneg (by linarith) hcs.le)
  have e : ((⌊(v - x0) / cs⌋.toNat : Nat) : K) = (⌊(v - x0) / cs⌋ : K) := by
    have := Int.toNat_of_nonneg h0
    exact_mod_cast congrArg (fun z : Int => (z : K)) this
  rw [e]
  have h1 := Int.floor_le ((v - x0) / cs)
  have h2 := Int.lt_floor_add_one ((v - x0) / cs)
  rw [le_div_iff₀ hcs] at h1
  rw [div_lt_iff₀ hcs] at h2
  constructor <;> linarith

theorem Good.checkCells {f : Field2 K} (h : Good f) : f.checkCells = .ok () := by
  unfold Field2.checkCells
  refine Res.check_pos fun p hp => ⟨?_, ?_⟩
  · have := (h.x p hp).2
    have h2 := (h.x p hp).1
    have h0 : 0 ≤ ⌊(p.1 - f.x0) / f.cs⌋ := Int.floor_nonneg.2 (div_nonneg (by linarith) h.cs.le)
    simp only [Field2.cell]; omega
  · have := (h.y p hp).2
    have h2 := (h.y p hp).1
    have h0 : 0 ≤ ⌊(p.2 - f.y0) / f.cs⌋ := Int.floor_nonneg.2 (div_nonneg (by linarith) h.cs.le)
    simp only [Field2.cell]; omega

theorem Good.cell_lt {f : Field2 K} (h : Good f) {p : K × K} (hp : p ∈ f.c1 ++ f.c2) : (f.cell p).1 < f.nra ∧ (f.cell p).2 < f.ndec := by
  have := h.checkCells
  unfold Field2.checkCells Res.check at this
  split at this
  · rename_i hh; exact hh p hp
  · cases this

/-- a source in a bucket at an offset is that far from the centre of the first bucket -/
theorem axis_face {cs x0 v : K} (hcs : 0 < cs) {a b : Nat} (h1 : x0 + (b : K) * cs ≤ v) (h2 : v < x0 + ((b : K) + 1) * cs)
    (hx : 1 ≤ ((b : Int) - a).natAbs) :
    (((((b : Int) - a).natAbs : K) - 1/2) * cs) * (((((b : Int) - a).natAbs : K) - 1/2) * cs) ≤
      (v - (x0 + ((a : K) + 1/2) * cs)) * (v - (x0 + ((a : K) + 1/2) * cs)) := by
  set n := ((b : Int) - a).natAbs with hn
  have hn1 : (1 : K) ≤ n := by exact_mod_cast hx
  have h0 : 0 ≤ ((n : K) - 1/2) * cs := mul_nonneg (by linarith) hcs.le
  rcases le_total a b with hab | hab
  · have e : (b : K) = a + n := by
      have : b = a + n := by omega
      exact_mod_cast this
    refine mul_self_le_mul_self h0 ?_
    rw [e] at h1
    linarith
  · have e : (a : K) = b + n := by
      have : a = b + n := by omega
      exact_mod_cast this
    have := mul_self_le_mul_self h0 (show ((n : K) - 1/2) * cs ≤ (x0 + ((a : K) + 1/2) * cs) - v by rw [e]; linarith)
    linarith

/-! ### Visited buckets -/

theorem corner2_eq (x y : Nat) : (corner2 x y : K) = ((x : K) - 1/2) * (x - 1/2) + ((y : K) - 1/2) * (y - 1/2) := by
  have hx : (0 : K) ≤ x := Nat.cast_nonneg x
  have hy : (0 : K) ≤ y := Nat.cast_nonneg y
  unfold corner2
  simp only
  rw [min_eq_left, min_eq_left]
  · linarith
  · refine le_min ?_ ?_ <;> rw [min_eq_left] <;> linarith

theorem mem_newCells {nx ny : Nat} {cs : K} {d : Nat} {vis : List (Nat × Nat)} {x y : Nat} :
    (x, y) ∈ newCells nx ny cs d vis ↔ x < min (d + 1) nx ∧ y < min (d + 1) ny ∧
      cs * cs * corner2 x y ≤ maxDist cs (d - 1) * maxDist cs (d - 1) ∧ (x, y) ∉ vis := by
  unfold newCells
  simp only [List.mem_flatMap, List.mem_map, List.mem_filter, List.mem_range, Prod.mk.injEq, Bool.and_eq_true, decide_eq_true_eq]
  constructor
  · rintro ⟨a, ha, b, ⟨hb, h1, h2⟩, rfl, rfl⟩; exact ⟨ha, hb, h1, h2⟩
  · rintro ⟨ha, hb, h1, h2⟩; exact ⟨x, ha, y, ⟨hb, h1, h2⟩, rfl, rfl⟩

theorem depth_visited {nx ny : Nat} {cs : K} {m x y : Nat} (hx : x < nx) (hy : y < ny) (hxm : x ≤ m + 2) (hym : y ≤ m + 2)
    (h : cs * cs * corner2 x y ≤ maxDist cs (m + 1) * maxDist cs (m + 1)) : (x, y) ∈ (depth nx ny cs (m + 1)).1 := by
  unfold depth
  simp only [List.mem_append]
  by_cases hv : (x, y) ∈ (depth nx ny cs m).1
  · exact .inl hv
  · exact .inr (mem_newCells.2 ⟨by omega, by omega, h, hv⟩)

theorem depth_zero_mem (nx ny : Nat) (cs : K) : ∀ m, (0, 0) ∈ (depth nx ny cs m).1
  | 0 => by simp [depth]
  | m + 1 => by
    unfold depth
    exact List.mem_append_left _ (depth_zero_mem nx ny cs m)

theorem mem_quadrants {l : List (Nat × Nat)} {b : Int × Int} (h : (b.1.natAbs, b.2.natAbs) ∈ l) : b ∈ quadrants l := by
  obtain ⟨x, y⟩ := b
  simp only at h
  unfold quadrants
  simp only [List.mem_append, List.mem_map]
  rcases le_total 0 x with hx | hx <;> rcases le_total 0 y with hy | hy
  · exact .inl (.inl (.inl ⟨_, h, by simp [abs_of_nonneg, hx, hy]⟩))
  · exact .inr ⟨_, h, by simp [abs_of_nonneg, abs_of_nonpos, hx, hy]⟩
  · exact .inl (.inl (.inr ⟨_, h, by simp [abs_of_nonneg, abs_of_nonpos, hx, hy]⟩))
  · exact .inl (.inr ⟨_, h, by simp [abs_of_nonneg, abs_of_nonpos, hx, hy]⟩)

/-- a visited bucket is listed, in its four quadrants, at one of the depths -/
theorem visited_listed {nx ny : Nat} {cs : K} {b : Int × Int} : ∀ {m : Nat}, (b.1.natAbs, b.2.natAbs) ∈ (depth nx ny cs m).1 →
    ∃ k, k ≤ m ∧ b ∈ (depth nx ny cs k).2
  | 0, h => by
    refine ⟨0, le_rfl, ?_⟩
    simp only [depth, List.mem_singleton, Prod.mk.injEq, Int.natAbs_eq_zero] at h ⊢
    exact Prod.ext h.1 h.2
  | m + 1, h => by
    unfold depth at h
    simp only [List.mem_append] at h
    rcases h with h | h
    · obtain ⟨k, hk, hb⟩ := visited_listed h
      exact ⟨k, by omega, hb⟩
    · exact ⟨m + 1, le_rfl, by unfold depth; exact mem_quadrants h⟩

theorem mem_bucket {f : Field2 K} {c : List (K × K)} {x y j : Nat} :
    j ∈ f.bucket c x y ↔ ∃ p, c[j]? = some p ∧ f.cell p = (x, y) := by
  unfold Field2.bucket
  rw [List.mem_filter, List.mem_range]
  constructor
  · rintro ⟨h, h2⟩
    rw [List.getElem?_eq_getElem h] at h2 ⊢
    exact ⟨_, rfl, by simpa using h2⟩
  · rintro ⟨p, h1, h2⟩
    refine ⟨(List.getElem?_eq_some_iff.1 h1).1, ?_⟩
    rw [h1]; simpa using h2

theorem mem_found {f : Field2 K} {c : List (K × K)} {o : Nat × Nat} {n j : Nat} :
    j ∈ f.found c o n ↔ ∃ b ∈ (depth f.nra f.ndec f.cs n).2, ∃ q, c[j]? = some q ∧
      0 ≤ (o.1 : Int) + b.1 ∧ (o.1 : Int) + b.1 < f.nra ∧ 0 ≤ (o.2 : Int) + b.2 ∧ (o.2 : Int) + b.2 < f.ndec ∧
      ((f.cell q).1 : Int) = o.1 + b.1 ∧ ((f.cell q).2 : Int) = o.2 + b.2 := by
  unfold Field2.found
  rw [List.mem_flatMap]
  refine exists_congr fun b => and_congr_right fun _ => ?_
  simp only
  split
  · rename_i h
    simp only [List.not_mem_nil, false_iff]
    rintro ⟨q, _, h1, h2, h3, h4, _⟩
    omega
  · rename_i h
    rw [mem_bucket]
    refine exists_congr fun q => and_congr_right fun _ => ?_
    rw [Prod.ext_iff]
    simp only
    constructor
    · rintro ⟨h1, h2⟩
      refine ⟨by omega, by omega, by omega, by omega, by omega, by omega⟩
    · rintro ⟨_, _, _, _, h1, h2⟩
      exact ⟨by omega, by omega⟩

/-- a source whose bucket is among the visited ones is found -/
theorem found_of_visited {f : Field2 K} {c : List (K × K)} {o : Nat × Nat} {m j : Nat} {q : K × K} (hj : c[j]? = some q)
    (hq : (f.cell q).1 < f.nra ∧ (f.cell q).2 < f.ndec)
    (h : (((f.cell q).1 - (o.1 : Int)).natAbs, ((f.cell q).2 - (o.2 : Int)).natAbs) ∈ (depth f.nra f.ndec f.cs m).1) :
    ∃ k, k ≤ m ∧ j ∈ f.found c o k := by
  obtain ⟨k, hk, hb⟩ := visited_listed (b := (((f.cell q).1 : Int) - o.1, ((f.cell q).2 : Int) - o.2)) h
  exact ⟨k, hk, mem_found.2 ⟨_, hb, q, hj, by simp only; omega, by simp only; omega, by simp only; omega, by simp only; omega,
    by simp only; omega, by simp only; omega⟩⟩

/-- the centre of the bucket of `p` -/
def Field2.centre (f : Field2 K) (p : K × K) : K × K := (f.x0 + (((f.cell p).1 : K) + 1/2) * f.cs, f.y0 + (((f.cell p).2 : K) + 1/2) * f.cs)

theorem visited_of_near {f : Field2 K} (hg : Good f) {p q : K × K} (hp : p ∈ f.c1 ++ f.c2) (hq : q ∈ f.c1 ++ f.c2) (m : Nat)
    (h : sqDist (f.centre p) q ≤ ((m : K) + if m = 0 then 4/10 else 14/10) * f.cs * (((m : K) + if m = 0 then 4/10 else 14/10) * f.cs)) :
    (((f.cell q).1 - ((f.cell p).1 : Int)).natAbs, ((f.cell q).2 - ((f.cell p).2 : Int)).natAbs) ∈ (depth f.nra f.ndec f.cs m).1 := by
  have cq := hg.cell_lt hq
  have cp := hg.cell_lt hp
  have hcs := hg.cs
  have ax := axis_cell hcs (hg.x q hq).1
  have ay := axis_cell hcs (hg.y q hq).1
  have fx := axis_face (a := (f.cell p).1) (b := (f.cell q).1) hcs ax.1 ax.2
  have fy := axis_face (a := (f.cell p).2) (b := (f.cell q).2) hcs ay.1 ay.2
  set x := ((f.cell q).1 - ((f.cell p).1 : Int)).natAbs with hx
  set y := ((f.cell q).2 - ((f.cell p).2 : Int)).natAbs with hy
  simp only [sqDist, Field2.centre] at h
  set X := (q.1 - (f.x0 + (((f.cell p).1 : K) + 1/2) * f.cs)) with hX
  set Y := (q.2 - (f.y0 + (((f.cell p).2 : K) + 1/2) * f.cs)) with hY
  have hXX := mul_self_nonneg X
  have hYY := mul_self_nonneg Y
  have hc2 : 0 < f.cs * f.cs := mul_pos hcs hcs
  have hxlt : x < f.nra := by omega
  have hylt : y < f.ndec := by omega
  have fx' : 1 ≤ x → ((x : K) - 1/2) * (x - 1/2) * (f.cs * f.cs) ≤ X * X := fun h => by
    have := fx h
    linarith [this, (by ring : ((x : K) - 1/2) * f.cs * (((x : K) - 1/2) * f.cs) = ((x : K) - 1/2) * (x - 1/2) * (f.cs * f.cs))]
  have fy' : 1 ≤ y → ((y : K) - 1/2) * (y - 1/2) * (f.cs * f.cs) ≤ Y * Y := fun h => by
    have := fy h
    linarith [this, (by ring : ((y : K) - 1/2) * f.cs * (((y : K) - 1/2) * f.cs) = ((y : K) - 1/2) * (y - 1/2) * (f.cs * f.cs))]
  cases m with
  | zero =>
    simp only [if_true, Nat.cast_zero, zero_add] at h
    have bound : ∀ (n : Nat) (Z : K), Z * Z ≤ 4/10 * f.cs * (4/10 * f.cs) →
        (1 ≤ n → ((n : K) - 1/2) * (n - 1/2) * (f.cs * f.cs) ≤ Z * Z) → n = 0 := by
      intro n Z hZ hn
      by_contra hne
      have h1 : 1 ≤ n := by omega
      have hK : (1 : K) ≤ n := by exact_mod_cast h1
      have h2 := hn h1
      have h3 := mul_self_le_mul_self (by norm_num) (show (1/2 : K) ≤ (n : K) - 1/2 by linarith)
      have h4 := mul_le_mul_of_nonneg_right h3 hc2.le
      linarith
    have ex : x = 0 := bound x X (by linarith) fx'
    have ey : y = 0 := bound y Y (by linarith) fy'
    rw [ex, ey]
    exact depth_zero_mem _ _ _ _
  | succ m =>
    simp only [Nat.succ_ne_zero, if_false] at h
    push_cast at h
    have hmK : (0 : K) ≤ m := Nat.cast_nonneg m
    set R := (m : K) + 1 + 14/10 with hR
    have h' : X * X + Y * Y ≤ R * R * (f.cs * f.cs) := by
      linarith [(by ring : R * f.cs * (R * f.cs) = R * R * (f.cs * f.cs))]
    have bound : ∀ (n : Nat) (Z : K), Z * Z ≤ R * R * (f.cs * f.cs) →
        (1 ≤ n → ((n : K) - 1/2) * (n - 1/2) * (f.cs * f.cs) ≤ Z * Z) → n ≤ m + 2 := by
      intro n Z hZ hn
      by_contra hne
      have h1 : m + 3 ≤ n := by omega
      have hK : (m : K) + 3 ≤ n := by exact_mod_cast h1
      have h2 := hn (by omega)
      have h3 := mul_self_lt_mul_self (by linarith) (show R < (n : K) - 1/2 by linarith)
      have h4 := mul_lt_mul_of_pos_right h3 hc2
      linarith
    refine depth_visited hxlt hylt (bound x X (by linarith) fx') (bound y Y (by linarith) fy') ?_
    rw [corner2_eq]
    simp only [maxDist]
    push_cast
    have goal : ((x : K) - 1/2) * (x - 1/2) + ((y : K) - 1/2) * (y - 1/2) ≤ ((m : K) + 2 + 1/2) * ((m : K) + 2 + 1/2) := by
      have key : ∀ n : Nat, ∀ Z : K, 0 ≤ Z → (1 ≤ n → ((n : K) - 1/2) * (n - 1/2) * (f.cs * f.cs) ≤ Z) →
          (((n : K) - 1/2) * (n - 1/2) - 1/4) * (f.cs * f.cs) ≤ Z ∧ (1 ≤ n → ((n : K) - 1/2) * (n - 1/2) * (f.cs * f.cs) ≤ Z) := by
        intro n Z hZ hn
        refine ⟨?_, hn⟩
        rcases Nat.eq_zero_or_pos n with rfl | h
        · norm_num; exact hZ
        · have := hn h
          linarith
      obtain ⟨kx, _⟩ := key x _ hXX fx'
      obtain ⟨ky, _⟩ := key y _ hYY fy'
      by_cases h0 : x = 0 ∧ y = 0
      · rw [h0.1, h0.2]; push_cast
        linarith [mul_self_nonneg (m : K)]
      · have hsum : (((x : K) - 1/2) * (x - 1/2) + ((y : K) - 1/2) * (y - 1/2) - 1/4) * (f.cs * f.cs) ≤ R * R * (f.cs * f.cs) := by
          rcases not_and_or.1 h0 with h0 | h0
          · have := fx' (by omega); linarith
          · have := fy' (by omega); linarith
        have := le_of_mul_le_mul_right hsum hc2
        rw [hR] at this
        linarith
    have := mul_le_mul_of_nonneg_left goal hc2.le
    linarith

/-! ### Distances -/

theorem triangle {c D : K} (hc : 0 ≤ c) (hD : 0 ≤ D) {p q o : K × K} (h1 : sqDist p o = c * c) (h2 : sqDist p q = D * D) :
    sqDist o q ≤ (D + c) * (D + c) := by
  unfold sqDist at *
  set a := o.1 - p.1
  set b := o.2 - p.2
  set u := q.1 - p.1
  set v := q.2 - p.2
  have e1 : q.1 - o.1 = u - a := by ring
  have e2 : q.2 - o.2 = v - b := by ring
  rw [e1, e2]
  have cs : (a * u + b * v) * (a * u + b * v) ≤ (D * c) * (D * c) := by
    have : (D * c) * (D * c) = (a * a + b * b) * (u * u + v * v) := by rw [h1, h2]; ring
    rw [this]
    nlinarith [mul_self_nonneg (a * v - b * u)]
  have := abs_le_of_sq_le_sq' (a := a * u + b * v) (b := D * c) (by nlinarith) (mul_nonneg hD hc)
  nlinarith [this.1]

theorem cellDist_le {sq : K → K} (hsq0 : ∀ x, 0 ≤ sq x) (hsq : ∀ x, 0 ≤ x → sq x * sq x = x) {f : Field2 K} (hg : Good f) {p : K × K}
    (hp : p ∈ f.c1 ++ f.c2) : 0 ≤ f.cellDist sq p ∧ f.cellDist sq p * f.cellDist sq p = sqDist p (f.centre p) ∧
      f.cellDist sq p ≤ 71/100 * f.cs := by
  have hcs := hg.cs
  have h0 : 0 ≤ sqDist p (f.centre p) := add_nonneg (mul_self_nonneg _) (mul_self_nonneg _)
  have e := hsq _ h0
  refine ⟨hsq0 _, e, ?_⟩
  have ax := axis_cell hcs (hg.x p hp).1
  have ay := axis_cell hcs (hg.y p hp).1
  have half : ∀ (x0 v : K) (a : K), x0 + a * f.cs ≤ v → v < x0 + (a + 1) * f.cs →
      (x0 + (a + 1/2) * f.cs - v) * (x0 + (a + 1/2) * f.cs - v) ≤ 1/4 * (f.cs * f.cs) := by
    intro x0 v a h1 h2
    have b1 : -(1/2 * f.cs) ≤ x0 + (a + 1/2) * f.cs - v := by linarith
    have b2 : x0 + (a + 1/2) * f.cs - v ≤ 1/2 * f.cs := by linarith
    nlinarith
  have hx := half _ _ _ ax.1 ax.2
  have hy := half _ _ _ ay.1 ay.2
  have hs : sqDist p (f.centre p) ≤ 1/2 * (f.cs * f.cs) := by
    unfold sqDist Field2.centre Field2.cell
    linarith
  by_contra hc
  rw [not_le] at hc
  have : 71/100 * f.cs * (71/100 * f.cs) < f.cellDist sq p * f.cellDist sq p := mul_self_lt_mul_self (by positivity) hc
  have e' : f.cellDist sq p * f.cellDist sq p = sqDist p (f.centre p) := e
  rw [e'] at this
  nlinarith [mul_pos hcs hcs]

/-- every source nearer than the reached distance was found -/
theorem found_of_reached {sq : K → K} (hsq0 : ∀ x, 0 ≤ sq x) (hsq : ∀ x, 0 ≤ x → sq x * sq x = x) {f : Field2 K} (hg : Good f)
    {p q : K × K} (hp : p ∈ f.c1 ++ f.c2) (hq : q ∈ f.c1 ++ f.c2) {c : List (K × K)} {j n : Nat} (hj : c[j]? = some q)
    (h : sqDist p q < f.reached sq p n) : ∃ k, k ≤ n ∧ j ∈ f.found c (f.cell p) k := by
  obtain ⟨c0, c1, c2⟩ := cellDist_le hsq0 hsq hg hp
  have hcs := hg.cs
  have hd : 0 ≤ sqDist p q := add_nonneg (mul_self_nonneg _) (mul_self_nonneg _)
  have eD := hsq _ hd
  have hD := hsq0 (sqDist p q)
  set D := sq (sqDist p q)
  set C := f.cellDist sq p
  simp only [Field2.reached] at h
  have hr0 : 0 < maxDist f.cs n - 11/10 * C - 1/10 * f.cs := by
    by_contra hc
    rw [max_eq_left (not_lt.1 hc)] at h
    linarith
  rw [max_eq_right hr0.le] at h
  have hDr : D < maxDist f.cs n - 11/10 * C - 1/10 * f.cs := by
    by_contra hc
    have := mul_self_le_mul_self hr0.le (not_lt.1 hc)
    linarith
  refine found_of_visited hj (hg.cell_lt hq) (visited_of_near hg hp hq n ?_)
  have ht := triangle c0 hD c1.symm eD.symm
  refine ht.trans (mul_self_le_mul_self (by linarith) ?_)
  have : maxDist f.cs n - 1/10 * f.cs = ((n : K) + if n = 0 then 4/10 else 14/10) * f.cs := by
    cases n with
    | zero => simp [maxDist]; ring
    | succ n => simp [maxDist]; ring
  linarith

/-- at the last depth every source within the longer side of the field was found -/
theorem found_of_side {sq : K → K} (hsq0 : ∀ x, 0 ≤ sq x) (hsq : ∀ x, 0 ≤ x → sq x * sq x = x) {f : Field2 K} (hg : Good f)
    {p q : K × K} (hp : p ∈ f.c1 ++ f.c2) (hq : q ∈ f.c1 ++ f.c2) {c : List (K × K)} {j n : Nat} (hj : c[j]? = some q)
    (hn : max f.nra f.ndec ≤ n + 1)
    (h : ∃ u ∈ f.c1 ++ f.c2, ∃ v ∈ f.c1 ++ f.c2, sqDist p q ≤ (u.1 - v.1) * (u.1 - v.1) ∨ sqDist p q ≤ (u.2 - v.2) * (u.2 - v.2)) :
    ∃ k, k ≤ n ∧ j ∈ f.found c (f.cell p) k := by
  obtain ⟨c0, c1, c2⟩ := cellDist_le hsq0 hsq hg hp
  have hcs := hg.cs
  have hd : 0 ≤ sqDist p q := add_nonneg (mul_self_nonneg _) (mul_self_nonneg _)
  have eD := hsq _ hd
  have hD := hsq0 (sqDist p q)
  set D := sq (sqDist p q)
  set C := f.cellDist sq p
  have htwo := hg.two
  have hDn : D ≤ (n : K) * f.cs := by
    have hb : ∀ (m : Nat) (a : K), m ≤ n + 1 → a ≤ ((m : K) - 1) * f.cs → -a ≤ ((m : K) - 1) * f.cs → sqDist p q ≤ a * a → D ≤ (n : K) * f.cs := by
      intro m a hm h1 h2 h3
      by_contra hc
      rw [not_le] at hc
      have hmK : (m : K) ≤ n + 1 := by exact_mod_cast hm
      have hle : ((m : K) - 1) * f.cs ≤ n * f.cs := mul_le_mul_of_nonneg_right (by linarith) hcs.le
      have : a * a < D * D := by
        have h5 : |a| < D := by rw [abs_lt]; constructor <;> linarith
        have := mul_self_lt_mul_self (abs_nonneg a) h5
        rwa [abs_mul_abs_self] at this
      linarith
    obtain ⟨u, hu, v, hv, h | h⟩ := h
    · exact hb f.nra _ ((le_max_left _ _).trans hn) (hg.wx u hu v hv) (by linarith [hg.wx v hv u hu]) h
    · exact hb f.ndec _ ((le_max_right _ _).trans hn) (hg.wy u hu v hv) (by linarith [hg.wy v hv u hu]) h
  refine found_of_visited hj (hg.cell_lt hq) (visited_of_near hg hp hq n ?_)
  have ht := triangle c0 hD c1.symm eD.symm
  refine ht.trans (mul_self_le_mul_self (by linarith) ?_)
  rw [if_neg (by omega)]
  linarith

end Verif.Qx
