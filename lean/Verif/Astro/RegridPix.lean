import Verif.Astro.RegridRect
import Mathlib.Algebra.Order.Floor.Ring
/-!
# What one source pixel adds to the regridded image
-/
namespace Verif.Astro
open Verif Verif.Bil

variable {K : Type} [Field K] [LinearOrder K] [IsStrictOrderedRing K] [FloorRing K]

/-- both images have the given dimensions -/
structure Sized (dny dnx : Nat) (s : Drz K) : Prop where
  w1 : s.1.WF
  w2 : s.2.WF
  y1 : s.1.nx = dny
  x1 : s.1.ny = dnx
  y2 : s.2.nx = dny
  x2 : s.2.ny = dnx

/-- `s'` comes from `s` by changing each pixel on its own -/
structure Upd (dny dnx : Nat) (s s' : Drz K) (F : Nat → Nat → Option K → Option K) (G : Nat → Nat → K → K) : Prop where
  sized : Sized dny dnx s'
  res : ∀ i j, s'.1.at i j = (s.1.at i j).map (F i j)
  wei : ∀ i j, s'.2.at i j = (s.2.at i j).map (G i j)

omit [IsStrictOrderedRing K] [FloorRing K] [LinearOrder K] in
theorem upd_refl {dny dnx : Nat} {s : Drz K} (hs : Sized dny dnx s) {F : Nat → Nat → Option K → Option K} {G : Nat → Nat → K → K}
    (hF : ∀ i j, i < dny → j < dnx → ∀ r, F i j r = r) (hG : ∀ i j, i < dny → j < dnx → ∀ r, G i j r = r) : Upd dny dnx s s F G := by
  refine ⟨hs, fun i j => ?_, fun i j => ?_⟩
  · cases h : s.1.at i j with
    | none => rfl
    | some r =>
      have := at_lt h
      rw [Option.map_some, hF i j (hs.y1 ▸ this.1) (hs.x1 ▸ this.2)]
  · cases h : s.2.at i j with
    | none => rfl
    | some r =>
      have := at_lt h
      rw [Option.map_some, hG i j (hs.y2 ▸ this.1) (hs.x2 ▸ this.2)]

omit [IsStrictOrderedRing K] [FloorRing K] [LinearOrder K] in
theorem Upd.congr {dny dnx : Nat} {s s' : Drz K} {F F' : Nat → Nat → Option K → Option K} {G G' : Nat → Nat → K → K} (hs : Sized dny dnx s)
    (h : Upd dny dnx s s' F G) (hF : ∀ i j, i < dny → j < dnx → ∀ r, F i j r = F' i j r) (hG : ∀ i j, i < dny → j < dnx → ∀ r, G i j r = G' i j r) :
    Upd dny dnx s s' F' G' := by
  refine ⟨h.sized, fun i j => ?_, fun i j => ?_⟩
  · rw [h.res]
    cases e : s.1.at i j with
    | none => rfl
    | some r =>
      have := at_lt e
      rw [Option.map_some, Option.map_some, hF i j (hs.y1 ▸ this.1) (hs.x1 ▸ this.2)]
  · rw [h.wei]
    cases e : s.2.at i j with
    | none => rfl
    | some r =>
      have := at_lt e
      rw [Option.map_some, Option.map_some, hG i j (hs.y2 ▸ this.1) (hs.x2 ▸ this.2)]

omit [IsStrictOrderedRing K] [FloorRing K] [LinearOrder K] in
theorem Upd.trans {dny dnx : Nat} {s s' s'' : Drz K} {F F' : Nat → Nat → Option K → Option K} {G G' : Nat → Nat → K → K}
    (h : Upd dny dnx s s' F G) (h' : Upd dny dnx s' s'' F' G') :
    Upd dny dnx s s'' (fun i j r => F' i j (F i j r)) (fun i j r => G' i j (G i j r)) := by
  refine ⟨h'.sized, fun i j => ?_, fun i j => ?_⟩
  · rw [h'.res, h.res, Option.map_map]; rfl
  · rw [h'.wei, h.wei, Option.map_map]; rfl

omit [IsStrictOrderedRing K] [FloorRing K] [LinearOrder K] in
theorem addFlux_upd {dny dnx : Nat} {s : Drz K} (hs : Sized dny dnx s) (a fr : Option K) (w : K) {idx idy : Nat} (hx : idx < dnx) (hy : idy < dny) :
    ∃ s', addFlux a fr w idx idy s = .ok s' ∧ Upd dny dnx s s'
      (fun i j r => if i = idy ∧ j = idx then addO r (mulO a fr) else r) (fun i j u => if i = idy ∧ j = idx then u + w else u) := by
  obtain ⟨r, hr⟩ := at_isSome hs.w1 (x := idy) (y := idx) (by rw [hs.y1]; exact hy) (by rw [hs.x1]; exact hx)
  obtain ⟨u, hu⟩ := at_isSome hs.w2 (x := idy) (y := idx) (by rw [hs.y2]; exact hy) (by rw [hs.x2]; exact hx)
  obtain ⟨r', e1, e2, e3, e4, e5⟩ := put_spec hs.w1 (x := idy) (y := idx) (by rw [hs.y1]; exact hy) (by rw [hs.x1]; exact hx) (addO r (mulO a fr))
  obtain ⟨u', f1, f2, f3, f4, f5⟩ := put_spec hs.w2 (x := idy) (y := idx) (by rw [hs.y2]; exact hy) (by rw [hs.x2]; exact hx) (u + w)
  refine ⟨(r', u'), ?_, ⟨e2, f2, e3.trans hs.y1, e4.trans hs.x1, f3.trans hs.y2, f4.trans hs.x2⟩, ?_, ?_⟩
  · unfold addFlux
    rw [get_at hr, Res.ok_bind, e1, Res.ok_bind, get_at hu, Res.ok_bind, f1, Res.ok_bind]
  · intro i j
    simp only
    rw [e5]
    split
    · rename_i h
      rw [h.1, h.2, hr, Option.map_some]
    · cases s.1.at i j <;> rfl
  · intro i j
    simp only
    rw [f5]
    split
    · rename_i h
      rw [h.1, h.2, hu, Option.map_some]
    · cases s.2.at i j <;> rfl

/-- the change of the value of a pixel by a contribution of weight `c`, if any -/
def effR (a : Option K) (frac area : K) : Option K → Option K → Option K
  | none, r => r
  | some w, r => addO r (mulO a (some (frac * (w / area))))

/-- the change of the weight of a pixel -/
def effW (c : Option K) (u : K) : K := u + c.getD 0

/-- the weight of the common part of a projection and a pixel, if there is one -/
def coverPoly (tol : K) (p0 p1 p2 p3 : K × K) (i j : Nat) : Option K :=
  let poly := clipped tol (orientation p0 p1 p2) [p0, p1, p2, p3] j i
  if poly.length < 3 then none else some (polyArea poly)

omit [FloorRing K] [IsStrictOrderedRing K] in
theorem drizzleDest_upd {dny dnx : Nat} {s : Drz K} (hs : Sized dny dnx s) (tol : K) (a : Option K) (frac area : K) (harea : area ≠ 0)
    (p0 p1 p2 p3 : K × K) {x y : Nat} (hx : x < dnx) (hy : y < dny) :
    ∃ s', drizzleDest tol a frac [p0, p1, p2, p3] area (orientation p0 p1 p2) x y s = .ok s' ∧ Upd dny dnx s s'
      (fun i j r => if i = y ∧ j = x then effR a frac area (coverPoly tol p0 p1 p2 p3 y x) r else r)
      (fun i j u => if i = y ∧ j = x then effW (coverPoly tol p0 p1 p2 p3 y x) u else u) := by
  unfold drizzleDest coverPoly
  simp only
  by_cases h : (clipped tol (orientation p0 p1 p2) [p0, p1, p2, p3] x y).length < 3
  · rw [if_pos h, if_pos h]
    refine ⟨s, rfl, upd_refl hs ?_ ?_⟩
    · intro i j _ _ r; simp [effR]
    · intro i j _ _ r; simp [effW]
  · rw [if_neg h, if_neg h]
    have e : mulO (some frac) (divO (some (polyArea (clipped tol (orientation p0 p1 p2) [p0, p1, p2, p3] x y))) (some area)) =
        some (frac * (polyArea (clipped tol (orientation p0 p1 p2) [p0, p1, p2, p3] x y) / area)) := by
      simp [divO, harea, mulO]
    rw [e]
    exact addFlux_upd hs _ _ _ hx hy

omit [FloorRing K] [IsStrictOrderedRing K] in
theorem drizzle_loop {dny dnx : Nat} {s : Drz K} (hs : Sized dny dnx s) (tol : K) (a : Option K) (frac area : K) (harea : area ≠ 0)
    (p0 p1 p2 p3 : K × K) {x0 y0 nx ny : Nat} (hx : x0 + nx ≤ dnx) (hy : y0 + ny ≤ dny) :
    ∃ s', for2 ny nx (fun i j s => drizzleDest tol a frac [p0, p1, p2, p3] area (orientation p0 p1 p2) (x0 + j) (y0 + i) s) s = .ok s' ∧
      Upd dny dnx s s'
      (fun i j r => if (y0 ≤ i ∧ i < y0 + ny) ∧ (x0 ≤ j ∧ j < x0 + nx) then effR a frac area (coverPoly tol p0 p1 p2 p3 i j) r else r)
      (fun i j u => if (y0 ≤ i ∧ i < y0 + ny) ∧ (x0 ≤ j ∧ j < x0 + nx) then effW (coverPoly tol p0 p1 p2 p3 i j) u else u) := by
  refine Exists.imp ?_ (for2_rule (nx := ny) (ny := nx)
    (body := fun i j s => drizzleDest tol a frac [p0, p1, p2, p3] area (orientation p0 p1 p2) (x0 + j) (y0 + i) s)
    (fun y x t => x ≤ nx ∧ Upd dny dnx s t
      (fun i j r => if y0 ≤ i ∧ (i < y0 + y ∧ x0 ≤ j ∧ j < x0 + nx ∨ i = y0 + y ∧ x0 ≤ j ∧ j < x0 + x) then effR a frac area (coverPoly tol p0 p1 p2 p3 i j) r else r)
      (fun i j u => if y0 ≤ i ∧ (i < y0 + y ∧ x0 ≤ j ∧ j < x0 + nx ∨ i = y0 + y ∧ x0 ≤ j ∧ j < x0 + x) then effW (coverPoly tol p0 p1 p2 p3 i j) u else u)) s ?_ ?_ ?_)
  · rintro t ⟨h1, _, h2⟩
    refine ⟨h1, h2.congr hs ?_ ?_⟩
    all_goals
      intro i j _ _ r
      apply if_congr _ rfl rfl
      omega
  · refine ⟨Nat.zero_le _, upd_refl hs ?_ ?_⟩
    all_goals
      intro i j _ _ r
      apply if_neg
      omega
  · rintro y x t hyy hxx ⟨_, ht⟩
    obtain ⟨t', e1, e2⟩ := drizzleDest_upd ht.sized tol a frac area harea p0 p1 p2 p3 (x := x0 + x) (y := y0 + y) (by omega) (by omega)
    refine ⟨t', e1, hxx, (ht.trans e2).congr hs ?_ ?_⟩
    all_goals
      intro i j _ _ r
      by_cases h : i = y0 + y ∧ j = x0 + x
      · obtain ⟨rfl, rfl⟩ := h
        rw [if_pos ⟨rfl, rfl⟩, if_neg (by omega), if_pos (by omega)]
      · rw [if_neg h]
        apply if_congr _ rfl rfl
        omega
  · rintro y t hyy ⟨_, ht⟩
    refine ⟨Nat.zero_le _, ht.congr hs ?_ ?_⟩
    all_goals
      intro i j _ _ r
      apply if_congr _ rfl rfl
      omega

/-- the positions fit in the integers used by the code -/
def Finite64 (p : K × K) : Prop := |p.1| ≤ 2 ^ 62 ∧ |p.2| ≤ 2 ^ 62

/-- the weight with which a source pixel enters in each destination pixel: `none` if it does not -/
def cover (tol : K) (p0 p1 p2 p3 : K × K) (area : K) (dny dnx i j : Nat) : Option K :=
  let xs := [p0.1, p1.1, p2.1, p3.1]
  let ys := [p0.2, p1.2, p2.2, p3.2]
  let lx := max 0 ⌊minOf xs + 1 / 2⌋
  let hx := min ((dnx : Int) - 1) ⌊maxOf xs + 1 / 2⌋
  let ly := max 0 ⌊minOf ys + 1 / 2⌋
  let hy := min ((dny : Int) - 1) ⌊maxOf ys + 1 / 2⌋
  if (ly ≤ (i : Int) ∧ (i : Int) ≤ hy) ∧ (lx ≤ (j : Int) ∧ (j : Int) ≤ hx) then
    if lx = hx ∧ ly = hy then some area else coverPoly tol p0 p1 p2 p3 i j
  else none

theorem getBounds_ok {v : List K} {n : Int} (h1 : |maxOf v| ≤ 2 ^ 62) (h2 : |minOf v| ≤ 2 ^ 62) :
    getBounds v n = .ok ((max 0 ⌊minOf v + 1 / 2⌋).toNat, min n ⌊maxOf v + 1 / 2⌋) := by
  have fl : ∀ x : K, |x| ≤ 2 ^ 62 → floorInt (x + 1 / 2) = .ok ⌊x + 1 / 2⌋ := by
    intro x hx
    unfold floorInt
    rw [abs_le] at hx
    rw [if_pos]
    constructor
    · rw [Int.le_floor]; push_cast; linarith
    · rw [Int.floor_lt]; push_cast; linarith
  unfold getBounds
  rw [fl _ h1, Res.ok_bind]
  simp only
  rw [fl _ h2, Res.ok_bind]
  simp only [Res.ok.injEq, Prod.mk.injEq]
  constructor
  · split <;> omega
  · split <;> omega

omit [FloorRing K] [IsStrictOrderedRing K] in
theorem foldl_min_le (l : List K) : ∀ a : K, l.foldl min a ≤ a ∧ (∀ b ∈ l, l.foldl min a ≤ b) ∧ (l.foldl min a = a ∨ l.foldl min a ∈ l) := by
  induction l with
  | nil => intro a; simp
  | cons c l ih =>
    intro a
    obtain ⟨h1, h2, h3⟩ := ih (min a c)
    refine ⟨h1.trans (min_le_left _ _), ?_, ?_⟩
    · intro b hb
      rcases List.mem_cons.1 hb with rfl | hb
      · exact h1.trans (min_le_right _ _)
      · exact h2 b hb
    · simp only [List.foldl_cons]
      rcases h3 with h | h
      · rw [h]
        rcases min_choice a c with e | e
        · exact Or.inl e
        · rw [e]; right; simp
      · right; simp [h]

omit [FloorRing K] [IsStrictOrderedRing K] in
theorem foldl_max_le (l : List K) : ∀ a : K, a ≤ l.foldl max a ∧ (∀ b ∈ l, b ≤ l.foldl max a) ∧ (l.foldl max a = a ∨ l.foldl max a ∈ l) := by
  induction l with
  | nil => intro a; simp
  | cons c l ih =>
    intro a
    obtain ⟨h1, h2, h3⟩ := ih (max a c)
    refine ⟨(le_max_left _ _).trans h1, ?_, ?_⟩
    · intro b hb
      rcases List.mem_cons.1 hb with rfl | hb
      · exact (le_max_right _ _).trans h1
      · exact h2 b hb
    · simp only [List.foldl_cons]
      rcases h3 with h | h
      · rw [h]
        rcases max_choice a c with e | e
        · exact Or.inl e
        · rw [e]; right; simp
      · right; simp [h]

omit [FloorRing K] [IsStrictOrderedRing K] in
theorem minOf_spec {l : List K} (h : l ≠ []) : minOf l ∈ l ∧ ∀ b ∈ l, minOf l ≤ b := by
  cases l with
  | nil => exact absurd rfl h
  | cons a l =>
    obtain ⟨h1, h2, h3⟩ := foldl_min_le l a
    refine ⟨?_, ?_⟩
    · rcases h3 with h | h
      · rw [minOf, h]; simp
      · exact List.mem_cons_of_mem _ h
    · intro b hb
      rcases List.mem_cons.1 hb with rfl | hb
      · exact h1
      · exact h2 b hb

omit [FloorRing K] [IsStrictOrderedRing K] in
theorem maxOf_spec {l : List K} (h : l ≠ []) : maxOf l ∈ l ∧ ∀ b ∈ l, b ≤ maxOf l := by
  cases l with
  | nil => exact absurd rfl h
  | cons a l =>
    obtain ⟨h1, h2, h3⟩ := foldl_max_le l a
    refine ⟨?_, ?_⟩
    · rcases h3 with h | h
      · rw [maxOf, h]; simp
      · exact List.mem_cons_of_mem _ h
    · intro b hb
      rcases List.mem_cons.1 hb with rfl | hb
      · exact h1
      · exact h2 b hb

theorem drizzlePixel_upd {dny dnx : Nat} {s : Drz K} (hs : Sized dny dnx s) (tol : K) (a : Option K) (frac area : K) (harea : area ≠ 0)
    {p0 p1 p2 p3 : K × K} (f0 : Finite64 p0) (f1 : Finite64 p1) (f2 : Finite64 p2) (f3 : Finite64 p3) :
    ∃ s', drizzlePixel tol a frac p0 p1 p2 p3 area s = .ok s' ∧ Upd dny dnx s s'
      (fun i j r => effR a frac area (cover tol p0 p1 p2 p3 area dny dnx i j) r)
      (fun i j u => effW (cover tol p0 p1 p2 p3 area dny dnx i j) u) := by
  have bx : ∀ b ∈ [p0.1, p1.1, p2.1, p3.1], |b| ≤ 2 ^ 62 := by
    intro b hb
    simp only [List.mem_cons, List.not_mem_nil, or_false] at hb
    rcases hb with rfl | rfl | rfl | rfl
    · exact f0.1
    · exact f1.1
    · exact f2.1
    · exact f3.1
  have byy : ∀ b ∈ [p0.2, p1.2, p2.2, p3.2], |b| ≤ 2 ^ 62 := by
    intro b hb
    simp only [List.mem_cons, List.not_mem_nil, or_false] at hb
    rcases hb with rfl | rfl | rfl | rfl
    · exact f0.2
    · exact f1.2
    · exact f2.2
    · exact f3.2
  have nx : [p0.1, p1.1, p2.1, p3.1] ≠ [] := by simp
  have ny : [p0.2, p1.2, p2.2, p3.2] ≠ [] := by simp
  have ox : ⌊minOf [p0.1, p1.1, p2.1, p3.1] + 1 / 2⌋ ≤ ⌊maxOf [p0.1, p1.1, p2.1, p3.1] + 1 / 2⌋ :=
    Int.floor_le_floor (by have := (maxOf_spec nx).2 _ (minOf_spec nx).1; linarith)
  have oy : ⌊minOf [p0.2, p1.2, p2.2, p3.2] + 1 / 2⌋ ≤ ⌊maxOf [p0.2, p1.2, p2.2, p3.2] + 1 / 2⌋ :=
    Int.floor_le_floor (by have := (maxOf_spec ny).2 _ (minOf_spec ny).1; linarith)
  unfold drizzlePixel
  simp only [List.map_cons, List.map_nil]
  rw [hs.y2, hs.x2]
  rw [getBounds_ok (byy _ (maxOf_spec ny).1) (byy _ (minOf_spec ny).1), Res.ok_bind]
  simp only
  rw [getBounds_ok (bx _ (maxOf_spec nx).1) (bx _ (minOf_spec nx).1), Res.ok_bind]
  simp only
  unfold cover
  simp only
  generalize ⌊minOf [p0.1, p1.1, p2.1, p3.1] + 1 / 2⌋ = lx at *
  generalize ⌊maxOf [p0.1, p1.1, p2.1, p3.1] + 1 / 2⌋ = hx at *
  generalize ⌊minOf [p0.2, p1.2, p2.2, p3.2] + 1 / 2⌋ = ly at *
  generalize ⌊maxOf [p0.2, p1.2, p2.2, p3.2] + 1 / 2⌋ = hy at *
  by_cases ho : min ((dny : Int) - 1) hy < 0 ∨ min ((dnx : Int) - 1) hx < 0 ∨ (max 0 lx).toNat ≥ dnx ∨ (max 0 ly).toNat ≥ dny
  · rw [if_pos ho]
    refine ⟨s, rfl, upd_refl hs ?_ ?_⟩
    · intro i j hi hj r
      rw [if_neg (by omega)]
      rfl
    · intro i j hi hj r
      rw [if_neg (by omega)]
      simp [effW]
  · rw [if_neg ho]
    by_cases h1 : (min ((dnx : Int) - 1) hx).toNat = (max 0 lx).toNat ∧ (min ((dny : Int) - 1) hy).toNat = (max 0 ly).toNat
    · rw [if_pos h1]
      obtain ⟨s', e1, e2⟩ := addFlux_upd hs a (some frac) area (idx := (max 0 lx).toNat) (idy := (max 0 ly).toNat) (by omega) (by omega)
      refine ⟨s', e1, e2.congr hs ?_ ?_⟩
      · intro i j hi hj r
        by_cases h : i = (max 0 ly).toNat ∧ j = (max 0 lx).toNat
        · rw [if_pos h, if_pos (by omega), if_pos (by omega)]
          simp only [effR]
          rw [div_self harea, mul_one]
        · rw [if_neg h, if_neg (by omega)]
          rfl
      · intro i j hi hj r
        by_cases h : i = (max 0 ly).toNat ∧ j = (max 0 lx).toNat
        · rw [if_pos h, if_pos (by omega), if_pos (by omega)]
          rfl
        · rw [if_neg h, if_neg (by omega)]
          simp [effW]
    · rw [if_neg h1]
      obtain ⟨s', e1, e2⟩ := drizzle_loop hs tol a frac area harea p0 p1 p2 p3 (x0 := (max 0 lx).toNat) (y0 := (max 0 ly).toNat)
        (nx := (min ((dnx : Int) - 1) hx).toNat + 1 - (max 0 lx).toNat) (ny := (min ((dny : Int) - 1) hy).toNat + 1 - (max 0 ly).toNat)
        (by omega) (by omega)
      refine ⟨s', e1, e2.congr hs ?_ ?_⟩
      · intro i j hi hj r
        by_cases h : (max 0 ly ≤ (i : Int) ∧ (i : Int) ≤ min ((dny : Int) - 1) hy) ∧ (max 0 lx ≤ (j : Int) ∧ (j : Int) ≤ min ((dnx : Int) - 1) hx)
        · rw [if_pos (by omega), if_pos h, if_neg (by omega)]
        · rw [if_neg (by omega), if_neg h]
          rfl
      · intro i j hi hj r
        by_cases h : (max 0 ly ≤ (i : Int) ∧ (i : Int) ≤ min ((dny : Int) - 1) hy) ∧ (max 0 lx ≤ (j : Int) ∧ (j : Int) ≤ min ((dnx : Int) - 1) hx)
        · rw [if_pos (by omega), if_pos h, if_neg (by omega)]
        · rw [if_neg (by omega), if_neg h]
          simp [effW]

end Verif.Astro
