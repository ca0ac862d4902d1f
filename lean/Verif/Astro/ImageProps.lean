import Verif.Astro.Image
/-!
# Properties C60 (margins), C61 (flips), C62 (shift), C63 (translation)
-/
namespace Verif.Astro
open Verif

variable {α : Type}

/-! ### C60 -/

theorem enlarge_spec (v : Img α) (u0 u1 u2 u3 : Nat) (d : α) (hv : v.WF) (h0 : v.nx + u0 + u2 < W64) (h1 : v.ny + u1 + u3 < W64) :
    ∃ r, enlarge v u0 u1 u2 u3 d = .ok r ∧ r.WF ∧ r.nx = v.nx + u0 + u2 ∧ r.ny = v.ny + u1 + u3 ∧
      ∀ x y, x < r.nx → y < r.ny → r.at x y =
        if u0 ≤ x ∧ x < v.nx + u0 ∧ u1 ≤ y ∧ y < v.ny + u1 then v.at (x - u0) (y - u1) else some d := by
  unfold enlarge
  rw [wadd_eq (a := v.nx) (by omega), wadd_eq (a := v.ny) (by omega), wadd_eq h0, wadd_eq h1]
  simp only
  rcases Nat.eq_zero_or_pos v.px.length with he | he
  · -- no pixel at all
    have hz : v.nx = 0 ∨ v.ny = 0 := by
      rw [hv] at he; exact Nat.mul_eq_zero.1 he
    have : ∀ (n m : Nat) (f : Nat → Nat → Img α → Res (Img α)) (r : Img α), n = 0 ∨ m = 0 → for2 n m f r = .ok r := by
      intro n m f r h
      unfold for2
      rcases h with rfl | rfl
      · rfl
      · induction List.range n with
        | nil => rfl
        | cons a l ih => rw [List.foldlM_cons]; exact ih
    refine ⟨_, this _ _ _ _ hz, fill_wf _ _ _, rfl, rfl, ?_⟩
    intro x y hx hy
    rw [fill_at, if_pos ⟨hx, hy⟩, if_neg]
    omega
  · obtain ⟨a0, -⟩ : ∃ a, a ∈ v.px := ⟨v.px[0], List.getElem_mem he⟩
    obtain ⟨s, s1, s2, s3, s4, s5, s6⟩ := for2_write (nx := v.nx) (ny := v.ny) (body := fun x y r => do
        let a ← v.get x y
        r.put (wadd x u0) (wadd y u1) a) (fun x => x + u0) (fun y => y + u1) (fun x y => (v.at x y).getD a0)
      (Img.fill (v.nx + u0 + u2) (v.ny + u1 + u3) d) (fill_wf _ _ _)
      (fun x hx => by simp [Img.fill]; omega) (fun y hy => by simp [Img.fill]; omega)
      (fun x x' _ _ h => by omega) (fun x x' _ _ h => by omega)
      (fun x y s hx hy _ _ _ => by
        obtain ⟨a, ha⟩ := at_isSome hv hx hy
        simp only [get_at ha, Res.ok_bind, ha, Option.getD_some]
        rw [wadd_eq (by omega), wadd_eq (by omega)])
    refine ⟨s, s1, s2, s3, s4, ?_⟩
    intro x y hx hy
    split
    · rename_i h
      have := s5 (x - u0) (y - u1) (by omega) (by omega)
      rw [Nat.sub_add_cancel h.1, Nat.sub_add_cancel h.2.2.1] at this
      rw [this]
      obtain ⟨a, ha⟩ := at_isSome hv (x := x - u0) (y := y - u1) (by omega) (by omega)
      rw [ha]; rfl
    · rename_i h
      rw [s6 x y, fill_at, if_pos ⟨by rw [s3] at hx; exact hx, by rw [s4] at hy; exact hy⟩]
      rintro ⟨x', y', h1, h2, h3, h4⟩
      exact h (by omega)

theorem shrink_spec (v : Img α) (u0 u1 u2 u3 : Nat) (z : α) (hv : v.WF) (h0 : u0 + u2 < W64) (h1 : u1 + u3 < W64)
    (hn0 : v.nx < W64) (hn1 : v.ny < W64) (hx : u0 + u2 < v.nx) (hy : u1 + u3 < v.ny) :
    ∃ r, shrink v u0 u1 u2 u3 z = .ok r ∧ r.WF ∧ r.nx = v.nx - u0 - u2 ∧ r.ny = v.ny - u1 - u3 ∧
      ∀ x y, x < r.nx → y < r.ny → r.at x y = v.at (x + u0) (y + u1) := by
  unfold shrink
  rw [wadd_eq h0, wadd_eq h1, if_neg (by omega)]
  rw [wsub_eq hn0 (by omega), wsub_eq hn1 (by omega), wsub_eq (by omega) (by omega), wsub_eq (by omega) (by omega)]
  simp only
  obtain ⟨s, s1, s2, s3, s4, s5, s6⟩ := for2_write (nx := v.nx - u0 - u2) (ny := v.ny - u1 - u3) (body := fun x y r => do
      let a ← v.get (wadd x u0) (wadd y u1)
      r.put x y a) (fun x => x) (fun y => y) (fun x y => (v.at (x + u0) (y + u1)).getD z)
    (Img.fill (v.nx - u0 - u2) (v.ny - u1 - u3) z) (fill_wf _ _ _)
    (fun x hx => hx) (fun y hy => hy) (fun x x' _ _ h => h) (fun x x' _ _ h => h)
    (fun x y s hx hy _ _ _ => by
      obtain ⟨a, ha⟩ := at_isSome hv (x := x + u0) (y := y + u1) (by omega) (by omega)
      rw [wadd_eq (by omega), wadd_eq (by omega)]
      simp only [get_at ha, Res.ok_bind, ha, Option.getD_some])
  refine ⟨s, s1, s2, s3, s4, ?_⟩
  intro x y hx hy
  have hx' : x < v.nx - u0 - u2 := by rw [s3] at hx; exact hx
  have hy' : y < v.ny - u1 - u3 := by rw [s4] at hy; exact hy
  rw [s5 x y hx' hy']
  obtain ⟨a, ha⟩ := at_isSome hv (x := x + u0) (y := y + u1) (by omega) (by omega)
  rw [ha]; rfl

/-- C60: `enlarge` places the image inside margins of the given sizes filled with the default value. -/
theorem C60_enlarge (v : Img α) (u0 u1 u2 u3 : Nat) (d : α) (hv : v.WF) (h0 : v.nx + u0 + u2 < W64) (h1 : v.ny + u1 + u3 < W64) :
    ∃ r, enlarge v u0 u1 u2 u3 d = .ok r ∧ r.WF ∧ r.nx = u0 + v.nx + u2 ∧ r.ny = u1 + v.ny + u3 ∧
      (∀ x y, x < v.nx → y < v.ny → r.at (u0 + x) (u1 + y) = v.at x y) ∧
      ∀ x y, x < r.nx → y < r.ny → (x < u0 ∨ u0 + v.nx ≤ x ∨ y < u1 ∨ u1 + v.ny ≤ y) → r.at x y = some d := by
  obtain ⟨r, r1, r2, r3, r4, r5⟩ := enlarge_spec v u0 u1 u2 u3 d hv h0 h1
  refine ⟨r, r1, r2, by omega, by omega, ?_, ?_⟩
  · intro x y hx hy
    rw [r5 _ _ (by omega) (by omega), if_pos (by omega)]
    congr 1 <;> omega
  · intro x y hx hy h
    rw [r5 x y hx hy, if_neg (by omega)]

/-- C60: `shrink` with the same margins undoes `enlarge`, for every non-empty image. -/
theorem C60_roundtrip (v : Img α) (u0 u1 u2 u3 : Nat) (d z : α) (hv : v.WF) (h0 : v.nx + u0 + u2 < W64) (h1 : v.ny + u1 + u3 < W64)
    (hx : 0 < v.nx) (hy : 0 < v.ny) :
    (enlarge v u0 u1 u2 u3 d >>= fun r => shrink r u0 u1 u2 u3 z) = .ok v := by
  obtain ⟨r, r1, r2, r3, r4, r5⟩ := enlarge_spec v u0 u1 u2 u3 d hv h0 h1
  obtain ⟨s, s1, s2, s3, s4, s5⟩ := shrink_spec r u0 u1 u2 u3 z r2 (by omega) (by omega) (by omega) (by omega) (by omega) (by omega)
  rw [r1, Res.ok_bind, s1, Res.ok.injEq]
  refine img_ext s2 hv (by omega) (by omega) ?_
  intro x y hx hy
  rw [s5 x y hx hy, r5 _ _ (by omega) (by omega), if_pos (by omega)]
  congr 1 <;> omega

/-- C60: `shrink` by margins that leave nothing gives the empty image. -/
theorem C60_shrink_empty (v : Img α) (u0 u1 u2 u3 : Nat) (z : α) (h0 : u0 + u2 < W64) (h1 : u1 + u3 < W64)
    (h : v.nx ≤ u0 + u2 ∨ v.ny ≤ u1 + u3) : shrink v u0 u1 u2 u3 z = .ok ⟨0, 0, []⟩ := by
  unfold shrink
  rw [wadd_eq h0, wadd_eq h1, if_pos (by omega)]
  simp [Img.fill]

/-- C60: `shrink` keeps the pixels inside the margins. -/
theorem C60_shrink (v : Img α) (u0 u1 u2 u3 : Nat) (z : α) (hv : v.WF) (hn0 : v.nx < W64) (hn1 : v.ny < W64)
    (hx : u0 + u2 < v.nx) (hy : u1 + u3 < v.ny) :
    ∃ r, shrink v u0 u1 u2 u3 z = .ok r ∧ r.WF ∧ r.nx + u0 + u2 = v.nx ∧ r.ny + u1 + u3 = v.ny ∧
      ∀ x y, x < r.nx → y < r.ny → r.at x y = v.at (x + u0) (y + u1) := by
  obtain ⟨s, s1, s2, s3, s4, s5⟩ := shrink_spec v u0 u1 u2 u3 z hv (by omega) (by omega) hn0 hn1 hx hy
  exact ⟨s, s1, s2, by omega, by omega, s5⟩

/-- C60 is false when the sum of two margins overflows: `shrink` then reads outside the image instead of
returning an empty one. -/
theorem C60_shrink_overflow_refuted : shrink ⟨2, 1, [7, 8]⟩ (2 ^ 64 - 1) 0 1 0 0 = .ub := by decide

example : enlarge ⟨1, 2, [7, 8]⟩ 1 0 0 1 0 = .ok ⟨2, 3, [0, 0, 0, 7, 8, 0]⟩ := by decide
example : shrink ⟨2, 3, [0, 0, 0, 7, 8, 0]⟩ 1 0 0 1 0 = .ok ⟨1, 2, [7, 8]⟩ := by decide
example : (⟨1, 2, [7, 8]⟩ : Img Nat).WF ∧ 0 < 1 ∧ 1 + 1 + 0 < W64 := by decide

/-! ### C61 -/

theorem swap_spec {v : Img α} (hw : v.WF) {x y x' y' : Nat} (hx : x < v.nx) (hy : y < v.ny) (hx' : x' < v.nx) (hy' : y' < v.ny) :
    ∃ w, v.swap x y x' y' = .ok w ∧ w.WF ∧ w.nx = v.nx ∧ w.ny = v.ny ∧
      ∀ a b, w.at a b = if a = x' ∧ b = y' then v.at x y else if a = x ∧ b = y then v.at x' y' else v.at a b := by
  obtain ⟨p, hp⟩ := at_isSome hw hx hy
  obtain ⟨q, hq⟩ := at_isSome hw hx' hy'
  obtain ⟨w1, g1, g2, g3, g4, g5⟩ := put_spec hw hx hy q
  obtain ⟨w2, k1, k2, k3, k4, k5⟩ := put_spec g2 (x := x') (y := y') (by omega) (by omega) p
  refine ⟨w2, ?_, k2, by omega, by omega, ?_⟩
  · simp only [Img.swap, get_at hp, get_at hq, Res.ok_bind, g1, k1]
  · intro a b
    rw [k5, g5, hp, hq]

theorem flipX_spec (v : Img α) (hv : v.WF) : ∃ w, flipX v = .ok w ∧ w.WF ∧ w.nx = v.nx ∧ w.ny = v.ny ∧
    ∀ y x, y < v.nx → x < v.ny → w.at y x = v.at y (v.ny - 1 - x) := by
  refine Exists.imp ?_ (for2_rule (nx := v.nx) (ny := v.ny / 2) (body := fun y x r => r.swap y x y (v.ny - 1 - x))
    (fun y x s => s.WF ∧ s.nx = v.nx ∧ s.ny = v.ny ∧ ∀ y' x', y' < v.nx → x' < v.ny → s.at y' x' =
      if y' < y ∨ (y' = y ∧ (x' < x ∨ v.ny - 1 - x' < x)) then v.at y' (v.ny - 1 - x') else v.at y' x') v
    ⟨hv, rfl, rfl, fun y' x' _ _ => by rw [if_neg]; omega⟩ ?_ ?_)
  · rintro s ⟨h1, h2, h3, h4, h5⟩
    refine ⟨h1, h2, h3, h4, ?_⟩
    intro y x hy hx
    rw [h5 y x hy hx, if_pos (Or.inl hy)]
  · rintro y x s hy hx ⟨i1, i2, i3, i4⟩
    obtain ⟨w, w1, w2, w3, w4, w5⟩ := swap_spec i1 (x := y) (y := x) (x' := y) (y' := v.ny - 1 - x) (by omega) (by omega) (by omega) (by omega)
    refine ⟨w, w1, w2, by omega, by omega, ?_⟩
    intro y' x' hy' hx'
    rw [w5]
    by_cases e1 : y' = y ∧ x' = v.ny - 1 - x
    · obtain ⟨rfl, rfl⟩ := e1
      rw [if_pos ⟨rfl, rfl⟩, if_pos (by omega), i4 y' x hy' (by omega), if_neg (by omega)]
      congr 1; omega
    · rw [if_neg e1]
      by_cases e2 : y' = y ∧ x' = x
      · obtain ⟨rfl, rfl⟩ := e2
        rw [if_pos ⟨rfl, rfl⟩, if_pos (by omega), i4 y' _ hy' (by omega), if_neg (by omega)]
      · rw [if_neg e2, i4 y' x' hy' hx']
        by_cases e3 : y' < y ∨ (y' = y ∧ (x' < x ∨ v.ny - 1 - x' < x))
        · rw [if_pos e3, if_pos (by omega)]
        · rw [if_neg e3, if_neg (by omega)]
  · rintro y s hy ⟨i1, i2, i3, i4⟩
    refine ⟨i1, i2, i3, ?_⟩
    intro y' x' hy' hx'
    rw [i4 y' x' hy' hx']
    by_cases e3 : y' < y ∨ (y' = y ∧ (x' < v.ny / 2 ∨ v.ny - 1 - x' < v.ny / 2))
    · rw [if_pos e3, if_pos (by omega)]
    · rw [if_neg e3]
      by_cases e4 : y' = y
      · have hm : v.ny - 1 - x' = x' := by omega
        rw [if_pos (by omega), hm]
      · rw [if_neg (by omega)]

theorem flipY_spec (v : Img α) (hv : v.WF) : ∃ w, flipY v = .ok w ∧ w.WF ∧ w.nx = v.nx ∧ w.ny = v.ny ∧
    ∀ y x, y < v.nx → x < v.ny → w.at y x = v.at (v.nx - 1 - y) x := by
  refine Exists.imp ?_ (for2_rule (nx := v.nx / 2) (ny := v.ny) (body := fun y x r => r.swap y x (v.nx - 1 - y) x)
    (fun y x s => s.WF ∧ s.nx = v.nx ∧ s.ny = v.ny ∧ ∀ y' x', y' < v.nx → x' < v.ny → s.at y' x' =
      if Before y x y' x' ∨ Before y x (v.nx - 1 - y') x' then v.at (v.nx - 1 - y') x' else v.at y' x') v
    ⟨hv, rfl, rfl, fun y' x' _ _ => by rw [if_neg]; unfold Before; omega⟩ ?_ ?_)
  · rintro s ⟨h1, h2, h3, h4, h5⟩
    refine ⟨h1, h2, h3, h4, ?_⟩
    intro y x hy hx
    rw [h5 y x hy hx]
    split
    · rfl
    · rename_i h
      unfold Before at h
      congr 1; omega
  · rintro y x s hy hx ⟨i1, i2, i3, i4⟩
    obtain ⟨w, w1, w2, w3, w4, w5⟩ := swap_spec i1 (x := y) (y := x) (x' := v.nx - 1 - y) (y' := x) (by omega) (by omega) (by omega) (by omega)
    refine ⟨w, w1, w2, by omega, by omega, ?_⟩
    unfold Before at i4 ⊢
    intro y' x' hy' hx'
    rw [w5]
    by_cases e1 : y' = v.nx - 1 - y ∧ x' = x
    · obtain ⟨rfl, rfl⟩ := e1
      rw [if_pos ⟨rfl, rfl⟩, if_pos (by omega), i4 y x' (by omega) hx', if_neg (by omega)]
      congr 1; omega
    · rw [if_neg e1]
      by_cases e2 : y' = y ∧ x' = x
      · obtain ⟨rfl, rfl⟩ := e2
        rw [if_pos ⟨rfl, rfl⟩, if_pos (by omega), i4 _ x' (by omega) hx', if_neg (by omega)]
      · rw [if_neg e2, i4 y' x' hy' hx']
        split
        · rw [if_pos (by omega)]
        · rw [if_neg (by omega)]
  · rintro y s hy ⟨i1, i2, i3, i4⟩
    refine ⟨i1, i2, i3, ?_⟩
    unfold Before at i4 ⊢
    intro y' x' hy' hx'
    rw [i4 y' x' hy' hx']
    split
    · rw [if_pos (by omega)]
    · rw [if_neg (by omega)]

/-- C61: `flip_x` mirrors the second coordinate. -/
theorem C61_flip_x (v : Img α) (hv : v.WF) : ∃ w, flipX v = .ok w ∧ w.WF ∧ w.nx = v.nx ∧ w.ny = v.ny ∧
    ∀ y x, y < v.nx → x < v.ny → w.at y x = v.at y (v.ny - 1 - x) := flipX_spec v hv

/-- C61: `flip_y` mirrors the first coordinate. -/
theorem C61_flip_y (v : Img α) (hv : v.WF) : ∃ w, flipY v = .ok w ∧ w.WF ∧ w.nx = v.nx ∧ w.ny = v.ny ∧
    ∀ y x, y < v.nx → x < v.ny → w.at y x = v.at (v.nx - 1 - y) x := flipY_spec v hv

/-- C61: flipping twice gives the image back. -/
theorem C61_involution (v : Img α) (hv : v.WF) : (flipX v >>= flipX) = .ok v ∧ (flipY v >>= flipY) = .ok v := by
  constructor
  · obtain ⟨w, w1, w2, w3, w4, w5⟩ := flipX_spec v hv
    obtain ⟨u, u1, u2, u3, u4, u5⟩ := flipX_spec w w2
    rw [w1, Res.ok_bind, u1, Res.ok.injEq]
    refine img_ext u2 hv (by omega) (by omega) fun y x hy hx => ?_
    rw [u5 y x (by omega) (by omega), w5 y _ (by omega) (by omega)]
    congr 1; omega
  · obtain ⟨w, w1, w2, w3, w4, w5⟩ := flipY_spec v hv
    obtain ⟨u, u1, u2, u3, u4, u5⟩ := flipY_spec w w2
    rw [w1, Res.ok_bind, u1, Res.ok.injEq]
    refine img_ext u2 hv (by omega) (by omega) fun y x hy hx => ?_
    rw [u5 y x (by omega) (by omega), w5 _ x (by omega) (by omega)]
    congr 1; omega

/-- C61: the two flips commute. -/
theorem C61_commute (v : Img α) (hv : v.WF) : (flipX v >>= flipY) = (flipY v >>= flipX) := by
  obtain ⟨w, w1, w2, w3, w4, w5⟩ := flipX_spec v hv
  obtain ⟨u, u1, u2, u3, u4, u5⟩ := flipY_spec w w2
  obtain ⟨p, p1, p2, p3, p4, p5⟩ := flipY_spec v hv
  obtain ⟨q, q1, q2, q3, q4, q5⟩ := flipX_spec p p2
  rw [w1, p1, Res.ok_bind, Res.ok_bind, u1, q1, Res.ok.injEq]
  refine img_ext u2 q2 (by omega) (by omega) fun y x hy hx => ?_
  rw [u5 y x (by omega) (by omega), w5 _ x (by omega) (by omega), q5 y x (by omega) (by omega), p5 y _ (by omega) (by omega)]
  rw [w3, p4]

example : flipX ⟨2, 3, [1, 2, 3, 4, 5, 6]⟩ = .ok ⟨2, 3, [3, 2, 1, 6, 5, 4]⟩ := by decide
example : flipY ⟨2, 3, [1, 2, 3, 4, 5, 6]⟩ = .ok ⟨2, 3, [4, 5, 6, 1, 2, 3]⟩ := by decide

end Verif.Astro
