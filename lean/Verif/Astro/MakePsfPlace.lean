import Verif.Astro.MakePsfProps
/-!
# C159: sources that are not at the centre of a pixel
-/
namespace Verif.Psf
open Verif Verif.Astro Verif.Bil

variable {K : Type} [Field K] [LinearOrder K] [FloorRing K] [IsStrictOrderedRing K]

theorem roundI_near (x : K) : x - 1 / 2 ≤ (roundI x : K) ∧ (roundI x : K) ≤ x + 1 / 2 := by
  unfold roundI
  split
  · have h1 := Int.floor_le (x + 1 / 2)
    have h2 := Int.lt_floor_add_one (x + 1 / 2)
    constructor <;> linarith
  · have h1 := Int.le_ceil (x - 1 / 2)
    have h2 := Int.ceil_lt_add_one (x - 1 / 2)
    constructor <;> linarith

/-- the cell of a number, and its place in a larger image -/
theorem cell_shift {s : K} {d D o : Nat} (hd : 2 ≤ d) (hD : o + d ≤ D) (h0 : 0 ≤ s) (h1 : s < ((d - 1 : Nat) : K)) :
    ∃ i, InCell d s i ∧ InCell D (s + o) (i + o) ∧ (i : K) ≤ s ∧ s ≤ (i : K) + 1 := by
  have hf := Int.floor_nonneg.2 h0
  obtain ⟨i, hi⟩ := Int.eq_ofNat_of_zero_le hf
  have e1 : (i : K) ≤ s := by
    have := Int.floor_le s
    rw [hi] at this
    exact_mod_cast this
  have e2 : s ≤ (i : K) + 1 := by
    have := Int.lt_floor_add_one s
    rw [hi] at this
    exact_mod_cast this.le
  have hlt : (i : K) < ((d - 1 : Nat) : K) := lt_of_le_of_lt e1 h1
  rw [Nat.cast_lt] at hlt
  refine ⟨i, ⟨by omega, .inr e1, .inr e2⟩, ⟨by omega, .inr ?_, .inr ?_⟩, e1, e2⟩
  · push_cast; linarith
  · push_cast; linarith

/-- The source of a file at any position: where the position relative to the source is at least minus the half size and less than the half size along both axes, the pixel has the value of the
file, interpolated at this distance of the peak; the other pixels are zero. (Full statement: up to the half size at both ends; see `C159_last_refuted`.) -/
theorem C159_place_partial (E : Env K) (nx ny : Nat) (x0 y0 : K) (name : Str.Str) (t : Img K) (hf : E.file name = some t) (hw : t.WF) (hne : t.px ≠ []) (hs : t.nx ≤ 2 ^ 30 ∧ t.ny ≤ 2 ^ 30)
    (hd : nx * ny < 2 ^ 63) (ha : -2 ^ 61 < roundI x0 ∧ roundI x0 < 2 ^ 61) (hb : -2 ^ 61 < roundI y0 ∧ roundI y0 < 2 ^ 61) :
    ∃ m0 m1 p h, t.at m0 m1 = some p ∧ (∀ x y q, t.at x y = some q → q ≤ p) ∧ h = halfSize t m0 m1 ∧ (h ≠ 0 → ∃ w,
      filePsf E nx ny x0 y0 name = .ok w ∧ w.WF ∧ w.nx = nx ∧ w.ny = ny ∧ ∀ x y : Nat, x < nx → y < ny → ∃ v, w.at x y = some v ∧
        if (-(h : K) ≤ x - x0 ∧ (x : K) - x0 < h) ∧ (-(h : K) ≤ y - y0 ∧ (y : K) - y0 < h) then bilinear (asMap t) (m0 + (x - x0)) (m1 + (y - y0)) = .ok v else v = 0) := by
  obtain ⟨p, p1, ⟨p2, p3⟩, -⟩ := Math.C25_max (t.px.map some) (by simpa using hne)
  obtain ⟨c, hc⟩ : ∃ c, t.px[p.1]? = some c ∧ p.2 = some c := by
    rw [List.getElem?_map, Option.map_eq_some_iff] at p2
    obtain ⟨c, c1, c2⟩ := p2
    exact ⟨c, c1, c2.symm⟩
  have hplt : p.1 < t.nx * t.ny := by
    have := (List.getElem?_eq_some_iff.1 hc.1).1
    rw [hw] at this
    exact this
  have hny : 0 < t.ny := by
    rcases Nat.eq_zero_or_pos t.ny with h0 | h0
    · rw [h0, Nat.mul_zero] at hplt; omega
    · exact h0
  have hm0 : p.1 / t.ny < t.nx := by rw [Nat.div_lt_iff_lt_mul hny]; exact hplt
  have hm1 : p.1 % t.ny < t.ny := Nat.mod_lt _ hny
  have hat : t.at (p.1 / t.ny) (p.1 % t.ny) = some c := by
    unfold Img.at
    rw [if_pos ⟨hm0, hm1⟩, Nat.div_add_mod', hc.1]
  have hmax : ∀ x y q, t.at x y = some q → q ≤ c := by
    intro x y q hq
    unfold Img.at at hq
    split at hq
    · obtain ⟨c', e1, e2⟩ := p3 q (List.mem_map.2 ⟨q, List.mem_iff_getElem?.2 ⟨_, hq⟩, rfl⟩)
      rw [hc.2, Option.some.injEq] at e1
      rw [e1]; exact e2
    · simp at hq
  obtain ⟨⟨s1, s2, s3, s4⟩, -, -⟩ := C159_size t (p.1 / t.ny) (p.1 % t.ny) _ hm0 hm1 rfl
  refine ⟨p.1 / t.ny, p.1 % t.ny, c, halfSize t (p.1 / t.ny) (p.1 % t.ny), hat, hmax, rfl, fun hh0 => ?_⟩
  unfold filePsf
  rw [hf]
  dsimp only
  rw [p1, Res.ok_bind]
  generalize hh : halfSize t (p.1 / t.ny) (p.1 % t.ny) = h at s1 s2 s3 s4 hh0 ⊢
  generalize p.1 / t.ny = m0 at hm0 hat s1 s2 hh ⊢
  generalize p.1 % t.ny = m1 at hm1 hat s3 s4 hh ⊢
  have hsq : ∀ (u v : Int), (u + h - (u - h) + 1) * (v + h - (v - h) + 1) < 2 ^ 63 := by
    intro u v
    have e : (u + h - (u - h) + 1) * (v + h - (v - h) + 1) = (((2 * h + 1) * (2 * h + 1) : Nat) : Int) := by push_cast; ring
    rw [e]
    have : (2 * h + 1) * (2 * h + 1) ≤ 2 ^ 31 * 2 ^ 31 := Nat.mul_le_mul (by omega) (by omega)
    omega
  have hts : t.nx * t.ny ≤ 2 ^ 30 * 2 ^ 30 := Nat.mul_le_mul hs.1 hs.2
  obtain ⟨u, u1, u2, u3, u4, u5⟩ := C64_image_partial t ((m0 : Int) - h) ((m1 : Int) - h) ((m0 : Int) + h) ((m1 : Int) + h) (0 : K) hw
    ⟨by omega, by omega, by omega, by omega, by omega, hsq _ _⟩ (by omega) (by omega)
  rw [u1, Res.ok_bind]
  have un : u.nx = 2 * h + 1 := by omega
  have um : u.ny = 2 * h + 1 := by omega
  obtain ⟨na, nb⟩ := roundI_near x0
  obtain ⟨ma, mb⟩ := roundI_near y0
  generalize roundI x0 = a at ha na nb ⊢
  generalize roundI y0 = b at hb ma mb ⊢
  have hg : (asMap u).Good := ⟨u2, by
      show u.nx * u.ny < 2 ^ 63
      rw [un, um]
      have : (2 * h + 1) * (2 * h + 1) ≤ 2 ^ 31 * 2 ^ 31 := Nat.mul_le_mul (by omega) (by omega)
      omega, by show 2 ≤ u.nx; omega, by show 2 ≤ u.ny; omega⟩
  have hgt : (asMap t).Good := ⟨hw, by show t.nx * t.ny < 2 ^ 63; omega, by show 2 ≤ t.nx; omega, by show 2 ≤ t.ny; omega⟩
  have hrg : ∀ (n : Nat) (d : K), n < 2 ^ 31 + 1 → -(1 / 2) ≤ d → d ≤ 1 / 2 → InRange ((n : K) - d) := by
    intro n d hn h1 h2
    have hnK : (n : K) < ((2 ^ 31 + 1 : Nat) : K) := Nat.cast_lt.2 hn
    have hn0 : (0 : K) ≤ n := Nat.cast_nonneg n
    constructor
    · rw [Int.le_floor]; push_cast; linarith
    · rw [Int.floor_lt]; push_cast at hnK ⊢; linarith
  obtain ⟨v, v1, v2, v3, v4, v5⟩ := C158_translate_partial hg (x0 - (a : K)) (y0 - (b : K)) 0 (fun x hx => hrg x _ (by omega) (by linarith) (by linarith))
    (fun y hy => hrg y _ (by omega) (by linarith) (by linarith))
  rw [v1, Res.ok_bind]
  rw [un] at v3
  rw [um] at v4
  obtain ⟨rv, rr, g1, g2, g3, g4, g5⟩ := subregion_spec nx ny (a - h) (b - h) (a + h) (b + h) ⟨by omega, by omega, by omega, by omega, hd, hsq _ _⟩
  rw [g1, Res.ok_bind]
  have hfl : (Img.fill nx ny (0 : K)).px.length = nx * ny := by simp [Img.fill]
  obtain ⟨px, k1, k2, k3, k4⟩ := copyIds_spec v.px (rv.zip rr) (Img.fill nx ny (0 : K)).px (fun q hq => by
    have := C64_bounds _ _ _ _ _ _ _ ((g4 q).1 hq)
    refine ⟨by rw [hfl]; exact this.1, ?_⟩
    have e : (a + h - (a - h) + 1) * (b + h - (b - h) + 1) = ((v.nx * v.ny : Nat) : Int) := by rw [v3, v4]; push_cast; ring
    rw [e] at this
    rw [v2]
    exact_mod_cast this.2) (g5.imp fun hlt => Nat.ne_of_lt hlt)
  dsimp only
  rw [k1, Res.ok_bind]
  refine ⟨⟨nx, ny, px⟩, rfl, by unfold Img.WF; dsimp only; rw [k2, hfl], rfl, rfl, fun x y hx hy => ?_⟩
  have e1 : (⟨nx, ny, px⟩ : Img K).at x y = px[x * ny + y]? := if_pos ⟨hx, hy⟩
  rw [e1]
  have win : ∀ (n : Nat) (z : K) (q : Int), z - 1 / 2 ≤ (q : K) → (q : K) ≤ z + 1 / 2 → -(h : K) ≤ n - z → (n : K) - z < h → q - h ≤ n ∧ (n : Int) ≤ q + h := by
    intro n z q h1 h2 h3 h4
    have e1 : ((q - h : Int) : K) < ((n + 1 : Int) : K) := by push_cast; linarith
    have e2 : ((n : Int) : K) < ((q + h + 1 : Int) : K) := by push_cast; linarith
    have e1 := Int.cast_lt.1 e1
    have e2 := Int.cast_lt.1 e2
    omega
  by_cases hin : a - h ≤ x ∧ (x : Int) ≤ a + h ∧ b - h ≤ y ∧ (y : Int) ≤ b + h
  · obtain ⟨i, hi⟩ : ∃ i : Nat, (i : Int) = (x : Int) - (a - h) := ⟨((x : Int) - (a - h)).toNat, by omega⟩
    obtain ⟨j, hj⟩ : ∃ j : Nat, (j : Int) = (y : Int) - (b - h) := ⟨((y : Int) - (b - h)).toNat, by omega⟩
    have hmem : (x * ny + y, i * (2 * h + 1) + j) ∈ rv.zip rr := by
      rw [g4]
      refine ⟨x, y, hx, hy, hin.1, hin.2.1, hin.2.2.1, hin.2.2.2, rfl, ?_⟩
      rw [← hi, ← hj]
      push_cast
      ring
    have e2 := k3 _ hmem
    dsimp only at e2
    obtain ⟨val, e3, e5⟩ := v5 i j (by omega) (by omega)
    have e4 : v.at i j = v.px[i * v.ny + j]? := if_pos ⟨by omega, by omega⟩
    rw [e4, v4] at e3
    refine ⟨val, by rw [e2, e3], ?_⟩
    have hiK : (i : K) = (x : K) - ((a : K) - h) := by
      have := congrArg (Int.cast (R := K)) hi
      push_cast at this
      exact this
    have hjK : (j : K) = (y : K) - ((b : K) - h) := by
      have := congrArg (Int.cast (R := K)) hj
      push_cast at this
      exact this
    have hi' : (i : K) - (x0 - a) = (x : K) - x0 + h := by rw [hiK]; ring
    have hj' : (j : K) - (y0 - b) = (y : K) - y0 + h := by rw [hjK]; ring
    rw [hi', hj', un, um] at e5
    have hcast : ((2 * h + 1 - 1 : Nat) : K) = 2 * h := by
      rw [Nat.add_sub_cancel]; push_cast; ring
    by_cases hc2 : (-(h : K) ≤ x - x0 ∧ (x : K) - x0 < h) ∧ (-(h : K) ≤ y - y0 ∧ (y : K) - y0 < h)
    · rw [if_pos hc2]
      have q1 : 0 ≤ (x : K) - x0 + h := by linarith [hc2.1.1]
      have q2 : (x : K) - x0 + h < ((2 * h + 1 - 1 : Nat) : K) := by rw [hcast]; linarith [hc2.1.2]
      have q3 : 0 ≤ (y : K) - y0 + h := by linarith [hc2.2.1]
      have q4 : (y : K) - y0 + h < ((2 * h + 1 - 1 : Nat) : K) := by rw [hcast]; linarith [hc2.2.2]
      rw [if_pos ⟨⟨q1, q2⟩, q3, q4⟩] at e5
      obtain ⟨ci, c1, c2, c3, c4⟩ := cell_shift (d := 2 * h + 1) (D := t.nx) (o := m0 - h) (by omega) (by omega) q1 q2
      obtain ⟨cj, d1, d2, d3, d4⟩ := cell_shift (d := 2 * h + 1) (D := t.ny) (o := m1 - h) (by omega) (by omega) q3 q4
      have hl1 := c1.1
      have hl2 := d1.1
      have ex : (x : K) - x0 + h + ((m0 - h : Nat) : K) = m0 + (x - x0) := by rw [Nat.cast_sub s1]; ring
      have ey : (y : K) - y0 + h + ((m1 - h : Nat) : K) = m1 + (y - y0) := by rw [Nat.cast_sub s3]; ring
      rw [ex] at c2
      rw [ey] at d2
      rw [C95_cell hg (inRange_between (n := ci) (by omega) c3 c4) (inRange_between (n := cj) (by omega) d3 d4) ci cj (by rw [show (asMap u).d0 = 2 * h + 1 from un]; exact c1)
        (by rw [show (asMap u).d1 = 2 * h + 1 from um]; exact d1), Res.ok.injEq] at e5
      rw [C95_cell hgt (inRange_between (n := ci + (m0 - h)) (by omega) (by rw [← ex]; push_cast; linarith) (by rw [← ex]; push_cast; linarith))
        (inRange_between (n := cj + (m1 - h)) (by omega) (by rw [← ey]; push_cast; linarith) (by rw [← ey]; push_cast; linarith)) (ci + (m0 - h)) (cj + (m1 - h)) c2 d2, Res.ok.injEq, ← e5]
      have hget : ∀ i j : Nat, i < 2 * h + 1 → j < 2 * h + 1 → (asMap t).get (i + (m0 - h)) (j + (m1 - h)) = (asMap u).get i j := by
        intro i j hi hj
        have r1 := u5 i j (by omega) (by omega)
        rw [if_pos (by omega), at_get u2 (by omega) (by omega)] at r1
        rw [show ((m0 : Int) - h + i).toNat = i + (m0 - h) by omega, show ((m1 : Int) - h + j).toNat = j + (m1 - h) by omega, at_get hw (by omega) (by omega), Option.some.injEq] at r1
        exact r1.symm
      rw [hget ci cj (by omega) (by omega), show cj + (m1 - h) + 1 = (cj + 1) + (m1 - h) by omega, show ci + (m0 - h) + 1 = (ci + 1) + (m0 - h) by omega,
        hget ci (cj + 1) (by omega) (by omega), hget (ci + 1) cj (by omega) (by omega), hget (ci + 1) (cj + 1) (by omega) (by omega), ← ex, ← ey]
      push_cast
      ring
    · rw [if_neg hc2]
      rwa [if_neg (fun hcc => hc2 (by rw [hcast] at hcc; exact ⟨⟨by linarith [hcc.1.1], by linarith [hcc.1.2]⟩, by linarith [hcc.2.1], by linarith [hcc.2.2]⟩))] at e5
  · refine ⟨0, ?_, ?_⟩
    · rw [k4 _ fun q hq he => by
        obtain ⟨x', y', h1, h2, h3, h4, h5, h6, h7, -⟩ := (g4 q).1 hq
        have := flat_inj h2 hy (h7.symm.trans he)
        omega]
      simp [Img.fill, flat_lt hx hy]
    · rw [if_neg]
      rintro ⟨⟨i1, i2⟩, i3, i4⟩
      have w1 := win x x0 a na nb i1 i2
      have w2 := win y y0 b ma mb i3 i4
      exact hin ⟨w1.1, w1.2, w2.1, w2.2⟩

/-- a source a quarter of a pixel after the centre of a pixel -/
example : filePsf (⟨fun _ => (false, 0), fun _ => some ⟨3, 3, [0, 0, 0, 0, 4, 0, 0, 0, 0]⟩, fun x => x, fun x => x⟩ : Env ℚ) 5 5 (9 / 4) 2 [] =
    .ok ⟨5, 5, [0, 0, 0, 0, 0, 0, 0, 0, 0, 0, 0, 0, 3, 0, 0, 0, 0, 1, 0, 0, 0, 0, 0, 0, 0]⟩ := by decide +kernel

end Verif.Psf
