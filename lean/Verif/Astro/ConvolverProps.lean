import Verif.Astro.ConvProps
/-!
# C130: objects that convolve many maps with one kernel
-/
namespace Verif.Astro
open Verif

noncomputable section

theorem zeroRow {t : Img ℝ} (ht : t.WF) {X c n : Nat} (q : Nat → Nat) (hq : ∀ i, q i = c + i) (hX : X < t.nx) (hc : c + n ≤ t.ny) :
    ∃ s, (List.range n).foldlM (fun (t : Img ℝ) iy => t.put X (q iy) 0) t = .ok s ∧ s.WF ∧ s.nx = t.nx ∧ s.ny = t.ny ∧
      ∀ x y, s.at x y = if x = X ∧ c ≤ y ∧ y < c + n then some 0 else t.at x y := by
  refine foldlM_range (n := n) (fun m s => s.WF ∧ s.nx = t.nx ∧ s.ny = t.ny ∧
      ∀ x y, s.at x y = if x = X ∧ c ≤ y ∧ y < c + m then some 0 else t.at x y) t
    ⟨ht, rfl, rfl, fun x y => by rw [if_neg (by omega)]⟩ ?_
  rintro i s hi ⟨s1, s2, s3, s4⟩
  rw [hq]
  obtain ⟨w, w1, w2, w3, w4, w5⟩ := put_spec s1 (x := X) (y := c + i) (by omega) (by omega) 0
  refine ⟨w, w1, w2, by omega, by omega, ?_⟩
  intro x y
  rw [w5, s4]
  by_cases h1 : x = X ∧ y = c + i
  · rw [if_pos h1, if_pos (by omega)]
  · rw [if_neg h1]
    by_cases h2 : x = X ∧ c ≤ y ∧ y < c + i
    · rw [if_pos h2, if_pos (by omega)]
    · rw [if_neg h2, if_neg (by omega)]

/-- the parts of the padding that `padMap` does not clear are zero already -/
def Clean (t : Img ℝ) (hx : Nat) : Prop :=
  hx = 0 ∨ (t.nx ≤ t.ny ∧ ∀ x y, (x < hx ∨ t.nx - hx ≤ x) → x < t.nx → t.nx ≤ y → y < t.ny → t.at x y = some 0)

theorem padMap_gen {t m : Img ℝ} (ht : t.WF) (hm : m.WF) {hx hy : Nat} (h1 : t.nx = m.nx + 2 * hx) (h2 : t.ny = m.ny + 2 * hy)
    (hq : hx = 0 ∨ t.nx ≤ t.ny) :
    ∃ s, padMap t m hx hy = .ok s ∧ s.WF ∧ s.nx = t.nx ∧ s.ny = t.ny ∧ ∀ x y, x < s.nx → y < s.ny → s.at x y =
      if hx ≤ x ∧ x < m.nx + hx ∧ hy ≤ y ∧ y < m.ny + hy then m.at (x - hx) (y - hy)
      else if (x < hx ∨ t.nx - hx ≤ x) ∧ t.nx ≤ y then t.at x y else some 0 := by
  obtain ⟨a, a1, a2, a3, a4, a5, a6⟩ := for2_write (nx := m.nx) (ny := m.ny) (body := fun ix iy t => do
      let a ← m.get ix iy
      t.put (hx + ix) (hy + iy) a) (fun x => hx + x) (fun y => hy + y) (fun x y => (m.at x y).getD 0) t ht
    (by intro x hx; omega) (by intro x hx; omega) (by intro x y; omega) (by intro x y; omega) (by
      intro x y s hx hy _ _ _
      obtain ⟨a, ha⟩ := at_isSome hm hx hy
      rw [get_at ha, Res.ok_bind, ha]; rfl)
  obtain ⟨b, b1, b2, b3, b4, b5⟩ := foldlM_range (n := hx) (f := fun t' ix => do
      let t' ← (List.range t.nx).foldlM (fun (t : Img ℝ) iy => t.put ix iy 0) t'
      (List.range t.nx).foldlM (fun (t' : Img ℝ) iy => t'.put (t.nx - hx + ix) iy 0) t')
    (fun ix s => s.WF ∧ s.nx = t.nx ∧ s.ny = t.ny ∧ ∀ x y, s.at x y =
      if y < t.nx ∧ (x < ix ∨ (t.nx - hx ≤ x ∧ x < t.nx - hx + ix)) then some 0 else a.at x y) a
    ⟨a2, a3, a4, fun x y => by rw [if_neg (by omega)]⟩ (by
      rintro ix s hix ⟨s1, s2, s3, s4⟩
      have hw : t.nx ≤ t.ny := by
        omega
      obtain ⟨u, u1, u2, u3, u4, u5⟩ := zeroRow s1 (X := ix) (c := 0) (n := t.nx) (fun i => i) (fun i => (Nat.zero_add i).symm) (by omega) (by omega)
      obtain ⟨w, w1, w2, w3, w4, w5⟩ := zeroRow u2 (X := t.nx - hx + ix) (c := 0) (n := t.nx) (fun i => i) (fun i => (Nat.zero_add i).symm) (by omega) (by omega)
      refine ⟨w, ?_, w2, by omega, by omega, ?_⟩
      · rw [u1, Res.ok_bind, w1]
      · intro x y
        rw [w5, u5, s4]
        by_cases e1 : x = t.nx - hx + ix ∧ 0 ≤ y ∧ y < 0 + t.nx
        · rw [if_pos e1, if_pos (by omega)]
        · rw [if_neg e1]
          by_cases e2 : x = ix ∧ 0 ≤ y ∧ y < 0 + t.nx
          · rw [if_pos e2, if_pos (by omega)]
          · rw [if_neg e2]
            by_cases e3 : y < t.nx ∧ (x < ix ∨ (t.nx - hx ≤ x ∧ x < t.nx - hx + ix))
            · rw [if_pos e3, if_pos (by omega)]
            · rw [if_neg e3, if_neg (by omega)])
  obtain ⟨c, c1, c2, c3, c4, c5⟩ := foldlM_range (n := m.nx) (f := fun t' ix => do
      let t' ← (List.range hy).foldlM (fun (t : Img ℝ) iy => t.put (hx + ix) iy 0) t'
      (List.range hy).foldlM (fun (t' : Img ℝ) iy => t'.put (hx + ix) (t.ny - hy + iy) 0) t')
    (fun ix s => s.WF ∧ s.nx = t.nx ∧ s.ny = t.ny ∧ ∀ x y, s.at x y =
      if hx ≤ x ∧ x < hx + ix ∧ (y < hy ∨ (t.ny - hy ≤ y ∧ y < t.ny)) then some 0 else b.at x y) b
    ⟨b2, b3, b4, fun x y => by rw [if_neg (by omega)]⟩ (by
      rintro ix s hix ⟨s1, s2, s3, s4⟩
      obtain ⟨u, u1, u2, u3, u4, u5⟩ := zeroRow s1 (X := hx + ix) (c := 0) (n := hy) (fun i => i) (fun i => (Nat.zero_add i).symm) (by omega) (by omega)
      obtain ⟨w, w1, w2, w3, w4, w5⟩ := zeroRow u2 (X := hx + ix) (c := t.ny - hy) (n := hy) (fun i => t.ny - hy + i) (fun i => rfl) (by omega) (by omega)
      refine ⟨w, ?_, w2, by omega, by omega, ?_⟩
      · rw [u1, Res.ok_bind, w1]
      · intro x y
        rw [w5, u5, s4]
        by_cases e1 : x = hx + ix ∧ t.ny - hy ≤ y ∧ y < t.ny - hy + hy
        · rw [if_pos e1, if_pos (by omega)]
        · rw [if_neg e1]
          by_cases e2 : x = hx + ix ∧ 0 ≤ y ∧ y < 0 + hy
          · rw [if_pos e2, if_pos (by omega)]
          · rw [if_neg e2]
            by_cases e3 : hx ≤ x ∧ x < hx + ix ∧ (y < hy ∨ (t.ny - hy ≤ y ∧ y < t.ny))
            · rw [if_pos e3, if_pos (by omega)]
            · rw [if_neg e3, if_neg (by omega)])
  refine ⟨c, ?_, c2, c3, c4, ?_⟩
  · unfold padMap
    rw [a1, Res.ok_bind, b1, Res.ok_bind, c1]
  · intro x y hx' hy'
    rw [c3] at hx'
    rw [c4] at hy'
    rw [c5, b5]
    by_cases hin : hx ≤ x ∧ x < m.nx + hx ∧ hy ≤ y ∧ y < m.ny + hy
    · rw [if_pos hin, if_neg (by omega), if_neg (by omega)]
      obtain ⟨v, hv⟩ := at_isSome hm (x := x - hx) (y := y - hy) (by omega) (by omega)
      have := a5 (x - hx) (y - hy) (by omega) (by omega)
      rw [show hx + (x - hx) = x by omega, show hy + (y - hy) = y by omega] at this
      rw [this, hv]; rfl
    · rw [if_neg hin]
      by_cases e1 : hx ≤ x ∧ x < hx + m.nx ∧ (y < hy ∨ (t.ny - hy ≤ y ∧ y < t.ny))
      · rw [if_pos e1, if_neg (by omega)]
      · rw [if_neg e1]
        by_cases e2 : y < t.nx ∧ (x < hx ∨ (t.nx - hx ≤ x ∧ x < t.nx - hx + hx))
        · rw [if_pos e2, if_neg (by omega)]
        · rw [if_neg e2, a6 x y (by rintro ⟨i, j, i1, i2, i3, i4⟩; omega), if_pos (by omega)]

theorem padMap_spec {t m : Img ℝ} (ht : t.WF) (hm : m.WF) {hx hy : Nat} (h1 : t.nx = m.nx + 2 * hx) (h2 : t.ny = m.ny + 2 * hy)
    (hq : Clean t hx) :
    ∃ s, padMap t m hx hy = .ok s ∧ s.WF ∧ s.nx = t.nx ∧ s.ny = t.ny ∧ ∀ x y, x < s.nx → y < s.ny → s.at x y =
      if hx ≤ x ∧ x < m.nx + hx ∧ hy ≤ y ∧ y < m.ny + hy then m.at (x - hx) (y - hy) else some 0 := by
  obtain ⟨s, s1, s2, s3, s4, s5⟩ := padMap_gen ht hm h1 h2 (by rcases hq with hq | hq; exact .inl hq; exact .inr hq.1)
  refine ⟨s, s1, s2, s3, s4, ?_⟩
  intro x y hx' hy'
  rw [s5 x y hx' hy']
  split
  · rfl
  · split
    · rename_i hc
      rcases hq with hq | ⟨hq1, hq2⟩
      · omega
      · exact hq2 x y hc.1 (by omega) hc.2 (by omega)
    · rfl

/-- the object after its first call for maps of `mx` by `my` elements -/
structure Ready (c : Convolver) (k : Img ℝ) (mx my : Nat) : Prop where
  cyc : c.cyclic = false
  ker : c.kernel = k
  sx : c.hsx = k.nx / 2
  sy : c.hsy = k.ny / 2
  four : ∃ w f, c.fourier = some f ∧ fft w = .ok f ∧ w.nx = mx + 2 * (k.nx / 2) ∧ w.ny = my + 2 * (k.ny / 2) ∧
    ∀ x y, x < w.nx → y < w.ny → px0 w (wrapAdd x (-((k.nx / 2 : Nat) : Int)) w.nx) (wrapAdd y (-((k.ny / 2 : Nat) : Int)) w.ny) =
        if x < k.nx ∧ y < k.ny then k.atZ x y else 0
  wf : c.tmap.WF
  nx : c.tmap.nx = mx + 2 * (k.nx / 2)
  ny : c.tmap.ny = my + 2 * (k.ny / 2)

theorem setup_fresh {k : Img ℝ} (hk : k.WF) (ho : k.nx % 2 = 1 ∧ k.ny % 2 = 1) {mx my : Nat} (hm : 0 < mx ∧ 0 < my)
    (hb : mx < 2 ^ 62 ∧ my < 2 ^ 62 ∧ k.nx < 2 ^ 62 ∧ k.ny < 2 ^ 62) :
    ∃ c c', Convolver.new k = .ok c ∧ c.setup mx my = .ok c' ∧ Ready c' k mx my ∧
      ∀ x y, x < c'.tmap.nx → y < c'.tmap.ny → c'.tmap.at x y = some 0 := by
  obtain ⟨t, w, f, t1, w1, f1, w2, f2, f3, f4, w3, w4, w5⟩ := kernel_spec k hk mx my ho hm hb
  refine ⟨⟨k, none, 0, 0, ⟨0, 0, []⟩, false⟩,
    ⟨k, some f, k.nx / 2, k.ny / 2, Img.fill f.nx f.ny 0, false⟩, ?_, ?_, ?_, ?_⟩
  · unfold Convolver.new
    rw [Res.check_pos ho, Res.ok_bind]
  · unfold Convolver.setup
    simp only [Bool.false_eq_true, if_false]
    rw [t1, Res.ok_bind, w1, Res.ok_bind, f1, Res.ok_bind]
  · refine ⟨rfl, rfl, rfl, rfl, ⟨w, f, rfl, f1, w3, w4, w5⟩, fill_wf _ _ _, ?_, ?_⟩
    · simp only [Img.fill]; omega
    · simp only [Img.fill]; omega
  · intro x y hx hy
    rw [fill_at, if_pos]
    simp only [Img.fill] at hx hy
    exact ⟨hx, hy⟩

theorem setup_ready {c : Convolver} {k : Img ℝ} {mx my : Nat} (h : Ready c k mx my) (a b : Nat) : c.setup a b = .ok c := by
  obtain ⟨w, f, f1, -⟩ := h.four
  unfold Convolver.setup
  rw [f1]

/-- the remainder of a call, after the setup -/
def Convolver.go (c : Convolver) (map : Img ℝ) : Res (Convolver × Img ℝ) :=
  match c.fourier with
  | none => .ub
  | some f =>
    if c.cyclic then do
      let r ← throughFourier f map
      .ok (c, r)
    else do
      let t ← padMap c.tmap map c.hsx c.hsy
      let t ← throughFourier f t
      let r ← for2 map.nx map.ny (fun ix iy r => do
        let a ← t.get (c.hsx + ix) (c.hsy + iy)
        r.put ix iy (a / (f.px.length : ℝ))) map
      .ok ({ c with tmap := t }, r)

theorem run_go (c : Convolver) (map : Img ℝ) : c.run map = c.setup map.nx map.ny >>= fun c => c.go map := rfl

/-- `w` holds the kernel around its first element -/
def KernelAt (w k : Img ℝ) : Prop :=
  ∀ x y, x < w.nx → y < w.ny → px0 w (wrapAdd x (-((k.nx / 2 : Nat) : Int)) w.nx) (wrapAdd y (-((k.ny / 2 : Nat) : Int)) w.ny) =
    if x < k.nx ∧ y < k.ny then k.atZ x y else 0

theorem go_gen {c : Convolver} {k m v : Img ℝ} (h : Ready c k m.nx m.ny) (hm : m.WF) (hn : 0 < m.nx ∧ 0 < m.ny)
    (v1 : padMap c.tmap m (k.nx / 2) (k.ny / 2) = .ok v) (v3 : v.nx = m.nx + 2 * (k.nx / 2)) (v4 : v.ny = m.ny + 2 * (k.ny / 2)) :
    ∃ w t r, w.nx = v.nx ∧ w.ny = v.ny ∧ KernelAt w k ∧ c.go m = .ok ({ c with tmap := t }, r) ∧
      Ready { c with tmap := t } k m.nx m.ny ∧ r.WF ∧ r.nx = m.nx ∧ r.ny = m.ny ∧
      (∀ i j, i < m.nx → j < m.ny → r.at i j = some (circ v w ((k.nx / 2 + i : Nat) : Int) ((k.ny / 2 + j : Nat) : Int))) ∧
      ∀ a b, a < v.nx → b < v.ny → t.at a b = some ((v.nx * v.ny : ℝ) * circ v w a b) := by
  obtain ⟨w, f, f0, f1, w3, w4, w5⟩ := h.four
  obtain ⟨f', f1', f2, f3, f4, -⟩ := fft_ok (v := w) (by omega) (by omega)
  rw [f1] at f1'
  cases f1'
  obtain ⟨g, g1, -⟩ := fft_ok (v := v) (by omega) (by omega)
  obtain ⟨q, t, q1, q2, q3, q4, t1, t2, t3, t4, t5⟩ := through_spec (v := v) (w := w) (by omega) (by omega) (by omega) (by omega) g1 f1
  obtain ⟨r, r1, r2, r3, r4, r5, -⟩ := for2_write (nx := m.nx) (ny := m.ny) (body := fun ix iy r => do
      let a ← t.get (k.nx / 2 + ix) (k.ny / 2 + iy)
      r.put ix iy (a / (f.px.length : ℝ))) (fun x => x) (fun y => y)
      (fun x y => circ v w ((k.nx / 2 + x : Nat) : Int) ((k.ny / 2 + y : Nat) : Int)) m hm
    (fun x h => h) (fun x h => h) (fun x y _ _ h => h) (fun x y _ _ h => h) (by
      intro x y s hx hy _ _ _
      rw [get_at (t5 (k.nx / 2 + x) (k.ny / 2 + y) (by omega) (by omega)), Res.ok_bind]
      congr 1
      have e : ((f.px.length : Nat) : ℝ) = v.nx * v.ny := by
        rw [f2, f3, f4, show w.nx = v.nx by omega, show w.ny = v.ny by omega]; push_cast; ring
      rw [e, mul_div_cancel_left₀]
      have h1 : (v.nx : ℝ) ≠ 0 := by
        have : v.nx ≠ 0 := by omega
        exact_mod_cast this
      have h2 : (v.ny : ℝ) ≠ 0 := by
        have : v.ny ≠ 0 := by omega
        exact_mod_cast this
      exact mul_ne_zero h1 h2)
  refine ⟨w, t, r, by omega, by omega, w5, ?_, ?_, r2, r3, r4, r5, t5⟩
  · unfold Convolver.go
    rw [f0]
    simp only [h.cyc, Bool.false_eq_true, if_false, h.sx, h.sy]
    rw [v1, Res.ok_bind]
    unfold throughFourier
    rw [if_pos (by omega), g1, Res.ok_bind, q1, Res.ok_bind, t1, Res.ok_bind, r1, Res.ok_bind]
  · exact ⟨h.cyc, h.ker, h.sx, h.sy, ⟨w, f, f0, f1, w3, w4, w5⟩, t2, by simp only; omega, by simp only; omega⟩

theorem go_spec {c : Convolver} {k m : Img ℝ} (h : Ready c k m.nx m.ny) (hm : m.WF) (hn : 0 < m.nx ∧ 0 < m.ny)
    (ho : k.nx % 2 = 1 ∧ k.ny % 2 = 1) (hq : Clean c.tmap (k.nx / 2)) :
    ∃ c' r, c.go m = .ok (c', r) ∧ Ready c' k m.nx m.ny ∧ r.WF ∧ r.nx = m.nx ∧ r.ny = m.ny ∧
      ∀ i j, i < m.nx → j < m.ny → r.at i j = some (conv m k i j) := by
  obtain ⟨v, v1, v2, v3, v4, v5⟩ := padMap_spec h.wf hm h.nx h.ny hq
  rw [h.nx] at v3
  rw [h.ny] at v4
  obtain ⟨w, t, r, w1, w2, w3, g1, g2, r2, r3, r4, r5, -⟩ := go_gen h hm hn v1 v3 v4
  refine ⟨_, r, g1, g2, r2, r3, r4, ?_⟩
  intro i j hi hj
  rw [r5 i j hi hj, circ_conv (m := m) (k := k) (K1 := k.nx) (K2 := k.ny) hn ⟨by omega, by omega⟩
    (pad_px0 hm v5) ⟨by omega, by omega⟩ ?_ hi hj]
  · rfl
  · rw [← w1, ← w2]
    exact w3

theorem runs_ready {k : Img ℝ} {mx my : Nat} (hn : 0 < mx ∧ 0 < my) (ho : k.nx % 2 = 1 ∧ k.ny % 2 = 1)
    (hq : k.nx = 1 ∨ mx + 2 * (k.nx / 2) = my + 2 * (k.ny / 2)) (l : List (Img ℝ)) (hl : ∀ m ∈ l, m.WF ∧ m.nx = mx ∧ m.ny = my)
    (c : Convolver) (hc : Ready c k mx my) :
    ∃ rs, c.runs l = .ok rs ∧ List.Forall₂ (fun m r => r.WF ∧ r.nx = m.nx ∧ r.ny = m.ny ∧
      ∀ i j, i < m.nx → j < m.ny → r.at i j = some (conv m k i j)) l rs := by
  induction l generalizing c with
  | nil => exact ⟨[], rfl, .nil⟩
  | cons m l ih =>
    obtain ⟨m1, m2, m3⟩ := hl m (by simp)
    have hcl : Clean c.tmap (k.nx / 2) := by
      rcases hq with hq | hq
      · left; omega
      · right
        have := hc.nx
        have := hc.ny
        exact ⟨by omega, by intro x y; omega⟩
    subst m2 m3
    obtain ⟨c', r, e1, e2, e3⟩ := go_spec hc m1 hn ho hcl
    obtain ⟨rs, g1, g2⟩ := ih (fun m hm => hl m (by simp [hm])) c' e2
    refine ⟨r :: rs, ?_, .cons e3 g2⟩
    unfold Convolver.runs
    rw [run_go, setup_ready hc, Res.ok_bind, e1, Res.ok_bind]
    simp only
    rw [g1, Res.ok_bind]

/-- C130 (maps that are square with the padding, or kernels of one row): one object gives, for every map of a sequence of maps
of the same dimensions, the convolution of the map with the kernel; earlier maps have no influence. For other dimensions see
`C130_tall` and `C130_wide_refuted`. -/
theorem C130_history_partial (k : Img ℝ) (hk : k.WF) (ho : k.nx % 2 = 1 ∧ k.ny % 2 = 1) (mx my : Nat) (hn : 0 < mx ∧ 0 < my)
    (hb : mx < 2 ^ 62 ∧ my < 2 ^ 62 ∧ k.nx < 2 ^ 62 ∧ k.ny < 2 ^ 62) (hq : k.nx = 1 ∨ mx + 2 * (k.nx / 2) = my + 2 * (k.ny / 2))
    (l : List (Img ℝ)) (hl : ∀ m ∈ l, m.WF ∧ m.nx = mx ∧ m.ny = my) :
    ∃ c rs, Convolver.new k = .ok c ∧ c.runs l = .ok rs ∧ List.Forall₂ (fun m r => r.WF ∧ r.nx = m.nx ∧ r.ny = m.ny ∧
      ∀ i j, i < m.nx → j < m.ny → r.at i j = some (conv m k i j)) l rs := by
  obtain ⟨c, c', c1, c2, c3, -⟩ := setup_fresh hk ho hn hb
  cases l with
  | nil => exact ⟨c, [], c1, rfl, .nil⟩
  | cons m l =>
    obtain ⟨rs, r1, r2⟩ := runs_ready hn ho hq (m :: l) hl c' c3
    refine ⟨c, rs, c1, ?_, r2⟩
    obtain ⟨-, m2, m3⟩ := hl m (by simp)
    rw [← r1]
    unfold Convolver.runs
    rw [run_go, run_go, m2, m3, c2, setup_ready c3]

/-- C130: the first map is convolved correctly also if it is wider than tall with the padding. -/
theorem C130_first (k m : Img ℝ) (hk : k.WF) (hm : m.WF) (ho : k.nx % 2 = 1 ∧ k.ny % 2 = 1) (hn : 0 < m.nx ∧ 0 < m.ny)
    (hb : m.nx < 2 ^ 62 ∧ m.ny < 2 ^ 62 ∧ k.nx < 2 ^ 62 ∧ k.ny < 2 ^ 62)
    (hq : k.nx = 1 ∨ m.nx + 2 * (k.nx / 2) ≤ m.ny + 2 * (k.ny / 2)) :
    ∃ c c' r, Convolver.new k = .ok c ∧ c.run m = .ok (c', r) ∧ r.WF ∧ r.nx = m.nx ∧ r.ny = m.ny ∧
      ∀ i j, i < m.nx → j < m.ny → r.at i j = some (conv m k i j) := by
  obtain ⟨c, c', c1, c2, c3, c4⟩ := setup_fresh hk ho hn hb
  have hcl : Clean c'.tmap (k.nx / 2) := by
    rcases hq with hq | hq
    · left; omega
    · right
      have := c3.nx
      have := c3.ny
      exact ⟨by omega, fun x y _ h1 _ h2 => c4 x y h1 h2⟩
  obtain ⟨c'', r, e1, e2, e3⟩ := go_spec c3 hm hn ho hcl
  refine ⟨c, c'', r, c1, ?_, e3⟩
  rw [run_go, c2, Res.ok_bind, e1]

/-! ### Maps that are taller than wide -/

/-- an image of the given dimensions, or undefined behaviour -/
def OkUb (nx ny : Nat) (r : Res (Img ℝ)) : Prop := r = .ub ∨ ∃ s, r = .ok s ∧ s.WF ∧ s.nx = nx ∧ s.ny = ny

theorem put_okub {nx ny : Nat} {t : Img ℝ} (ht : t.WF ∧ t.nx = nx ∧ t.ny = ny) (x y : Nat) (a : ℝ) : OkUb nx ny (t.put x y a) := by
  unfold Img.put
  split
  · right
    refine ⟨_, rfl, ?_, ht.2.1, ht.2.2⟩
    simpa [Img.WF] using ht.1
  · left; rfl

theorem fold_okub {nx ny n : Nat} {f : Img ℝ → Nat → Res (Img ℝ)}
    (hf : ∀ t i, t.WF ∧ t.nx = nx ∧ t.ny = ny → OkUb nx ny (f t i)) {t : Img ℝ} (ht : t.WF ∧ t.nx = nx ∧ t.ny = ny) :
    OkUb nx ny ((List.range n).foldlM f t) := by
  induction n with
  | zero => exact .inr ⟨t, rfl, ht⟩
  | succ n ih =>
    rw [List.range_succ, List.foldlM_append]
    rcases ih with ih | ⟨s, ih, hs⟩
    · rw [ih]; exact .inl rfl
    · rw [ih, Res.ok_bind, List.foldlM_cons]
      rcases hf s n hs with h | ⟨u, h, hu⟩
      · rw [h]; exact .inl rfl
      · rw [h]; exact .inr ⟨u, rfl, hu⟩

theorem fold_ub {nx ny n : Nat} {f : Img ℝ → Nat → Res (Img ℝ)}
    (hf : ∀ t i, t.WF ∧ t.nx = nx ∧ t.ny = ny → OkUb nx ny (f t i)) {t : Img ℝ} (ht : t.WF ∧ t.nx = nx ∧ t.ny = ny)
    (hlast : ∀ t, t.WF ∧ t.nx = nx ∧ t.ny = ny → f t n = .ub) :
    (List.range (n + 1)).foldlM f t = .ub := by
  rw [List.range_succ, List.foldlM_append]
  rcases fold_okub (n := n) hf ht with ih | ⟨s, ih, hs⟩
  · rw [ih]; rfl
  · rw [ih, Res.ok_bind, List.foldlM_cons, hlast s hs]; rfl

theorem padMap_tall {t m : Img ℝ} (ht : t.WF) (hm : m.WF) {hx hy : Nat} (h1 : t.nx = m.nx + 2 * hx) (h2 : t.ny = m.ny + 2 * hy)
    (hh : 0 < hx) (hq : t.ny < t.nx) : padMap t m hx hy = .ub := by
  obtain ⟨a, a1, a2, a3, a4, a5, a6⟩ := for2_write (nx := m.nx) (ny := m.ny) (body := fun ix iy t => do
      let a ← m.get ix iy
      t.put (hx + ix) (hy + iy) a) (fun x => hx + x) (fun y => hy + y) (fun x y => (m.at x y).getD 0) t ht
    (by intro x hx; omega) (by intro x hx; omega) (by intro x y; omega) (by intro x y; omega) (by
      intro x y s hx hy _ _ _
      obtain ⟨a, ha⟩ := at_isSome hm hx hy
      rw [get_at ha, Res.ok_bind, ha]; rfl)
  unfold padMap
  rw [a1, Res.ok_bind]
  obtain ⟨h, rfl⟩ : ∃ h, hx = h + 1 := ⟨hx - 1, by omega⟩
  rw [fold_ub (nx := t.nx) (ny := t.ny) ?_ ⟨a2, a3, a4⟩ ?_]
  · rfl
  · intro s i hs
    rcases fold_okub (n := t.nx) (f := fun (t : Img ℝ) iy => t.put i iy 0) (fun t j ht => put_okub ht _ _ _) hs with e | ⟨u, e, hu⟩
    · rw [e]; exact .inl rfl
    · rw [e, Res.ok_bind]
      exact fold_okub (fun t j ht => put_okub ht _ _ _) hu
  · intro s hs
    rcases fold_okub (n := t.nx) (f := fun (t : Img ℝ) iy => t.put h iy 0) (fun t j ht => put_okub ht _ _ _) hs with e | ⟨u, e, hu⟩
    · rw [e]; rfl
    · rw [e, Res.ok_bind]
      obtain ⟨n, hn⟩ : ∃ n, t.nx = n + 1 := ⟨t.nx - 1, by omega⟩
      rw [hn]
      refine fold_ub (nx := t.nx) (ny := t.ny) (fun t j ht => put_okub ht _ _ _) hu ?_
      rintro r ⟨r1, r2, r3⟩
      unfold Img.put
      rw [if_neg]
      rw [r1, r2, r3, hn]
      have : n + 1 - (h + 1) + h = n := by omega
      rw [this]
      have : (n + 1) * t.ny = n * t.ny + t.ny := by ring
      omega

/-- C130 refuted: for a map that is taller than wide with the padding, and a kernel of more than one row, the first call
already writes outside of the padded map. -/
theorem C130_tall_refuted (k m : Img ℝ) (hk : k.WF) (hm : m.WF) (ho : k.nx % 2 = 1 ∧ k.ny % 2 = 1) (hn : 0 < m.nx ∧ 0 < m.ny)
    (hb : m.nx < 2 ^ 62 ∧ m.ny < 2 ^ 62 ∧ k.nx < 2 ^ 62 ∧ k.ny < 2 ^ 62) (hk1 : 1 < k.nx)
    (hq : m.ny + 2 * (k.ny / 2) < m.nx + 2 * (k.nx / 2)) :
    ∃ c, Convolver.new k = .ok c ∧ c.run m = .ub := by
  obtain ⟨c, c', c1, c2, c3, c4⟩ := setup_fresh hk ho hn hb
  refine ⟨c, c1, ?_⟩
  rw [run_go, c2, Res.ok_bind]
  obtain ⟨w, f, f0, -⟩ := c3.four
  unfold Convolver.go
  rw [f0]
  simp only [c3.cyc, Bool.false_eq_true, if_false, c3.sx, c3.sy]
  rw [padMap_tall c3.wf hm c3.nx c3.ny (by omega) (by rw [c3.nx, c3.ny]; exact hq)]
  rfl

/-! ### Maps that are wider than tall -/

theorem wide_circ {v w : Img ℝ} {p q r : ℝ} (v3 : v.nx = 3) (v4 : v.ny = 4)
    (w1 : w.nx = 3) (w2 : w.ny = 4) (hw : KernelAt w ⟨3, 1, [1, 1, 1]⟩)
    (hv : ∀ x y, x < 3 → y < 4 → v.at x y = if y = 3 then some (if x = 0 then p else if x = 1 then q else r) else some 0) (a : Nat) (ha : a < 3) :
    circ v w a 3 = p + q + r := by
  have e : ∀ x y : Nat, x < 3 → y < 4 → px0 w x y = if y = 0 then 1 else 0 := by
    intro x y hx hy
    have h2 : wrapAdd y 0 4 = y := wrapAdd_zero y hy
    have := hw (wrapAdd x 1 3) y (by rw [w1]; exact wrapAdd_lt _ _ (by decide)) (by omega)
    rw [w1, w2] at this
    simp only [show ((3 / 2 : Nat) : Int) = 1 by decide, show ((1 / 2 : Nat) : Int) = 0 by decide, neg_zero, h2] at this
    rw [wrapAdd_wrapAdd _ _ _ (by decide), Int.add_right_neg, wrapAdd_zero x hx] at this
    rw [this]
    have hl := wrapAdd_lt x 1 (n := 3) (by decide)
    by_cases hy0 : y = 0
    · subst hy0
      rw [if_pos ⟨hl, by decide⟩, if_pos rfl, atZ_nat]
      obtain h | h | h : wrapAdd x 1 3 = 0 ∨ wrapAdd x 1 3 = 1 ∨ wrapAdd x 1 3 = 2 := by omega
      all_goals rw [h]; simp [px0, Img.at]
    · rw [if_neg (by omega), if_neg hy0]
  have ev : ∀ x y : Nat, x < 3 → y < 4 → px0 v x y = if y = 3 then (if x = 0 then p else if x = 1 then q else r) else 0 := by
    intro x y hx hy
    rw [px0, hv x y hx hy]
    split <;> rfl
  rw [circ_mod v w (by omega) (by omega), v3, v4]
  simp only [Finset.sum_range_succ, Finset.sum_range_zero]
  obtain h | h | h : a = 0 ∨ a = 1 ∨ a = 2 := by omega
  all_goals
    subst h
    simp [e, ev]
    try ring

/-- C130 refuted for maps that are wider than tall with the padding: the padding is not cleared before the second call. With a
kernel of three rows of one, the second convolution of the map `{{0,0,0,1}}` gives 25 instead of 1. -/
theorem C130_wide_refuted : ∃ c r1 r2, Convolver.new ⟨3, 1, [1, 1, 1]⟩ = .ok c ∧
    c.runs [⟨1, 4, [0, 0, 0, 1]⟩, ⟨1, 4, [0, 0, 0, 1]⟩] = .ok [r1, r2] ∧ r1.at 0 3 = some 1 ∧ r2.at 0 3 = some 25 := by
  obtain ⟨c, c', c1, c2, c3, c4⟩ := setup_fresh (k := ⟨3, 1, [1, 1, 1]⟩) rfl ⟨rfl, rfl⟩ (mx := 1) (my := 4) (by decide) (by simp)
  have n1 := c3.nx
  have n2 := c3.ny
  obtain ⟨v, v1, v2, v3, v4, v5⟩ := padMap_gen (t := c'.tmap) (m := ⟨1, 4, [0, 0, 0, 1]⟩) (hx := 1) (hy := 0) c3.wf rfl n1 n2
    (.inr (by simp only at n1 n2; omega))
  simp only at n1 n2
  norm_num at n1 n2
  rw [n1] at v3
  rw [n2] at v4
  obtain ⟨w, t, r, w1, w2, w3, g1, g2, q2, q3, q4, q5, q6⟩ := go_gen (m := ⟨1, 4, [0, 0, 0, 1]⟩) c3 rfl (by decide) v1 v3 v4
  have hv : ∀ x y, x < 3 → y < 4 → v.at x y = if y = 3 then some (if x = 0 then 0 else if x = 1 then 1 else 0) else some 0 := by
    intro x y hx hy
    rw [v5 x y (by omega) (by omega), n1]
    simp only
    by_cases h1 : x = 1
    · subst h1
      rw [if_pos (by omega)]
      obtain h | h | h | h : y = 0 ∨ y = 1 ∨ y = 2 ∨ y = 3 := by omega
      all_goals subst h; simp [Img.at]
    · rw [if_neg (by omega)]
      simp only [h1, if_false, ite_self]
      split
      · exact c4 x y (by omega) (by omega)
      · rfl
  obtain ⟨v', x1, x2, x3, x4, x5⟩ := padMap_gen (t := t) (m := ⟨1, 4, [0, 0, 0, 1]⟩) (hx := 1) (hy := 0) g2.wf rfl g2.nx g2.ny
    (.inr (by have := g2.nx; have := g2.ny; simp only at *; omega))
  have m1 : t.nx = 3 := g2.nx
  have m2 : t.ny = 4 := g2.ny
  rw [m1] at x3
  rw [m2] at x4
  obtain ⟨w', t', r', w1', w2', w3', g1', g2', q2', q3', q4', q5', q6'⟩ := go_gen (m := ⟨1, 4, [0, 0, 0, 1]⟩) g2 rfl (by decide) x1 x3 x4
  have ht : ∀ a, a < 3 → t.at a 3 = some 12 := by
    intro a ha
    rw [q6 a 3 (by omega) (by omega)]
    have := wide_circ v3 v4 (by omega) (by omega) w3 hv a ha
    rw [show ((3 : Nat) : Int) = 3 by rfl, this, v3, v4]
    norm_num
  have hv' : ∀ x y, x < 3 → y < 4 → v'.at x y = if y = 3 then some (if x = 0 then 12 else if x = 1 then 1 else 12) else some 0 := by
    intro x y hx hy
    rw [x5 x y (by omega) (by omega), m1]
    simp only
    by_cases h1 : x = 1
    · subst h1
      rw [if_pos (by omega)]
      obtain h | h | h | h : y = 0 ∨ y = 1 ∨ y = 2 ∨ y = 3 := by omega
      all_goals subst h; simp [Img.at]
    · rw [if_neg (by omega)]
      simp only [h1, if_false, ite_self]
      by_cases h3 : y = 3
      · subst h3
        rw [if_pos (by omega), if_pos rfl, ht x hx]
      · rw [if_neg (by omega), if_neg h3]
  refine ⟨c, r, r', c1, ?_, ?_, ?_⟩
  · unfold Convolver.runs Convolver.runs Convolver.runs
    rw [run_go, c2, Res.ok_bind, g1, Res.ok_bind]
    simp only
    rw [run_go, setup_ready g2, Res.ok_bind, g1', Res.ok_bind]
    rfl
  · rw [q5 0 3 (by decide) (by decide)]
    have := wide_circ v3 v4 (by omega) (by omega) w3 hv 1 (by decide)
    refine (congrArg some this).trans ?_
    norm_num
  · rw [q5' 0 3 (by decide) (by decide)]
    have := wide_circ x3 x4 (by omega) (by omega) w3' hv' 1 (by decide)
    refine (congrArg some this).trans ?_
    norm_num

/-! ### Cyclic borders -/

/-- Spec: the convolution with cyclic borders. -/
def convCyc (m k : Img ℝ) (i j : Nat) : ℝ :=
  ∑ kx ∈ Finset.range k.nx, ∑ ky ∈ Finset.range k.ny, k.atZ kx ky *
    m.atZ (((i : Int) - (kx - (k.nx / 2 : Nat))) % m.nx) (((j : Int) - (ky - (k.ny / 2 : Nat))) % m.ny)

theorem circ_cyc {m w k : Img ℝ} (hm : 0 < m.nx ∧ 0 < m.ny) (hw : w.nx = m.nx ∧ w.ny = m.ny) (hk : k.nx ≤ m.nx ∧ k.ny ≤ m.ny)
    (hpw : KernelAt w k) (i j : Nat) : circ m w i j = convCyc m k i j := by
  rw [circ_mod m w hm.1 hm.2]
  rw [sum_rot hm.1 (-((k.nx / 2 : Nat) : Int))]
  simp only [sum_rot hm.2 (-((k.ny / 2 : Nat) : Int)) (fun s => px0 w _ s * _)]
  unfold convCyc
  unfold KernelAt at hpw
  rw [hw.1, hw.2] at hpw
  rw [← Finset.sum_subset (s₁ := Finset.range k.nx) (s₂ := Finset.range m.nx)]
  · apply Finset.sum_congr rfl
    intro kx hkx
    rw [Finset.mem_range] at hkx
    rw [← Finset.sum_subset (s₁ := Finset.range k.ny) (s₂ := Finset.range m.ny)]
    · apply Finset.sum_congr rfl
      intro ky hky
      rw [Finset.mem_range] at hky
      rw [hpw kx ky (by omega) (by omega), if_pos ⟨hkx, hky⟩]
      congr 1
      rw [wrapAdd_cast _ _ hm.1, wrapAdd_cast _ _ hm.2, Int.sub_emod_emod, Int.sub_emod_emod, ← atZ_nat]
      have e1 := Int.emod_nonneg ((i : Int) - (kx + -((k.nx / 2 : Nat) : Int))) (b := m.nx) (by omega)
      have e2 := Int.emod_nonneg ((j : Int) - (ky + -((k.ny / 2 : Nat) : Int))) (b := m.ny) (by omega)
      rw [Int.toNat_of_nonneg e1, Int.toNat_of_nonneg e2]
      congr 2
    · intro a ha
      rw [Finset.mem_range] at ha ⊢; omega
    · intro ky h1 h2
      rw [Finset.mem_range] at h1 h2
      rw [hpw kx ky (by omega) h1, if_neg (by omega), zero_mul]
  · intro a ha
    rw [Finset.mem_range] at ha ⊢; omega
  · intro kx h1 h2
    rw [Finset.mem_range] at h1 h2
    apply Finset.sum_eq_zero
    intro ky hky
    rw [Finset.mem_range] at hky
    rw [hpw kx ky h1 hky, if_neg (by omega), zero_mul]

theorem wrap_mid {x k n : Nat} (hx : x < n) (hk : k ≤ n) (ho : k % 2 = 1) :
    ∃ y, y < n ∧ wrapAdd y (-((n / 2 : Nat) : Int)) n = wrapAdd x (-((k / 2 : Nat) : Int)) n ∧
      if x < k then ((k / 2 : Nat) : Int) + y - (n / 2 : Nat) = x
      else ¬ (0 ≤ ((k / 2 : Nat) : Int) + y - (n / 2 : Nat) ∧ ((k / 2 : Nat) : Int) + y - (n / 2 : Nat) < k) := by
  have hn : 0 < n := by omega
  refine ⟨wrapAdd x ((n / 2 : Nat) - (k / 2 : Nat)) n, wrapAdd_lt _ _ hn, ?_, ?_⟩
  · rw [wrapAdd_wrapAdd _ _ _ hn]
    congr 1
    ring
  · rw [wrapAdd_cast _ _ hn]
    have h1 : ((x : Int) + ((n / 2 : Nat) - (k / 2 : Nat))) % n = x + ((n / 2 : Nat) - (k / 2 : Nat)) ∨
        ((x : Int) + ((n / 2 : Nat) - (k / 2 : Nat))) % n = x + ((n / 2 : Nat) - (k / 2 : Nat)) - n := by
      by_cases hc : (x : Int) + ((n / 2 : Nat) - (k / 2 : Nat)) < n
      · left
        exact Int.emod_eq_of_lt (by omega) hc
      · right
        rw [← Int.sub_emod_right]
        exact Int.emod_eq_of_lt (by omega) (by omega)
    split
    · rcases h1 with h1 | h1
      · omega
      · have := Int.emod_nonneg ((x : Int) + ((n / 2 : Nat) - (k / 2 : Nat))) (b := n) (by omega)
        omega
    · rcases h1 with h1 | h1 <;> omega

/-- the object after its first call for maps of `mx` by `my` elements, with cyclic borders -/
structure ReadyC (c : Convolver) (k : Img ℝ) (mx my : Nat) : Prop where
  cyc : c.cyclic = true
  four : ∃ w f, c.fourier = some f ∧ fft w = .ok f ∧ w.nx = mx ∧ w.ny = my ∧ KernelAt w k

theorem setup_cyclic {c : Convolver} {k : Img ℝ} (hc : Convolver.new k = .ok c) (hk : k.WF) {mx my : Nat}
    (hkm : k.nx ≤ mx ∧ k.ny ≤ my) (hb : mx < 2 ^ 61 ∧ my < 2 ^ 61) (hbb : mx * my < 2 ^ 63) :
    ∃ c', ({ c with cyclic := true } : Convolver).setup mx my = .ok c' ∧ ReadyC c' k mx my := by
  have ho : k.nx % 2 = 1 ∧ k.ny % 2 = 1 := by
    by_contra h
    unfold Convolver.new at hc
    rw [Res.check_neg h] at hc
    cases hc
  have hW : (2 : Nat) ^ 62 + 2 ^ 62 < W64 := by decide
  unfold Convolver.new at hc
  rw [Res.check_pos ho, Res.ok_bind] at hc
  cases hc
  obtain ⟨t, t1, t2, t3, t4, t5⟩ := C87_recenter_size k ((k.nx / 2 : Nat) : Int) ((k.ny / 2 : Nat) : Int) mx my (0 : ℝ) hk
    (lt_of_le_of_lt (Nat.mul_le_mul hkm.1 hkm.2) hbb) (by omega) hb hbb
  obtain ⟨w, w1, w2, w3, w4, w5⟩ := C62_shift t (-((mx / 2 : Nat) : Int)) (-((my / 2 : Nat) : Int)) t2 (by omega) (by omega) (by omega) (by omega)
  obtain ⟨f, f1, -⟩ := fft_ok (v := w) (by omega) (by omega)
  refine ⟨⟨k, some f, 0, 0, ⟨0, 0, []⟩, true⟩, ?_, rfl, w, f, rfl, f1, by omega, by omega, ?_⟩
  · unfold Convolver.setup
    simp only [if_true]
    rw [t1, Res.ok_bind, w1, Res.ok_bind, f1, Res.ok_bind]
  · intro x y hx hy
    have ex : w.nx = mx := by omega
    have ey : w.ny = my := by omega
    rw [ex] at hx ⊢
    rw [ey] at hy ⊢
    obtain ⟨a, a1, a2, a3⟩ := wrap_mid hx hkm.1 ho.1
    obtain ⟨b, b1, b2, b3⟩ := wrap_mid hy hkm.2 ho.2
    have := w5 a b (by omega) (by omega)
    rw [t3, t4] at this
    rw [← a2, ← b2]
    unfold px0 wrapAdd
    rw [this, t5 a b a1 b1]
    by_cases h1 : x < k.nx <;> by_cases h2 : y < k.ny
    · rw [if_pos h1] at a3
      rw [if_pos h2] at b3
      rw [if_pos (by omega), if_pos ⟨h1, h2⟩, a3, b3, atZ_nat]
      rfl
    · rw [if_neg h2] at b3
      rw [if_neg (by tauto), if_neg (by tauto)]; rfl
    · rw [if_neg h1] at a3
      rw [if_neg (by tauto), if_neg (by tauto)]; rfl
    · rw [if_neg h1] at a3
      rw [if_neg (by tauto), if_neg (by tauto)]; rfl

theorem runs_cyclic {k : Img ℝ} {mx my : Nat} (hn : 0 < mx ∧ 0 < my) (hkm : k.nx ≤ mx ∧ k.ny ≤ my) (l : List (Img ℝ))
    (hl : ∀ m ∈ l, m.WF ∧ m.nx = mx ∧ m.ny = my) (c : Convolver) (hc : ReadyC c k mx my) :
    ∃ rs, c.runs l = .ok rs ∧ List.Forall₂ (fun m r => r.WF ∧ r.nx = m.nx ∧ r.ny = m.ny ∧
      ∀ i j, i < m.nx → j < m.ny → r.at i j = some ((mx * my : ℝ) * convCyc m k i j)) l rs := by
  induction l with
  | nil => exact ⟨[], rfl, .nil⟩
  | cons m l ih =>
    obtain ⟨m1, m2, m3⟩ := hl m (by simp)
    obtain ⟨w, f, f0, f1, w1, w2, w3⟩ := hc.four
    obtain ⟨f', f1', f2, f3, f4, -⟩ := fft_ok (v := w) (by omega) (by omega)
    rw [f1] at f1'
    cases f1'
    obtain ⟨g, g1, -⟩ := fft_ok (v := m) (by omega) (by omega)
    obtain ⟨q, t, q1, q2, q3, q4, t1, t2, t3, t4, t5⟩ := through_spec (v := m) (w := w) (by omega) (by omega) (by omega) (by omega) g1 f1
    obtain ⟨rs, h1, h2⟩ := ih (fun m hm => hl m (by simp [hm]))
    refine ⟨t :: rs, ?_, .cons ⟨t2, t3, t4, ?_⟩ h2⟩
    · unfold Convolver.runs Convolver.run Convolver.setup
      rw [f0]
      simp only [Res.ok_bind, f0, hc.cyc, if_true]
      unfold throughFourier
      rw [if_pos (by omega), g1, Res.ok_bind, q1, Res.ok_bind, t1, Res.ok_bind, Res.ok_bind]
      simp only
      rw [h1, Res.ok_bind]
    · intro i j hi hj
      rw [t5 i j hi hj, circ_cyc (by omega) (by omega) (by omega) w3, m2, m3]

/-- C130 (cyclic borders, up to a factor): with `cyclic` set before the first call, the object gives for every map of a sequence
of maps of the same dimensions, not smaller than the kernel, the cyclic convolution with the kernel times the number of
elements of the map. The full claim, without the factor, is false: `C130_cyclic_refuted`. -/
theorem C130_cyclic_partial (k : Img ℝ) (c : Convolver) (hc : Convolver.new k = .ok c) (hk : k.WF) (mx my : Nat)
    (hkm : k.nx ≤ mx ∧ k.ny ≤ my) (hb : mx < 2 ^ 61 ∧ my < 2 ^ 61) (hbb : mx * my < 2 ^ 63)
    (l : List (Img ℝ)) (hl : ∀ m ∈ l, m.WF ∧ m.nx = mx ∧ m.ny = my) :
    ∃ rs, ({ c with cyclic := true } : Convolver).runs l = .ok rs ∧ List.Forall₂ (fun m r => r.WF ∧ r.nx = m.nx ∧ r.ny = m.ny ∧
      ∀ i j, i < m.nx → j < m.ny → r.at i j = some ((mx * my : ℝ) * convCyc m k i j)) l rs := by
  have ho : k.nx % 2 = 1 ∧ k.ny % 2 = 1 := by
    by_contra h
    unfold Convolver.new at hc
    rw [Res.check_neg h] at hc
    cases hc
  cases l with
  | nil => exact ⟨[], rfl, .nil⟩
  | cons m l =>
    obtain ⟨c', c2, c3⟩ := setup_cyclic hc hk hkm hb hbb
    obtain ⟨rs, r1, r2⟩ := runs_cyclic (by omega) hkm (m :: l) hl c' c3
    refine ⟨rs, ?_, r2⟩
    obtain ⟨-, m2, m3⟩ := hl m (by simp)
    have h3 : c'.setup m.nx m.ny = .ok c' := by
      obtain ⟨w, f, f0, -⟩ := c3.four
      unfold Convolver.setup
      rw [f0]
    rw [← r1]
    unfold Convolver.runs
    rw [run_go, run_go, h3, m2, m3, c2]

/-- C130 refuted for cyclic borders: the kernel `{{1}}` doubles a map of two elements. -/
theorem C130_cyclic_refuted : ∃ c r, Convolver.new ⟨1, 1, [1]⟩ = .ok c ∧
    ({ c with cyclic := true } : Convolver).runs [⟨1, 2, [1, 0]⟩] = .ok [r] ∧ r.at 0 0 = some 2 := by
  refine ⟨⟨⟨1, 1, [1]⟩, none, 0, 0, ⟨0, 0, []⟩, false⟩, ?_⟩
  have hc : Convolver.new ⟨1, 1, [1]⟩ = .ok ⟨⟨1, 1, [1]⟩, none, 0, 0, ⟨0, 0, []⟩, false⟩ := by
    unfold Convolver.new
    rw [Res.check_pos (by simp), Res.ok_bind]
  obtain ⟨rs, r1, r2⟩ := C130_cyclic_partial _ _ hc rfl 1 2 (by simp) (by simp) (by simp) [⟨1, 2, [1, 0]⟩] (by simp [Img.WF])
  cases r2 with
  | cons h h' =>
    cases h'
    refine ⟨_, hc, r1, ?_⟩
    rw [h.2.2.2 0 0 (by simp) (by simp)]
    simp [convCyc, Img.atZ, Img.at]

-- two maps of 2 by 2 elements, kernel of 3 by 3
example : ∃ c r1 r2, Convolver.new ⟨3, 3, [0, 1, 0, 1, 2, 1, 0, 1, 0]⟩ = .ok c ∧
    c.runs [⟨2, 2, [1, 2, 3, 4]⟩, ⟨2, 2, [1, 0, 0, 0]⟩] = .ok [r1, r2] ∧ r2.at 0 1 = some 1 := by
  obtain ⟨c, rs, c1, r1, r2⟩ := C130_history_partial ⟨3, 3, [0, 1, 0, 1, 2, 1, 0, 1, 0]⟩ rfl (by decide) 2 2 (by decide) (by simp)
    (.inr rfl) [⟨2, 2, [1, 2, 3, 4]⟩, ⟨2, 2, [1, 0, 0, 0]⟩] (by simp [Img.WF])
  cases r2 with
  | cons h h' =>
    cases h' with
    | cons g g' =>
      cases g'
      refine ⟨c, _, _, c1, r1, ?_⟩
      rw [g.2.2.2 0 1 (by simp) (by simp)]
      simp [conv, Finset.sum_range_succ, Img.atZ, Img.at]

end

end Verif.Astro
