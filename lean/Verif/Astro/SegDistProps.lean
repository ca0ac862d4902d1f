import Verif.Astro.SegDistLemmas
import Mathlib.Algebra.Order.Ring.Abs
/-!
# C128: the distance map, the index map and the expanded map of `segment_distance`
-/
namespace Verif.Astro
open Verif

/-! ### Specification -/

/-- Spec: squared distance of two pixels. -/
def dist2 (p q : Nat × Nat) : ℤ := ((p.1 : ℤ) - q.1) ^ 2 + ((p.2 : ℤ) - q.2) ^ 2

/-- Spec: number of steps between two pixels. -/
def steps (p q : Nat × Nat) : Nat := (p.1 - q.1) + (q.1 - p.1) + ((p.2 - q.2) + (q.2 - p.2))

/-- Spec: `m`, `d`, `i` are maps of the size of `m0`. -/
def SameSize (m0 m : Img Nat) (d : Img (Option Nat)) (i : Img Nat) : Prop :=
  m.WF ∧ d.WF ∧ i.WF ∧ (m.nx = m0.nx ∧ m.ny = m0.ny) ∧ (d.nx = m0.nx ∧ d.ny = m0.ny) ∧ (i.nx = m0.nx ∧ i.ny = m0.ny)

/-- Spec: the distance of `p` is that of the segmented pixel `s`, whose index is stored. -/
def Points (m0 : Img Nat) (d : Img (Option Nat)) (i : Img Nat) (p s : Nat × Nat) : Prop :=
  val m0 s ≠ 0 ∧ val i p = flat m0 s ∧ ∃ n, dval d p = some n ∧ (n : ℤ) = dist2 p s

/-! ### Proofs -/

theorem dist2_sqd (p q : Nat × Nat) : ((sqd p q : Nat) : ℤ) = dist2 p q := by
  unfold sqd dist2
  push_cast
  rw [sq_abs, sq_abs]

theorem ginit {m : Img Nat} {s : DScan} (h : DInv m (Waits s.states) ⟨s.map, s.omap, s.dmap, s.imap, [], []⟩)
    (h0 : ∀ p, In m p → val s.omap p = 0) : GInv m (Waits s.states) ⟨s.map, s.dmap, s.imap, []⟩ := by
  obtain ⟨wm, wo, wd, wi, nm, no, nd, ni, om, seg, dn, cl, un, fr, ow⟩ := h
  simp only at *
  have hsrc : ∀ p t, val m t ≠ 0 → val s.imap p = flat m t → src m s.imap p = t := by
    intro p t ht h
    unfold src
    rw [h]
    exact unflat (val_ne ht)
  have hcase : ∀ p, In m p → (val m p ≠ 0 ∧ dval s.dmap p = some 0 ∧ src m s.imap p = p ∧ val s.imap p = flat m p) ∨
      (val m p = 0 ∧ val s.map p ≠ 0 ∧ Waits s.states p ∧ ∃ t, Adj t p ∧ val m t ≠ 0 ∧ val s.map p = val m t ∧ dval s.dmap p = some 1 ∧
        src m s.imap p = t ∧ val s.imap p = flat m t) ∨
      (val m p = 0 ∧ val s.map p = 0 ∧ dval s.dmap p = none ∧ val s.imap p = npos64) := by
    intro p hp
    by_cases h1 : val m p ≠ 0
    · obtain ⟨a, b⟩ := dn p h1 (h0 p hp)
      exact Or.inl ⟨h1, a, hsrc p p h1 b, b⟩
    · rw [not_not] at h1
      by_cases h2 : val s.map p ≠ 0
      · obtain ⟨k1, k2, t, k3, k4, k5, k6, k7⟩ := cl p h1 h2
        refine Or.inr (Or.inl ⟨h1, h2, ?_, t, k3, k4, k5, k6, hsrc p t k4 k7, k7⟩)
        simpa using k2
      · rw [not_not] at h2
        exact Or.inr (Or.inr ⟨h1, h2, un p hp h1 h2⟩)
  refine ⟨wm, wd, wi, nm, nd, ni, ?_, ?_, ?_, ?_, by simp, ?_⟩
  · intro p d hd
    have hp : In m p := dval_in nd (by rw [show dval s.dmap p = some d from hd]; simp)
    simp only at hd ⊢
    refine ⟨hp, ?_⟩
    rcases hcase p hp with ⟨a1, a2, a3, a4⟩ | ⟨a1, a2, a3, t, a4, a5, a6, a7, a8, a9⟩ | ⟨a1, a2, a3, a4⟩
    · rw [a3]
      rw [a2] at hd
      refine ⟨hp, a1, a4, ?_, ?_, p, ?_⟩
      · rw [sqd_self]; exact (Option.some.inj hd).symm
      · rw [seg p a1]; exact a1
      · exact (seg p a1).symm
    · rw [a8]
      rw [a7] at hd
      refine ⟨val_ne a5, a5, a9, ?_, a2, t, a6.symm⟩
      rw [sqd_adj a4]; exact (Option.some.inj hd).symm
    · rw [a3] at hd; simp at hd
  · intro p hp
    exact ⟨(dn p hp (h0 p (val_ne hp))).1, seg p hp⟩
  · intro p hp hd
    simp only at hd ⊢
    rcases hcase p hp with ⟨a1, a2, a3, a4⟩ | ⟨a1, a2, a3, t, a4, a5, a6, a7, a8, a9⟩ | ⟨a1, a2, a3, a4⟩
    · rw [a2] at hd; simp at hd
    · rw [a7] at hd; simp at hd
    · exact ⟨a2, a4⟩
  · intro p q hQ hd hpq hq
    have hp : In m p := dval_in nd hd
    simp only at hd ⊢
    rcases hcase p hp with ⟨a1, a2, a3, a4⟩ | ⟨a1, a2, a3, t, a4, a5, a6, a7, a8, a9⟩ | ⟨a1, a2, a3, a4⟩
    · rw [a3, sqd_adj hpq]
      have hm := fr p q a1 (h0 p hp) hpq hq
      rcases hcase q hq with ⟨b1, b2, b3, b4⟩ | ⟨b1, b2, b3, t, b4, b5, b6, b7, b8, b9⟩ | ⟨b1, b2, b3, b4⟩
      · exact ⟨0, b2, by omega⟩
      · exact ⟨1, b7, le_refl _⟩
      · exact absurd b2 hm
    · exact absurd a3 hQ
    · exact absurd a3 hd
  · intro p hp
    obtain ⟨k1, k2⟩ := ow p (Or.inr hp)
    obtain ⟨_, _, t, _, _, _, k6, _⟩ := cl p k1 k2
    simp only
    rw [k6]; simp

theorem potI_fill_le (B : Nat) (d : Img (Option Nat)) (h : ∀ a ∈ d.px, pot B a ≤ B) : potI B d ≤ d.px.length * B := by
  unfold potI
  have : ∀ l : List (Option Nat), (∀ a ∈ l, pot B a ≤ B) → (l.map (pot B)).sum ≤ l.length * B := by
    intro l
    induction l with
    | nil => simp
    | cons a l ih =>
      intro h
      simp only [List.map_cons, List.sum_cons, List.length_cons, Nat.add_mul, Nat.one_mul]
      have := h a (by simp)
      have := ih fun a ha => h a (by simp [ha])
      omega
  exact this d.px h

theorem pot_le {m : Img Nat} {d : Img (Option Nat)} (hw : d.WF) (hd : d.nx = m.nx ∧ d.ny = m.ny)
    (h : ∀ p n, dval d p = some n → n ≤ bnd m) : potI (bnd m) d ≤ d.px.length * bnd m := by
  apply potI_fill_le
  intro a ha
  cases a with
  | none => exact le_refl _
  | some n =>
    obtain ⟨k, hk, hk'⟩ := List.mem_iff_getElem.1 ha
    have hk2 := hk
    rw [hw] at hk2
    have hny : 0 < d.ny := by
      rcases Nat.eq_zero_or_pos d.ny with h0 | h0
      · rw [h0] at hk2; simp at hk2
      · exact h0
    have h1 : k / d.ny < d.nx := by rw [Nat.div_lt_iff_lt_mul hny]; exact hk2
    have h2 : k % d.ny < d.ny := Nat.mod_lt _ hny
    apply h (k / d.ny, k % d.ny) n
    have e : k / d.ny * d.ny + k % d.ny = k := by rw [Nat.mul_comm]; exact Nat.div_add_mod k d.ny
    unfold dval Img.at
    simp only [h1, h2, and_self, if_true]
    rw [e, List.getElem?_eq_getElem hk, hk']
    rfl

/-- the run, with the final invariant -/
theorem segDist_run (m : Img Nat) (hw : m.WF) :
    ∃ s : Grow, segmentDistance m = .ok (s.map, s.dmap, s.imap) ∧ GInv m (fun _ => False) s := by
  obtain ⟨s, h1, h2, h3, h4⟩ := dscan_spec m hw
  have hg := ginit h2 h3
  have hpot : potI (bnd m) s.dmap ≤ m.px.length * bnd m := by
    have h := pot_le (m := m) hg.wd hg.nd (by
      intro p n hn
      obtain ⟨k1, k2, -, -, k5, -, -⟩ := hg.dd p n hn
      rw [k5]
      exact (sqd_lt k1 k2).le)
    have e : s.dmap.px.length = m.px.length := by
      have := hg.wd
      have h' := hg.nd
      simp only at this h'
      rw [this, hw, h'.1, h'.2]
    rw [← e]; exact h
  obtain ⟨g, g1, g2⟩ := growLoop_spec (m.px.length * (m.nx ^ 2 + m.ny ^ 2) + 3) s.states ⟨s.map, s.dmap, s.imap, []⟩ h4 hg (by
    have : bnd m = m.nx ^ 2 + m.ny ^ 2 := rfl
    rw [← this]
    simp only
    split <;> omega)
  refine ⟨g, ?_, g2⟩
  unfold segmentDistance
  rw [h1, Res.ok_bind, g1, Res.ok_bind]

theorem sqd_step {p q s : Nat × Nat} {k : Nat} (ha : Adj p q) (h : sqd p s ≤ k ^ 2) : sqd q s ≤ (k + 1) ^ 2 := by
  have h' : dist2 p s ≤ (k : ℤ) ^ 2 := by rw [← dist2_sqd]; exact_mod_cast h
  have : dist2 q s ≤ ((k : ℤ) + 1) ^ 2 := by
    unfold dist2 at *
    have h1 : ((p.1 : ℤ) - s.1) ^ 2 ≤ (k : ℤ) ^ 2 := by nlinarith [sq_nonneg ((p.2 : ℤ) - s.2)]
    have h2 : ((p.2 : ℤ) - s.2) ^ 2 ≤ (k : ℤ) ^ 2 := by nlinarith [sq_nonneg ((p.1 : ℤ) - s.1)]
    have h3 := abs_le.1 (abs_le_of_sq_le_sq h1 (by omega))
    have h4 := abs_le.1 (abs_le_of_sq_le_sq h2 (by omega))
    unfold Adj at ha
    rcases ha with ⟨e, e' | e'⟩ | ⟨e, e' | e'⟩
    · have : (q.2 : ℤ) = p.2 + 1 := by omega
      rw [this, ← e]; nlinarith
    · have : (q.2 : ℤ) = p.2 - 1 := by omega
      rw [this, ← e]; nlinarith
    · have : (q.1 : ℤ) = p.1 + 1 := by omega
      rw [this, ← e]; nlinarith
    · have : (q.1 : ℤ) = p.1 - 1 := by omega
      rw [this, ← e]; nlinarith
  rw [← dist2_sqd] at this
  exact_mod_cast this

theorem step_toward {m : Img Nat} {p t : Nat × Nat} {k : Nat} (hp : In m p) (ht : In m t) (h : steps p t = k + 1) :
    ∃ q, Adj q p ∧ In m q ∧ steps q t = k := by
  unfold steps at h
  unfold In at *
  by_cases h1 : p.1 < t.1
  · exact ⟨(p.1 + 1, p.2), by unfold Adj; simp, by simp only; omega, by unfold steps; simp only; omega⟩
  · by_cases h2 : t.1 < p.1
    · exact ⟨(p.1 - 1, p.2), Or.inr ⟨rfl, Or.inl (show p.1 - 1 + 1 = p.1 by omega)⟩, by simp only; omega, by unfold steps; simp only; omega⟩
    · by_cases h3 : p.2 < t.2
      · exact ⟨(p.1, p.2 + 1), by unfold Adj; simp, by simp only; omega, by unfold steps; simp only; omega⟩
      · exact ⟨(p.1, p.2 - 1), Or.inl ⟨rfl, Or.inl (show p.2 - 1 + 1 = p.2 by omega)⟩, by simp only; omega, by unfold steps; simp only; omega⟩

theorem city_bound {m : Img Nat} {s : Grow} (h : GInv m (fun _ => False) s) {t : Nat × Nat} (ht : val m t ≠ 0) :
    ∀ (k : Nat) (p : Nat × Nat), In m p → steps p t = k → ∃ n, dval s.dmap p = some n ∧ n ≤ k ^ 2 := by
  intro k
  induction k with
  | zero =>
    intro p hp hk
    have : p = t := by unfold steps at hk; apply Prod.ext <;> omega
    rw [this]
    exact ⟨0, (h.sg t ht).1, by omega⟩
  | succ k ih =>
    intro p hp hk
    obtain ⟨q, h1, h2, h3⟩ := step_toward hp (val_ne ht) hk
    obtain ⟨n, h4, h5⟩ := ih q h2 h3
    obtain ⟨e, h6, h7⟩ := h.lo q p (fun h => h) (by rw [h4]; simp) h1 hp
    refine ⟨e, h6, le_trans h7 ?_⟩
    obtain ⟨-, -, -, -, k5, -, -⟩ := h.dd q n h4
    exact sqd_step h1 (by rw [← k5]; exact h5)

/-- C128: `segment_distance` always returns. The maps have the size of the input. A segmented pixel keeps its value, has
distance zero and its own index. If some pixel is segmented, every pixel stores the index of a segmented pixel and the squared
distance to that pixel, its new value is the value of some segmented pixel, and the stored distance is between the distance to
the nearest segmented pixel and the number of steps to it. No neighbour stores a nearer pixel. If no pixel is
segmented, the map is unchanged and all distances are infinite. Partial: the stored pixel is not always the nearest
(`C128_nearest_refuted`), the new value is not always that of the stored pixel (`C128_value_refuted`). -/
theorem C128_distance_partial (m0 : Img Nat) (hw : m0.WF) :
    ∃ m d i, segmentDistance m0 = .ok (m, d, i) ∧ SameSize m0 m d i ∧
      (∀ p, val m0 p ≠ 0 → val m p = val m0 p ∧ Points m0 d i p p) ∧
      ((∃ s, val m0 s ≠ 0) → ∀ p, In m0 p → ∃ s, Points m0 d i p s ∧ (∃ t, val m0 t ≠ 0 ∧ val m p = val m0 t) ∧
        (∀ t, val m0 t ≠ 0 → dist2 p s ≤ (steps p t : ℤ) ^ 2) ∧
        ∀ q r, Adj p q → Points m0 d i q r → dist2 p s ≤ dist2 p r) ∧
      ((∀ s, val m0 s = 0) → ∀ p, In m0 p → val m p = val m0 p ∧ dval d p = none ∧ val i p = npos64) := by
  obtain ⟨s, h1, h2⟩ := segDist_run m0 hw
  have hpt : ∀ p r, Points m0 s.dmap s.imap p r → src m0 s.imap p = r := by
    intro p r hr
    unfold src
    rw [hr.2.1]
    exact unflat (val_ne hr.1)
  refine ⟨s.map, s.dmap, s.imap, h1, ⟨h2.wm, h2.wd, h2.wi, h2.nm, h2.nd, h2.ni⟩, ?_, ?_, ?_⟩
  · intro p hp
    obtain ⟨k1, k2⟩ := h2.sg p hp
    obtain ⟨a1, a2, a3, a4, a5, a6, a7⟩ := h2.dd p 0 k1
    have e := sqd_eq_zero a5.symm
    rw [← e] at a4
    exact ⟨k2, hp, a4, 0, k1, by simp [dist2]⟩
  · rintro ⟨s0, hs0⟩ p hp
    obtain ⟨n, hn, -⟩ := city_bound h2 hs0 _ p hp rfl
    obtain ⟨a1, a2, a3, a4, a5, a6, t, a7⟩ := h2.dd p n hn
    have hP : Points m0 s.dmap s.imap p (src m0 s.imap p) := ⟨a3, a4, n, hn, by rw [a5, dist2_sqd]⟩
    refine ⟨_, hP, ⟨t, by omega, a7.symm⟩, ?_, ?_⟩
    · intro t ht
      obtain ⟨n', hn', hle⟩ := city_bound h2 ht _ p hp rfl
      rw [hn] at hn'
      have : n = n' := Option.some.inj hn'
      rw [← dist2_sqd, ← a5, this]
      exact_mod_cast hle
    · intro q r hpq hr
      obtain ⟨hr1, hr2, nr, hr3, hr4⟩ := hr
      obtain ⟨e, he1, he2⟩ := h2.lo q p (fun h => h) (by rw [hr3]; simp) hpq.symm hp
      rw [hn] at he1
      have e1 : n = e := Option.some.inj he1
      rw [hpt q r ⟨hr1, hr2, nr, hr3, hr4⟩] at he2
      rw [← dist2_sqd, ← dist2_sqd, ← a5, e1]
      exact_mod_cast he2
  · intro h0 p hp
    have hn : dval s.dmap p = none := by
      cases h : dval s.dmap p with
      | none => rfl
      | some n => exact absurd (h0 _) (h2.dd p n h).2.2.1
    obtain ⟨k1, k2⟩ := h2.un p hp hn
    exact ⟨by rw [k1, h0], hn, k2⟩

/-- C128: the distance is exact when a nearest segmented pixel lies in the same row or column. -/
theorem C128_aligned (m0 : Img Nat) (hw : m0.WF) (p t : Nat × Nat) (hp : In m0 p) (ht : val m0 t ≠ 0)
    (hnear : ∀ u, val m0 u ≠ 0 → dist2 p t ≤ dist2 p u) (hal : p.1 = t.1 ∨ p.2 = t.2) :
    ∃ m d i n, segmentDistance m0 = .ok (m, d, i) ∧ dval d p = some n ∧ (n : ℤ) = dist2 p t := by
  obtain ⟨m, d, i, h1, -, -, h4, -⟩ := C128_distance_partial m0 hw
  obtain ⟨s, ⟨k1, k2, n, k3, k4⟩, -, k6, -⟩ := h4 ⟨t, ht⟩ p hp
  refine ⟨m, d, i, n, h1, k3, ?_⟩
  have h5 := hnear s k1
  have h6 := k6 t ht
  have h7 : ((steps p t : ℤ)) ^ 2 = dist2 p t := by
    unfold steps dist2
    rcases hal with h | h
    · rw [h]
      simp only [Nat.sub_self, Nat.zero_add, sub_self]
      rcases Nat.le_total p.2 t.2 with h' | h'
      · rw [Nat.sub_eq_zero_of_le h']; push_cast [h']; ring
      · rw [Nat.sub_eq_zero_of_le h']; push_cast [h']; ring
    · rw [h]
      simp only [Nat.sub_self, Nat.add_zero, sub_self]
      rcases Nat.le_total p.1 t.1 with h' | h'
      · rw [Nat.sub_eq_zero_of_le h']; push_cast [h']; ring
      · rw [Nat.sub_eq_zero_of_le h']; push_cast [h']; ring
  omega

/-- C128: with one segment value only, every pixel gets it. -/
theorem C128_single (m0 : Img Nat) (hw : m0.WF) (a : Nat) (s : Nat × Nat) (hs : val m0 s ≠ 0)
    (h : ∀ p, val m0 p ≠ 0 → val m0 p = a) (p : Nat × Nat) (hp : In m0 p) :
    ∃ m d i, segmentDistance m0 = .ok (m, d, i) ∧ val m p = a := by
  obtain ⟨m, d, i, h1, -, -, h4, -⟩ := C128_distance_partial m0 hw
  obtain ⟨_, -, ⟨t, k1, k2⟩, -, -⟩ := h4 ⟨s, hs⟩ p hp
  exact ⟨m, d, i, h1, by rw [k2]; exact h t k1⟩

/-! ### Refutations -/

/-- segments 1, 2, 3 of one pixel each -/
def imgFar : Img Nat := ⟨4, 4, [0,0,0,1, 0,0,0,0, 0,0,3,0, 2,0,0,0]⟩

/-- segments 1, 2 of one pixel each -/
def imgVal : Img Nat := ⟨2, 4, [0,0,0,1, 0,0,2,0]⟩

theorem val_cases {m : Img Nat} {t : Nat × Nat} (h : val m t ≠ 0) : ∃ a < m.nx, ∃ b < m.ny, t = (a, b) :=
  ⟨t.1, (val_ne h).1, t.2, (val_ne h).2, rfl⟩

/-- C128: the stored pixel need not be the nearest one, nor the distance the smallest. -/
theorem C128_nearest_refuted : ∃ m0 : Img Nat, m0.WF ∧ ∃ m d i p n t, segmentDistance m0 = .ok (m, d, i) ∧ In m0 p ∧
    dval d p = some n ∧ val m0 t ≠ 0 ∧ dist2 p t < n := by
  refine ⟨imgFar, by decide, ⟨4, 4, [1,1,1,1, 2,3,3,1, 2,3,3,3, 2,2,3,3]⟩,
    ⟨4, 4, [some 9,some 4,some 1,some 0, some 4,some 2,some 1,some 1, some 1,some 1,some 0,some 1, some 0,some 1,some 1,some 2]⟩,
    ⟨4, 4, [3,3,3,3, 12,10,10,3, 12,10,10,10, 12,12,10,10]⟩, (0, 0), 9, (2, 2), ?_, ?_, ?_, ?_, ?_⟩
  · decide +kernel
  · exact ⟨by decide, by decide⟩
  · decide
  · decide
  · decide

/-- C128: the new value of a pixel need not be that of the pixel whose index is stored with it, even where that pixel is
the nearest one. -/
theorem C128_value_refuted : ∃ m0 : Img Nat, m0.WF ∧ ∃ m d i p s, segmentDistance m0 = .ok (m, d, i) ∧ In m0 p ∧
    Points m0 d i p s ∧ (∀ t, val m0 t ≠ 0 → t ≠ s → dist2 p s < dist2 p t) ∧ val m p ≠ val m0 s := by
  refine ⟨imgVal, by decide, ⟨2, 4, [1,2,1,1, 2,2,2,1]⟩, ⟨2, 4, [some 5,some 2,some 1,some 0, some 4,some 1,some 0,some 1]⟩,
    ⟨2, 4, [6,6,3,3, 6,6,6,3]⟩, (0, 0), (1, 2), ?_, ?_, ?_, ?_, ?_⟩
  · decide +kernel
  · exact ⟨by decide, by decide⟩
  · exact ⟨by decide, by decide, 5, by decide, by decide⟩
  · intro t ht hs
    obtain ⟨a, ha, b, hb, rfl⟩ := val_cases ht
    exact (by decide : ∀ a < 2, ∀ b < 4, val imgVal (a, b) ≠ 0 → (a, b) ≠ (1, 2) → dist2 (0, 0) (1, 2) < dist2 (0, 0) (a, b)) a ha b hb ht hs
  · decide

/-! ### The hypotheses can be met -/

example : imgFar.WF ∧ In imgFar (1, 0) ∧ val imgFar (3, 0) ≠ 0 ∧ (1, 0).2 = (3, 0).2 := ⟨by decide, ⟨by decide, by decide⟩, by decide, rfl⟩

/-- the nearest segmented pixel of `(2,0)` is in its column -/
example : ∀ u, val imgFar u ≠ 0 → dist2 (2, 0) (3, 0) ≤ dist2 (2, 0) u := by
  intro u hu
  obtain ⟨a, ha, b, hb, rfl⟩ := val_cases hu
  exact (by decide : ∀ a < 4, ∀ b < 4, val imgFar (a, b) ≠ 0 → dist2 (2, 0) (3, 0) ≤ dist2 (2, 0) (a, b)) a ha b hb hu

end Verif.Astro
