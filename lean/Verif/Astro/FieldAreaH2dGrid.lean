import Verif.Astro.FieldAreaH2dCell
/-!
# Lemmas for C179: the grid
-/
namespace Verif.Astro
open Verif Verif.Core Verif.Coord Verif.Math Real

/-- Spec: a grid of `nr` by `nd` cells. -/
structure Grid where
  ra0 : ℝ
  ra1 : ℝ
  dec0 : ℝ
  dec1 : ℝ
  nr : Nat
  nd : Nat

namespace Grid
variable (G : Grid) (P : List (ℝ × ℝ))

/-- Spec: the sources of a cell. -/
noncomputable def sources (x : Nat × Nat) : List (ℝ × ℝ) :=
  inBox (edge G.ra0 G.ra1 G.nr x.1) (edge G.ra0 G.ra1 G.nr (x.1 + 1)) (edge G.dec0 G.dec1 G.nd x.2) (edge G.dec0 G.dec1 G.nd (x.2 + 1)) P

/-- Spec: the area of a cell. -/
noncomputable def area (x : Nat × Nat) : ℝ :=
  cellArea (edge G.ra0 G.ra1 G.nr x.1) (edge G.ra0 G.ra1 G.nr (x.1 + 1)) (edge G.dec0 G.dec1 G.nd x.2) (edge G.dec0 G.dec1 G.nd (x.2 + 1))

/-- Spec: the part of a cell that the sources fill; none for less than two sources. -/
noncomputable def fill (x : Nat × Nat) : ℝ :=
  if 2 ≤ (G.sources P x).length then
    fillFrac (edge G.ra0 G.ra1 G.nr x.1) (edge G.ra0 G.ra1 G.nr (x.1 + 1)) (edge G.dec0 G.dec1 G.nd x.2) (edge G.dec0 G.dec1 G.nd (x.2 + 1))
      (G.sources P x)
  else 0

/-- Spec: more than half of the cell is filled. -/
def Well (x : Nat × Nat) : Prop := x ∈ cells G.nr G.nd ∧ 1 / 2 < G.fill P x

/-- Spec: the cell, and the ones that touch it by a side, are well filled or touch one that is. -/
def Closed (x : Nat × Nat) : Prop := ∀ y ∈ cells G.nr G.nd, manhattan x y ≤ 1 → ∃ z, G.Well P z ∧ manhattan y z ≤ 1

open Classical in
/-- Spec: the area covered by the sources. -/
noncomputable def covered : ℝ :=
  ∑ x ∈ cells G.nr G.nd, (if 2 ≤ (G.sources P x).length then (if G.Closed P x then 1 else G.fill P x) * G.area x else 0)

end Grid

theorem manhattan_comm (x y : Nat × Nat) : manhattan x y = manhattan y x := by unfold manhattan; omega

theorem not_at (m : Img Bool) (x y : Nat) : (notMask m).at x y = (m.at x y).map fun b => !b := by
  unfold Img.at notMask
  dsimp only
  split
  · rw [List.getElem?_map]
  · rfl

theorem not_true (m : Img Bool) (hw : m.WF) {x y : Nat} (hx : x < m.nx) (hy : y < m.ny) :
    (notMask m).at x y = some true ↔ ¬ m.at x y = some true := by
  obtain ⟨b, hb⟩ := at_isSome hw hx hy
  rw [not_at, hb]
  cases b <;> simp

theorem at_get {α : Type} {v : Img α} {x : Nat × Nat} {a : α} (h : v.at x.1 x.2 = some a) : v.px[x.1 * v.ny + x.2]? = some a := by
  have h' := at_lt h
  unfold Img.at at h
  rwa [if_pos h'] at h

theorem zipWith_at {α β γ : Type} (f : α → β → γ) (l : List α) (m : List β) (k : Nat) {a : α} {b : β} (ha : l[k]? = some a)
    (hb : m[k]? = some b) : (List.zipWith f l m)[k]? = some (f a b) := by
  rw [List.getElem?_zipWith, ha, hb]

open Classical in
/-- The end of the function. -/
theorem closeTotal_ok (carea cfill : Img ℝ) (ha : carea.WF) (hf : cfill.WF) (hx : carea.nx = cfill.nx) (hy : carea.ny = cfill.ny)
    (A g : Nat × Nat → ℝ) (hA : ∀ x ∈ cells cfill.nx cfill.ny, carea.at x.1 x.2 = some (A x))
    (hg : ∀ x ∈ cells cfill.nx cfill.ny, cfill.at x.1 x.2 = some (g x)) :
    closeTotal carea cfill = .ok (∑ x ∈ cells cfill.nx cfill.ny,
      (if ∀ y ∈ cells cfill.nx cfill.ny, manhattan x y ≤ 1 → ∃ z, (z ∈ cells cfill.nx cfill.ny ∧ 1 / 2 < g z) ∧ manhattan y z ≤ 1
        then 1 else g x) * A x) := by
  have hw1 : (⟨cfill.nx, cfill.ny, cfill.px.map fun f => decide (0.5 < f)⟩ : Img Bool).WF := by
    have := hf; simp only [Img.WF] at this; simp [Img.WF, this]
  obtain ⟨m, hm, mw, mx, my, hn⟩ := C66_inflate _ 1 hw1
  dsimp only at mx my
  have hw2 : (notMask m).WF := by have := mw; simp only [Img.WF] at this; simp [Img.WF, notMask, this]
  obtain ⟨m', hm', mw', mx', my', hn'⟩ := C66_inflate (notMask m) 1 hw2
  have e1 : (notMask m).nx = cfill.nx := mx
  have e2 : (notMask m).ny = cfill.ny := my
  rw [e1] at mx'
  rw [e2] at my'
  unfold closeTotal
  rw [hm, Res.ok_bind, hm', Res.ok_bind]
  dsimp only
  rw [Stats.total_eq]
  congr 1
  have hl : (notMask m').px.length = cfill.nx * cfill.ny := by
    have := mw'; simp only [Img.WF] at this; simp [notMask, this, mx', my']
  have hl1 : cfill.px.length = cfill.nx * cfill.ny := hf
  have hl2 : carea.px.length = cfill.nx * cfill.ny := by rw [← hx, ← hy]; exact ha
  apply img_sum
  · simp [hl, hl1, hl2]
  · intro x hxc
    have hx' := mem_cells.1 hxc
    have h1 : (⟨cfill.nx, cfill.ny, cfill.px.map fun f => decide (0.5 < f)⟩ : Img Bool).at = fun a b =>
        (cfill.at a b).map fun f => decide (0.5 < f) := by
      funext a b
      unfold Img.at
      dsimp only
      split
      · rw [List.getElem?_map]
      · rfl
    have hwell : ∀ a b : Nat, (⟨cfill.nx, cfill.ny, cfill.px.map fun f => decide (0.5 < f)⟩ : Img Bool).at a b = some true ↔
        ((a, b) ∈ cells cfill.nx cfill.ny ∧ 1 / 2 < g (a, b)) := by
      intro a b
      rw [h1]
      dsimp only
      by_cases hab : (a, b) ∈ cells cfill.nx cfill.ny
      · rw [hg (a, b) hab]
        simp [hab]
        norm_num
      · rw [at_none (by rw [mem_cells] at hab; exact hab)]
        simp [hab]
    have hnear : ∀ y ∈ cells cfill.nx cfill.ny, (m.at y.1 y.2 = some true ↔
        ∃ z, (z ∈ cells cfill.nx cfill.ny ∧ 1 / 2 < g z) ∧ manhattan y z ≤ 1) := by
      intro y hy
      have hy' := mem_cells.1 hy
      rw [hn y.1 y.2 hy'.1 hy'.2, Near]
      constructor
      · rintro ⟨a, b, h, hd⟩
        exact ⟨(a, b), (hwell a b).1 h, hd⟩
      · rintro ⟨z, h, hd⟩
        exact ⟨z.1, z.2, (hwell z.1 z.2).2 h, hd⟩
    have hcl : (notMask m').at x.1 x.2 = some true ↔ ∀ y ∈ cells cfill.nx cfill.ny, manhattan x y ≤ 1 →
        ∃ z, (z ∈ cells cfill.nx cfill.ny ∧ 1 / 2 < g z) ∧ manhattan y z ≤ 1 := by
      rw [not_true m' mw' (by omega) (by omega), hn' x.1 x.2 (by omega) (by omega), Near]
      constructor
      · intro h y hy hd
        by_contra hc
        apply h
        have hy' := mem_cells.1 hy
        refine ⟨y.1, y.2, ?_, hd⟩
        rw [not_true m mw (by omega) (by omega), hnear y hy]
        exact hc
      · rintro h ⟨a, b, hab, hd⟩
        have hlt := at_lt hab
        rw [e1, e2] at hlt
        rw [not_true m mw (by omega) (by omega), hnear (a, b) (mem_cells.2 hlt)] at hab
        exact hab (h (a, b) (mem_cells.2 hlt) hd)
    obtain ⟨b, hb⟩ := at_isSome (v := notMask m') (by have := mw'; simp only [Img.WF] at this; simp [Img.WF, notMask, this])
      (x := x.1) (y := x.2) (show x.1 < m'.nx by omega) (show x.2 < m'.ny by omega)
    have g1 := at_get hb
    rw [show (notMask m').ny = cfill.ny from my'] at g1
    have g2 := at_get (hg x hxc)
    have g3 := at_get (hA x hxc)
    rw [hy] at g3
    rw [zipWith_at _ _ _ _ (zipWith_at _ _ _ _ g1 g2) g3]
    rw [hb] at hcl
    congr 2
    by_cases hc : ∀ y ∈ cells cfill.nx cfill.ny, manhattan x y ≤ 1 →
        ∃ z, (z ∈ cells cfill.nx cfill.ny ∧ 1 / 2 < g z) ∧ manhattan y z ≤ 1
    · rw [if_pos hc, if_pos (by simpa using hcl.2 hc)]
    · rw [if_neg hc, if_neg (by intro h; exact hc (hcl.1 (by rw [h])))]

/-! ### The calls -/

/-- the state of the images once the calls `cs` are made, when what is written depends on the position only -/
theorem cells_fold {part : Math.Part Nat} (ra dec : List ℝ) (rb db : Vec ℝ) (nr nd : Nat) (V : Nat × Nat → ℝ × ℝ)
    (cs : List (Nat × Nat × List Nat))
    (hb : ∀ c ∈ cs, c.1 < nr ∧ c.2.1 < nd)
    (hv : ∀ c ∈ cs, 2 ≤ c.2.2.length → ∀ s : Img ℝ × Img ℝ, cellStep part ra dec rb db nr nd s c =
      ((s.1.put c.1 c.2.1 (V (c.1, c.2.1)).1).bind fun a => (s.2.put c.1 c.2.1 (V (c.1, c.2.1)).2).bind fun f => .ok (a, f))) :
    ∀ s : Img ℝ × Img ℝ, s.1.WF → s.2.WF → s.1.nx = nr → s.1.ny = nd → s.2.nx = nr → s.2.ny = nd →
      ∃ s' : Img ℝ × Img ℝ, cs.foldlM (cellStep part ra dec rb db nr nd) s = .ok s' ∧ s'.1.WF ∧ s'.2.WF ∧ s'.1.nx = nr ∧
        s'.1.ny = nd ∧ s'.2.nx = nr ∧ s'.2.ny = nd ∧
        (∀ x : Nat × Nat, (∃ c ∈ cs, c.1 = x.1 ∧ c.2.1 = x.2 ∧ 2 ≤ c.2.2.length) →
          s'.1.at x.1 x.2 = some (V x).1 ∧ s'.2.at x.1 x.2 = some (V x).2) ∧
        (∀ x : Nat × Nat, (¬ ∃ c ∈ cs, c.1 = x.1 ∧ c.2.1 = x.2 ∧ 2 ≤ c.2.2.length) →
          s'.1.at x.1 x.2 = s.1.at x.1 x.2 ∧ s'.2.at x.1 x.2 = s.2.at x.1 x.2) := by
  induction cs with
  | nil =>
    intro s h1 h2 h3 h4 h5 h6
    exact ⟨s, rfl, h1, h2, h3, h4, h5, h6, fun x h => by simp at h, fun x _ => ⟨rfl, rfl⟩⟩
  | cons c cs ih =>
    intro s h1 h2 h3 h4 h5 h6
    have ih' := ih (fun d hd => hb d (by simp [hd])) (fun d hd => hv d (by simp [hd]))
    rw [List.foldlM_cons]
    by_cases hc : 2 ≤ c.2.2.length
    · obtain ⟨b1, b2⟩ := hb c (by simp)
      obtain ⟨w, p1, p2, p3, p4, p5⟩ := put_spec h1 (x := c.1) (y := c.2.1) (by omega) (by omega) (V (c.1, c.2.1)).1
      obtain ⟨w', q1, q2, q3, q4, q5⟩ := put_spec h2 (x := c.1) (y := c.2.1) (by omega) (by omega) (V (c.1, c.2.1)).2
      have hs : cellStep part ra dec rb db nr nd s c = .ok (w, w') := by
        rw [hv c (by simp) hc s, p1]
        change ((s.2.put c.1 c.2.1 (V (c.1, c.2.1)).2).bind fun f => .ok (w, f)) = _
        rw [q1]; rfl
      obtain ⟨s', r0, r1, r2, r3, r4, r5, r6, r7, r8⟩ := ih' (w, w') p2 q2 (by simp only; omega) (by simp only; omega)
        (by simp only; omega) (by simp only; omega)
      refine ⟨s', by rw [hs]; exact r0, r1, r2, r3, r4, r5, r6, ?_, ?_⟩
      · rintro x ⟨d, hd, e1, e2, e3⟩
        by_cases hx : ∃ c ∈ cs, c.1 = x.1 ∧ c.2.1 = x.2 ∧ 2 ≤ c.2.2.length
        · exact r7 x hx
        · rcases List.mem_cons.1 hd with rfl | hd'
          · rw [(r8 x hx).1, (r8 x hx).2, p5, q5, if_pos ⟨e1.symm, e2.symm⟩, if_pos ⟨e1.symm, e2.symm⟩,
              show (d.1, d.2.1) = x from Prod.ext e1 e2]
            exact ⟨rfl, rfl⟩
          · exact absurd ⟨d, hd', e1, e2, e3⟩ hx
      · intro x hx
        have hx' : ¬ ∃ c ∈ cs, c.1 = x.1 ∧ c.2.1 = x.2 ∧ 2 ≤ c.2.2.length := by
          rintro ⟨d, hd, h⟩
          exact hx ⟨d, by simp [hd], h⟩
        have hne : ¬ (x.1 = c.1 ∧ x.2 = c.2.1) := fun h => hx ⟨c, by simp, h.1.symm, h.2.symm, hc⟩
        rw [(r8 x hx').1, (r8 x hx').2, p5, q5, if_neg hne, if_neg hne]
        exact ⟨rfl, rfl⟩
    · have hs : cellStep part ra dec rb db nr nd s c = .ok s := by
        unfold cellStep
        rw [if_pos (by omega)]
      obtain ⟨s', r0, r1, r2, r3, r4, r5, r6, r7, r8⟩ := ih' s h1 h2 h3 h4 h5 h6
      refine ⟨s', by rw [hs]; exact r0, r1, r2, r3, r4, r5, r6, ?_, ?_⟩
      · rintro x ⟨d, hd, e1, e2, e3⟩
        rcases List.mem_cons.1 hd with rfl | hd'
        · exact absurd e3 hc
        · exact r7 x ⟨d, hd', e1, e2, e3⟩
      · intro x hx
        exact r8 x (by rintro ⟨d, hd, h⟩; exact hx ⟨d, by simp [hd], h⟩)

end Verif.Astro
