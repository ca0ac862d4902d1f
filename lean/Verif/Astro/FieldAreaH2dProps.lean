import Verif.Astro.FieldAreaH2dGrid
/-!
# Property C179: the area of a field from a two-dimensional histogram
-/
namespace Verif.Astro
open Verif Verif.Core Verif.Coord Verif.Math Real

/-- Spec: the side of a cell, such that ten of the `n` sources would be in each cell of a uniform field. -/
noncomputable def cellSide (n : Nat) (a b c d : ℝ) : ℝ := sqrt 10 * sqrt (cellArea a b c d / n)

/-- Spec: the grid, with a margin of two cells. -/
noncomputable def gridOf (n : Nat) (a b c d : ℝ) : Grid where
  ra0 := a - 2 * cellSide n a b c d
  ra1 := b + 2 * cellSide n a b c d
  dec0 := c - 2 * cellSide n a b c d
  dec1 := d + 2 * cellSide n a b c d
  nr := ⌈(b - a) / cellSide n a b c d + 4⌉.toNat
  nd := ⌈(d - c) / cellSide n a b c d + 4⌉.toNat

/-- Spec: the field extends from `a` to `b` in right ascension and from `c` to `d` in declination. -/
structure Extent (P : List (ℝ × ℝ)) (a b c d : ℝ) : Prop where
  ra0 : IsLeast {x | ∃ p ∈ P, p.1 = x} a
  ra1 : IsGreatest {x | ∃ p ∈ P, p.1 = x} b
  dec0 : IsLeast {x | ∃ p ∈ P, p.2 = x} c
  dec1 : IsGreatest {x | ∃ p ∈ P, p.2 = x} d

/-- Spec: the numbers that the code converts to integers are finite and not too large. -/
structure Sizes (P : List (ℝ × ℝ)) (a b c d : ℝ) : Prop where
  side : cellSide P.length a b c d ≠ 0
  ra : (b - a) / cellSide P.length a b c d + 4 ≤ 2 ^ 63
  dec : (d - c) / cellSide P.length a b c d + 4 ≤ 2 ^ 63
  cell : ∀ x ∈ cells (gridOf P.length a b c d).nr (gridOf P.length a b c d).nd,
    2 ≤ ((gridOf P.length a b c d).sources P x).length → (gridOf P.length a b c d).area x ≠ 0 ∧
      spacing ((gridOf P.length a b c d).sources P x) / (sqrt ((gridOf P.length a b c d).area x) / 20) ≤ 2 ^ 63

theorem side_pos {n : Nat} {a b c d : ℝ} (h : cellSide n a b c d ≠ 0) : 0 < cellSide n a b c d :=
  lt_of_le_of_ne (by unfold cellSide; positivity) h.symm

theorem ids_perm (ra dec : List ℝ) (hl : ra.length = dec.length) (a b c d : ℝ) (ids : List Nat)
    (h : ids.Perm ((List.range (ra.map some).length).filter fun id => inside (some a, some b) ((ra.map some).getD id none) &&
      inside (some c, some d) ((dec.map some).getD id none))) :
    (ids.map fun i => (ra.getD i 0, dec.getD i 0)).Perm (inBox a b c d (ra.zip dec)) := by
  refine (h.map _).trans (List.Perm.of_eq ?_)
  have hz : ra.zip dec = (List.range ra.length).map fun i => (ra.getD i 0, dec.getD i 0) := by
    apply List.ext_getElem (by simp [hl])
    intro i h1 h2
    have h3 : i < ra.length := by simpa using h2
    simp [h3, hl ▸ h3]
  rw [inBox, hz, List.filter_map, List.length_map]
  congr 1
  apply List.filter_congr
  intro i hi
  have h3 := List.mem_range.1 hi
  simp [inside, h3, hl ▸ h3, Bool.decide_and, Bool.and_assoc]

theorem gridArea_ok {part : Math.Part Nat} (hp : PartOk part) (ra dec : List ℝ) (hl : ra.length = dec.length) (a b c d : ℝ)
    (hab : a ≤ b) (hcd : c ≤ d) (hS : Sizes (ra.zip dec) a b c d) :
    gridArea part ra dec a b c d = .ok ((gridOf ra.length a b c d).covered (ra.zip dec)) := by
  have hn : (ra.zip dec).length = ra.length := by simp [hl]
  have hside := hS.side
  have hra := hS.ra
  have hdec := hS.dec
  have hcell := hS.cell
  rw [hn] at hside hra hdec hcell
  have hpos := side_pos hside
  set P := ra.zip dec with hP
  set G := gridOf ra.length a b c d with hG
  set dr := cellSide ra.length a b c d with hdr
  have r01 : G.ra0 ≤ G.ra1 := by simp only [hG, gridOf, ← hdr]; linarith
  have d01 : G.dec0 ≤ G.dec1 := by simp only [hG, gridOf, ← hdr]; linarith
  unfold gridArea
  have e0 : sqrt 10 * sqrt (boxArea a c b d / ra.length) = dr := rfl
  rw [e0]
  dsimp only
  rw [if_neg hside, ceilU_ok (by have := div_nonneg (sub_nonneg.2 hab) hpos.le; linarith) hra, Res.ok_bind,
    ceilU_ok (by have := div_nonneg (sub_nonneg.2 hcd) hpos.le; linarith) hdec, Res.ok_bind]
  have er : ⌈(b - a) / dr + 4⌉.toNat = G.nr := rfl
  have ed : ⌈(d - c) / dr + 4⌉.toNat = G.nd := rfl
  have e1 : a - 2 * dr = G.ra0 := rfl
  have e2 : b + 2 * dr = G.ra1 := rfl
  have e3 : c - 2 * dr = G.dec0 := rfl
  have e4 : d + 2 * dr = G.dec1 := rfl
  rw [er, ed, e1, e2, e3, e4]
  obtain ⟨c1, c2, c3⟩ := hist2Outer_spec hp (ra.map some) (dec.map some) (edgeBins (edges G.ra0 G.ra1 G.nr))
    (edgeBins (edges G.dec0 G.dec1 G.nd)) (edgeBins_disjoint _ (edges_sorted r01 _)) (edgeBins_disjoint _ (edges_sorted d01 _))
    (List.range (ra.map some).length) 0
  have hcalls : fhistogram2d part ⟨ra.map some, [ra.length]⟩ ⟨dec.map some, [dec.length]⟩
      (someBins (makeBins G.ra0 G.ra1 G.nr)) (someBins (makeBins G.dec0 G.dec1 G.nd)) =
      .ok (hist2Outer part (ra.map some) (dec.map some) (edgeBins (edges G.dec0 G.dec1 G.nd)) 0 (edgeBins (edges G.ra0 G.ra1 G.nr))
        (List.range (ra.map some).length)) := by
    unfold fhistogram2d
    rw [binList_ok _ _ (bins_isBins _ _ _), binList_ok _ _ (bins_isBins _ _ _), Res.ok_bind, Res.ok_bind,
      Res.check_pos (by simp [hl])]
    rfl
  rw [hcalls, Res.ok_bind]
  set cs := hist2Outer part (ra.map some) (dec.map some) (edgeBins (edges G.dec0 G.dec1 G.nd)) 0 (edgeBins (edges G.ra0 G.ra1 G.nr))
        (List.range (ra.map some).length) with hcs
  have hloc : ∀ k ∈ cs, (k.1 < G.nr ∧ k.2.1 < G.nd) ∧
      (k.2.2.map fun i => (ra.getD i 0, dec.getD i 0)).Perm (G.sources P (k.1, k.2.1)) := by
    intro k hk
    obtain ⟨i, j, bi, bj, g1, g2, g3, g4, g5⟩ := c1 k hk
    obtain ⟨hi, rfl⟩ := bins_lt _ _ _ _ _ g1
    obtain ⟨hj, rfl⟩ := bins_lt _ _ _ _ _ g2
    rw [Nat.zero_add] at g3
    refine ⟨⟨by omega, by omega⟩, ?_⟩
    rw [Grid.sources, g3, g4]
    exact ids_perm ra dec hl _ _ _ _ _ g5
  have hlen : ∀ k ∈ cs, k.2.2.length = (G.sources P (k.1, k.2.1)).length := by
    intro k hk
    rw [← (hloc k hk).2.length_eq, List.length_map]
  obtain ⟨s, s0, s1, s2, s3, s4, s5, s6, s7, s8⟩ := cells_fold (part := part) ra dec (makeBins G.ra0 G.ra1 G.nr)
    (makeBins G.dec0 G.dec1 G.nd) G.nr G.nd (fun x => (G.area x, G.fill P x)) cs (fun k hk => (hloc k hk).1) (by
      intro k hk h2 s
      obtain ⟨⟨b1, b2⟩, hperm⟩ := hloc k hk
      have h2' : 2 ≤ (G.sources P (k.1, k.2.1)).length := by rw [← hlen k hk]; exact h2
      obtain ⟨hA, hB⟩ := hcell (k.1, k.2.1) (mem_cells.2 ⟨b1, b2⟩) h2'
      have hv := cellOf_ok (edge_mono r01 G.nr (Nat.le_succ k.1)) (edge_mono d01 G.nd (Nat.le_succ k.2.1)) hp
        (k.2.2.map fun i => (ra.getD i 0, dec.getD i 0)) (by rw [List.length_map]; exact h2) hA
        (by rw [spacing_perm hperm]; exact hB)
      unfold cellStep
      rw [if_neg (by omega), bins_rd_lo _ _ _ _ b1, Res.ok_bind, bins_rd_hi _ _ _ _ b1, Res.ok_bind, bins_rd_lo _ _ _ _ b2, Res.ok_bind,
        bins_rd_hi _ _ _ _ b2, Res.ok_bind, hv, Res.ok_bind, fillFrac_perm hperm]
      have hfill : G.fill P (k.1, k.2.1) = fillFrac (edge G.ra0 G.ra1 G.nr k.1) (edge G.ra0 G.ra1 G.nr (k.1 + 1))
          (edge G.dec0 G.dec1 G.nd k.2.1) (edge G.dec0 G.dec1 G.nd (k.2.1 + 1)) (G.sources P (k.1, k.2.1)) := by
        rw [Grid.fill, if_pos h2']
      dsimp only
      rw [hfill]
      rfl)
    (Img.fill G.nr G.nd 0, Img.fill G.nr G.nd 0) (fill_wf _ _ _) (fill_wf _ _ _) rfl rfl rfl rfl
  rw [s0, Res.ok_bind]
  have hcall : ∀ x ∈ cells G.nr G.nd, ((∃ k ∈ cs, k.1 = x.1 ∧ k.2.1 = x.2 ∧ 2 ≤ k.2.2.length) ↔ 2 ≤ (G.sources P x).length) := by
    intro x hx
    obtain ⟨hx1, hx2⟩ := mem_cells.1 hx
    constructor
    · rintro ⟨k, hk, k1, k2, k3⟩
      rw [hlen k hk, show (k.1, k.2.1) = x from Prod.ext k1 k2] at k3
      exact k3
    · intro h
      obtain ⟨k, hk, k1, k2⟩ := c3 x.1 x.2 _ _ (bins_get _ _ _ _ hx1) (bins_get _ _ _ _ hx2) (by
        intro he
        have := (ids_perm ra dec hl _ _ _ _ [] (List.Perm.of_eq he.symm)).length_eq
        rw [List.map_nil, List.length_nil] at this
        change 0 = (G.sources P x).length at this
        omega)
      rw [Nat.zero_add] at k1
      refine ⟨k, hk, k1, k2, ?_⟩
      rw [hlen k hk, show (k.1, k.2.1) = x from Prod.ext k1 k2]
      exact h
  have ha : ∀ x ∈ cells G.nr G.nd, s.1.at x.1 x.2 = some (if 2 ≤ (G.sources P x).length then G.area x else 0) := by
    intro x hx
    split
    · rename_i h
      exact (s7 x ((hcall x hx).2 h)).1
    · rename_i h
      rw [(s8 x (fun h' => h ((hcall x hx).1 h'))).1, fill_at, if_pos (mem_cells.1 hx)]
  have hf : ∀ x ∈ cells G.nr G.nd, s.2.at x.1 x.2 = some (G.fill P x) := by
    intro x hx
    by_cases h : 2 ≤ (G.sources P x).length
    · exact (s7 x ((hcall x hx).2 h)).2
    · rw [(s8 x (fun h' => h ((hcall x hx).1 h'))).2, fill_at, if_pos (mem_cells.1 hx), Grid.fill, if_neg h]
  rw [closeTotal_ok s.1 s.2 s1 s2 (by omega) (by omega) _ _ (by rw [s5, s6]; exact ha) (by rw [s5, s6]; exact hf), s5, s6]
  congr 1
  unfold Grid.covered
  apply Finset.sum_congr rfl
  intro x hx
  by_cases h : 2 ≤ (G.sources P x).length
  · rw [if_pos h, if_pos h]
    congr!
  · rw [if_neg h, if_neg h, mul_zero]

theorem vmin_ok (l : List ℝ) (a : ℝ) (h : IsLeast {x | x ∈ l} a) : ∃ i, vmin (l.map some) = .ok (i, some a) := by
  have hne : l.map some ≠ [] := by
    intro he
    have := h.1
    simp only [List.map_eq_nil_iff] at he
    simp [he] at this
  obtain ⟨p, hp, ⟨h1, h2⟩, -⟩ := C25_min (l.map some) hne
  obtain ⟨b, hb, hle⟩ := h2 a (List.mem_map.2 ⟨a, h.1, rfl⟩)
  have hm : b ∈ l := by
    rw [hb] at h1
    have := List.mem_of_getElem? h1
    simpa using this
  refine ⟨p.1, ?_⟩
  rw [hp, show p = (p.1, some a) from Prod.ext rfl (by rw [hb, le_antisymm hle (h.2 hm)])]

theorem vmax_ok (l : List ℝ) (a : ℝ) (h : IsGreatest {x | x ∈ l} a) : ∃ i, vmax (l.map some) = .ok (i, some a) := by
  have hne : l.map some ≠ [] := by
    intro he
    have := h.1
    simp only [List.map_eq_nil_iff] at he
    simp [he] at this
  obtain ⟨p, hp, ⟨h1, h2⟩, -⟩ := C25_max (l.map some) hne
  obtain ⟨b, hb, hle⟩ := h2 a (List.mem_map.2 ⟨a, h.1, rfl⟩)
  have hm : b ∈ l := by
    rw [hb] at h1
    have := List.mem_of_getElem? h1
    simpa using this
  refine ⟨p.1, ?_⟩
  rw [hp, show p = (p.1, some a) from Prod.ext rfl (by rw [hb, le_antisymm (h.2 hm) hle])]

theorem zip_fst (ra dec : List ℝ) (hl : ra.length = dec.length) : {x | ∃ p ∈ ra.zip dec, p.1 = x} = {x | x ∈ ra} := by
  have h : (ra.zip dec).map Prod.fst = ra := List.map_fst_zip (by omega)
  ext x
  simp only [Set.mem_setOf_eq]
  conv_rhs => rw [← h]
  rw [List.mem_map]

theorem zip_snd (ra dec : List ℝ) (hl : ra.length = dec.length) : {x | ∃ p ∈ ra.zip dec, p.2 = x} = {x | x ∈ dec} := by
  have h : (ra.zip dec).map Prod.snd = dec := List.map_snd_zip (by omega)
  ext x
  simp only [Set.mem_setOf_eq]
  conv_rhs => rw [← h]
  rw [List.mem_map]

theorem h2d_reduce {part : Math.Part Nat} (eps : ℝ) (ids : List Nat) (ra dec : List ℝ) (hl : ra.length = dec.length)
    (h20 : 20 ≤ ra.length) (a b c d : ℝ) (hE : Extent (ra.zip dec) a b c d) :
    fieldAreaH2d part eps ids ra dec = ((gridArea part ra dec a b c d).bind fun r => .ok (some r)) := by
  obtain ⟨e1, e2, e3, e4⟩ := hE
  rw [zip_fst ra dec hl] at e1 e2
  rw [zip_snd ra dec hl] at e3 e4
  obtain ⟨i1, g1⟩ := vmin_ok ra a e1
  obtain ⟨i2, g2⟩ := vmax_ok ra b e2
  obtain ⟨i3, g3⟩ := vmin_ok dec c e3
  obtain ⟨i4, g4⟩ := vmax_ok dec d e4
  unfold fieldAreaH2d
  rw [Res.check_pos hl, Res.ok_bind, if_neg (by omega), g1, Res.ok_bind, g2, Res.ok_bind, g3, Res.ok_bind, g4, Res.ok_bind]
  rfl

/-- **C179**: from 20 sources on, the area is the sum over the cells of a regular grid that have at least two sources of the area of
the cell times the part of it that is filled; that part is one for the cells surrounded by well filled ones. -/
theorem C179_value {part : Math.Part Nat} (hp : PartOk part) (eps : ℝ) (ids : List Nat) (ra dec : List ℝ) (hl : ra.length = dec.length)
    (h20 : 20 ≤ ra.length) (a b c d : ℝ) (hE : Extent (ra.zip dec) a b c d) (hS : Sizes (ra.zip dec) a b c d) :
    fieldAreaH2d part eps ids ra dec = .ok (some ((gridOf ra.length a b c d).covered (ra.zip dec))) := by
  have hab : a ≤ b := by
    exact hE.ra1.2 hE.ra0.1
  have hcd : c ≤ d := hE.dec1.2 hE.dec0.1
  rw [h2d_reduce eps ids ra dec hl h20 a b c d hE, gridArea_ok hp ra dec hl a b c d hab hcd hS]
  rfl

/-- **C179**: the order of the sources does not matter. -/
theorem C179_order {part : Math.Part Nat} (hp : PartOk part) (eps : ℝ) (ids ids' : List Nat) (ra dec ra' dec' : List ℝ)
    (hl : ra.length = dec.length) (hl' : ra'.length = dec'.length) (h20 : 20 ≤ ra.length) (hP : (ra.zip dec).Perm (ra'.zip dec'))
    (a b c d : ℝ) (hE : Extent (ra.zip dec) a b c d) (hS : Sizes (ra.zip dec) a b c d) :
    fieldAreaH2d part eps ids ra dec = fieldAreaH2d part eps ids' ra' dec' := by
  have hlen : ra'.length = ra.length := by
    have := hP.length_eq
    simp only [List.length_zip] at this
    omega
  have hE' : Extent (ra'.zip dec') a b c d := by
    obtain ⟨e1, e2, e3, e4⟩ := hE
    have h : ∀ p, p ∈ ra.zip dec ↔ p ∈ ra'.zip dec' := fun p => hP.mem_iff
    simp only [h] at e1 e2 e3 e4
    exact ⟨e1, e2, e3, e4⟩
  have hsrc : ∀ (G : Grid) x, (G.sources (ra.zip dec) x).Perm (G.sources (ra'.zip dec') x) := fun G x => inBox_perm hP
  have hn : (ra'.zip dec').length = (ra.zip dec).length := hP.length_eq.symm
  have hS' : Sizes (ra'.zip dec') a b c d := by
    obtain ⟨s1, s2, s3, s4⟩ := hS
    refine ⟨by rw [hn]; exact s1, by rw [hn]; exact s2, by rw [hn]; exact s3, ?_⟩
    rw [hn]
    intro x hx h2
    rw [← (hsrc _ x).length_eq] at h2
    rw [← spacing_perm (hsrc _ x)]
    exact s4 x hx h2
  rw [C179_value hp eps ids ra dec hl h20 a b c d hE hS, C179_value hp eps ids' ra' dec' hl' (by omega) a b c d hE' hS', hlen]
  have hfill : ∀ G : Grid, G.fill (ra.zip dec) = G.fill (ra'.zip dec') := by
    intro G
    funext x
    unfold Grid.fill
    rw [(hsrc G x).length_eq, fillFrac_perm (hsrc G x)]
  have hcl : ∀ G : Grid, G.Closed (ra.zip dec) = G.Closed (ra'.zip dec') := by
    intro G
    funext x
    unfold Grid.Closed Grid.Well
    rw [hfill]
  congr 2
  unfold Grid.covered
  apply Finset.sum_congr rfl
  intro x _
  rw [(hsrc _ x).length_eq, hfill, hcl]

/-! ### Bounds -/

theorem edge_zero (lo hi : ℝ) (n : Nat) : edge lo hi n 0 = lo := by simp [edge]

theorem edge_last (lo hi : ℝ) {n : Nat} (h : 0 < n) : edge lo hi n n = hi := by
  have : (n : ℝ) ≠ 0 := by positivity
  unfold edge; field_simp; ring

theorem in_step {lo hi x : ℝ} {n : Nat} (hn : 0 < n) (h1 : lo ≤ x) (h2 : x < hi) :
    ∃ k, k < n ∧ edge lo hi n k ≤ x ∧ x < edge lo hi n (k + 1) := by
  have hl := edges_length lo hi n
  obtain ⟨i, hi', h3, h4, h5⟩ := Math.exists_edge (edges lo hi n) n (by omega) (by omega) x
    (by rw [edges_get, edge_zero]; exact h1) (by rw [edges_get, edge_last _ _ hn]; exact h2)
  rw [edges_get] at h4 h5
  exact ⟨i, h3, h4, h5⟩

open Classical in
theorem fillFrac_le (a b c d : ℝ) (P : List (ℝ × ℝ)) : fillFrac a b c d P ≤ 1 := by
  unfold fillFrac
  rw [div_le_one (by norm_num)]
  have h2 : (cells 20 20).card = 400 := by simp [cells]
  exact_mod_cast (Finset.card_le_card (Finset.filter_subset _ _)).trans h2.le

open Classical in
/-- a source fills at least the small cell it is in -/
theorem fillFrac_ge (a b c d : ℝ) (P : List (ℝ × ℝ)) (p : ℝ × ℝ) (hp : p ∈ inBox a b c d P) :
    1 / 400 ≤ fillFrac a b c d (inBox a b c d P) := by
  have hp' := hp
  unfold inBox at hp'
  rw [List.mem_filter] at hp'
  obtain ⟨-, hb⟩ := hp'
  have hb := of_decide_eq_true hb
  obtain ⟨i, hi, i1, i2⟩ := in_step (n := 20) (by norm_num) hb.1 hb.2.1
  obtain ⟨j, hj, j1, j2⟩ := in_step (n := 20) (by norm_num) hb.2.2.1 hb.2.2.2
  have hocc : Occupied a b c d (inBox a b c d P) (i, j) := by
    unfold Occupied
    apply List.ne_nil_of_mem (a := p)
    conv => arg 1; unfold inBox
    rw [List.mem_filter]
    exact ⟨hp, by simpa using ⟨i1, i2, j1, j2⟩⟩
  unfold fillFrac
  apply div_le_div_of_nonneg_right _ (by norm_num)
  have : 0 < ((cells 20 20).filter fun x => ∃ y ∈ cells 20 20, Occupied a b c d (inBox a b c d P) y ∧
      manhattan x y ≤ reach a b c d (inBox a b c d P)).card := by
    rw [Finset.card_pos]
    refine ⟨(i, j), Finset.mem_filter.2 ⟨mem_cells.2 ⟨hi, hj⟩, (i, j), mem_cells.2 ⟨hi, hj⟩, hocc, ?_⟩⟩
    simp [manhattan]
  have h1 : 1 ≤ ((cells 20 20).filter fun x => ∃ y ∈ cells 20 20, Occupied a b c d (inBox a b c d P) y ∧
      manhattan x y ≤ reach a b c d (inBox a b c d P)).card := this
  exact_mod_cast h1

theorem cellArea_nonneg (a b c d : ℝ) : 0 ≤ cellArea a b c d := mul_nonneg (degDist_nonneg _ _) (degDist_nonneg _ _)

open Classical in
/-- **C179**: the area is at most the total area of the cells with two sources or more, and at least one part in 400 of it. -/
theorem C179_bounds (G : Grid) (P : List (ℝ × ℝ)) :
    G.covered P ≤ ∑ x ∈ (cells G.nr G.nd).filter (fun x => 2 ≤ (G.sources P x).length), G.area x ∧
    (∑ x ∈ (cells G.nr G.nd).filter (fun x => 2 ≤ (G.sources P x).length), G.area x) / 400 ≤ G.covered P := by
  have key : ∀ x, 2 ≤ (G.sources P x).length → 1 / 400 ≤ (if G.Closed P x then 1 else G.fill P x) ∧
      (if G.Closed P x then 1 else G.fill P x) ≤ 1 := by
    intro x h
    split
    · norm_num
    · rw [Grid.fill, if_pos h]
      obtain ⟨p, hp⟩ := List.exists_mem_of_length_pos (l := G.sources P x) (by omega)
      exact ⟨fillFrac_ge _ _ _ _ P p hp, fillFrac_le _ _ _ _ _⟩
  rw [Finset.sum_filter, Finset.sum_div]
  unfold Grid.covered
  constructor
  · apply Finset.sum_le_sum
    intro x _
    split
    · rename_i h
      have := mul_le_mul_of_nonneg_right (key x h).2 (show 0 ≤ G.area x from cellArea_nonneg _ _ _ _)
      linarith
    · exact le_refl _
  · apply Finset.sum_le_sum
    intro x _
    split
    · rename_i h
      have := mul_le_mul_of_nonneg_right (key x h).1 (show 0 ≤ G.area x from cellArea_nonneg _ _ _ _)
      linarith
    · simp

/-! ### Refusals and degenerate fields -/

/-- **C179**: less than 20 sources: the area of the convex hull (C173); vectors of different sizes are refused. -/
theorem C179_few {part : Math.Part Nat} (eps : ℝ) (ids : List Nat) (ra dec : List ℝ) :
    (ra.length ≠ dec.length → fieldAreaH2d part eps ids ra dec = .abort) ∧
    (ra.length = dec.length → ra.length < 20 → ∀ h, Hull.build (ra.zip dec) ids = .ok h →
      fieldAreaH2d part eps ids ra dec = fieldAreaHull eps (h.map fun i => (ra.zip dec).getD i (0, 0))) := by
  constructor
  · intro h
    unfold fieldAreaH2d
    rw [Res.check_neg h]
    rfl
  · intro h h20 hu e
    unfold fieldAreaH2d fieldAreaHullOf
    rw [Res.check_pos h, Res.ok_bind, if_pos h20, e, Res.ok_bind]

/-- **C179**, refuted for flat fields: with 20 sources or more of one right ascension, or of one declination, a NaN is converted to an
integer. -/
theorem C179_flat_refuted {part : Math.Part Nat} (eps : ℝ) (ids : List Nat) (ra dec : List ℝ) (hl : ra.length = dec.length)
    (h20 : 20 ≤ ra.length) (a b c d : ℝ) (hE : Extent (ra.zip dec) a b c d) (hf : a = b ∨ c = d) :
    fieldAreaH2d part eps ids ra dec = .ub := by
  have hz : ∀ p : ℝ × ℝ, degDist p p = 0 := by
    intro p
    rw [degDist, (C97_zero _ _ _ _).2 rfl]; simp
  have h0 : cellArea a b c d = 0 := by
    unfold cellArea
    rcases hf with rfl | rfl
    · rw [hz]; simp
    · rw [hz (a, c)]; simp
  rw [h2d_reduce eps ids ra dec hl h20 a b c d hE]
  unfold gridArea
  dsimp only
  rw [show boxArea a c b d = 0 from h0]
  simp
  rfl

end Verif.Astro
