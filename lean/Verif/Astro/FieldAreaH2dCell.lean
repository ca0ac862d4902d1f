import Verif.Astro.FieldAreaH2dLemmas
/-!
# Lemmas for C179: one cell, and the sum over the cells
-/
namespace Verif.Astro
open Verif Verif.Core Verif.Coord Verif.Math Real

/-! ### Specification -/

/-- Spec: the sources in a box. -/
noncomputable def inBox (a b c d : ℝ) (P : List (ℝ × ℝ)) : List (ℝ × ℝ) :=
  P.filter fun p => decide (a ≤ p.1 ∧ p.1 < b ∧ c ≤ p.2 ∧ p.2 < d)

/-- Spec: the squared sine of half the angle between a source and the nearest other one. -/
noncomputable def nearestOther (P : List (ℝ × ℝ)) (p : ℝ × ℝ) : ℝ :=
  sInf {x | ∃ q ∈ P.erase p, x = sin (degDist p q * (π / 360)) ^ 2}

/-- Spec: the typical distance between neighbours [degrees]. -/
noncomputable def spacing (P : List (ℝ × ℝ)) : ℝ := 360 / π * arcsin (sqrt ((P.map (nearestOther P)).sum / P.length))

/-- Spec: the area of a cell [square degrees]. -/
noncomputable def cellArea (a b c d : ℝ) : ℝ := degDist (a, c) (b, c) * degDist (a, c) (a, d)

/-- Spec: the distance on a grid. -/
def manhattan (x y : Nat × Nat) : Nat := ((x.1 : Int) - y.1).natAbs + ((x.2 : Int) - y.2).natAbs

/-- Spec: the grid. -/
def cells (n m : Nat) : Finset (Nat × Nat) := Finset.range n ×ˢ Finset.range m

/-- Spec: one of the sources is in the small cell `x`. -/
def Occupied (a b c d : ℝ) (P : List (ℝ × ℝ)) (x : Nat × Nat) : Prop :=
  inBox (edge a b 20 x.1) (edge a b 20 (x.1 + 1)) (edge c d 20 x.2) (edge c d 20 (x.2 + 1)) P ≠ []

/-- Spec: the number of small cells that a source extends to. -/
noncomputable def reach (a b c d : ℝ) (P : List (ℝ × ℝ)) : Nat := ⌈spacing P / (sqrt (cellArea a b c d) / 20)⌉.toNat

open Classical in
/-- Spec: the fraction of the 400 small cells that are within reach of a source. -/
noncomputable def fillFrac (a b c d : ℝ) (P : List (ℝ × ℝ)) : ℝ :=
  (((cells 20 20).filter fun x => ∃ y ∈ cells 20 20, Occupied a b c d P y ∧ manhattan x y ≤ reach a b c d P).card : ℝ) / 400

/-! ### Nearest sources -/

theorem proxy_eq (p q : ℝ × ℝ) : proxy p q = sin (degDist p q * (π / 360)) ^ 2 := by
  have h := hav_sin p.1 p.2 q.1 q.2
  rw [mul_comm d2r, mul_comm d2r, mul_comm d2r, mul_comm d2r] at h
  rw [proxy, h, degDist_angle, d2r]
  congr 2
  have := pi_ne_zero
  field_simp
  ring

theorem others_eq (P : List (ℝ × ℝ)) (k : Nat) (hk : k < P.length) :
    {x | ∃ l, l < P.length ∧ l ≠ k ∧ x = proxy (P.getD k (0, 0)) (P.getD l (0, 0))} =
      {x | ∃ q ∈ P.erase P[k], x = sin (degDist P[k] q * (π / 360)) ^ 2} := by
  ext x
  simp only [Set.mem_setOf_eq]
  have hm : ∀ q, q ∈ P.erase P[k] ↔ q ∈ P.eraseIdx k := fun q => (List.erase_getElem hk).mem_iff
  constructor
  · rintro ⟨l, hl, hlk, rfl⟩
    refine ⟨P[l], (hm _).2 ?_, ?_⟩
    · rw [List.mem_eraseIdx_iff_getElem]
      exact ⟨l, hl, hlk, rfl⟩
    · rw [proxy_eq]; simp [hl, hk]
  · rintro ⟨q, hq, rfl⟩
    rw [hm, List.mem_eraseIdx_iff_getElem] at hq
    obtain ⟨l, hl, hlk, rfl⟩ := hq
    exact ⟨l, hl, hlk, by rw [proxy_eq]; simp [hl, hk]⟩

theorem nearestLoop_eq (P : List (ℝ × ℝ)) (h2 : 2 ≤ P.length) : nearestLoop P = (P.map (nearestOther P)).map some := by
  obtain ⟨h1, hs⟩ := nearestLoop_spec P
  apply List.ext_getElem?
  intro k
  by_cases hk : k < P.length
  · obtain ⟨o, ho, hL⟩ := hs k hk
    rw [ho]
    rw [others_eq P k hk] at hL
    rcases hL with ⟨-, he⟩ | ⟨d, rfl, hd⟩
    · exfalso
      rw [← others_eq P k hk] at he
      have : proxy (P.getD k (0, 0)) (P.getD (if k = 0 then 1 else 0) (0, 0)) ∈ (∅ : Set ℝ) := by
        rw [← he]
        refine ⟨_, ?_, ?_, rfl⟩ <;> split <;> omega
      exact this
    · rw [List.getElem?_map, List.getElem?_map, List.getElem?_eq_getElem hk]
      simp only [Option.map_some, nearestOther]
      rw [hd.csInf_eq]
  · rw [List.getElem?_eq_none (by omega), List.getElem?_eq_none (by simp; omega)]

theorem mapM_id_some (l : List ℝ) : (l.map some).mapM id = some l := by
  induction l with
  | nil => rfl
  | cons a l ih => simp [List.mapM_cons, ih]

theorem meanInf_eq (P : List (ℝ × ℝ)) (h2 : 2 ≤ P.length) :
    meanInf (nearestLoop P) = some ((P.map (nearestOther P)).sum / P.length) := by
  rw [nearestLoop_eq P h2, meanInf, mapM_id_some]
  simp only [Option.bind_some, Stats.mean, List.length_map]
  rw [if_neg (by omega), Stats.total_eq]

theorem unproxy_eq (P : List (ℝ × ℝ)) : unproxy ((P.map (nearestOther P)).sum / P.length) = spacing P := by
  rw [unproxy, spacing]; ring

/-! ### Sums over images -/

theorem sum_flat (g : Nat → ℝ) (n m : Nat) :
    ∑ k ∈ Finset.range (n * m), g k = ∑ x ∈ cells n m, g (x.1 * m + x.2) := by
  rw [cells, Finset.sum_product]
  induction n with
  | zero => simp
  | succ n ih =>
    rw [Nat.succ_mul, Finset.sum_range_add, ih, Finset.sum_range_succ]

theorem sum_getD (l : List ℝ) : l.sum = ∑ k ∈ Finset.range l.length, l.getD k 0 := by
  induction l using List.reverseRecOn with
  | nil => simp
  | append_singleton l a ih =>
    rw [List.sum_append, List.length_append, List.length_singleton, Finset.sum_range_succ, ih]
    congr 1
    · apply Finset.sum_congr rfl
      intro k hk
      have := Finset.mem_range.1 hk
      simp [List.getElem?_append_left this]
    · simp

theorem mem_cells {n m : Nat} {x : Nat × Nat} : x ∈ cells n m ↔ x.1 < n ∧ x.2 < m := by
  simp [cells]

/-- the sum of the elements of an image -/
theorem img_sum (l : List ℝ) (n m : Nat) (hl : l.length = n * m) (g : Nat × Nat → ℝ)
    (hg : ∀ x ∈ cells n m, l[x.1 * m + x.2]? = some (g x)) : l.sum = ∑ x ∈ cells n m, g x := by
  rw [sum_getD, hl, sum_flat]
  apply Finset.sum_congr rfl
  intro x hx
  rw [List.getD_eq_getElem?_getD, hg x hx]
  rfl

open Classical in
theorem fraction_img (m : Img Bool) (hw : m.WF) (h0 : 0 < m.nx * m.ny) (Q : Nat × Nat → Prop)
    (hQ : ∀ x ∈ cells m.nx m.ny, (m.at x.1 x.2 = some true ↔ Q x)) :
    Stats.fractionOf (K := ℝ) m.px = some ((((cells m.nx m.ny).filter Q).card : ℝ) / ((m.nx * m.ny : Nat) : ℝ)) := by
  rw [Stats.fractionOf, Stats.mean, if_neg (by rw [List.length_map, hw]; omega), Stats.total_eq, List.length_map, hw]
  congr 2
  rw [img_sum _ m.nx m.ny (by rw [List.length_map, hw]) (fun x => if Q x then 1 else 0)]
  · simp [Finset.sum_boole]
  · intro x hx
    have hx' := mem_cells.1 hx
    obtain ⟨b, hb⟩ := at_isSome hw hx'.1 hx'.2
    have hb' : m.px[x.1 * m.ny + x.2]? = some b := by
      unfold Img.at at hb
      rwa [if_pos hx'] at hb
    rw [List.getElem?_map, hb', Option.map_some]
    have := hQ x hx
    rw [hb] at this
    by_cases hq : Q x
    · rw [if_pos hq]
      have := this.2 hq
      simp at this
      simp [this]
    · rw [if_neg hq]
      have hb2 : b ≠ true := fun h => hq (this.1 (by rw [h]))
      simp at hb2
      simp [hb2]

/-! ### A cell -/

theorem ceilU_ok {x : ℝ} (h0 : 0 ≤ x) (h : x ≤ 2 ^ 63) : ceilU x = .ok ⌈x⌉.toNat := by
  rw [ceilU, if_pos]
  refine ⟨Int.ceil_nonneg h0, ?_⟩
  have : ⌈x⌉ ≤ 2 ^ 63 := by rw [Int.ceil_le]; exact_mod_cast h
  omega

theorem countP_ids (P : List (ℝ × ℝ)) (a b c d : ℝ) :
    (List.range (P.map fun q => some q.1).length).countP (fun id => inside (some a, some b) ((P.map fun q => some q.1).getD id none) &&
      inside (some c, some d) ((P.map fun q => some q.2).getD id none)) = (inBox a b c d P).length := by
  have h : (inBox a b c d P).length = P.countP fun p => decide (a ≤ p.1 ∧ p.1 < b ∧ c ≤ p.2 ∧ p.2 < d) := by
    rw [inBox, List.countP_eq_length_filter]
  rw [h]
  conv_rhs => rw [show P = (List.range P.length).map (fun i => P.getD i (0, 0)) from by
    apply List.ext_getElem (by simp)
    intro i h1 h2
    simp [h1]]
  rw [List.countP_map, List.length_map]
  apply List.countP_congr
  intro i hi
  have := List.mem_range.1 hi
  simp [inside, this, and_assoc]

theorem applyCounts_len (ny : Nat) : ∀ (cs : List (Nat × Nat × List Nat)) (r : List Nat), (applyCounts ny cs r).length = r.length
  | [], _ => rfl
  | (i, j, ids) :: cs, r => by rw [applyCounts, applyCounts_len ny cs, List.length_set]

theorem hist2d_length {part : Math.Part Nat} {x y xb yb : Vec (Option ℝ)} {r : Vec Nat} (h : histogram2d part x y xb yb = .ok r) :
    r.data.length = xb.dims.getD 1 0 * yb.dims.getD 1 0 := by
  unfold histogram2d at h
  obtain ⟨c, -, hc⟩ := Res.bind_eq_ok.1 h
  injection hc with hc
  rw [← hc, applyCounts_len, List.length_replicate]

theorem sumboxes {a b c d : ℝ} (hab : a ≤ b) (hcd : c ≤ d) (part : Math.Part Nat) (hp : PartOk part) (P : List (ℝ × ℝ)) :
    ∃ r, histogram2d part ⟨P.map fun q => some q.1, [P.length]⟩ ⟨P.map fun q => some q.2, [P.length]⟩
      (someBins (makeBins a b 20)) (someBins (makeBins c d 20)) = .ok r ∧ r.data.length = 20 * 20 ∧
      ∀ x ∈ cells 20 20, ∃ n, r.data[x.1 * 20 + x.2]? = some n ∧ (1 ≤ n ↔ Occupied a b c d P x) := by
  obtain ⟨r, h1, h2, h3⟩ := C27_2d hp ⟨P.map fun q => some q.1, [P.length]⟩ ⟨P.map fun q => some q.2, [P.length]⟩
    (someBins (makeBins a b 20)) (someBins (makeBins c d 20)) _ _ (bins_isBins a b 20) (bins_isBins c d 20)
    (edgeBins_disjoint _ (edges_sorted hab 20)) (edgeBins_disjoint _ (edges_sorted hcd 20)) rfl
  refine ⟨r, h1, ?_, ?_⟩
  · exact hist2d_length h1
  · intro x hx
    have hx' := mem_cells.1 hx
    have := h3 x.1 x.2 _ _ (bins_get a b 20 x.1 hx'.1) (bins_get c d 20 x.2 hx'.2)
    rw [edgeBins_length, edges_length, Nat.add_sub_cancel, countP_ids] at this
    refine ⟨_, this, ?_⟩
    rw [Occupied, Ne, ← List.length_eq_zero_iff]
    omega

theorem spacing_nonneg (P : List (ℝ × ℝ)) : 0 ≤ spacing P := by
  unfold spacing
  have := pi_pos
  have h : 0 ≤ arcsin (sqrt ((P.map (nearestOther P)).sum / P.length)) := arcsin_nonneg.2 (sqrt_nonneg _)
  positivity

/-- The area and the filling factor of a cell. -/
theorem cellOf_ok {a b c d : ℝ} (hab : a ≤ b) (hcd : c ≤ d) {part : Math.Part Nat} (hp : PartOk part) (P : List (ℝ × ℝ))
    (h2 : 2 ≤ P.length) (hA : cellArea a b c d ≠ 0) (hB : spacing P / (sqrt (cellArea a b c d) / 20) ≤ 2 ^ 63) :
    cellOf part a b c d P = .ok (cellArea a b c d, fillFrac a b c d P) := by
  obtain ⟨r, h1, hl, h3⟩ := sumboxes hab hcd part hp P
  have hA' : boxArea a c b d = cellArea a b c d := rfl
  have hw : (⟨20, 20, r.data.map fun c => decide (1 ≤ c)⟩ : Img Bool).WF := by simp [Img.WF, hl]
  obtain ⟨m, hm, mw, mx, my, hn⟩ := C66_inflate _ (reach a b c d P) hw
  have hat : ∀ x y : Nat, (⟨20, 20, r.data.map fun c => decide (1 ≤ c)⟩ : Img Bool).at x y = some true ↔
      (x, y) ∈ cells 20 20 ∧ Occupied a b c d P (x, y) := by
    intro x y
    unfold Img.at
    by_cases hxy : x < 20 ∧ y < 20
    · simp only [if_pos hxy]
      obtain ⟨n, hn, ho⟩ := h3 (x, y) (mem_cells.2 hxy)
      simp only at hn
      rw [List.getElem?_map, hn, ← ho]
      simp [mem_cells, hxy]
    · simp only [if_neg hxy]
      simp [mem_cells, hxy]
  have hf := fraction_img m mw (by rw [mx, my]; norm_num)
    (fun x => ∃ y ∈ cells 20 20, Occupied a b c d P y ∧ manhattan x y ≤ reach a b c d P) (by
      intro x hx
      rw [mx, my] at hx
      have hx' := mem_cells.1 hx
      rw [hn x.1 x.2 hx'.1 hx'.2, Near]
      constructor
      · rintro ⟨x', y', h, hd⟩
        rw [hat] at h
        exact ⟨(x', y'), h.1, h.2, hd⟩
      · rintro ⟨y, hy, ho, hd⟩
        exact ⟨y.1, y.2, (hat _ _).2 ⟨hy, ho⟩, hd⟩)
  unfold cellOf
  dsimp only
  rw [h1, Res.ok_bind, meanInf_eq P h2, hA']
  dsimp only
  rw [if_neg hA, unproxy_eq, ceilU_ok (div_nonneg (spacing_nonneg P) (by positivity)) hB, Res.ok_bind]
  rw [show ⌈spacing P / (sqrt (cellArea a b c d) / 20)⌉.toNat = reach a b c d P from rfl, hm, Res.ok_bind, hf]
  dsimp only
  rw [mx, my]
  dsimp only
  rw [show ((20 * 20 : Nat) : ℝ) = 400 by norm_num, fillFrac]
  congr!

/-! ### The order of the sources -/

theorem inBox_perm {a b c d : ℝ} {P Q : List (ℝ × ℝ)} (h : P.Perm Q) : (inBox a b c d P).Perm (inBox a b c d Q) := h.filter _

theorem nearestOther_perm {P Q : List (ℝ × ℝ)} (h : P.Perm Q) (p : ℝ × ℝ) : nearestOther P p = nearestOther Q p := by
  unfold nearestOther
  congr 1
  ext x
  simp only [Set.mem_setOf_eq, (h.erase p).mem_iff]

theorem spacing_perm {P Q : List (ℝ × ℝ)} (h : P.Perm Q) : spacing P = spacing Q := by
  unfold spacing
  rw [h.length_eq, (h.map _).sum_eq, show nearestOther P = nearestOther Q from funext (nearestOther_perm h)]

theorem occupied_perm {a b c d : ℝ} {P Q : List (ℝ × ℝ)} (h : P.Perm Q) (x : Nat × Nat) :
    Occupied a b c d P x ↔ Occupied a b c d Q x := by
  unfold Occupied
  rw [Ne, Ne, ← List.length_eq_zero_iff, ← List.length_eq_zero_iff, (inBox_perm h).length_eq]

theorem fillFrac_perm {a b c d : ℝ} {P Q : List (ℝ × ℝ)} (h : P.Perm Q) : fillFrac a b c d P = fillFrac a b c d Q := by
  unfold fillFrac reach
  have : Occupied a b c d P = Occupied a b c d Q := funext fun x => propext (occupied_perm h x)
  rw [spacing_perm h, this]

end Verif.Astro
