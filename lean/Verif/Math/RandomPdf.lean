import Verif.Basic
import Mathlib.Analysis.SpecialFunctions.Sqrt
import Mathlib.Tactic.Linarith
import Mathlib.Tactic.FieldSimp
import Mathlib.Tactic.Ring
/-!
# Random numbers with a given distribution: `random_pdf` and `random_pdf_discrete` (C246)

The functions call distributions of the standard library, which are modelled as in libstdc++ (`bits/random.tcc`, version 13), with exact numbers and a uniform number `u` of `[0,1)` in place of the
generator. All is multiplied by the sum of the weights, so that it does not have to be normalised.
-/
namespace Verif.RandomPdf
open Verif

/-! ### Model -/

/-- the place in a segment such that the area on its left is `c`, from the density `d0` on the left and `d1` on the right (`operator()` of `piecewise_linear_distribution`); `none` is a division by zero -/
noncomputable def place (p q : ℝ × ℝ) (c : ℝ) : Option ℝ :=
  let a := (q.2 - p.2) / (q.1 - p.1) / 2
  if a = 0 then (if p.2 = 0 then none else some (p.1 + c / p.2)) else some (p.1 + (√(p.2 * p.2 + 4 * a * c) - p.2) / a / 2)

/-- the area of a segment -/
noncomputable def area (p q : ℝ × ℝ) : ℝ := (q.2 + p.2) * (q.1 - p.1) / 2

/-- `std::lower_bound` in the sums of the areas, then the place in the segment -/
noncomputable def pick : ℝ × ℝ → List (ℝ × ℝ) → ℝ → Option ℝ
  | _, [], _ => none
  | p, q :: r, c => if c ≤ area p q then place p q c else pick q r (c - area p q)

/-- the sum of the areas -/
noncomputable def total : ℝ × ℝ → List (ℝ × ℝ) → ℝ
  | _, [] => 0
  | p, q :: r => area p q + total q r

/-- `random_pdf(seed, px, py)` (`math/random.hpp:66-71`, and `:73-86` for each element): the sizes are not compared. With fewer than two points the standard library has no weights and gives the
uniform number itself. -/
noncomputable def randomPdf (px py : List ℝ) (u : ℝ) : Res (Option ℝ) :=
  if py.length < px.length then .ub
  else match px.zip py with
    | p :: q :: r => if total p (q :: r) ≤ 0 then .ub else .ok (pick p (q :: r) (u * total p (q :: r)))
    | _ => .ok (some u)

open Classical in
/-- `std::lower_bound` in the sums of the weights -/
noncomputable def pickIndex : List ℝ → ℝ → Nat
  | [], _ => 0
  | w :: ws, c => if c ≤ w then 0 else pickIndex ws (c - w) + 1

open Classical in
/-- `random_pdf_discrete(seed, w)` (`math/random.hpp:88-92`, and `:94-105` for each element) -/
noncomputable def randomDiscrete (w : List ℝ) (u : ℝ) : Res Nat :=
  if w.length < 2 then .ok 0 else if w.sum ≤ 0 then .ub else .ok (pickIndex w (u * w.sum))

/-! ### Specification -/

/-- the area on the left of `y` in a segment -/
noncomputable def part (p q : ℝ × ℝ) (y : ℝ) : ℝ :=
  let t := min (max (y - p.1) 0) (q.1 - p.1)
  p.2 * t + (q.2 - p.2) / (q.1 - p.1) * t ^ 2 / 2

/-- the area on the left of `y` under the broken line through points -/
noncomputable def mass : List (ℝ × ℝ) → ℝ → ℝ
  | p :: q :: r, y => part p q y + mass (q :: r) y
  | _, _ => 0

/-! ### Lemmas -/

theorem place_spec (p q : ℝ × ℝ) (c : ℝ) (hx : p.1 < q.1) (h0 : 0 ≤ p.2) (h1 : 0 ≤ q.2) (hc : 0 < c) (hA : c ≤ area p q) :
    ∃ t, place p q c = some (p.1 + t) ∧ 0 < t ∧ t ≤ q.1 - p.1 ∧ p.2 * t + (q.2 - p.2) / (q.1 - p.1) * t ^ 2 / 2 = c := by
  obtain ⟨x0, d0⟩ := p
  obtain ⟨x1, d1⟩ := q
  simp only [area] at *
  unfold place
  dsimp only
  obtain ⟨D, hD⟩ : ∃ D, D = x1 - x0 := ⟨_, rfl⟩
  have hDp : 0 < D := by rw [hD]; linarith
  rw [← hD] at hA ⊢
  obtain ⟨a, ha⟩ : ∃ a, a = (d1 - d0) / D / 2 := ⟨_, rfl⟩
  have e1 : (d1 - d0) / D = 2 * a := by rw [ha]; ring
  have e2 : d1 - d0 = 2 * a * D := by rw [← e1]; field_simp
  rw [← ha, e1]
  split
  · rename_i h
    have hd : d1 = d0 := by rw [h] at e2; linarith
    subst hd
    have hpos : 0 < d1 := by
      rcases h0.lt_or_eq with h' | h'
      · exact h'
      · rw [← h'] at hA; simp at hA; linarith
    rw [if_neg hpos.ne']
    refine ⟨_, rfl, div_pos hc hpos, ?_, ?_⟩
    · rw [div_le_iff₀ hpos]
      linarith
    · rw [h]
      field_simp
      ring
  · rename_i h
    have h4 : 4 * a * ((d1 + d0) * D / 2) = d1 * d1 - d0 * d0 := by
      have : 4 * a * ((d1 + d0) * D / 2) = (2 * a * D) * (d1 + d0) := by ring
      rw [this, ← e2]; ring
    rcases lt_or_gt_of_ne h with hneg | hpos
    · have hlow : d1 * d1 ≤ d0 * d0 + 4 * a * c := by nlinarith
      have hD0 : 0 ≤ d0 * d0 + 4 * a * c := le_trans (mul_self_nonneg _) hlow
      have hs := Real.mul_self_sqrt hD0
      have hr0 := Real.sqrt_nonneg (d0 * d0 + 4 * a * c)
      set r := √(d0 * d0 + 4 * a * c) with hr
      have hrl : d1 ≤ r := by
        rw [hr]; exact Real.le_sqrt_of_sq_le (by rw [sq]; exact hlow)
      have hru : r < d0 := by
        by_contra hcon
        have : d0 ≤ r := not_lt.1 hcon
        nlinarith
      have et : (r - d0) / a / 2 * (2 * a) = r - d0 := by field_simp
      refine ⟨_, rfl, ?_, ?_, ?_⟩
      · exact div_pos (div_pos_of_neg_of_neg (by linarith) hneg) two_pos
      · rw [div_div, div_le_iff_of_neg (by linarith)]
        nlinarith
      · have : d0 * ((r - d0) / a / 2) + 2 * a * ((r - d0) / a / 2) ^ 2 / 2 = (r * r - d0 * d0) / (4 * a) := by field_simp; ring
        rw [this, hs]
        field_simp
        ring
    · have hup : d0 * d0 + 4 * a * c ≤ d1 * d1 := by nlinarith
      have hD0 : 0 ≤ d0 * d0 + 4 * a * c := by positivity
      have hs := Real.mul_self_sqrt hD0
      have hr0 := Real.sqrt_nonneg (d0 * d0 + 4 * a * c)
      set r := √(d0 * d0 + 4 * a * c) with hr
      have hru : r ≤ d1 := by
        rw [hr]; exact Real.sqrt_le_iff.2 ⟨h1, by rw [sq]; exact hup⟩
      have hrl : d0 < r := by
        by_contra hcon
        have : r ≤ d0 := not_lt.1 hcon
        nlinarith [mul_pos hpos hc]
      refine ⟨_, rfl, ?_, ?_, ?_⟩
      · exact div_pos (div_pos (by linarith) hpos) two_pos
      · rw [div_div, div_le_iff₀ (by linarith)]
        nlinarith
      · have : d0 * ((r - d0) / a / 2) + 2 * a * ((r - d0) / a / 2) ^ 2 / 2 = (r * r - d0 * d0) / (4 * a) := by field_simp; ring
        rw [this, hs]
        field_simp
        ring

/-- the area of a part grows with it -/
theorem grows (p q : ℝ × ℝ) (hx : p.1 < q.1) (h0 : 0 ≤ p.2) (h1 : 0 ≤ q.2) (s t : ℝ) (hs : 0 ≤ s) (hst : s ≤ t) (ht : t ≤ q.1 - p.1) :
    p.2 * s + (q.2 - p.2) / (q.1 - p.1) * s ^ 2 / 2 ≤ p.2 * t + (q.2 - p.2) / (q.1 - p.1) * t ^ 2 / 2 ∧
    (s < t → 0 < area p q → p.2 * s + (q.2 - p.2) / (q.1 - p.1) * s ^ 2 / 2 < p.2 * t + (q.2 - p.2) / (q.1 - p.1) * t ^ 2 / 2) := by
  obtain ⟨x0, d0⟩ := p
  obtain ⟨x1, d1⟩ := q
  simp only [area] at *
  obtain ⟨D, hD⟩ : ∃ D, D = x1 - x0 := ⟨_, rfl⟩
  have hDp : 0 < D := by rw [hD]; linarith
  rw [← hD] at ht ⊢
  have key : (d0 * t + (d1 - d0) / D * t ^ 2 / 2) - (d0 * s + (d1 - d0) / D * s ^ 2 / 2) = (t - s) * ((2 * D - (s + t)) * d0 + (s + t) * d1) / (2 * D) := by
    field_simp
    ring
  have h2 : 0 ≤ (2 * D - (s + t)) * d0 + (s + t) * d1 := add_nonneg (mul_nonneg (by linarith) h0) (mul_nonneg (by linarith) h1)
  refine ⟨?_, fun hlt hA => ?_⟩
  · have : 0 ≤ (t - s) * ((2 * D - (s + t)) * d0 + (s + t) * d1) / (2 * D) := div_nonneg (mul_nonneg (by linarith) h2) (by linarith)
    linarith
  · have hsum : 0 < d1 + d0 := by
      by_contra hcon
      have : (d1 + d0) * D / 2 ≤ 0 := by nlinarith
      linarith
    have h3 : 0 < (2 * D - (s + t)) * d0 + (s + t) * d1 := by
      rcases h0.lt_or_eq with h' | h'
      · exact add_pos_of_pos_of_nonneg (mul_pos (by linarith) h') (mul_nonneg (by linarith) h1)
      · rw [← h'] at hsum ⊢
        have : 0 < (s + t) * d1 := mul_pos (by linarith) (by linarith)
        linarith
    have : 0 < (t - s) * ((2 * D - (s + t)) * d0 + (s + t) * d1) / (2 * D) := div_pos (mul_pos (by linarith) h3) (by linarith)
    linarith

theorem part_full (p q : ℝ × ℝ) (hx : p.1 < q.1) (y : ℝ) (h : q.1 ≤ y) : part p q y = area p q := by
  unfold part area
  have hD : q.1 - p.1 ≠ 0 := by linarith
  rw [min_eq_right (by rw [max_eq_left (by linarith)]; linarith)]
  field_simp
  ring

theorem part_zero (p q : ℝ × ℝ) (hx : p.1 < q.1) (y : ℝ) (h : y ≤ p.1) : part p q y = 0 := by
  unfold part
  rw [max_eq_right (by linarith), min_eq_left (by linarith)]
  simp

theorem part_nonneg (p q : ℝ × ℝ) (hx : p.1 < q.1) (h0 : 0 ≤ p.2) (h1 : 0 ≤ q.2) (y : ℝ) : 0 ≤ part p q y := by
  have := (grows p q hx h0 h1 0 (min (max (y - p.1) 0) (q.1 - p.1)) le_rfl (le_min (le_max_right _ _) (by linarith)) (min_le_right _ _)).1
  simpa [part] using this

theorem part_le (p q : ℝ × ℝ) (hx : p.1 < q.1) (h0 : 0 ≤ p.2) (h1 : 0 ≤ q.2) (y : ℝ) : part p q y ≤ area p q := by
  rw [← part_full p q hx q.1 le_rfl]
  have := (grows p q hx h0 h1 (min (max (y - p.1) 0) (q.1 - p.1)) (q.1 - p.1) (le_min (le_max_right _ _) (by linarith)) (min_le_right _ _) le_rfl).1
  unfold part
  rw [min_eq_right (show q.1 - p.1 ≤ max (q.1 - p.1) 0 from le_max_left _ _)]
  exact this

theorem mass_nonneg : ∀ (l : List (ℝ × ℝ)), l.Pairwise (fun a b => a.1 < b.1) → (∀ p ∈ l, 0 ≤ p.2) → ∀ y, 0 ≤ mass l y
  | [], _, _, _ => le_rfl
  | [_], _, _, _ => le_rfl
  | p :: q :: r, hs, hd, y => by
    have hs' := List.pairwise_cons.1 hs
    exact add_nonneg (part_nonneg p q (hs'.1 q (by simp)) (hd p (by simp)) (hd q (by simp)) y) (mass_nonneg (q :: r) hs'.2 (fun x hx => hd x (by simp [hx])) y)

theorem mass_zero : ∀ (p : ℝ × ℝ) (r : List (ℝ × ℝ)), (p :: r).Pairwise (fun a b => a.1 < b.1) → ∀ y ≤ p.1, mass (p :: r) y = 0
  | _, [], _, _, _ => rfl
  | p, q :: r, hs, y, hy => by
    have hs' := List.pairwise_cons.1 hs
    have hpq := hs'.1 q (by simp)
    show part p q y + mass (q :: r) y = 0
    rw [part_zero p q hpq y hy, mass_zero q r hs'.2 y (by linarith), add_zero]

theorem pick_spec : ∀ (p : ℝ × ℝ) (r : List (ℝ × ℝ)), (p :: r).Pairwise (fun a b => a.1 < b.1) → (∀ x ∈ p :: r, 0 ≤ x.2) → ∀ c, 0 < c → c ≤ total p r →
    ∃ x, pick p r c = some x ∧ p.1 < x ∧ ∀ y, x ≤ y ↔ c ≤ mass (p :: r) y
  | p, [], _, _, c, hc, ht => absurd ht (not_le.2 hc)
  | p, q :: r, hs, hd, c, hc, ht => by
    have hs' := List.pairwise_cons.1 hs
    have hpq := hs'.1 q (by simp)
    have h0 := hd p (by simp)
    have h1 := hd q (by simp)
    have hd' : ∀ x ∈ q :: r, 0 ≤ x.2 := fun x hx => hd x (List.mem_cons_of_mem _ hx)
    show ∃ x, (if c ≤ area p q then place p q c else pick q r (c - area p q)) = some x ∧ p.1 < x ∧ ∀ y, x ≤ y ↔ c ≤ part p q y + mass (q :: r) y
    by_cases hA : c ≤ area p q
    · rw [if_pos hA]
      obtain ⟨t, h2, h3, h4, h5⟩ := place_spec p q c hpq h0 h1 hc hA
      refine ⟨_, h2, by linarith, fun y => ?_⟩
      rcases le_total q.1 y with hy | hy
      · rw [part_full p q hpq y hy]
        have := mass_nonneg (q :: r) hs'.2 hd' y
        exact ⟨fun _ => by linarith, fun _ => by linarith⟩
      · rw [mass_zero q r hs'.2 y hy, add_zero]
        rcases le_total y p.1 with hy0 | hy0
        · rw [part_zero p q hpq y hy0]
          exact ⟨fun h => by linarith, fun h => by linarith⟩
        · have e : part p q y = p.2 * (y - p.1) + (q.2 - p.2) / (q.1 - p.1) * (y - p.1) ^ 2 / 2 := by
            unfold part
            rw [max_eq_left (by linarith), min_eq_left (by linarith)]
          rw [e]
          constructor
          · intro h
            rw [← h5]
            exact (grows p q hpq h0 h1 t (y - p.1) h3.le (by linarith) (by linarith)).1
          · intro h
            by_contra hcon
            have := (grows p q hpq h0 h1 (y - p.1) t (by linarith) (by linarith) h4).2 (by linarith) (by linarith)
            linarith
    · rw [if_neg hA]
      have hA := not_le.1 hA
      obtain ⟨x, h2, h3, h4⟩ := pick_spec q r hs'.2 hd' (c - area p q) (by linarith) (by have : c ≤ area p q + total q r := ht; linarith)
      refine ⟨x, h2, by linarith, fun y => ?_⟩
      rcases le_total q.1 y with hy | hy
      · rw [part_full p q hpq y hy, h4 y]
        exact ⟨fun h => by linarith, fun h => by linarith⟩
      · rw [mass_zero q r hs'.2 y hy, add_zero]
        have := part_le p q hpq h0 h1 y
        exact ⟨fun h => by linarith, fun h => by linarith⟩

theorem mass_total : ∀ (p : ℝ × ℝ) (r : List (ℝ × ℝ)), (p :: r).Pairwise (fun a b => a.1 < b.1) → ∀ y, (∀ q ∈ p :: r, q.1 ≤ y) → mass (p :: r) y = total p r
  | _, [], _, _, _ => rfl
  | p, q :: r, hs, y, hy => by
    have hs' := List.pairwise_cons.1 hs
    show part p q y + mass (q :: r) y = area p q + total q r
    rw [part_full p q (hs'.1 q (by simp)) y (hy q (by simp)), mass_total q r hs'.2 y fun x hx => hy x (List.mem_cons_of_mem _ hx)]

theorem pickIndex_spec : ∀ (w : List ℝ), (∀ x ∈ w, 0 ≤ x) → ∀ c, 0 < c → c ≤ w.sum → ∀ i, pickIndex w c = i ↔ i < w.length ∧ (w.take i).sum < c ∧ c ≤ (w.take (i + 1)).sum
  | [], _, c, hc, hs, _ => absurd hs (by simpa using hc)
  | w :: ws, hw, c, hc, hs, i => by
    have hws : ∀ x ∈ ws, 0 ≤ x := fun x hx => hw x (by simp [hx])
    unfold pickIndex
    by_cases h : c ≤ w
    · rw [if_pos h]
      constructor
      · rintro rfl
        simpa using ⟨hc, h⟩
      · rintro ⟨-, h1, -⟩
        cases i with
        | zero => rfl
        | succ i =>
          exfalso
          rw [List.take_succ_cons, List.sum_cons] at h1
          have : 0 ≤ (ws.take i).sum := List.sum_nonneg fun x hx => hws x (List.mem_of_mem_take hx)
          linarith
    · rw [if_neg h]
      have h' := not_le.1 h
      have ih := pickIndex_spec ws hws (c - w) (by linarith) (by rw [List.sum_cons] at hs; linarith)
      cases i with
      | zero =>
        constructor
        · intro h0; cases h0
        · rintro ⟨-, -, h2⟩
          simp at h2
          linarith
      | succ i =>
        rw [Nat.add_right_cancel_iff, ih i, List.take_succ_cons, List.take_succ_cons, List.sum_cons, List.sum_cons, List.length_cons]
        constructor
        · rintro ⟨a, b, d⟩
          exact ⟨by omega, by linarith, by linarith⟩
        · rintro ⟨a, b, d⟩
          exact ⟨by omega, by linarith, by linarith⟩

/-! ### C246 -/

/-- **C246 (in part)**: with increasing positions, at least two of them, and densities that are not negative and not all zero, `random_pdf` gives a number that is at most `y` exactly if the uniform number
is at most the part of the area on the left of `y`. This is the given distribution, because the uniform number is at most `z` with probability `z`; the uniform number zero is left out. -/
theorem C246_pdf_partial (px py : List ℝ) (u : ℝ) (hl : px.length ≤ py.length) (h2 : 2 ≤ px.length) (hs : px.Pairwise (· < ·)) (hd : ∀ d ∈ py, 0 ≤ d)
    (z : ℝ) (hz : ∀ x ∈ px, x ≤ z) (hm : 0 < mass (px.zip py) z) (hu : 0 < u) (hu1 : u ≤ 1) :
    ∃ x, randomPdf px py u = .ok (some x) ∧ ∀ y, x ≤ y ↔ u ≤ mass (px.zip py) y / mass (px.zip py) z := by
  have hlz : (px.zip py).length = px.length := by rw [List.length_zip]; omega
  have hsz : (px.zip py).Pairwise (fun a b => a.1 < b.1) := by
    have : ((px.zip py).map Prod.fst).Pairwise (· < ·) := by rw [List.map_fst_zip hl]; exact hs
    exact List.pairwise_map.1 this
  have hdz : ∀ p ∈ px.zip py, 0 ≤ p.2 := fun p hp => hd _ (List.of_mem_zip hp).2
  have hxz : ∀ p ∈ px.zip py, p.1 ≤ z := fun p hp => hz _ (List.of_mem_zip hp).1
  unfold randomPdf
  rw [if_neg (by omega)]
  match hzip : px.zip py with
  | [] => rw [hzip] at hlz; simp at hlz; omega
  | [_] => rw [hzip] at hlz; simp at hlz; omega
  | p :: q :: r =>
    rw [hzip] at hsz hdz hxz hm
    have ht := mass_total p (q :: r) hsz z hxz
    rw [ht] at hm ⊢
    dsimp only
    rw [if_neg (not_le.2 hm)]
    obtain ⟨x, h3, -, h4⟩ := pick_spec p (q :: r) hsz hdz (u * total p (q :: r)) (mul_pos hu hm) (by nlinarith)
    refine ⟨x, by rw [h3], fun y => ?_⟩
    rw [h4 y, le_div_iff₀ hm]

/-- **C246 (in part)**: `random_pdf_discrete` gives the index `i` exactly if the uniform number is in an interval as long as the part of the weight `i` in the sum. -/
theorem C246_discrete_partial (w : List ℝ) (u : ℝ) (hl : 2 ≤ w.length) (hw : ∀ x ∈ w, 0 ≤ x) (hs : 0 < w.sum) (hu : 0 < u) (hu1 : u ≤ 1) :
    ∃ i, randomDiscrete w u = .ok i ∧ (∃ x, w[i]? = some x ∧ 0 < x) ∧ ∀ j, j = i ↔ j < w.length ∧ (w.take j).sum / w.sum < u ∧ u ≤ (w.take (j + 1)).sum / w.sum := by
  unfold randomDiscrete
  rw [if_neg (by omega), if_neg (not_le.2 hs)]
  have h := pickIndex_spec w hw (u * w.sum) (mul_pos hu hs) (by nlinarith)
  refine ⟨_, rfl, ?_, fun j => ?_⟩
  · obtain ⟨h1, h2, h3⟩ := (h _).1 rfl
    refine ⟨_, List.getElem?_eq_getElem h1, ?_⟩
    rw [List.sum_take_succ _ _ h1] at h3
    linarith
  · rw [eq_comm, h j, div_lt_iff₀ hs, le_div_iff₀ hs]

/-- the hypotheses can be met: a triangle -/
example : (0 : ℝ) < mass ([0, 1, 2].zip [0, 1, 0]) 2 := by
  norm_num [mass, part]

example : randomPdf [0, 1, 2] [0, 1, 0] (1 / 2) = .ok (some 1) := by
  norm_num [randomPdf, total, area, pick, place]

/-- **C246 is false** for the uniform number zero: the first index is given even if its weight is zero. -/
theorem C246_zero_refuted : randomDiscrete [0, 1] 0 = .ok 0 := by
  norm_num [randomDiscrete, pickIndex]

/-- **C246 is false** for the uniform number zero: zero is divided by zero if the first two densities are zero. -/
theorem C246_nan_refuted : randomPdf [0, 1, 2] [0, 0, 1] 0 = .ok none := by
  norm_num [randomPdf, total, area, pick, place]

/-- **C246 is false** without weights: the index of an element that does not exist is given. -/
theorem C246_empty_refuted (u : ℝ) : randomDiscrete [] u = .ok 0 := rfl

/-- **C246 is false** for a single position: the number has nothing to do with it. -/
theorem C246_single_refuted (x d u : ℝ) : randomPdf [x] [d] u = .ok (some u) := by
  simp [randomPdf]

/-- **C246 is false** for fewer densities than positions: memory is read out of bounds. -/
theorem C246_short_refuted (px py : List ℝ) (u : ℝ) (h : py.length < px.length) : randomPdf px py u = .ub := if_pos h

end Verif.RandomPdf
