import Verif.Astro.RandPosLemmas
import Mathlib.Data.List.Forall2
import Mathlib.Tactic.NormNum
/-!
# C148, C149: random positions
-/
namespace Verif.RandPos
open Verif

/-! ### C148: positions in a region -/

/-- A call that succeeds gives as many positions as were requested. They are the positions of the generator that lie in the region, in the order in which they
were drawn, up to the last one: none of them is left out, or repeated, and what the vectors contained before is not used. The number of positions drawn is at
most `max_iter` for each object (if `max_iter` is not zero). -/
theorem C148_selected {K : Type} [Field K] (gen : Gen (K × K)) (inR : K → K → Bool) (x y x' y' : List K) (n maxIter k k' : Nat)
    (h : rejectionSampling gen inR x y n maxIter k = ((true, x', y'), k')) :
    x'.length = n ∧ y'.length = n ∧ ∃ m, k' = after gen m k ∧ (maxIter ≠ 0 → m ≤ n * maxIter) ∧ (n = 0 → m = 0) ∧
      x'.zip y' = (draws gen m k).filter (fun p => inR p.1 p.2) ∧
      (n ≠ 0 → ∃ p, (draws gen m k).getLast? = some p ∧ inR p.1 p.2 = true) := by
  obtain ⟨m, h1, h2, h3⟩ := rejection_spec gen inR x y n maxIter k
  rw [h] at h1 h2 h3
  rcases h3 with ⟨-, b, c, d, e, f⟩ | ⟨a, -⟩
  · rw [List.drop_eq_nil_of_le (by rw [resize_length]; omega), List.append_nil] at h1 h2
    change x' = _ at h1
    change y' = _ at h2
    refine ⟨by rw [h1]; simpa using b, by rw [h2]; simpa using b, m, c, ?_, e, by rw [h1, h2, zip_map], f⟩
    intro h0
    rw [turns, if_neg h0] at d
    exact d
  · exact absurd a (by simp)

/-- A call fails exactly when `max_iter` positions drawn one after the other for the same object are out of the region. The objects found before are in the vectors, followed
by the elements that were there. -/
theorem C148_failed {K : Type} [Field K] (gen : Gen (K × K)) (inR : K → K → Bool) (x y x' y' : List K) (n maxIter k k' : Nat) (h0 : maxIter ≠ 0)
    (h : rejectionSampling gen inR x y n maxIter k = ((false, x', y'), k')) :
    ∃ m, (∀ q ∈ draws gen maxIter (after gen m k), inR q.1 q.2 = false) ∧ k' = after gen (m + maxIter + 1) k ∧
      x'.length = n ∧ y'.length = n ∧
      let sel := (draws gen m k).filter fun p => inR p.1 p.2
      sel.length < n ∧ x'.take sel.length = sel.map Prod.fst ∧ y'.take sel.length = sel.map Prod.snd := by
  obtain ⟨m, h1, h2, h3⟩ := rejection_spec gen inR x y n maxIter k
  rw [h] at h1 h2 h3
  rcases h3 with ⟨a, -⟩ | ⟨-, b, c, d⟩
  · exact absurd a (by simp)
  · rw [turns, if_neg h0] at c d
    change x' = _ at h1
    change y' = _ at h2
    have l1 := resize_length x n
    have l2 := resize_length y n
    refine ⟨m, d, c, ?_, ?_, b, ?_, ?_⟩
    · rw [h1]; simp [l1]; omega
    · rw [h2]; simp [l2]; omega
    · rw [h1, List.take_append_of_le_length (by simp), List.take_of_length_le (by simp)]
    · rw [h2, List.take_append_of_le_length (by simp), List.take_of_length_le (by simp)]

/-- It succeeds when there is a position in the region among any `max_iter` that follow each other. -/
theorem C148_succeeds {K : Type} [Field K] (gen : Gen (K × K)) (inR : K → K → Bool) (x y : List K) (n maxIter k : Nat) (h0 : maxIter ≠ 0)
    (h : ∀ m, ∃ q ∈ draws gen maxIter (after gen m k), inR q.1 q.2 = true) : (rejectionSampling gen inR x y n maxIter k).1.1 = true := by
  generalize hr : rejectionSampling gen inR x y n maxIter k = r
  obtain ⟨⟨b, x', y'⟩, k'⟩ := r
  cases b with
  | true => rfl
  | false =>
    obtain ⟨m, hm, -⟩ := C148_failed gen inR x y x' y' n maxIter k k' h0 hr
    obtain ⟨q, hq1, hq2⟩ := h m
    rw [hm q hq1] at hq2
    cases hq2

/-- `randpos_uniform_circle`: the positions are in the circle and in the region. -/
theorem C148_circle (u : Nat → ℝ) (hu : Unit01 u) (n : Nat) (x0 y0 r0 : ℝ) (x y x' y' : List ℝ) (inR : ℝ → ℝ → Bool) (maxIter k k' : Nat)
    (h : uniformCircle real u n x0 y0 r0 x y inR maxIter k = ((true, x', y'), k')) :
    x'.length = n ∧ y'.length = n ∧ ∀ p ∈ x'.zip y', inR p.1 p.2 = true ∧ (p.1 - x0) ^ 2 + (p.2 - y0) ^ 2 ≤ r0 ^ 2 := by
  unfold uniformCircle at h
  split at h
  · rename_i hn
    simp only [Prod.mk.injEq, true_and] at h
    obtain ⟨⟨rfl, rfl⟩, rfl⟩ := h
    simp [hn]
  · obtain ⟨h1, h2, m, -, h3⟩ := rejection_ok h
    refine ⟨h1, h2, fun p hp => ?_⟩
    rw [h3, List.mem_filter] at hp
    exact ⟨hp.2, draws_mem _ (near_circlePos hu x0 y0 r0) m k p hp.1⟩

/-- They are uniform in area: a position is within a smaller radius exactly when one of the numbers drawn is at most the ratio of the areas. -/
theorem C148_area (u : Nat → ℝ) (hu : Unit01 u) (x0 y0 r0 rho : ℝ) (h0 : 0 < r0) (k : Nat) :
    (let p := (circlePos real u x0 y0 r0 k).1; (p.1 - x0) ^ 2 + (p.2 - y0) ^ 2 ≤ rho ^ 2) ↔ u (k + 1) ≤ rho ^ 2 / r0 ^ 2 := by
  have e : ((circlePos real u x0 y0 r0 k).1.1 - x0) ^ 2 + ((circlePos real u x0 y0 r0 k).1.2 - y0) ^ 2 = u (k + 1) * r0 ^ 2 := by
    simp only [circlePos, real]
    have h1 := Real.sin_sq_add_cos_sq (u k * 2 * Real.pi)
    have h2 := Real.sq_sqrt (hu (k + 1)).1
    calc _ = r0 ^ 2 * Real.sqrt (u (k + 1)) ^ 2 * (Real.sin (u k * 2 * Real.pi) ^ 2 + Real.cos (u k * 2 * Real.pi) ^ 2) := by ring
      _ = _ := by rw [h1, h2]; ring
  dsimp only
  rw [e, le_div_iff₀ (by positivity)]

/-- `randpos_uniform_box`: the positions are in the box and in the region. -/
theorem C148_box (u : Nat → ℝ) (hu : Unit01 u) (n : Nat) (rx ry : ℝ × ℝ) (hx : rx.1 ≤ rx.2) (hy : ry.1 ≤ ry.2) (x y x' y' : List ℝ) (inR : ℝ → ℝ → Bool) (maxIter k k' : Nat)
    (h : uniformBox u n rx ry x y inR maxIter k = ((true, x', y'), k')) :
    x'.length = n ∧ y'.length = n ∧ ∀ p ∈ x'.zip y', inR p.1 p.2 = true ∧ rx.1 ≤ p.1 ∧ p.1 ≤ rx.2 ∧ ry.1 ≤ p.2 ∧ p.2 ≤ ry.2 := by
  unfold uniformBox at h
  split at h
  · rename_i hn
    simp only [Prod.mk.injEq, true_and] at h
    obtain ⟨⟨rfl, rfl⟩, rfl⟩ := h
    simp [hn]
  · obtain ⟨h1, h2, m, -, h3⟩ := rejection_ok h
    refine ⟨h1, h2, fun p hp => ?_⟩
    rw [h3, List.mem_filter] at hp
    refine ⟨hp.2, draws_mem _ (Q := fun p => rx.1 ≤ p.1 ∧ p.1 ≤ rx.2 ∧ ry.1 ≤ p.2 ∧ p.2 ≤ ry.2) (fun j => ?_) m k p hp.1⟩
    have a := hu j
    have b := hu (j + 1)
    simp only [boxPos]
    refine ⟨?_, ?_, ?_, ?_⟩ <;> nlinarith

/-- The forms without a region. -/
theorem C148_no_region (u : Nat → ℝ) (hu : Unit01 u) (n : Nat) (x0 y0 r0 : ℝ) (k : Nat) :
    (circles real u n x0 y0 r0 k).1.1.length = n ∧ (circles real u n x0 y0 r0 k).1.2.length = n ∧
      ∀ p ∈ (circles real u n x0 y0 r0 k).1.1.zip (circles real u n x0 y0 r0 k).1.2, (p.1 - x0) ^ 2 + (p.2 - y0) ^ 2 ≤ r0 ^ 2 :=
  ⟨(circles_length _ _ _ _ _ _ _).1, (circles_length _ _ _ _ _ _ _).2, near_circles hu n x0 y0 r0 k⟩

/-- Without a region, the direction and the distance of each position come from two numbers of its own, which no other position uses: the angles from the first `n`
numbers, and the distances, uniform in area, from the `n` that follow. -/
theorem C148_no_region_law (u : Nat → ℝ) (hu : Unit01 u) (n : Nat) (x0 y0 r0 : ℝ) (h0 : 0 ≤ r0) (k i : Nat) (hi : i < n) :
    (circles real u n x0 y0 r0 k).2 = k + 2 * n ∧ ∃ px py rho, (circles real u n x0 y0 r0 k).1.1[i]? = some px ∧ (circles real u n x0 y0 r0 k).1.2[i]? = some py ∧
      0 ≤ rho ∧ rho ^ 2 = r0 ^ 2 * u (k + n + i) ∧ px - x0 = rho * Real.cos (2 * Real.pi * u (k + i)) ∧ py - y0 = rho * Real.sin (2 * Real.pi * u (k + i)) := by
  refine ⟨rfl, x0 + r0 * Real.sqrt (u (k + n + i)) * Real.cos (u (k + i) * 2 * Real.pi), y0 + r0 * Real.sqrt (u (k + n + i)) * Real.sin (u (k + i) * 2 * Real.pi),
    r0 * Real.sqrt (u (k + n + i)), ?_, ?_, by positivity, ?_, ?_, ?_⟩
  · simp [circles, real, List.getElem?_zipWith, List.getElem?_range hi]
  · simp [circles, real, List.getElem?_zipWith, List.getElem?_range hi]
  · rw [mul_pow, Real.sq_sqrt (hu _).1]
  · rw [show 2 * Real.pi * u (k + i) = u (k + i) * 2 * Real.pi by ring]; ring
  · rw [show 2 * Real.pi * u (k + i) = u (k + i) * 2 * Real.pi by ring]; ring

/-- The same for one position at a time. -/
theorem C148_law (u : Nat → ℝ) (hu : Unit01 u) (x0 y0 r0 : ℝ) (h0 : 0 ≤ r0) (k : Nat) :
    (circlePos real u x0 y0 r0 k).2 = k + 2 ∧ ∃ rho, 0 ≤ rho ∧ rho ^ 2 = r0 ^ 2 * u (k + 1) ∧
      (circlePos real u x0 y0 r0 k).1 = (x0 + rho * Real.cos (2 * Real.pi * u k), y0 + rho * Real.sin (2 * Real.pi * u k)) := by
  refine ⟨rfl, r0 * Real.sqrt (u (k + 1)), by positivity, ?_, ?_⟩
  · rw [mul_pow, Real.sq_sqrt (hu _).1]
  · rw [show 2 * Real.pi * u k = u k * 2 * Real.pi by ring]; rfl

theorem after_circle {K : Type} [Field K] (T : Trig K) (u : Nat → K) (x0 y0 r0 : K) (m k : Nat) : after (circlePos T u x0 y0 r0) m k = k + 2 * m := by
  induction m generalizing k with
  | zero => rfl
  | succ m ih => rw [after, ih]; simp only [circlePos]; omega

theorem draws_circle {K : Type} [Field K] (T : Trig K) (u : Nat → K) (x0 y0 r0 : K) (m k i : Nat) (h : i < m) :
    (circlePos T u x0 y0 r0 (k + 2 * i)).1 ∈ draws (circlePos T u x0 y0 r0) m k := by
  induction m generalizing k i with
  | zero => omega
  | succ m ih =>
    rw [draws]
    cases i with
    | zero => simp
    | succ i =>
      refine List.mem_cons_of_mem _ ?_
      have := ih (circlePos T u x0 y0 r0 k).2 i (by omega)
      simp only [circlePos] at this ⊢
      rw [show k + 2 * (i + 1) = k + 2 + 2 * i by omega]
      exact this

theorem mem_draws_circle {K : Type} [Field K] (T : Trig K) (u : Nat → K) (x0 y0 r0 : K) (m k : Nat) {p : K × K} (h : p ∈ draws (circlePos T u x0 y0 r0) m k) :
    ∃ i < m, p = (circlePos T u x0 y0 r0 (k + 2 * i)).1 := by
  induction m generalizing k with
  | zero => simp [draws] at h
  | succ m ih =>
    rw [draws] at h
    rcases List.mem_cons.1 h with rfl | h
    · exact ⟨0, by omega, rfl⟩
    · obtain ⟨i, hi, e⟩ := ih _ h
      refine ⟨i + 1, by omega, ?_⟩
      rw [e]
      simp only [circlePos]
      rw [show k + 2 * (i + 1) = k + 2 + 2 * i by omega]

/-- an empty region -/
theorem no_region (gen : Gen (ℝ × ℝ)) (maxIter k : Nat) : (rejectionSampling gen (fun _ _ => false) [] [] 1 maxIter k).1.1 = false ∧
    (rejectionSampling gen (fun _ _ => false) [] [] 1 maxIter k).2 = after gen (turns maxIter + 1) k := by
  obtain ⟨m, -, -, h⟩ := rejection_spec gen (fun _ _ => false) [] [] 1 maxIter k
  rcases h with ⟨-, h, -⟩ | ⟨h, -⟩
  · simp at h
  · refine ⟨h, ?_⟩
    have hs : (retry gen (fun _ _ => false) (turns maxIter) (gen k)).1 = none := by
      generalize hr : retry gen (fun _ _ => false) (turns maxIter) (gen k) = r
      obtain ⟨o, k'⟩ := r
      cases o with
      | none => rfl
      | some p => obtain ⟨_, _, _, _, h, _⟩ := retry_some hr; cases h
    have ht := (retry_none (turns_pos maxIter) (Prod.ext hs rfl)).2
    unfold rejectionSampling rejLoop
    dsimp only
    rw [hs]
    exact ht

/-- With `max_iter` equal to zero ("no further trial") the call draws more than 2^64 positions before it gives up. -/
theorem C148_zero_refuted (u : Nat → ℝ) (x0 y0 r0 : ℝ) :
    (uniformCircle real u 1 x0 y0 r0 [] [] (fun _ _ => false) 0 0).1.1 = false ∧ (uniformCircle real u 1 x0 y0 r0 [] [] (fun _ _ => false) 0 0).2 = 2 * (2 ^ 64 + 1) := by
  have h := no_region (circlePos real u x0 y0 r0) 0 0
  rw [after_circle, Nat.zero_add, show turns 0 = 2 ^ 64 from if_pos rfl] at h
  have e : uniformCircle real u 1 x0 y0 r0 [] [] (fun _ _ => false) 0 = rejectionSampling (circlePos real u x0 y0 r0) (fun _ _ => false) [] [] 1 0 := if_neg Nat.one_ne_zero
  rw [e]
  exact h

/-- two objects, of which the second one needs three trials -/
example : rejectionSampling (boxPos (fun i : Nat => ((i % 10 : Nat) : ℚ) / 10) (0, 10) (0, 10)) (fun a b => decide (a + b = 1 ∨ a + b = 13)) [7] [] 2 5 0 = ((true, [0, 6], [1, 7]), 8) := by
  decide +kernel

/-- the second object is not found in two trials; `x` keeps its element -/
example : rejectionSampling (boxPos (fun i : Nat => ((i % 10 : Nat) : ℚ) / 10) (0, 10) (0, 10)) (fun a b => decide (a + b = 1 ∨ a + b = 13)) [7, 3, 9] [] 2 2 0 = ((false, [0, 3], [1, 0]), 8) := by
  decide +kernel

/-! ### C149: correlated positions -/

/-- `randpos_power_base` gives `eta` to the number of levels positions, within the sum of the radii of the levels. -/
theorem C149_base (u : Nat → ℝ) (hu : Unit01 u) (x0 y0 r0 : ℝ) (h0 : 0 ≤ r0) (o : Opt ℝ) (hl : 0 < o.lambda) (k : Nat) :
    let r := (powerBase real u x0 y0 r0 o k).1
    r.1.length = o.eta ^ o.levels ∧ r.2.length = o.eta ^ o.levels ∧
      ∀ p ∈ r.1.zip r.2, (p.1 - x0) ^ 2 + (p.2 - y0) ^ 2 ≤ (∑ l ∈ Finset.range o.levels, r0 / o.lambda ^ l) ^ 2 := by
  have := baseLoop_spec hu o hl x0 y0 o.levels r0 0 [x0] [y0] k h0 le_rfl rfl (by simp [Near])
  have hre : reach r0 o.lambda o.levels = ∑ l ∈ Finset.range o.levels, r0 / o.lambda ^ l := reach_eq r0 o.lambda o.levels
  simpa [powerBase, Near, hre] using this

/-- `randpos_power_circle`, if it succeeds, gives exactly the number of positions that the options ask for, and all of them satisfy the criterion of the caller without tolerance,
whatever the filling factors of the cells. They are within the sum of the radii of the levels. -/
theorem C149_positions (u : Nat → ℝ) (hu : Unit01 u) (x0 y0 r0 : ℝ) (h0 : 0 ≤ r0) (x y x' y' : List ℝ) (inR : ℝ → ℝ → ℝ → Bool) (o : Opt ℝ) (hl : 0 < o.lambda) (hlev : o.levels ≠ 0) (k k' : Nat)
    (h : powerCircle real u x0 y0 r0 x y inR o k = .ok ((true, x', y'), k')) :
    x'.length = o.eta ^ (o.levels - 1) * o.etaEnd.getD o.eta ∧ y'.length = x'.length ∧
      ∀ p ∈ x'.zip y', inR p.1 p.2 0 = true ∧ (p.1 - x0) ^ 2 + (p.2 - y0) ^ 2 ≤ (∑ l ∈ Finset.range o.levels, r0 / o.lambda ^ l) ^ 2 := by
  unfold powerCircle at h
  dsimp only at h
  generalize hg : genPos real u (fun a b => inR a b (if o.levels ≤ 1 then 0 else 8 / 10 * r0 / o.lambda)) x0 y0 r0 (if o.levels ≤ 1 then o.etaEnd.getD o.eta else o.eta) x y k = s at h
  obtain ⟨⟨b, sx, sy⟩, k1⟩ := s
  cases b with
  | false => simp at h
  | true =>
    obtain ⟨g1, g2, g3⟩ := genPos_spec hu hg
    simp only [if_true, if_neg hlev] at h
    obtain ⟨c1, c2, c3⟩ := levelLoop_spec hu inR o hl (o.etaEnd.getD o.eta) x0 y0 (o.levels - 1) r0 r0 sx sy x' y' k1 k' h0 h0 (g1.trans g2.symm) (fun p hp => (g3 p hp).2) (by
      intro hn p hp
      have := (g3 p hp).1
      rw [if_pos (by omega)] at this
      exact this) h
    refine ⟨?_, c2, fun p hp => ⟨(c3 p hp).1, ?_⟩⟩
    · rw [c1, g1]
      by_cases hn : o.levels - 1 = 0
      · rw [if_pos hn, if_pos (by omega), hn]; simp
      · rw [if_neg hn, if_neg (by omega)]
        obtain ⟨m, hm⟩ : ∃ m, o.levels = m + 2 := ⟨o.levels - 2, by omega⟩
        rw [hm]
        simp only [show m + 2 - 1 = m + 1 by omega, Nat.add_sub_cancel]
        ring
    · have := (c3 p hp).2
      have hre : r0 + reach (r0 / o.lambda) o.lambda (o.levels - 1) = ∑ l ∈ Finset.range o.levels, r0 / o.lambda ^ l := by
        rw [← reach_eq r0 o.lambda o.levels]
        obtain ⟨m, hm⟩ : ∃ m, o.levels = m + 1 := ⟨o.levels - 1, by omega⟩
        rw [hm]; rfl
      rw [hre] at this
      exact this

/-! #### The circle is not the limit -/

/-- angles of zero, and radii of nine tenths -/
noncomputable def exU : Nat → ℝ := fun i => if i % 2 = 0 then 0 else 81 / 100

theorem exU_unit : Unit01 exU := by
  intro i
  unfold exU
  split <;> constructor <;> norm_num

theorem sqrt_81 : Real.sqrt (81 / 100) = 9 / 10 := by
  rw [show (81 / 100 : ℝ) = (9 / 10) ^ 2 by norm_num]
  exact Real.sqrt_sq (by norm_num)

theorem exGen (x1 y1 r1 : ℝ) (k : Nat) (hk : k % 2 = 0) (x y : List ℝ) : genPos real exU (fun _ _ => true) x1 y1 r1 1 x y k = ((true, [x1 + r1 * (9 / 10)], [y1]), k + 2) := by
  have e : circlePos real exU x1 y1 r1 k = ((x1 + r1 * (9 / 10), y1), k + 2) := by
    have h1 : exU k = 0 := by simp [exU, hk]
    have h2 : exU (k + 1) = 81 / 100 := by simp [exU, show (k + 1) % 2 ≠ 0 by omega]
    simp only [circlePos, real, h1, h2, sqrt_81]
    simp
  have hl : ∀ l : List ℝ, (resize l 1).length = 1 := fun l => resize_length l 1
  have hset : ∀ (l : List ℝ) (v : ℝ), (resize l 1).set 0 v = [v] := by
    intro l v
    obtain ⟨a, ha⟩ := List.length_eq_one_iff.1 (hl l)
    rw [ha]; rfl
  have hret : ∀ t, t ≠ 0 → retry (circlePos real exU x1 y1 r1) (fun _ _ => true) t ((x1 + r1 * (9 / 10), y1), k + 2) = (some (x1 + r1 * (9 / 10), y1), k + 2) := by
    intro t ht
    obtain ⟨t, rfl⟩ := Nat.exists_eq_succ_of_ne_zero ht
    simp [retry]
  unfold genPos uniformCircle
  rw [if_neg Nat.one_ne_zero]
  unfold rejectionSampling
  rw [rejLoop]
  dsimp only
  rw [e, hret _ (turns_pos _)]
  simp only [hset, rejLoop]

theorem exLevel (k : Nat) (hk : k % 2 = 0) (maxIter : Nat) (x1 y1 r1 : ℝ) :
    level real exU (fun _ _ => true) maxIter 1 r1 [x1] [y1] k = .ok ((true, [x1 + r1 * (9 / 10)], [y1]), k + 402) := by
  have hf : fills real exU (fun _ _ => true) r1 [(x1, y1)] k = ([1], k + 400) := by
    have hlen := circles_length real exU 200 x1 y1 r1 k
    have hz : List.zipWith (fun _ _ => true) (circles real exU 200 x1 y1 r1 k).1.1 (circles real exU 200 x1 y1 r1 k).1.2 = List.replicate 200 true := by
      refine List.eq_replicate_iff.2 ⟨by rw [List.length_zipWith, hlen.1, hlen.2]; rfl, ?_⟩
      intro b hb
      obtain ⟨i, hi, rfl⟩ := List.mem_iff_getElem.1 hb
      simp
    unfold fills getFill fills
    dsimp only
    rw [hz, List.filter_replicate_of_pos (by rfl), List.length_replicate]
    simp [circles]
  have ha : assign 1 ([(1 : ℝ)].map (· / ([(1 : ℝ)].sum / (([(1 : ℝ)].length : ℕ) : ℝ)))) = [(1, 0)] := by simp [assign]
  have hp : ∀ (l : List (Nat × ℝ)) (j : Nat), passes exU maxIter l 0 j = ((l, 0), j) := by
    intro l j; cases maxIter <;> simp [passes]
  unfold level
  simp only [List.zip_cons_cons, List.zip_nil_right, hf]
  rw [Res.check_pos (Or.inr (by simp))]
  simp only [Res.ok_bind]
  rw [ha]
  simp only [List.map_cons, List.map_nil, List.sum_cons, List.sum_nil, List.length_cons, List.length_nil, Nat.add_zero, Nat.zero_add, Nat.mul_one, Nat.sub_self, hp]
  simp only [List.zip_cons_cons, List.zip_nil_right, place, exGen x1 y1 r1 (k + 400) (by omega)]
  simp

/-! #### The cells of a level -/

/-- what becomes of the number of objects of a cell: it may get one more, once -/
theorem pass_cell (u : Nat → ℝ) : ∀ (l : List (Nat × ℝ)) (miss k : Nat),
    List.Forall₂ (fun a b => b = a ∨ (a.2 ≠ 0 ∧ b = (a.1 + 1, 0))) l (pass u l miss k).1.1 := by
  intro l
  induction l with
  | nil => intro miss k; exact .nil
  | cons a l ih =>
    intro miss k
    obtain ⟨g, d⟩ := a
    have hrfl : ∀ l : List (Nat × ℝ), List.Forall₂ (fun a b => b = a ∨ (a.2 ≠ 0 ∧ b = (a.1 + 1, 0))) l l := by
      intro l
      induction l with
      | nil => exact .nil
      | cons a l ih => exact .cons (.inl rfl) ih
    unfold pass
    dsimp only
    split
    · rename_i hd
      split
      · split
        · exact .cons (.inr ⟨hd, rfl⟩) (hrfl l)
        · exact .cons (.inr ⟨hd, rfl⟩) (ih _ _)
      · exact .cons (.inl rfl) (ih _ _)
    · exact .cons (.inl rfl) (ih _ _)

theorem passes_cell (u : Nat → ℝ) : ∀ (n : Nat) (l : List (Nat × ℝ)) (miss k : Nat),
    List.Forall₂ (fun a b => b = a ∨ (a.2 ≠ 0 ∧ b = (a.1 + 1, 0))) l (passes u n l miss k).1.1 := by
  intro n
  have hrfl : ∀ l : List (Nat × ℝ), List.Forall₂ (fun a b => b = a ∨ (a.2 ≠ 0 ∧ b = (a.1 + 1, 0))) l l := by
    intro l
    induction l with
    | nil => exact .nil
    | cons a l ih => exact .cons (.inl rfl) ih
  have htr : ∀ a b c : List (Nat × ℝ), List.Forall₂ (fun a b => b = a ∨ (a.2 ≠ 0 ∧ b = (a.1 + 1, 0))) a b → List.Forall₂ (fun a b => b = a ∨ (a.2 ≠ 0 ∧ b = (a.1 + 1, 0))) b c →
      List.Forall₂ (fun a b => b = a ∨ (a.2 ≠ 0 ∧ b = (a.1 + 1, 0))) a c := by
    intro a b c h
    induction h generalizing c with
    | nil => intro h; exact h
    | cons h1 _ ih =>
      intro h
      cases h with
      | cons h2 h3 =>
        refine .cons ?_ (ih _ h3)
        rcases h1 with rfl | ⟨h1, rfl⟩
        · exact h2
        · rcases h2 with rfl | ⟨h2, -⟩
          · exact .inr ⟨h1, rfl⟩
          · exact absurd rfl h2
  induction n with
  | zero => intro l miss k; exact hrfl l
  | succ n ih =>
    intro l miss k
    unfold passes
    split
    · exact hrfl l
    · exact htr _ _ _ (pass_cell u l miss k) (ih _ _ _)

theorem place_cells {u : Nat → ℝ} (hu : Unit01 u) (inR : ℝ → ℝ → Bool) (r1 : ℝ) : ∀ (l : List ((ℝ × ℝ) × Nat)) (x1 y1 : List ℝ) (k k' : Nat) (x' y' : List ℝ), x1.length = y1.length →
    place real u inR r1 l x1 y1 k = ((true, x', y'), k') → ∃ bs : List (List (ℝ × ℝ)), x'.zip y' = x1.zip y1 ++ bs.flatten ∧
      List.Forall₂ (fun (p : (ℝ × ℝ) × Nat) b => b.length = p.2 ∧ ∀ q ∈ b, inR q.1 q.2 = true ∧ (q.1 - p.1.1) ^ 2 + (q.2 - p.1.2) ^ 2 ≤ r1 ^ 2) l bs := by
  intro l
  induction l with
  | nil =>
    intro x1 y1 k k' x' y' _ h
    simp only [place, Prod.mk.injEq, true_and] at h
    obtain ⟨⟨rfl, rfl⟩, -⟩ := h
    exact ⟨[], by simp, .nil⟩
  | cons a l ih =>
    intro x1 y1 k k' x' y' hl h
    obtain ⟨p, n⟩ := a
    unfold place at h
    by_cases hn : n = 0
    · rw [if_pos hn] at h
      obtain ⟨bs, h1, h2⟩ := ih x1 y1 k k' x' y' hl h
      exact ⟨[] :: bs, by simpa using h1, .cons ⟨by simp [hn], by simp⟩ h2⟩
    · rw [if_neg hn] at h
      dsimp only at h
      generalize hg : genPos real u inR p.1 p.2 r1 n [] [] k = s at h
      obtain ⟨⟨b, sx, sy⟩, k1⟩ := s
      cases b with
      | false => simp at h
      | true =>
        simp only [if_true] at h
        obtain ⟨g1, g2, g3⟩ := C148_circle u hu n p.1 p.2 r1 [] [] sx sy inR defaultMaxIter k k1 hg
        obtain ⟨bs, h1, h2⟩ := ih _ _ _ _ _ _ (by simp [hl, g1, g2]) h
        refine ⟨sx.zip sy :: bs, ?_, .cons ⟨by simp [g1, g2], g3⟩ h2⟩
        rw [h1, List.zip_append hl]
        simp

/-- Spec: the fraction of a circle that is in the region, from 200 positions drawn in the circle -/
noncomputable def fillOf (u : Nat → ℝ) (inR : ℝ → ℝ → Bool) (r1 : ℝ) (p : ℝ × ℝ) (k : Nat) : ℝ :=
  (((circles real u 200 p.1 p.2 r1 k).1.1.zip (circles real u 200 p.1 p.2 r1 k).1.2).filter fun q => inR q.1 q.2).length / 200

theorem fills_eq (u : Nat → ℝ) (inR : ℝ → ℝ → Bool) (r1 : ℝ) : ∀ (l : List (ℝ × ℝ)) (k : Nat), (fills real u inR r1 l k).1 = l.mapIdx (fun i p => fillOf u inR r1 p (k + 400 * i)) := by
  intro l
  induction l with
  | nil => intro k; rfl
  | cons p l ih =>
    intro k
    have hlen := circles_length real u 200 p.1 p.2 r1 k
    unfold fills getFill
    dsimp only
    rw [List.mapIdx_cons, ih]
    have hz : List.zipWith inR (circles real u 200 p.1 p.2 r1 k).1.1 (circles real u 200 p.1 p.2 r1 k).1.2 =
        ((circles real u 200 p.1 p.2 r1 k).1.1.zip (circles real u 200 p.1 p.2 r1 k).1.2).map fun q => inR q.1 q.2 := by
      rw [List.zip_eq_zipWith, List.map_zipWith]
    congr 1
    · unfold fillOf
      rw [hz, List.filter_map, List.length_map, List.length_map, List.length_zip, hlen.1, hlen.2]
      norm_num
    · congr 1
      funext i q
      have : (circles real u 200 p.1 p.2 r1 k).2 = k + 400 := rfl
      rw [this, show k + 400 + 400 * i = k + 400 * (i + 1) by ring]

/-- One level of the construction: around each position of the level before, there are new ones within the radius of the level and in the region. Their number is that of
the options multiplied by the filling factor of the cell divided by the mean one, rounded down or, if it is not an integer, up. -/
theorem C149_level (u : Nat → ℝ) (hu : Unit01 u) (inR : ℝ → ℝ → Bool) (maxIter eta : Nat) (r1 : ℝ) (x y x' y' : List ℝ) (k k' : Nat)
    (h : level real u inR maxIter eta r1 x y k = .ok ((true, x', y'), k')) :
    let c := x.zip y
    let F := c.mapIdx fun i p => fillOf u inR r1 p (k + 400 * i)
    let e := fun i => (eta : ℝ) * (F.getD i 0 / (F.sum / c.length))
    ∃ bs : List (List (ℝ × ℝ)), x'.zip y' = bs.flatten ∧ bs.length = c.length ∧ ∀ (i : Nat) (p : ℝ × ℝ) (b : List (ℝ × ℝ)), c[i]? = some p → bs[i]? = some b →
      (b.length = ⌊e i⌋₊ ∨ (b.length = ⌊e i⌋₊ + 1 ∧ e i ≠ ⌊e i⌋₊)) ∧ ∀ q ∈ b, inR q.1 q.2 = true ∧ (q.1 - p.1) ^ 2 + (q.2 - p.2) ^ 2 ≤ r1 ^ 2 := by
  unfold level at h
  dsimp only at h
  rw [fills_eq] at h
  obtain ⟨-, -, h⟩ := Res.bind_eq_ok.1 h
  intro c F e
  have hF : (c.mapIdx fun i p => fillOf u inR r1 p (k + 400 * i)) = F := rfl
  have hFl : F.length = c.length := by simp [F]
  rw [show (x.zip y).mapIdx (fun i p => fillOf u inR r1 p (k + 400 * i)) = F from rfl] at h
  generalize hs : passes u maxIter (assign eta (F.map (· / (F.sum / (F.length : ℝ))))) _ _ = s at h
  have hc := passes_cell u maxIter (assign eta (F.map (· / (F.sum / (F.length : ℝ))))) (eta * x.length - ((assign eta (F.map (· / (F.sum / (F.length : ℝ))))).map Prod.fst).sum) (fills real u inR r1 (x.zip y) k).2
  rw [hs] at hc
  split at h
  · simp at h
  · generalize ht : place real u inR r1 ((x.zip y).zip (s.1.1.map Prod.fst)) [] [] s.2 = t at h
    obtain ⟨⟨b, tx, ty⟩, tk⟩ := t
    cases b with
    | false => simp at h
    | true =>
      simp only [if_true, Res.ok.injEq, Prod.mk.injEq, true_and] at h
      obtain ⟨⟨rfl, rfl⟩, rfl⟩ := h
      obtain ⟨bs, h1, h2⟩ := place_cells hu inR r1 _ _ _ _ _ _ _ rfl ht
      have hsl : s.1.1.length = c.length := by rw [← hc.length_eq]; simp [assign, hFl]
      have hbl : bs.length = c.length := by rw [← h2.length_eq]; simp [hsl, c]
      refine ⟨bs, by simpa using h1, hbl, fun i p b hp hb => ?_⟩
      have hi : i < c.length := (List.getElem?_eq_some_iff.1 hp).1
      have g2 := (List.forall₂_iff_get.1 h2).2 i (by simp [hsl, c] at hi ⊢; omega) (by omega)
      have g1 := (List.forall₂_iff_get.1 hc).2 i (by simp [assign, hFl]; exact hi) (by omega)
      simp only [List.get_eq_getElem, List.getElem_zip, List.getElem_map, assign] at g1 g2
      have hp' : (x.zip y)[i] = p := (List.getElem?_eq_some_iff.1 hp).2
      have hb' : bs[i] = b := (List.getElem?_eq_some_iff.1 hb).2
      rw [List.getElem_zip] at hp'
      have he : e i = (eta : ℝ) * (F[i] / (F.sum / (F.length : ℝ))) := by
        simp only [e, hFl, List.getD_eq_getElem?_getD, List.getElem?_eq_getElem (show i < F.length by omega), Option.getD_some]
      subst hp'
      rw [hb'] at g2
      rw [he, g2.1]
      refine ⟨?_, g2.2⟩
      rcases g1 with g1 | ⟨g0, g1⟩
      · left; rw [g1]
      · right
        rw [g1]
        exact ⟨rfl, fun h => g0 (sub_eq_zero.2 h)⟩

/-- one position and a region without limit: the hypothesis of `C149_level`, with one new position -/
example : level real exU (fun _ _ => true) 5 1 (1 / 2) [3] [4] 0 = .ok ((true, [3 + 1 / 2 * (9 / 10)], [4]), 402) := exLevel 0 rfl 5 3 4 (1 / 2)

/-- The positions of `randpos_power_circle` are not "within a circle centered at (x0,y0) and radius r0": with two levels, one position per level and a region without limit, the position
is one and a half times as far as the radius of the circle. -/
theorem C149_circle_refuted : ∃ k', powerCircle real exU 0 0 1 [] [] (fun _ _ _ => true) ⟨3 / 2, 1, none, 2, 1000⟩ 0 = .ok ((true, [3 / 2], [0]), k') := by
  unfold powerCircle
  simp only [show ¬ (2 ≤ 1) by omega, if_false, Option.getD_none, exGen 0 0 1 0 rfl, if_true, show ¬ (2 = 0) by omega]
  simp only [show 2 - 1 = 0 + 1 by omega, levelLoop, if_true, Nat.zero_add]
  rw [exLevel 2 rfl]
  simp only [Res.ok_bind, if_true]
  exact ⟨404, by norm_num⟩

/-! #### `max_iter` -/

/-- `max_iter` ("maximum number of internal iterations for rejection sampling") is not used for rejection sampling: whatever its value, the call fails after 1000 positions out of the region. -/
theorem C149_max_iter_refuted (u : Nat → ℝ) (x0 y0 r0 lambda : ℝ) (inR : ℝ → ℝ → ℝ → Bool) (x y : List ℝ)
    (h : ∀ q ∈ draws (circlePos real u x0 y0 r0) 1000 0, inR q.1 q.2 0 = false) (maxIter : Nat) :
    ∃ r, powerCircle real u x0 y0 r0 x y inR ⟨lambda, 1, none, 1, maxIter⟩ 0 = .ok r ∧ r.1.1 = false := by
  have hg : (genPos real u (fun a b => inR a b 0) x0 y0 r0 1 x y 0).1.1 = false := by
    unfold genPos uniformCircle
    rw [if_neg Nat.one_ne_zero]
    obtain ⟨m, -, -, h3⟩ := rejection_spec (circlePos real u x0 y0 r0) (fun a b => inR a b 0) x y 1 defaultMaxIter 0
    rcases h3 with ⟨-, b, -, d, -⟩ | ⟨a, -⟩
    · exfalso
      have hm : m ≤ 1000 := by
        have : turns defaultMaxIter = 1000 := rfl
        rw [this] at d; omega
      have : (draws (circlePos real u x0 y0 r0) m 0).filter (fun p => inR p.1 p.2 0) = [] := by
        rw [List.filter_eq_nil_iff]
        intro q hq
        have : q ∈ draws (circlePos real u x0 y0 r0) (m + (1000 - m)) 0 := by
          rw [draws_add]; exact List.mem_append_left _ hq
        rw [show m + (1000 - m) = 1000 by omega] at this
        simp [h q this]
      rw [this] at b
      simp at b
    · exact a
  refine ⟨genPos real u (fun a b => inR a b 0) x0 y0 r0 1 x y 0, ?_, hg⟩
  unfold powerCircle
  simp only [show 1 ≤ 1 by omega, if_true, Option.getD_none, hg]
  simp

/-- such a case; the first position to the right of the center is number 1001 -/
noncomputable example : ∃ u : Nat → ℝ, Unit01 u ∧ (∀ q ∈ draws (circlePos real u 0 0 1) 1000 0, (fun a _ _ : ℝ => decide (0 < a)) q.1 q.2 0 = false) ∧
    ∃ q ∈ draws (circlePos real u 0 0 1) 1001 0, (fun a _ _ : ℝ => decide (0 < a)) q.1 q.2 0 = true := by
  have hsq : Real.sqrt (1 / 4) = 1 / 2 := by
    rw [show (1 / 4 : ℝ) = (1 / 2) ^ 2 by norm_num]; exact Real.sqrt_sq (by norm_num)
  refine ⟨fun i => if i % 2 = 1 then 1 / 4 else if i < 2000 then 1 / 2 else 0, ?_, ?_, ?_⟩
  · intro i; dsimp only; split
    · norm_num
    · split <;> norm_num
  · intro q hq
    obtain ⟨i, hi, rfl⟩ := mem_draws_circle _ _ _ _ _ _ _ hq
    refine decide_eq_false ?_
    simp only [circlePos, real]
    rw [if_neg (show ¬ (0 + 2 * i) % 2 = 1 by omega), if_pos (show 0 + 2 * i < 2000 by omega), if_pos (show (0 + 2 * i + 1) % 2 = 1 by omega), hsq]
    rw [show (1 / 2 * 2 * Real.pi) = Real.pi by ring, Real.cos_pi]
    norm_num
  · refine ⟨_, draws_circle _ _ _ _ _ 1001 0 1000 (by omega), ?_⟩
    refine decide_eq_true ?_
    simp only [circlePos, real]
    norm_num

end Verif.RandPos
