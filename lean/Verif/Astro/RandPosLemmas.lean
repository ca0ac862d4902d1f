import Verif.Astro.RandPos
import Mathlib.Analysis.SpecialFunctions.Trigonometric.Basic
import Mathlib.Analysis.Complex.Norm
import Mathlib.Algebra.Order.BigOperators.Group.List
import Mathlib.Tactic.Ring
import Mathlib.Tactic.Linarith
import Mathlib.Tactic.FieldSimp
/-!
# Random positions: lemmas
-/
namespace Verif.RandPos
open Verif

/-- the `m` next positions of a generator -/
def draws {P : Type} (gen : Gen P) : Nat → Nat → List P
  | 0, _ => []
  | m + 1, k => (gen k).1 :: draws gen m (gen k).2

/-- its state after `m` positions -/
def after {P : Type} (gen : Gen P) : Nat → Nat → Nat
  | 0, k => k
  | m + 1, k => after gen m (gen k).2

theorem draws_length {P : Type} (gen : Gen P) (m k : Nat) : (draws gen m k).length = m := by
  induction m generalizing k with
  | zero => rfl
  | succ m ih => simp [draws, ih]

theorem draws_add {P : Type} (gen : Gen P) (a b k : Nat) : draws gen (a + b) k = draws gen a k ++ draws gen b (after gen a k) := by
  induction a generalizing k with
  | zero => simp [draws, after]
  | succ a ih => rw [show a + 1 + b = (a + b) + 1 by omega]; simp [draws, after, ih]

theorem after_add {P : Type} (gen : Gen P) (a b k : Nat) : after gen (a + b) k = after gen b (after gen a k) := by
  induction a generalizing k with
  | zero => simp [after]
  | succ a ih => rw [show a + 1 + b = (a + b) + 1 by omega]; simp [after, ih]

theorem draws_mem {P : Type} (gen : Gen P) {Q : P → Prop} (h : ∀ k, Q (gen k).1) (m k : Nat) : ∀ p ∈ draws gen m k, Q p := by
  induction m generalizing k with
  | zero => simp [draws]
  | succ m ih =>
    intro p hp
    simp only [draws, List.mem_cons] at hp
    rcases hp with rfl | hp
    · exact h k
    · exact ih _ p hp

section
variable {K : Type} [Field K]

theorem retry_some {gen : Gen (K × K)} {inR : K → K → Bool} {n k k' : Nat} {p : K × K} (h : retry gen inR n (gen k) = (some p, k')) :
    ∃ out, out.length < n ∧ draws gen (out.length + 1) k = out ++ [p] ∧ (∀ q ∈ out, inR q.1 q.2 = false) ∧ inR p.1 p.2 = true ∧ k' = after gen (out.length + 1) k := by
  induction n generalizing k with
  | zero => simp [retry] at h
  | succ n ih =>
    unfold retry at h
    split at h
    · rename_i hin
      simp only [Prod.mk.injEq, Option.some.injEq] at h
      refine ⟨[], by simp, by simp [draws, h.1], by simp, by rw [← h.1]; exact hin, by simp [after, h.2]⟩
    · rename_i hin
      split at h
      · simp at h
      · obtain ⟨out, h1, h2, h3, h4, h5⟩ := ih h
        refine ⟨(gen k).1 :: out, by simp; omega, ?_, ?_, h4, ?_⟩
        · rw [List.length_cons, draws, h2]; rfl
        · intro q hq
          rcases List.mem_cons.1 hq with rfl | hq
          · simpa using hin
          · exact h3 q hq
        · rw [List.length_cons, after]; exact h5

theorem retry_none {gen : Gen (K × K)} {inR : K → K → Bool} {n k k' : Nat} (hn : n ≠ 0) (h : retry gen inR n (gen k) = (none, k')) :
    (∀ q ∈ draws gen n k, inR q.1 q.2 = false) ∧ k' = after gen (n + 1) k := by
  induction n generalizing k with
  | zero => simp at hn
  | succ n ih =>
    unfold retry at h
    split at h
    · simp at h
    · rename_i hin
      split at h
      · rename_i h0
        subst h0
        simp only [Prod.mk.injEq, true_and] at h
        refine ⟨?_, by simp [after, h]⟩
        intro q hq
        simp only [draws, List.mem_cons, List.not_mem_nil, or_false] at hq
        subst hq
        simpa using hin
      · rename_i h0
        obtain ⟨h1, h2⟩ := ih h0 h
        refine ⟨?_, by rw [after]; exact h2⟩
        intro q hq
        rw [draws] at hq
        rcases List.mem_cons.1 hq with rfl | hq
        · simpa using hin
        · exact h1 q hq

theorem turns_pos (m : Nat) : turns m ≠ 0 := by unfold turns; split <;> omega

theorem take_set_eq {α : Type} (x : List α) (i : Nat) (a : α) (h : i < x.length) : (x.set i a).take (i + 1) = x.take i ++ [a] := by
  rw [List.take_add_one, List.take_set_of_le (le_refl i)]
  simp [h]

/-- everything about the loop -/
theorem rejLoop_spec (gen : Gen (K × K)) (inR : K → K → Bool) (maxIter : Nat) : ∀ (n i : Nat) (x y : List K) (k : Nat), i + n ≤ x.length → i + n ≤ y.length →
    ∃ m, let sel := (draws gen m k).filter fun p => inR p.1 p.2
      let r := rejLoop gen inR maxIter n i x y k
      r.1.2.1 = x.take i ++ sel.map Prod.fst ++ x.drop (i + sel.length) ∧ r.1.2.2 = y.take i ++ sel.map Prod.snd ++ y.drop (i + sel.length) ∧
      ((r.1.1 = true ∧ sel.length = n ∧ r.2 = after gen m k ∧ m ≤ n * turns maxIter ∧ (n = 0 → m = 0) ∧ (n ≠ 0 → ∃ p, (draws gen m k).getLast? = some p ∧ inR p.1 p.2 = true)) ∨
       (r.1.1 = false ∧ sel.length < n ∧ r.2 = after gen (m + turns maxIter + 1) k ∧ ∀ q ∈ draws gen (turns maxIter) (after gen m k), inR q.1 q.2 = false)) := by
  intro n
  induction n with
  | zero =>
    intro i x y k hx hy
    refine ⟨0, ?_⟩
    simp [draws, rejLoop, after]
  | succ n ih =>
    intro i x y k hx hy
    cases hs : retry gen inR (turns maxIter) (gen k) with
    | mk o k1 =>
      cases o with
      | none =>
        obtain ⟨h1, h2⟩ := retry_none (turns_pos _) hs
        refine ⟨0, ?_⟩
        simp only [rejLoop, hs]
        simpa [draws, after, h2] using h1
      | some p =>
        obtain ⟨out, h1, h2, h3, h4, h5⟩ := retry_some hs
        obtain ⟨m, ih⟩ := ih (i + 1) (x.set i p.1) (y.set i p.2) k1 (by rw [List.length_set]; omega) (by rw [List.length_set]; omega)
        refine ⟨out.length + 1 + m, ?_⟩
        have hd : draws gen (out.length + 1 + m) k = out ++ [p] ++ draws gen m k1 := by rw [draws_add, h2, ← h5]
        have ho : out.filter (fun p => inR p.1 p.2) = [] := by
          rw [List.filter_eq_nil_iff]; intro q hq; simp [h3 q hq]
        have hsel : (draws gen (out.length + 1 + m) k).filter (fun p => inR p.1 p.2) = p :: (draws gen m k1).filter fun p => inR p.1 p.2 := by
          rw [hd, List.filter_append, List.filter_append, ho]; simp [h4]
        have hr : rejLoop gen inR maxIter (n + 1) i x y k = rejLoop gen inR maxIter n (i + 1) (x.set i p.1) (y.set i p.2) k1 := by
          simp only [rejLoop, hs]
        dsimp only at ih ⊢
        rw [hsel, hr]
        generalize hS : (draws gen m k1).filter (fun p => inR p.1 p.2) = S at ih ⊢
        obtain ⟨i1, i2, i3⟩ := ih
        refine ⟨?_, ?_, ?_⟩
        · rw [i1, take_set_eq x i _ (by omega), List.drop_set_of_lt (by omega)]
          simp only [List.map_cons, List.length_cons, List.append_assoc, List.cons_append, List.nil_append]
          rw [show i + (S.length + 1) = i + 1 + S.length by omega]
        · rw [i2, take_set_eq y i _ (by omega), List.drop_set_of_lt (by omega)]
          simp only [List.map_cons, List.length_cons, List.append_assoc, List.cons_append, List.nil_append]
          rw [show i + (S.length + 1) = i + 1 + S.length by omega]
        · rcases i3 with ⟨a, b, c, c1, c2, d⟩ | ⟨a, b, c, d⟩
          · refine Or.inl ⟨a, by simp [b], by rw [c, after_add, ← h5], by rw [Nat.add_mul]; omega, by simp, fun _ => ?_⟩
            rw [hd]
            by_cases hn : n = 0
            · exact ⟨p, by rw [c2 hn]; simp [draws], h4⟩
            · obtain ⟨q, hq1, hq2⟩ := d hn
              refine ⟨q, ?_, hq2⟩
              rw [List.getLast?_append, hq1]; rfl
          · refine Or.inr ⟨a, by simp; omega, ?_, ?_⟩
            · rw [c, show out.length + 1 + m + turns maxIter + 1 = (out.length + 1) + (m + turns maxIter + 1) by omega, after_add gen (out.length + 1), ← h5]
            · rw [after_add, ← h5]; exact d

theorem resize_length (x : List K) (n : Nat) : (resize x n).length = n := by
  simp [resize]; omega

theorem zip_map {α β : Type} (l : List (α × β)) : (l.map Prod.fst).zip (l.map Prod.snd) = l := by
  induction l with
  | nil => rfl
  | cons a l ih => simp [ih]

/-- `rejection_sampling` -/
theorem rejection_spec (gen : Gen (K × K)) (inR : K → K → Bool) (x y : List K) (n maxIter k : Nat) :
    ∃ m, let sel := (draws gen m k).filter fun p => inR p.1 p.2
      let r := rejectionSampling gen inR x y n maxIter k
      r.1.2.1 = sel.map Prod.fst ++ (resize x n).drop sel.length ∧ r.1.2.2 = sel.map Prod.snd ++ (resize y n).drop sel.length ∧
      ((r.1.1 = true ∧ sel.length = n ∧ r.2 = after gen m k ∧ m ≤ n * turns maxIter ∧ (n = 0 → m = 0) ∧
          (n ≠ 0 → ∃ p, (draws gen m k).getLast? = some p ∧ inR p.1 p.2 = true)) ∨
       (r.1.1 = false ∧ sel.length < n ∧ r.2 = after gen (m + turns maxIter + 1) k ∧ ∀ q ∈ draws gen (turns maxIter) (after gen m k), inR q.1 q.2 = false)) := by
  have := rejLoop_spec gen inR maxIter n 0 (resize x n) (resize y n) k (by rw [resize_length]; omega) (by rw [resize_length]; omega)
  simpa [rejectionSampling] using this

/-- what a successful call gives -/
theorem rejection_ok {gen : Gen (K × K)} {inR : K → K → Bool} {x y x' y' : List K} {n maxIter k k' : Nat}
    (h : rejectionSampling gen inR x y n maxIter k = ((true, x', y'), k')) :
    x'.length = n ∧ y'.length = n ∧ ∃ m, k' = after gen m k ∧ x'.zip y' = (draws gen m k).filter fun p => inR p.1 p.2 := by
  obtain ⟨m, h1, h2, h3⟩ := rejection_spec gen inR x y n maxIter k
  rw [h] at h1 h2 h3
  rcases h3 with ⟨-, b, c, -⟩ | ⟨a, -⟩
  · rw [List.drop_eq_nil_of_le (by rw [resize_length]; omega), List.append_nil] at h1 h2
    change x' = _ at h1
    change y' = _ at h2
    refine ⟨by rw [h1]; simpa using b, by rw [h2]; simpa using b, m, c, ?_⟩
    rw [h1, h2, zip_map]
  · exact absurd a (by simp)

end

/-! ### Real numbers -/

/-- the functions of the real numbers -/
noncomputable def real : Trig ℝ := ⟨Real.cos, Real.sin, Real.sqrt, Real.pi⟩

/-- the values that `randomu` returns -/
def Unit01 (u : Nat → ℝ) : Prop := ∀ i, 0 ≤ u i ∧ u i < 1

/-- inside of a circle -/
def Near (x0 y0 r : ℝ) (p : ℝ × ℝ) : Prop := (p.1 - x0) ^ 2 + (p.2 - y0) ^ 2 ≤ r ^ 2

theorem near_polar (x0 y0 r0 v t : ℝ) (h0 : 0 ≤ v) (h1 : v < 1) :
    Near x0 y0 r0 (x0 + r0 * Real.sqrt v * Real.cos t, y0 + r0 * Real.sqrt v * Real.sin t) := by
  have e : (x0 + r0 * Real.sqrt v * Real.cos t - x0) ^ 2 + (y0 + r0 * Real.sqrt v * Real.sin t - y0) ^ 2 = r0 ^ 2 * v := by
    have := Real.sin_sq_add_cos_sq t
    have := Real.sq_sqrt h0
    calc _ = r0 ^ 2 * Real.sqrt v ^ 2 * (Real.sin t ^ 2 + Real.cos t ^ 2) := by ring
      _ = _ := by rw [‹Real.sin t ^ 2 + _ = 1›, this, mul_one]
  unfold Near
  rw [e]
  nlinarith [sq_nonneg r0]

theorem Near.trans {x0 y0 a b : ℝ} {p q : ℝ × ℝ} (ha : 0 ≤ a) (hb : 0 ≤ b) (h1 : Near x0 y0 a p) (h2 : Near p.1 p.2 b q) : Near x0 y0 (a + b) q := by
  unfold Near at *
  have key : (p.1 - x0) * (q.1 - p.1) + (p.2 - y0) * (q.2 - p.2) ≤ a * b := by
    have hsq : ((p.1 - x0) * (q.1 - p.1) + (p.2 - y0) * (q.2 - p.2)) ^ 2 ≤ (a * b) ^ 2 := by
      have c : ((p.1 - x0) * (q.1 - p.1) + (p.2 - y0) * (q.2 - p.2)) ^ 2 ≤ ((p.1 - x0) ^ 2 + (p.2 - y0) ^ 2) * ((q.1 - p.1) ^ 2 + (q.2 - p.2) ^ 2) := by
        nlinarith [sq_nonneg ((p.1 - x0) * (q.2 - p.2) - (p.2 - y0) * (q.1 - p.1))]
      rw [mul_pow]
      exact c.trans (mul_le_mul h1 h2 (by positivity) (by positivity))
    exact abs_le_of_sq_le_sq' hsq (mul_nonneg ha hb) |>.2
  nlinarith

theorem near_circlePos {u : Nat → ℝ} (hu : Unit01 u) (x0 y0 r0 : ℝ) (k : Nat) : Near x0 y0 r0 (circlePos real u x0 y0 r0 k).1 :=
  near_polar x0 y0 r0 _ _ (hu (k + 1)).1 (hu (k + 1)).2

theorem circles_length {K : Type} [Field K] (T : Trig K) (u : Nat → K) (n : Nat) (x0 y0 r0 : K) (k : Nat) :
    (circles T u n x0 y0 r0 k).1.1.length = n ∧ (circles T u n x0 y0 r0 k).1.2.length = n := by simp [circles]

theorem near_circles {u : Nat → ℝ} (hu : Unit01 u) (n : Nat) (x0 y0 r0 : ℝ) (k : Nat) :
    ∀ p ∈ (circles real u n x0 y0 r0 k).1.1.zip (circles real u n x0 y0 r0 k).1.2, Near x0 y0 r0 p := by
  intro p hp
  obtain ⟨i, hi, rfl⟩ := List.mem_iff_getElem.1 hp
  simp only [circles, List.getElem_zip, List.getElem_zipWith, List.getElem_map, List.getElem_range]
  exact near_polar x0 y0 r0 _ _ (hu _).1 (hu _).2

/-! ### `randpos_power_base` -/

theorem baseRow_spec {u : Nat → ℝ} (hu : Unit01 u) (eta : Nat) (r : ℝ) (hr : 0 ≤ r) (x0 y0 a : ℝ) (ha : 0 ≤ a) : ∀ (l : List (ℝ × ℝ)) (nx ny : List ℝ) (k : Nat),
    (∀ p ∈ l, Near x0 y0 a p) → nx.length = ny.length → (∀ p ∈ nx.zip ny, Near x0 y0 (a + r) p) →
    (baseRow real u eta r l nx ny k).1.1.length = nx.length + eta * l.length ∧ (baseRow real u eta r l nx ny k).1.2.length = nx.length + eta * l.length ∧
      ∀ p ∈ (baseRow real u eta r l nx ny k).1.1.zip (baseRow real u eta r l nx ny k).1.2, Near x0 y0 (a + r) p := by
  intro l
  induction l with
  | nil => intro nx ny k _ h1 h2; simp [baseRow, ← h1]; simpa using h2
  | cons p l ih =>
    intro nx ny k hl h1 h2
    have hc := circles_length real u eta p.1 p.2 r k
    have hn := near_circles hu eta p.1 p.2 r k
    have := ih (nx ++ (circles real u eta p.1 p.2 r k).1.1) (ny ++ (circles real u eta p.1 p.2 r k).1.2) (circles real u eta p.1 p.2 r k).2
      (fun q hq => hl q (by simp [hq])) (by simp [hc, h1]) (by
        intro q hq
        rw [List.zip_append h1] at hq
        rcases List.mem_append.1 hq with hq | hq
        · exact h2 q hq
        · exact Near.trans ha hr (hl p (by simp)) (hn q hq))
    simp only [baseRow]
    refine ⟨?_, ?_, this.2.2⟩
    · rw [this.1]; simp [hc]; ring
    · rw [this.2.1]; simp [hc]; ring

/-- the sum of the radii of `n` levels -/
noncomputable def reach (r lambda : ℝ) : Nat → ℝ
  | 0 => 0
  | n + 1 => r + reach (r / lambda) lambda n

theorem reach_eq (r lambda : ℝ) (n : Nat) : reach r lambda n = ∑ l ∈ Finset.range n, r / lambda ^ l := by
  induction n generalizing r with
  | zero => simp [reach]
  | succ n ih =>
    rw [reach, ih, Finset.sum_range_succ']
    simp only [pow_zero, div_one]
    rw [add_comm]
    congr 1
    refine Finset.sum_congr rfl fun l _ => ?_
    rw [div_div, pow_succ, mul_comm]

theorem reach_nonneg {r lambda : ℝ} (hr : 0 ≤ r) (hl : 0 < lambda) (n : Nat) : 0 ≤ reach r lambda n := by
  induction n generalizing r with
  | zero => simp [reach]
  | succ n ih => unfold reach; exact add_nonneg hr (ih (by positivity))

theorem baseLoop_spec {u : Nat → ℝ} (hu : Unit01 u) (o : Opt ℝ) (hl : 0 < o.lambda) (x0 y0 : ℝ) : ∀ (n : Nat) (r a : ℝ) (x y : List ℝ) (k : Nat), 0 ≤ r → 0 ≤ a → x.length = y.length →
    (∀ p ∈ x.zip y, Near x0 y0 a p) →
    (baseLoop real u o n r x y k).1.1.length = x.length * o.eta ^ n ∧ (baseLoop real u o n r x y k).1.2.length = x.length * o.eta ^ n ∧
      ∀ p ∈ (baseLoop real u o n r x y k).1.1.zip (baseLoop real u o n r x y k).1.2, Near x0 y0 (a + reach r o.lambda n) p := by
  intro n
  induction n with
  | zero => intro r a x y k _ _ h1 h2; simp [baseLoop, reach, ← h1]; simpa using h2
  | succ n ih =>
    intro r a x y k hr ha h1 h2
    obtain ⟨b1, b2, b3⟩ := baseRow_spec hu o.eta r hr x0 y0 a ha (x.zip y) [] [] k h2 rfl (by simp)
    have hz : (x.zip y).length = x.length := by simp [h1]
    rw [hz] at b1 b2
    simp only [List.length_nil, Nat.zero_add] at b1 b2
    obtain ⟨c1, c2, c3⟩ := ih (r / o.lambda) (a + r) _ _ (baseRow real u o.eta r (x.zip y) [] [] k).2 (by positivity) (by positivity) (b1.trans b2.symm) b3
    simp only [baseLoop]
    refine ⟨?_, ?_, ?_⟩
    · rw [c1, b1]; ring
    · rw [c2, b1]; ring
    · intro p hp
      have := c3 p hp
      rw [reach, ← add_assoc]
      exact this

/-! ### `randpos_power_circle` -/

section
variable {K : Type} [Field K] [LinearOrder K]

/-- the assignment keeps the total number of objects -/
theorem pass_sum (u : Nat → K) : ∀ (l : List (Nat × K)) (miss k : Nat), miss ≠ 0 →
    ((pass u l miss k).1.1.map Prod.fst).sum + (pass u l miss k).1.2 = (l.map Prod.fst).sum + miss ∧ (pass u l miss k).1.1.length = l.length := by
  intro l
  induction l with
  | nil => intro miss k _; simp [pass]
  | cons a l ih =>
    intro miss k hm
    obtain ⟨g, d⟩ := a
    unfold pass
    split
    · split
      · split
        · simp; omega
        · rename_i h
          have := ih (miss - 1) (k + 1) h
          simp only [List.map_cons, List.sum_cons, List.length_cons]
          omega
      · have := ih miss (k + 1) hm
        simp only [List.map_cons, List.sum_cons, List.length_cons]
        omega
    · have := ih miss k hm
      simp only [List.map_cons, List.sum_cons, List.length_cons]
      omega

theorem passes_sum (u : Nat → K) : ∀ (n : Nat) (l : List (Nat × K)) (miss k : Nat),
    ((passes u n l miss k).1.1.map Prod.fst).sum + (passes u n l miss k).1.2 = (l.map Prod.fst).sum + miss ∧ (passes u n l miss k).1.1.length = l.length := by
  intro n
  induction n with
  | zero => intro l miss k; simp [passes]
  | succ n ih =>
    intro l miss k
    unfold passes
    split
    · exact ⟨rfl, rfl⟩
    · rename_i h
      have h1 := pass_sum u l miss k h
      have h2 := ih (pass u l miss k).1.1 (pass u l miss k).1.2 (pass u l miss k).2
      dsimp only
      omega
end

theorem fills_length {K : Type} [Field K] (T : Trig K) (u : Nat → K) (inR : K → K → Bool) (r1 : K) : ∀ (l : List (K × K)) (k : Nat), (fills T u inR r1 l k).1.length = l.length := by
  intro l
  induction l with
  | nil => intro k; rfl
  | cons p l ih => intro k; simp [fills, ih]

theorem fills_nonneg (T : Trig ℝ) (u : Nat → ℝ) (inR : ℝ → ℝ → Bool) (r1 : ℝ) : ∀ (l : List (ℝ × ℝ)) (k : Nat), ∀ f ∈ (fills T u inR r1 l k).1, 0 ≤ f := by
  intro l
  induction l with
  | nil => intro k; simp [fills]
  | cons p l ih =>
    intro k f hf
    simp only [fills, List.mem_cons] at hf
    rcases hf with rfl | hf
    · unfold getFill; dsimp only; positivity
    · exact ih _ f hf

theorem floor_sum_le (eta : Nat) (l : List ℝ) (h : ∀ f ∈ l, 0 ≤ f) : (((assign eta l).map Prod.fst).sum : ℝ) ≤ eta * l.sum := by
  induction l with
  | nil => simp [assign]
  | cons a l ih =>
    have h1 : ((⌊(eta : ℝ) * a⌋₊ : Nat) : ℝ) ≤ eta * a := Nat.floor_le (mul_nonneg (Nat.cast_nonneg _) (h a (by simp)))
    have h2 := ih fun f hf => h f (by simp [hf])
    simp only [assign, List.map_cons, List.sum_cons, Nat.cast_add] at *
    linarith

theorem sum_div_eq (l : List ℝ) (c : ℝ) : (l.map (· / c)).sum = l.sum / c := by
  induction l with
  | nil => simp
  | cons a l ih => simp [ih, add_div]

theorem genPos_spec {u : Nat → ℝ} (hu : Unit01 u) {inR : ℝ → ℝ → Bool} {x1 y1 r1 : ℝ} {n : Nat} {x y x' y' : List ℝ} {k k' : Nat} (h : genPos real u inR x1 y1 r1 n x y k = ((true, x', y'), k')) :
    x'.length = n ∧ y'.length = n ∧ ∀ p ∈ x'.zip y', inR p.1 p.2 = true ∧ Near x1 y1 r1 p := by
  unfold genPos uniformCircle at h
  split at h
  · rename_i hn
    simp only [Prod.mk.injEq, true_and] at h
    obtain ⟨⟨rfl, rfl⟩, rfl⟩ := h
    simp [hn]
  · obtain ⟨h1, h2, m, -, h3⟩ := rejection_ok h
    refine ⟨h1, h2, fun p hp => ?_⟩
    rw [h3, List.mem_filter] at hp
    exact ⟨hp.2, draws_mem _ (near_circlePos hu x1 y1 r1) m k p hp.1⟩

theorem place_spec {u : Nat → ℝ} (hu : Unit01 u) (inR : ℝ → ℝ → Bool) (r1 : ℝ) (hr : 0 ≤ r1) (x0 y0 a : ℝ) (ha : 0 ≤ a) : ∀ (l : List ((ℝ × ℝ) × Nat)) (x1 y1 : List ℝ) (k k' : Nat) (x' y' : List ℝ),
    (∀ p ∈ l, Near x0 y0 a p.1) → x1.length = y1.length → (∀ p ∈ x1.zip y1, inR p.1 p.2 = true ∧ Near x0 y0 (a + r1) p) →
    place real u inR r1 l x1 y1 k = ((true, x', y'), k') →
    x'.length = x1.length + (l.map Prod.snd).sum ∧ y'.length = x'.length ∧ ∀ p ∈ x'.zip y', inR p.1 p.2 = true ∧ Near x0 y0 (a + r1) p := by
  intro l
  induction l with
  | nil =>
    intro x1 y1 k k' x' y' _ h1 h2 h
    simp only [place, Prod.mk.injEq, true_and] at h
    obtain ⟨⟨rfl, rfl⟩, rfl⟩ := h
    exact ⟨by simp, h1.symm, h2⟩
  | cons p l ih =>
    intro x1 y1 k k' x' y' hl h1 h2 h
    obtain ⟨p, n⟩ := p
    unfold place at h
    split at h
    · rename_i hn
      have := ih x1 y1 k k' x' y' (fun q hq => hl q (by simp [hq])) h1 h2 h
      simpa [hn] using this
    · dsimp only at h
      cases hg : genPos real u inR p.1 p.2 r1 n [] [] k with
      | mk s k1 =>
        obtain ⟨b, sx, sy⟩ := s
        rw [hg] at h
        cases b with
        | false => simp at h
        | true =>
          obtain ⟨g1, g2, g3⟩ := genPos_spec hu hg
          simp only [if_true] at h
          have := ih (x1 ++ sx) (y1 ++ sy) k1 k' x' y' (fun q hq => hl q (by simp [hq])) (by simp [h1, g1, g2]) (by
            intro q hq
            rw [List.zip_append h1] at hq
            rcases List.mem_append.1 hq with hq | hq
            · exact h2 q hq
            · exact ⟨(g3 q hq).1, Near.trans ha hr (hl (p, n) (by simp)) (g3 q hq).2⟩) h
          refine ⟨?_, this.2⟩
          rw [this.1]; simp [g1]; omega

theorem level_spec {u : Nat → ℝ} (hu : Unit01 u) {inR : ℝ → ℝ → Bool} {maxIter eta : Nat} {r1 : ℝ} (hr : 0 ≤ r1) {x0 y0 a : ℝ} (ha : 0 ≤ a) {x y x' y' : List ℝ} {k k' : Nat} (hxy : x.length = y.length)
    (hn : ∀ p ∈ x.zip y, Near x0 y0 a p) (h : level real u inR maxIter eta r1 x y k = .ok ((true, x', y'), k')) :
    x'.length = eta * x.length ∧ y'.length = x'.length ∧ ∀ p ∈ x'.zip y', inR p.1 p.2 = true ∧ Near x0 y0 (a + r1) p := by
  have hz : (x.zip y).length = x.length := by simp [hxy]
  unfold level at h
  generalize hf : fills real u inR r1 (x.zip y) k = f at h
  obtain ⟨f, k1⟩ := f
  have hfl : f.length = x.length := by have := fills_length real u inR r1 (x.zip y) k; rw [hf, hz] at this; exact this
  have hfn : ∀ a ∈ f, 0 ≤ a := by have := fills_nonneg real u inR r1 (x.zip y) k; rw [hf] at this; exact this
  dsimp only at h
  generalize hm : f.sum / (f.length : ℝ) = mf at h
  obtain ⟨_, hc, h⟩ := Res.bind_eq_ok.1 h
  have hc : f = [] ∨ mf ≠ 0 := by
    by_contra hh
    rw [Res.check_neg hh] at hc
    cases hc
  have hmf : 0 ≤ mf := by rw [← hm]; exact div_nonneg (List.sum_nonneg hfn) (by positivity)
  have hsum : ((assign eta (f.map (· / mf))).map Prod.fst).sum ≤ eta * x.length := by
    have h1 := floor_sum_le eta (f.map (· / mf)) (by
      intro a ha
      obtain ⟨b, hb, rfl⟩ := List.mem_map.1 ha
      exact div_nonneg (hfn b hb) hmf)
    rw [sum_div_eq] at h1
    have h2 : f.sum / mf = x.length := by
      rcases hc with rfl | hc
      · simp at hfl; simp [← hfl]
      · have hl : (f.length : ℝ) ≠ 0 := by intro h0; rw [h0, div_zero] at hm; exact hc hm.symm
        have : f.sum = mf * f.length := by rw [← hm]; field_simp
        rw [this, mul_div_assoc, mul_comm, div_mul_cancel₀ _ hc, hfl]
    rw [h2] at h1
    exact_mod_cast h1
  generalize hg : assign eta (f.map (· / mf)) = g at h hsum
  have hgl : g.length = x.length := by rw [← hg]; simp [assign, hfl]
  generalize hp : passes u maxIter g (eta * x.length - (g.map Prod.fst).sum) k1 = s at h
  have hps := passes_sum u maxIter g (eta * x.length - (g.map Prod.fst).sum) k1
  rw [hp] at hps
  split at h
  · simp at h
  · rename_i h0
    have h0 : s.1.2 = 0 := by simpa using h0
    rw [h0] at hps
    generalize ht : place real u inR r1 ((x.zip y).zip (s.1.1.map Prod.fst)) [] [] s.2 = t at h
    obtain ⟨⟨b, tx, ty⟩, k2⟩ := t
    cases b with
    | false => simp at h
    | true =>
      simp only [if_true, Res.ok.injEq, Prod.mk.injEq, true_and] at h
      obtain ⟨⟨rfl, rfl⟩, rfl⟩ := h
      obtain ⟨p1, p2, p3⟩ := place_spec hu inR r1 hr x0 y0 a ha _ [] [] s.2 k2 tx ty (by
        intro p hp
        obtain ⟨p, n⟩ := p
        exact hn p (List.of_mem_zip hp).1) rfl (by simp) ht
      refine ⟨?_, p2, p3⟩
      rw [p1, List.map_snd_zip (by rw [hz, List.length_map, hps.2, hgl])]
      simp only [List.length_nil]
      omega

theorem levelLoop_spec {u : Nat → ℝ} (hu : Unit01 u) (inR : ℝ → ℝ → ℝ → Bool) (o : Opt ℝ) (hl : 0 < o.lambda) (etaEnd : Nat) (x0 y0 : ℝ) : ∀ (n : Nat) (r a : ℝ) (x y x' y' : List ℝ) (k k' : Nat), 0 ≤ r → 0 ≤ a → x.length = y.length →
    (∀ p ∈ x.zip y, Near x0 y0 a p) → (n = 0 → ∀ p ∈ x.zip y, inR p.1 p.2 0 = true) → levelLoop real u inR o etaEnd n r x y k = .ok ((true, x', y'), k') →
    x'.length = (if n = 0 then x.length else x.length * o.eta ^ (n - 1) * etaEnd) ∧ y'.length = x'.length ∧
      ∀ p ∈ x'.zip y', inR p.1 p.2 0 = true ∧ Near x0 y0 (a + reach (r / o.lambda) o.lambda n) p := by
  intro n
  induction n with
  | zero =>
    intro r a x y x' y' k k' hr ha h1 h2 h3 h
    simp only [levelLoop, Res.ok.injEq, Prod.mk.injEq, true_and] at h
    obtain ⟨⟨rfl, rfl⟩, rfl⟩ := h
    exact ⟨by simp, h1.symm, fun p hp => ⟨h3 rfl p hp, by rw [reach, add_zero]; exact h2 p hp⟩⟩
  | succ n ih =>
    intro r a x y x' y' k k' hr ha h1 h2 h3 h
    unfold levelLoop at h
    obtain ⟨⟨⟨b, sx, sy⟩, k1⟩, hs, h⟩ := Res.bind_eq_ok.1 h
    cases b with
    | false => simp at h
    | true =>
      simp only [if_true] at h
      obtain ⟨l1, l2, l3⟩ := level_spec hu (by positivity : 0 ≤ r / o.lambda) ha h1 h2 hs
      obtain ⟨c1, c2, c3⟩ := ih (r / o.lambda) (a + r / o.lambda) sx sy x' y' k1 k' (by positivity) (by positivity) l2.symm (fun p hp => (l3 p hp).2) (by
        intro hn p hp
        have := (l3 p hp).1
        rw [if_pos hn] at this
        exact this) h
      refine ⟨?_, c2, fun p hp => ⟨(c3 p hp).1, ?_⟩⟩
      · rw [c1, l1]
        by_cases hn : n = 0
        · simp [hn]; ring
        · rw [if_neg hn, if_neg hn, if_neg (by omega)]
          obtain ⟨m, rfl⟩ : ∃ m, n = m + 1 := ⟨n - 1, by omega⟩
          simp only [Nat.add_sub_cancel]
          ring
      · rw [reach, ← add_assoc]
        exact (c3 p hp).2

end Verif.RandPos
