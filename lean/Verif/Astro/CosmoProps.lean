import Verif.Astro.Cosmo
import Verif.Math.InterpProps
import Mathlib.MeasureTheory.Integral.IntervalIntegral.Basic
import Mathlib.Analysis.SpecialFunctions.Integrals.Basic
/-!
# C154, C155: cosmological functions and logarithmic ranges
-/
namespace Verif.Cosmo
open Verif Verif.Math
open Verif.StrConv (Fl)

noncomputable section

/-! ### C155: logarithmic ranges -/

theorem rgenLog_eq {i j : ℝ} (hi : 0 < i) (hj : 0 < j) (n : Nat) (hn : n ≠ 1) :
    rgenLog i j n = .ok ((List.range n).map fun k : Nat => i * (j / i) ^ ((k : ℝ) / ((n - 1 : Nat) : ℝ))) := by
  unfold rgenLog
  rw [Res.check_pos ⟨hi, hj⟩, Res.ok_bind, if_neg hn]
  dsimp only
  congr 1
  refine List.map_congr_left fun k _ => ?_
  congr 1
  have h : (10 : ℝ) ^ Real.logb 10 (j / i) = j / i := Real.rpow_logb (by norm_num) (by norm_num) (div_pos hj hi)
  rw [show (k : ℝ) * (Real.logb 10 (j / i) / ((n - 1 : Nat) : ℝ)) = Real.logb 10 (j / i) * ((k : ℝ) / ((n - 1 : Nat) : ℝ)) by ring, Real.rpow_mul (by norm_num), h]

/-- `rgen_log(i, j, n)` has `n` numbers, the first is `i` and the last is `j`, and each of them is the previous one multiplied by the same factor. -/
theorem C155_log {i j : ℝ} (hi : 0 < i) (hj : 0 < j) (n : Nat) (hn : 2 ≤ n) :
    ∃ v q, rgenLog i j n = .ok v ∧ v.length = n ∧ v[0]? = some i ∧ v[n - 1]? = some j ∧ 0 < q ∧ q ^ (n - 1) = j / i ∧
      ∀ (k : Nat) (a b : ℝ), v[k]? = some a → v[k + 1]? = some b → b = q * a := by
  have h0 : ((n - 1 : Nat) : ℝ) ≠ 0 := Nat.cast_ne_zero.2 (by omega)
  have hq : 0 < j / i := div_pos hj hi
  refine ⟨_, (j / i) ^ (1 / ((n - 1 : Nat) : ℝ)), rgenLog_eq hi hj n (by omega), by simp, ?_, ?_, Real.rpow_pos_of_pos hq _, ?_, ?_⟩
  · rw [List.getElem?_map, List.getElem?_range (by omega)]; simp
  · rw [List.getElem?_map, List.getElem?_range (by omega), Option.map_some, div_self h0, Real.rpow_one]
    congr 1
    field_simp
  · rw [← Real.rpow_natCast, ← Real.rpow_mul hq.le, one_div, inv_mul_cancel₀ h0, Real.rpow_one]
  · intro k a b ha hb
    rw [List.getElem?_map] at ha hb
    have hk : k + 1 < n := by
      by_contra hc
      rw [List.getElem?_eq_none (by simp; omega)] at hb
      simp at hb
    rw [List.getElem?_range (by omega), Option.map_some, Option.some.injEq] at ha
    rw [List.getElem?_range hk, Option.map_some, Option.some.injEq] at hb
    rw [← ha, ← hb]
    push_cast
    rw [add_div, Real.rpow_add hq]
    ring

/-- It increases if `i < j`, decreases if `j < i`. -/
theorem C155_order {i j : ℝ} (hi : 0 < i) (hj : 0 < j) (n : Nat) (hn : 2 ≤ n) (v : List ℝ) (h : rgenLog i j n = .ok v) :
    (i < j → v.Pairwise (· < ·)) ∧ (j < i → v.Pairwise (· > ·)) ∧ (i = j → ∀ x ∈ v, x = i) := by
  rw [rgenLog_eq hi hj n (by omega), Res.ok.injEq] at h
  subst h
  have h0 : (0 : ℝ) < ((n - 1 : Nat) : ℝ) := Nat.cast_pos.2 (by omega)
  refine ⟨fun hij => ?_, fun hij => ?_, fun hij => ?_⟩
  · rw [List.pairwise_map]
    refine List.pairwise_lt_range.imp fun {a b} hab => ?_
    refine mul_lt_mul_of_pos_left (Real.rpow_lt_rpow_of_exponent_lt ((one_lt_div hi).2 hij) ?_) hi
    exact div_lt_div_of_pos_right (Nat.cast_lt.2 hab) h0
  · rw [List.pairwise_map]
    refine List.pairwise_lt_range.imp fun {a b} hab => ?_
    refine mul_lt_mul_of_pos_left (Real.rpow_lt_rpow_of_exponent_gt (div_pos hj hi) ((div_lt_one hi).2 hij) ?_) hi
    exact div_lt_div_of_pos_right (Nat.cast_lt.2 hab) h0
  · subst hij
    intro x hx
    obtain ⟨k, -, rfl⟩ := List.mem_map.1 hx
    rw [div_self hi.ne', Real.one_rpow, mul_one]

/-- Bounds that are not positive are an error; one number is the first bound. -/
theorem C155_bounds (i j : ℝ) (n : Nat) : (¬ (0 < i ∧ 0 < j) → rgenLog i j n = .abort) ∧ (0 < i → 0 < j → rgenLog i j 1 = .ok [i]) := by
  constructor
  · intro h
    unfold rgenLog
    rw [Res.check_neg h]; rfl
  · intro hi hj
    unfold rgenLog
    rw [Res.check_pos ⟨hi, hj⟩, Res.ok_bind, if_pos rfl]

/-- one to a hundred in three steps -/
example : rgenLog 1 100 3 = .ok [1, 10, 100] := by
  rw [rgenLog_eq (by norm_num) (by norm_num) 3 (by omega)]
  have : (100 : ℝ) ^ (1 / 2 : ℝ) = 10 := by
    rw [← Real.sqrt_eq_rpow, show (100 : ℝ) = 10 ^ 2 by norm_num, Real.sqrt_sq (by norm_num)]
  simp only [List.range, List.range.loop, List.map_cons, List.map_nil, div_one]
  norm_num [this]

/-! ### C154: the vectorized functions -/

theorem minOf_spec {l : List ℝ} (h : l ≠ []) : ∃ m, minOf l = .ok m ∧ m ∈ l ∧ ∀ x ∈ l, m ≤ x := by
  cases l with
  | nil => exact absurd rfl h
  | cons a l =>
    refine ⟨_, rfl, ?_⟩
    have : ∀ (l : List ℝ) (a : ℝ), l.foldl min a ∈ a :: l ∧ ∀ x ∈ a :: l, l.foldl min a ≤ x := by
      intro l
      induction l with
      | nil => intro a; simp
      | cons b l ih =>
        intro a
        obtain ⟨h1, h2⟩ := ih (min a b)
        rw [List.foldl_cons]
        constructor
        · rcases List.mem_cons.1 h1 with h | h
          · rw [h]
            rcases min_choice a b with e | e <;> rw [e] <;> simp
          · simp [h]
        · intro x hx
          have h3 := h2 (min a b) (by simp)
          rcases List.mem_cons.1 hx with rfl | hx
          · exact h3.trans (min_le_left _ _)
          · rcases List.mem_cons.1 hx with rfl | hx
            · exact h3.trans (min_le_right _ _)
            · exact h2 x (by simp [hx])
    exact this l a

theorem maxOf_spec {l : List ℝ} (h : l ≠ []) : ∃ m, maxOf l = .ok m ∧ m ∈ l ∧ ∀ x ∈ l, x ≤ m := by
  cases l with
  | nil => exact absurd rfl h
  | cons a l =>
    refine ⟨_, rfl, ?_⟩
    have : ∀ (l : List ℝ) (a : ℝ), l.foldl max a ∈ a :: l ∧ ∀ x ∈ a :: l, x ≤ l.foldl max a := by
      intro l
      induction l with
      | nil => intro a; simp
      | cons b l ih =>
        intro a
        obtain ⟨h1, h2⟩ := ih (max a b)
        rw [List.foldl_cons]
        constructor
        · rcases List.mem_cons.1 h1 with h | h
          · rw [h]
            rcases max_choice a b with e | e <;> rw [e] <;> simp
          · simp [h]
        · intro x hx
          have h3 := h2 (max a b) (by simp)
          rcases List.mem_cons.1 hx with rfl | hx
          · exact (le_max_left _ _).trans h3
          · rcases List.mem_cons.1 hx with rfl | hx
            · exact (le_max_right _ _).trans h3
            · exact h2 x (by simp [hx])
    exact this l a

theorem mem_positive {z : List (Option ℝ)} {x : ℝ} : x ∈ positive z ↔ some x ∈ z ∧ 0 < x := by
  unfold positive
  rw [List.mem_filterMap]
  constructor
  · rintro ⟨o, ho, h⟩
    cases o with
    | none => simp at h
    | some y =>
      dsimp only at h
      split at h
      · rename_i hy
        rw [Option.some.injEq] at h
        subst h
        exact ⟨ho, hy⟩
      · simp at h
  · rintro ⟨h1, h2⟩
    exact ⟨some x, h1, by dsimp only; rw [if_pos h2]⟩

theorem interpFl_eq {y x : List ℝ} (h : Increasing x) (hl : y.length = x.length) (hn : 2 ≤ x.length) (t : ℝ) :
    ∃ v i, interpFl y x t = .ok (.fin v) ∧ OnChord y x i t v ∧ ∃ (hi : i + 1 < x.length),
      (x[i] ≤ t ∨ i = 0) ∧ (t < x[i + 1] ∨ i + 2 = x.length) := by
  obtain ⟨v, i, h1, h2⟩ := interpAt_chord h hl hn t
  refine ⟨v, i, ?_, h2⟩
  unfold interpAt at h1
  unfold interpFl
  obtain ⟨low, e1, h1⟩ := Res.bind_eq_ok.1 h1
  rw [e1, Res.ok_bind]
  dsimp only at h1 ⊢
  obtain ⟨ylow, e2, h1⟩ := Res.bind_eq_ok.1 h1
  rw [e2, Res.ok_bind]
  obtain ⟨yup, e3, h1⟩ := Res.bind_eq_ok.1 h1
  rw [e3, Res.ok_bind]
  obtain ⟨xlow, e4, h1⟩ := Res.bind_eq_ok.1 h1
  rw [e4, Res.ok_bind]
  obtain ⟨xup, e5, h1⟩ := Res.bind_eq_ok.1 h1
  rw [e5, Res.ok_bind]
  have hlt : xlow < xup := by
    have a1 : x[interval x.length low]? = some xlow := by
      unfold Res.rd at e4; split at e4
      · rename_i hh; rw [hh]; simpa using e4
      · cases e4
    have a2 : x[interval x.length low + 1]? = some xup := by
      unfold Res.rd at e5; split at e5
      · rename_i hh; rw [hh]; simpa using e5
      · cases e5
    obtain ⟨p1, rfl⟩ := List.getElem?_eq_some_iff.1 a1
    obtain ⟨p2, rfl⟩ := List.getElem?_eq_some_iff.1 a2
    exact h.lt (by omega) p2
  unfold divFl
  rw [if_neg (by linarith)]
  rw [Res.pure_def, Res.ok.injEq] at h1
  simp only [addFl]
  rw [h1]

theorem res_mapM_forall {α β : Type} {f : α → Res β} {P : α → β → Prop} (l : List α) (h : ∀ a ∈ l, ∃ b, f a = .ok b ∧ P a b) :
    ∃ r, l.mapM f = .ok r ∧ r.length = l.length ∧ ∀ (i : Nat) (a : α), l[i]? = some a → ∃ b, r[i]? = some b ∧ f a = .ok b ∧ P a b := by
  induction l with
  | nil => exact ⟨[], rfl, rfl, by simp⟩
  | cons a l ih =>
    obtain ⟨b, h1, h2⟩ := h a (by simp)
    obtain ⟨r, r1, r2, r3⟩ := ih fun a ha => h a (by simp [ha])
    refine ⟨b :: r, ?_, by simp [r2], fun i a' hi => ?_⟩
    · rw [List.mapM_cons, h1, Res.ok_bind, r1, Res.ok_bind]; rfl
    · cases i with
      | zero =>
        simp only [List.getElem?_cons_zero, Option.some.injEq] at hi
        subst hi
        exact ⟨b, rfl, h1, h2⟩
      | succ i => exact r3 i a' (by simpa using hi)

/-- With few numbers the function is computed for each of them. -/
theorem C154_few (f : Func) (npt : Nat) (z : List (Option ℝ)) (hz : z.length < 2 * npt) : f.vector npt z = z.mapM f.scalar := if_pos hz

/-- With many numbers, two of which at least are positive and different: redshifts that are not positive have the exact value. For a positive one, there are two redshifts around it, with a fixed ratio,
such that the value is on the straight line between the exact values for these two. They are within the smallest and the largest redshift. -/
theorem C154_many_partial (f : Func) (g : ℝ → ℝ) (hg : ∀ t, 0 < t → f.pos t = .ok (g t)) (npt : Nat) (hn : 2 ≤ npt) (z : List (Option ℝ)) (hz : 2 * npt ≤ z.length)
    (mi ma : ℝ) (h0 : 0 < mi) (hlt : mi < ma) (h1 : some mi ∈ z) (h2 : some ma ∈ z) (h3 : ∀ t, some t ∈ z → 0 < t → mi ≤ t ∧ t ≤ ma) :
    ∃ r q, f.vector npt z = .ok r ∧ r.length = z.length ∧ 0 < q ∧ q ^ (npt - 1) = ma / mi ∧ ∀ (i : Nat) (t : ℝ), z[i]? = some (some t) →
      (t ≤ 0 → r[i]? = some f.zero) ∧
      (0 < t → ∃ a b v, mi ≤ a ∧ a ≤ t ∧ t ≤ b ∧ b ≤ ma ∧ a < b ∧ b = q * a ∧ r[i]? = some (.fin v) ∧ (v - g a) * (b - a) = (g b - g a) * (t - a)) := by
  have hpos : positive z ≠ [] := List.ne_nil_of_mem (mem_positive.2 ⟨h1, h0⟩)
  obtain ⟨m, m1, m2, m3⟩ := minOf_spec hpos
  obtain ⟨M, M1, M2, M3⟩ := maxOf_spec hpos
  have em : m = mi := le_antisymm (m3 mi (mem_positive.2 ⟨h1, h0⟩)) (h3 m (mem_positive.1 m2).1 (mem_positive.1 m2).2).1
  have eM : M = ma := le_antisymm (h3 M (mem_positive.1 M2).1 (mem_positive.1 M2).2).2 (M3 ma (mem_positive.2 ⟨h2, h0.trans hlt⟩))
  subst em eM
  obtain ⟨tz, q, t1, t2, t3, t4, t5, t6, t7⟩ := C155_log h0 (h0.trans hlt) npt hn
  have hinc : tz.Pairwise (· < ·) := (C155_order h0 (h0.trans hlt) npt hn tz t1).1 hlt
  have hInc : Increasing tz := hinc
  have hge : ∀ x ∈ tz, m ≤ x := by
    intro x hx
    obtain ⟨k, hk⟩ := List.mem_iff_getElem?.1 hx
    obtain ⟨p0, e0⟩ := List.getElem?_eq_some_iff.1 t3
    obtain ⟨p1, e1⟩ := List.getElem?_eq_some_iff.1 hk
    rw [← e0, ← e1]
    exact hInc.le (Nat.zero_le _) p1
  have hle : ∀ x ∈ tz, x ≤ M := by
    intro x hx
    obtain ⟨k, hk⟩ := List.mem_iff_getElem?.1 hx
    obtain ⟨p0, e0⟩ := List.getElem?_eq_some_iff.1 t4
    obtain ⟨p1, e1⟩ := List.getElem?_eq_some_iff.1 hk
    rw [← e0, ← e1]
    exact hInc.le (by omega) p0
  have htd : tz.mapM f.pos = .ok (tz.map g) := Res.mapM_ok fun x hx => hg x (h0.trans_le (hge x hx))
  have hq : 0 < q := t5
  obtain ⟨r, r1, r2, r3⟩ := res_mapM_forall (f := fun z : Option ℝ => match z with
      | none => .ok (.fin 0)
      | some z => if 0 < z then interpFl (tz.map g) tz z else .ok f.zero)
    (P := fun o b => ∀ t, o = some t → (t ≤ 0 → b = f.zero) ∧
      (0 < t → ∃ a c v, m ≤ a ∧ a ≤ t ∧ t ≤ c ∧ c ≤ M ∧ a < c ∧ c = q * a ∧ b = .fin v ∧ (v - g a) * (c - a) = (g c - g a) * (t - a))) z (by
    intro o ho
    cases o with
    | none => exact ⟨.fin 0, rfl, by simp⟩
    | some t =>
      dsimp only
      by_cases ht : 0 < t
      · rw [if_pos ht]
        obtain ⟨v, i, e1, ⟨xa, xb, ya, yb, c1, c2, c3, c4, c5⟩, hi, e2, e3⟩ := interpFl_eq hInc (y := tz.map g) (by simp) (by omega) t
        obtain ⟨b1, b2⟩ := h3 t ho ht
        obtain ⟨p1, rfl⟩ := List.getElem?_eq_some_iff.1 c1
        obtain ⟨p2, rfl⟩ := List.getElem?_eq_some_iff.1 c2
        rw [List.getElem?_map, c1, Option.map_some, Option.some.injEq] at c3
        rw [List.getElem?_map, c2, Option.map_some, Option.some.injEq] at c4
        subst c3 c4
        refine ⟨.fin v, e1, fun t' ht' => ?_⟩
        rw [Option.some.injEq] at ht'
        subst ht'
        refine ⟨fun hc => absurd ht (not_lt.2 hc), fun _ => ⟨tz[i], tz[i + 1], v, hge _ (List.getElem_mem _), ?_, ?_, hle _ (List.getElem_mem _), hInc.lt (by omega) p2, t7 i _ _ c1 c2, rfl, c5⟩⟩
        · rcases e2 with e2 | rfl
          · exact e2
          · obtain ⟨p0, e0⟩ := List.getElem?_eq_some_iff.1 t3
            rw [e0]; exact b1
        · rcases e3 with e3 | e3
          · exact e3.le
          · obtain ⟨p0, e0⟩ := List.getElem?_eq_some_iff.1 t4
            have : tz[i + 1] = tz[npt - 1] := by congr 1; omega
            rw [this, e0]; exact b2
      · rw [if_neg ht]
        exact ⟨_, rfl, fun t' ht' => by
          rw [Option.some.injEq] at ht'
          subst ht'
          exact ⟨fun _ => rfl, fun h => absurd h ht⟩⟩)
  refine ⟨r, q, ?_, r2, hq, t6, fun i t hi => ?_⟩
  · unfold Func.vector
    rw [if_neg (by omega), m1, Res.ok_bind, M1, Res.ok_bind, t1, Res.ok_bind, htd, Res.ok_bind]
    exact r1
  · obtain ⟨b, hb, -, hP⟩ := r3 i _ hi
    obtain ⟨P1, P2⟩ := hP t rfl
    refine ⟨fun h => by rw [hb, P1 h], fun h => ?_⟩
    obtain ⟨a, c, v, w1, w2, w3, w4, w5, w6, w7, w8⟩ := P2 h
    exact ⟨a, c, v, w1, w2, w3, w4, w5, w6, by rw [hb, w7], w8⟩

/-- For a function that increases, the error is therefore less than its increase between the two redshifts. -/
theorem C154_error (g : ℝ → ℝ) (hg : MonotoneOn g (Set.Ioi 0)) (a b t v : ℝ) (h0 : 0 < a) (h1 : a ≤ t) (h2 : t ≤ b) (hlt : a < b) (h : (v - g a) * (b - a) = (g b - g a) * (t - a)) :
    g a ≤ v ∧ v ≤ g b ∧ |v - g t| ≤ g b - g a := by
  have e1 : g a ≤ g t := hg h0 (h0.trans_le h1) h1
  have e2 : g t ≤ g b := hg (h0.trans_le h1) (h0.trans hlt) h2
  have hab : 0 < b - a := by linarith
  have k1 : 0 ≤ (v - g a) * (b - a) := by rw [h]; exact mul_nonneg (by linarith) (by linarith)
  have k2 : (v - g a) * (b - a) ≤ (g b - g a) * (b - a) := by rw [h]; exact mul_le_mul_of_nonneg_left (by linarith) (by linarith)
  have l1 : 0 ≤ v - g a := nonneg_of_mul_nonneg_left k1 hab
  have l2 : v - g a ≤ g b - g a := le_of_mul_le_mul_right k2 hab
  refine ⟨by linarith, by linarith, abs_le.2 ⟨by linarith, by linarith⟩⟩

/-- With many numbers, none of which is positive, the program stops, although the value is known for each of them. -/
theorem C154_zeros_refuted (f : Func) (npt : Nat) (z : List (Option ℝ)) (hz : 2 * npt ≤ z.length) (h : ∀ t, some t ∈ z → t ≤ 0) : f.vector npt z = .abort := by
  have : positive z = [] := by
    cases hp : positive z with
    | nil => rfl
    | cons x l =>
      have := mem_positive.1 (show x ∈ positive z by rw [hp]; simp)
      exact absurd (h x this.1) (not_le.2 this.2)
  unfold Func.vector
  rw [if_neg (by omega), this]
  rfl

example : ∃ z : List (Option ℝ), 2 * 800 ≤ z.length ∧ ∀ t, some t ∈ z → t ≤ 0 :=
  ⟨List.replicate (2 * 800) (some 0), le_of_eq List.length_replicate.symm, fun t ht => (Option.some.inj (List.eq_of_mem_replicate ht)).le⟩

theorem interpFl_const (y x : List ℝ) (hl : y.length = x.length) (hn : 2 ≤ x.length) (m : ℝ) (h : ∀ a ∈ x, a = m) : interpFl y x m = .ok .nan := by
  unfold interpFl lowerB
  obtain ⟨r, h1, h2⟩ := Find.C21_lower_bound (x.map some) (by simp) (by
    refine List.pairwise_map.2 ?_
    refine List.pairwise_of_forall_mem_list fun a ha b hb => ?_
    rw [h a ha, h b hb]
    simp [FP.le]) m
  rw [h1, Res.ok_bind]
  have hi : interval x.length r + 1 < x.length := by
    cases r with
    | none => unfold interval; dsimp only; omega
    | some l =>
      obtain ⟨a, ha, -, -⟩ := h2
      obtain ⟨p, -⟩ := List.getElem?_eq_some_iff.1 ha
      rw [List.length_map] at p
      unfold interval
      dsimp only
      split <;> omega
  dsimp only
  rw [Res.rd_lt (by omega), Res.ok_bind, Res.rd_lt (by omega), Res.ok_bind, Res.rd_lt (by omega), Res.ok_bind, Res.rd_lt (by omega), Res.ok_bind,
    h _ (List.getElem_mem (by omega)), h _ (List.getElem_mem (by omega))]
  simp [divFl, addFl]

/-- With many numbers, whose positive ones are all the same, the value for these is NaN, although that of the function is not. -/
theorem C154_same_refuted (f : Func) (g : ℝ → ℝ) (hg : ∀ t, 0 < t → f.pos t = .ok (g t)) (npt : Nat) (hn : 2 ≤ npt) (z : List (Option ℝ)) (hz : 2 * npt ≤ z.length)
    (m : ℝ) (h0 : 0 < m) (h1 : some m ∈ z) (h : ∀ t, some t ∈ z → 0 < t → t = m) :
    f.scalar (some m) = .ok (.fin (g m)) ∧ ∃ r, f.vector npt z = .ok r ∧ ∀ (i : Nat), z[i]? = some (some m) → r[i]? = some .nan := by
  refine ⟨?_, ?_⟩
  · unfold Func.scalar
    dsimp only
    rw [if_neg (not_le.2 h0), hg m h0]; rfl
  have hpos : positive z ≠ [] := List.ne_nil_of_mem (mem_positive.2 ⟨h1, h0⟩)
  obtain ⟨a, m1, m2, -⟩ := minOf_spec hpos
  obtain ⟨b, M1, M2, -⟩ := maxOf_spec hpos
  have ea : a = m := h a (mem_positive.1 m2).1 (mem_positive.1 m2).2
  have eb : b = m := h b (mem_positive.1 M2).1 (mem_positive.1 M2).2
  subst ea
  rw [eb] at M1
  obtain ⟨tz, q, t1, t2, -⟩ := C155_log h0 h0 npt hn
  have hc : ∀ x ∈ tz, x = a := (C155_order h0 h0 npt hn tz t1).2.2 rfl
  have htd : tz.mapM f.pos = .ok (tz.map g) := Res.mapM_ok fun x hx => hg x (by rw [hc x hx]; exact h0)
  obtain ⟨r, r1, r2, r3⟩ := res_mapM_forall (f := fun z : Option ℝ => match z with
      | none => .ok (.fin 0)
      | some z => if 0 < z then interpFl (tz.map g) tz z else .ok f.zero)
    (P := fun o b => o = some a → b = .nan) z (by
    intro o ho
    cases o with
    | none => exact ⟨.fin 0, rfl, by simp⟩
    | some t =>
      dsimp only
      by_cases ht : 0 < t
      · rw [if_pos ht, h t ho ht, interpFl_const _ tz (by simp) (by omega) a hc]
        exact ⟨_, rfl, fun _ => rfl⟩
      · rw [if_neg ht]
        exact ⟨_, rfl, fun e => by rw [Option.some.injEq] at e; rw [e] at ht; exact absurd h0 ht⟩)
  refine ⟨r, ?_, fun i hi => ?_⟩
  · unfold Func.vector
    rw [if_neg (by omega), m1, Res.ok_bind, M1, Res.ok_bind, t1, Res.ok_bind, htd, Res.ok_bind]
    exact r1
  · obtain ⟨b, hb, -, hP⟩ := r3 i _ hi
    rw [hb, hP rfl]

/-- many sources at the same redshift -/
example : ∃ z : List (Option ℝ), 2 * 800 ≤ z.length ∧ some 1 ∈ z ∧ ∀ t, some t ∈ z → 0 < t → t = 1 :=
  ⟨List.replicate (2 * 800) (some 1), le_of_eq List.length_replicate.symm, List.mem_replicate.2 ⟨by omega, rfl⟩, fun t ht _ => Option.some.inj (List.eq_of_mem_replicate ht)⟩

theorem mapM_get {α β : Type} {F : α → Res β} {z : List α} {r : List β} (h : z.mapM F = .ok r) {i : Nat} {a : α} (hi : z[i]? = some a) : ∃ b, F a = .ok b ∧ r[i]? = some b := by
  induction z generalizing r i with
  | nil => simp at hi
  | cons c z ih =>
    rw [List.mapM_cons] at h
    obtain ⟨b, hb, h⟩ := Res.bind_eq_ok.1 h
    obtain ⟨bs, hbs, h⟩ := Res.bind_eq_ok.1 h
    rw [Res.pure_def, Res.ok.injEq] at h
    subst h
    cases i with
    | zero =>
      simp only [List.getElem?_cons_zero, Option.some.injEq] at hi
      subst hi
      exact ⟨b, hb, rfl⟩
    | succ i => simpa using ih hbs (by simpa using hi)

/-- A NaN has NaN for value when there are few numbers and 0 when there are many. -/
theorem C154_nan_refuted (f : Func) (npt : Nat) (z : List (Option ℝ)) (hz : 2 * npt ≤ z.length) (r : List (Fl ℝ)) (h : f.vector npt z = .ok r) (i : Nat) (hi : z[i]? = some none) :
    f.scalar none = .ok .nan ∧ r[i]? = some (.fin 0) := by
  refine ⟨rfl, ?_⟩
  unfold Func.vector at h
  rw [if_neg (by omega)] at h
  obtain ⟨mi, -, h⟩ := Res.bind_eq_ok.1 h
  obtain ⟨ma, -, h⟩ := Res.bind_eq_ok.1 h
  obtain ⟨tz, -, h⟩ := Res.bind_eq_ok.1 h
  obtain ⟨td, -, h⟩ := Res.bind_eq_ok.1 h
  obtain ⟨b, hb, hr⟩ := mapM_get h hi
  rw [hr, ← (Res.ok.inj hb)]

/-! ### C154: the functions of the redshift -/

/-- an integration without error -/
def Exact (I : Integ) : Prop := ∀ (f : ℝ → ℝ) (a b : ℝ), I f a b = .ok (∫ t in a..b, f t)

theorem integral_strict {f : ℝ → ℝ} (hc : ContinuousOn f (Set.Ici 0)) (hp : ∀ t, 0 ≤ t → 0 < f t) {a b : ℝ} (ha : 0 ≤ a) (hab : a < b) :
    (∫ t in (0 : ℝ)..a, f t) < ∫ t in (0 : ℝ)..b, f t := by
  have hi : ∀ {c d : ℝ}, 0 ≤ c → c ≤ d → IntervalIntegrable f MeasureTheory.volume c d := fun hc' hd =>
    (hc.mono fun x hx => by rw [Set.uIcc_of_le hd] at hx; exact hc'.trans hx.1).intervalIntegrable
  rw [← intervalIntegral.integral_add_adjacent_intervals (hi le_rfl ha) (hi ha hab.le)]
  have : 0 < ∫ t in a..b, f t := intervalIntegral.intervalIntegral_pos_of_pos_on (hi ha hab.le) (fun x hx => hp x (ha.trans hx.1.le)) hab
  linarith

theorem base_pos {c : Cosmology} (hm : 0 ≤ c.wm) (hL : 0 ≤ c.wL) (h : 0 < c.wm + c.wL) {t : ℝ} (ht : 0 ≤ t) : 0 < (1 + t) ^ 3 * c.wm + c.wL := by
  have h1 : (1 : ℝ) ≤ (1 + t) ^ 3 := one_le_pow₀ (by linarith)
  nlinarith [mul_le_mul_of_nonneg_right h1 hm]

theorem expansion_cont {c : Cosmology} (hm : 0 ≤ c.wm) (hL : 0 ≤ c.wL) (h : 0 < c.wm + c.wL) : ContinuousOn (expansion c) (Set.Ici 0) := by
  unfold expansion
  refine ContinuousOn.rpow_const (by fun_prop) fun t ht => Or.inl (base_pos hm hL h ht).ne'

theorem expansion_pos {c : Cosmology} (hm : 0 ≤ c.wm) (hL : 0 ≤ c.wL) (h : 0 < c.wm + c.wL) (t : ℝ) (ht : 0 ≤ t) : 0 < expansion c t :=
  Real.rpow_pos_of_pos (base_pos hm hL h ht) _

/-- a function of the redshift that is positive and increases -/
def Grows (f : Func) : Prop := ∃ g : ℝ → ℝ, (∀ t, 0 < t → f.pos t = .ok (g t)) ∧ StrictMonoOn g (Set.Ioi 0) ∧ ∀ t, 0 < t → 0 < g t

/-- The luminosity distance is positive and increases with the redshift. -/
theorem C154_lumdist (I : Integ) (hI : Exact I) (c : Cosmology) (hH : 0 < c.H0) (hm : 0 ≤ c.wm) (hL : 0 ≤ c.wL) (h : 0 < c.wm + c.wL) : Grows (lumdist I c) := by
  have hp : ∀ t, 0 < t → 0 < ∫ s in (0 : ℝ)..t, expansion c s := fun t ht => by
    have := integral_strict (expansion_cont hm hL h) (expansion_pos hm hL h) le_rfl ht
    simpa using this
  have hk : 0 < 299792458 / 1000 / c.H0 := div_pos (by norm_num) hH
  refine ⟨fun z => (1 + z) * (299792458 / 1000 / c.H0) * ∫ s in (0 : ℝ)..z, expansion c s, fun t _ => ?_, fun a ha b hb hab => ?_, fun t ht => ?_⟩
  · unfold lumdist
    dsimp only
    rw [hI, Res.ok_bind]
  · have h1 := integral_strict (expansion_cont hm hL h) (expansion_pos hm hL h) (le_of_lt ha) hab
    have h2 : (1 + a) * (299792458 / 1000 / c.H0) < (1 + b) * (299792458 / 1000 / c.H0) := mul_lt_mul_of_pos_right (by linarith) hk
    have ha' : (0 : ℝ) < a := ha
    exact mul_lt_mul'' h2 h1 (mul_nonneg (by linarith) hk.le) (hp a ha).le
  · exact mul_pos (mul_pos (by linarith) hk) (hp t ht)

/-- So are the lookback time, -/
theorem C154_lookback (I : Integ) (hI : Exact I) (c : Cosmology) (hH : 0 < c.H0) (hm : 0 ≤ c.wm) (hL : 0 ≤ c.wL) (h : 0 < c.wm + c.wL) (hk : 0 ≤ c.wk) : Grows (lookbackTime I c) := by
  have hb : ∀ t : ℝ, 0 ≤ t → 0 < (1 + t) ^ 3 * c.wm + c.wL + (1 + t) ^ 2 * c.wk := fun t ht =>
    add_pos_of_pos_of_nonneg (base_pos hm hL h ht) (mul_nonneg (sq_nonneg _) hk)
  have hpos : ∀ t, 0 ≤ t → 0 < lookbackRate c t := fun t ht => div_pos (Real.rpow_pos_of_pos (hb t ht) _) (by linarith)
  have hc : ContinuousOn (lookbackRate c) (Set.Ici 0) := by
    unfold lookbackRate
    refine ContinuousOn.div (ContinuousOn.rpow_const (by fun_prop) fun t ht => Or.inl (hb t ht).ne') (by fun_prop) fun t ht => ?_
    have : (0 : ℝ) ≤ t := ht
    linarith
  have hq : 0 < 309 / 100 / (c.H0 * (3155 / 1000000)) := div_pos (by norm_num) (mul_pos hH (by norm_num))
  refine ⟨fun z => 309 / 100 / (c.H0 * (3155 / 1000000)) * ∫ s in (0 : ℝ)..z, lookbackRate c s, fun t _ => ?_, fun a ha b hb hab => ?_, fun t ht => ?_⟩
  · unfold lookbackTime
    dsimp only
    rw [hI, Res.ok_bind]
  · exact mul_lt_mul_of_pos_left (integral_strict hc hpos (le_of_lt ha) hab) hq
  · refine mul_pos hq ?_
    have := integral_strict hc hpos le_rfl ht
    simpa using this

/-- and the volume. -/
theorem C154_volume (I : Integ) (hI : Exact I) (c : Cosmology) (hH : 0 < c.H0) (hm : 0 ≤ c.wm) (hL : 0 ≤ c.wL) (h : 0 < c.wm + c.wL) : Grows (vuniverse I c) := by
  have hp : ∀ t, 0 < t → 0 < ∫ s in (0 : ℝ)..t, expansion c s := fun t ht => by
    have := integral_strict (expansion_cont hm hL h) (expansion_pos hm hL h) le_rfl ht
    simpa using this
  have hk : 0 < 299792458 / 1000 / c.H0 := div_pos (by norm_num) hH
  refine ⟨fun z => 4 / 3 * Real.pi * (299792458 / 1000 / c.H0 * ∫ s in (0 : ℝ)..z, expansion c s) ^ 3, fun t ht => ?_, fun a ha b hb hab => ?_, fun t ht => ?_⟩
  · unfold vuniverse lumdist
    dsimp only
    rw [hI, Res.ok_bind, Res.ok_bind, mul_assoc (1 + t), mul_div_cancel_left₀ _ (by linarith)]
  · refine mul_lt_mul_of_pos_left (pow_lt_pow_left₀ ?_ (mul_pos hk (hp a ha)).le (by norm_num)) (by positivity)
    exact mul_lt_mul_of_pos_left (integral_strict (expansion_cont hm hL h) (expansion_pos hm hL h) (le_of_lt ha) hab) hk
  · exact mul_pos (by positivity) (pow_pos (mul_pos hk (hp t ht)) 3)

/-- The size in kpc of an arcsecond is the angular distance, in units of 1000 kpc, times the angle `π/(180·3600)`; the angular distance is the luminosity distance divided by `(1 + z)²`. -/
theorem C154_propsize (I : Integ) (c : Cosmology) (z d : ℝ) (hz : 0 < z) (hd : (lumdist I c).pos z = .ok d) :
    ∃ s, (propsize I c).pos z = .ok s ∧ s = (d / (1 + z) ^ 2 * 1000) * (Real.pi / (180 * 3600)) := by
  refine ⟨_, ?_, rfl⟩
  unfold propsize
  dsimp only
  rw [hd, Res.ok_bind]
  congr 1
  ring

/-- The values where the integrals are known. Without matter, the distance is `c/H0 (1 + z) z`, the volume is that of a sphere of radius `c z/H0` and the lookback time is a logarithm. -/
theorem C154_empty (I : Integ) (hI : Exact I) (c : Cosmology) (hm : c.wm = 0) (hL : c.wL = 1) (hk : c.wk = 0) (z : ℝ) (hz : 0 < z) :
    (lumdist I c).pos z = .ok (299792.458 / c.H0 * (1 + z) * z) ∧ (vuniverse I c).pos z = .ok (4 / 3 * Real.pi * (299792.458 / c.H0 * z) ^ 3) ∧
      (lookbackTime I c).pos z = .ok (3.09 / 0.003155 / c.H0 * Real.log (1 + z)) := by
  have h1 : (∫ s in (0 : ℝ)..z, expansion c s) = z := by simp [expansion, hm, hL]
  have h2 : (∫ s in (0 : ℝ)..z, lookbackRate c s) = Real.log (1 + z) := by
    simp only [lookbackRate, hm, hL, hk, mul_zero, zero_add, add_zero, Real.one_rpow]
    rw [intervalIntegral.integral_comp_add_left (fun x => 1 / x) 1, integral_one_div_of_pos (by norm_num) (by linarith)]
    simp
  refine ⟨?_, ?_, ?_⟩
  · unfold lumdist; dsimp only; rw [hI, Res.ok_bind, h1]
    congr 1
    norm_num
    left
    ring
  · unfold vuniverse lumdist; dsimp only; rw [hI, Res.ok_bind, Res.ok_bind, h1]
    congr 1
    rw [mul_assoc (1 + z), mul_div_cancel_left₀ _ (by linarith)]
    norm_num
  · unfold lookbackTime; dsimp only; rw [hI, Res.ok_bind, h2]
    congr 1
    norm_num
    left
    ring

/-- With matter only, the distance is `2c/H0 (1 + z - √(1 + z))`. -/
theorem C154_matter (I : Integ) (hI : Exact I) (c : Cosmology) (hm : c.wm = 1) (hL : c.wL = 0) (z : ℝ) (hz : 0 < z) :
    (lumdist I c).pos z = .ok (2 * 299792.458 / c.H0 * (1 + z - Real.sqrt (1 + z))) := by
  have h1 : (∫ s in (0 : ℝ)..z, expansion c s) = 2 * (1 - 1 / Real.sqrt (1 + z)) := by
    have e : ∀ t ∈ Set.uIcc 0 z, expansion c t = (1 + t) ^ (-(3 / 2) : ℝ) := by
      intro t ht
      rw [Set.uIcc_of_le hz.le] at ht
      simp only [expansion, hm, hL, mul_one, add_zero]
      rw [← Real.rpow_natCast, ← Real.rpow_mul (by linarith [ht.1])]
      norm_num
    rw [intervalIntegral.integral_congr e, intervalIntegral.integral_comp_add_left (fun x => x ^ (-(3 / 2) : ℝ)) 1, integral_rpow]
    · rw [Real.sqrt_eq_rpow, one_div, ← Real.rpow_neg (by linarith)]
      norm_num
      ring
    · right
      refine ⟨by norm_num, fun h => ?_⟩
      rw [Set.uIcc_of_le (by linarith)] at h
      linarith [h.1]
  unfold lumdist; dsimp only; rw [hI, Res.ok_bind, h1]
  congr 1
  have hs : Real.sqrt (1 + z) ≠ 0 := (Real.sqrt_pos.2 (by linarith)).ne'
  have hq : Real.sqrt (1 + z) * Real.sqrt (1 + z) = 1 + z := Real.mul_self_sqrt (by linarith)
  have : (1 + z) * (1 - 1 / Real.sqrt (1 + z)) = 1 + z - Real.sqrt (1 + z) := by
    rw [mul_sub, mul_one, mul_one_div]
    congr 1
    rw [div_eq_iff hs, hq]
  calc (1 + z) * (299792458 / 1000 / c.H0) * (2 * (1 - 1 / Real.sqrt (1 + z))) = 2 * 299792.458 / c.H0 * ((1 + z) * (1 - 1 / Real.sqrt (1 + z))) := by norm_num; ring
    _ = _ := by rw [this]

/-- At redshift zero, and below, the distance, the time and the volume are zero and the size of an arcsecond is infinite: these are the values for a vector too (`C154_few`, `C154_many_partial`). -/
theorem C154_zero (I : Integ) (c : Cosmology) (z : ℝ) (hz : z ≤ 0) : (lumdist I c).scalar (some z) = .ok (.fin 0) ∧ (lookbackTime I c).scalar (some z) = .ok (.fin 0) ∧
    (vuniverse I c).scalar (some z) = .ok (.fin 0) ∧ (propsize I c).scalar (some z) = .ok (.inf false) := by
  simp only [Func.scalar, if_pos hz]
  exact ⟨rfl, rfl, rfl, rfl⟩

/-- The three cosmologies with a name, and the default one, are flat and satisfy the hypotheses of these theorems. -/
theorem C154_named (name : Str.Str) : 0 < (getCosmo name).H0 ∧ 0 < (getCosmo name).wm ∧ 0 < (getCosmo name).wL ∧ (getCosmo name).wk = 0 ∧ (getCosmo name).wm + (getCosmo name).wL = 1 := by
  unfold getCosmo
  split
  · norm_num
  split
  · norm_num
  split <;> norm_num

/-- an exact integration, and two different redshifts among many -/
example : Exact (fun f a b => .ok (∫ t in a..b, f t)) := fun _ _ _ => rfl
example : ∃ z : List (Option ℝ), 2 * 800 ≤ z.length ∧ some 1 ∈ z ∧ some 2 ∈ z ∧ ∀ t, some t ∈ z → 0 < t → 1 ≤ t ∧ t ≤ 2 :=
  ⟨some 1 :: List.replicate (2 * 800) (some 2), by rw [List.length_cons, List.length_replicate]; omega, List.mem_cons_self, List.mem_cons_of_mem _ (List.mem_replicate.2 ⟨by omega, rfl⟩), fun t ht _ => by
    rcases List.mem_cons.1 ht with h | h
    · rw [Option.some.inj h]; norm_num
    · rw [Option.some.inj (List.eq_of_mem_replicate h)]; norm_num⟩

/-- As documented, the luminosity distance ignores the curvature, which the lookback time takes into account. -/
theorem C154_curvature (I : Integ) (c : Cosmology) (k : ℝ) :
    lumdist I { c with wk := k } = lumdist I c ∧ ∃ (c : Cosmology) (k : ℝ), lookbackRate { c with wk := k } 0 ≠ lookbackRate c 0 := by
  refine ⟨rfl, ⟨70, 7 / 10, 3 / 10, 0⟩, 3, ?_⟩
  have h : (4 : ℝ) ^ (-(1 / 2) : ℝ) ≠ 1 := by
    intro h
    have := Real.rpow_lt_one_of_one_lt_of_neg (x := (4 : ℝ)) (z := -(1 / 2)) (by norm_num) (by norm_num)
    linarith
  unfold lookbackRate
  norm_num at h ⊢

end
end Verif.Cosmo
