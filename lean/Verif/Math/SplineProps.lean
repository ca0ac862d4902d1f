import Verif.Math.SplineGlue
/-!
# C31: smoothness of the cubic spline
-/
namespace Verif.Spline
open Verif Verif.Math Filter Topology

/-- the pieces: the line before the first knot, then the polynomials -/
noncomputable def piece (y X : Nat → ℝ) (q : Coefs ℝ) : Nat → ℝ → ℝ
  | 0 => fun t => y 0 + q.b 0 * (t - X 0) + 0 * (t - X 0) * (t - X 0) + 0 * (t - X 0) * (t - X 0) * (t - X 0)
  | k + 1 => fun t => y k + q.b k * (t - X k) + q.c k * (t - X k) * (t - X k) + q.d k * (t - X k) * (t - X k) * (t - X k)

noncomputable def piece' (X : Nat → ℝ) (q : Coefs ℝ) : Nat → ℝ → ℝ
  | 0 => fun t => q.b 0 + 2 * 0 * (t - X 0) + 3 * 0 * (t - X 0) * (t - X 0)
  | k + 1 => fun t => q.b k + 2 * q.c k * (t - X k) + 3 * q.d k * (t - X k) * (t - X k)

noncomputable def piece'' (X : Nat → ℝ) (q : Coefs ℝ) : Nat → ℝ → ℝ
  | 0 => fun t => 2 * 0 + 6 * 0 * (t - X 0)
  | k + 1 => fun t => 2 * q.c k + 6 * q.d k * (t - X k)

theorem piece_C2 (y X : Nat → ℝ) (q : Coefs ℝ) : ∀ k, C2 (piece y X q k) (piece' X q k) (piece'' X q k)
  | 0 => cubic_C2 _ _ _ _ _
  | _ + 1 => cubic_C2 _ _ _ _ _

variable {n : Nat} {y X al : Nat → ℝ} {q : Coefs ℝ}

theorem piece_value (hg : Good n y (fun i => X (i + 1) - X i) al q) : ∀ k < n + 1, piece y X q k (X k) = piece y X q (k + 1) (X k)
  | 0, _ => by simp [piece]
  | k + 1, hk => by
    simp only [piece, sub_self, mul_zero, add_zero]
    exact hg.value k (by omega)

theorem piece_second (hg : Good n y (fun i => X (i + 1) - X i) al q) : ∀ k < n + 1, piece'' X q k (X k) = piece'' X q (k + 1) (X k)
  | 0, _ => by simp [piece'', hg.c0]
  | k + 1, hk => by
    have := hg.second k (by omega)
    simp only [piece'', sub_self, mul_zero, add_zero]
    rw [← this]; ring

theorem piece_first (hn : 0 < n) (hg : Good n y (fun i => X (i + 1) - X i) al q)
    (hal : ∀ i, i + 1 < n → al (i + 1) = 3 * ((y (i + 2) - y (i + 1)) / (X (i + 2) - X (i + 1)) - (y (i + 1) - y i) / (X (i + 1) - X i))) :
    ∀ k < n + 1, piece' X q k (X k) = piece' X q (k + 1) (X k)
  | 0, _ => by simp [piece']
  | k + 1, hk => by
    simp only [piece', sub_self, mul_zero, add_zero]
    by_cases hkn : k + 1 < n
    · have h1 := hg.first k hkn
      rw [hal k hkn, sub_self, mul_zero] at h1
      exact sub_eq_zero.1 h1
    · obtain rfl : n = k + 1 := by omega
      exact hg.end1 hn

theorem fn_eq {x : List ℝ} {i : Nat} (h : i < x.length) : fn x i = x[i] := by simp [fn, List.getD, h]

theorem fn_lt {x : List ℝ} (hx : Increasing x) : ∀ i j, i < j → j < x.length - 1 + 1 → fn x i < fn x j := by
  intro i j hij hj
  rw [fn_eq (by omega), fn_eq (by omega)]
  exact hx.lt hij (by omega)

/-- the value of the spline is that of the pasted pieces -/
theorem spline_paste {y x : List ℝ} (hx : Increasing x) (hl : y.length = x.length) (hn : 2 ≤ x.length) (t : ℝ) :
    spline y x t = .ok (pasteAll (fn x) (piece (fn y) (fn x) (coefs (y.length - 1) (fn y) (fn x))) (x.length - 1 + 1) t) := by
  obtain ⟨r, h1, h2⟩ := lowerB_spec hx t
  unfold spline
  rw [Res.check_pos hl, Res.check_pos (by omega)]
  simp only [Res.ok_bind, h1]
  cases r with
  | none =>
    simp only
    rw [pasteAll_mid _ _ _ 0 t (by omega) (by omega) (fun j _ hj => by rw [fn_eq (by omega)]; exact h2 _ (List.getElem_mem _))]
    simp [piece]
  | some k =>
    obtain ⟨hk, h3, h4⟩ := h2
    simp only
    rw [pasteAll_mid _ _ _ (k + 1) t (by omega) (fun j hj => ?_) (fun j hj hj' => ?_)]
    · rfl
    · rw [fn_eq (by omega)]
      exact (hx.le (show j ≤ k by omega) hk).trans h3
    · rw [fn_eq (by omega)]
      exact h4 j (by omega) (by omega)

theorem good_list {y x : List ℝ} (hx : Increasing x) (hl : y.length = x.length) (hn : 2 ≤ x.length) :
    Good (x.length - 1) (fn y) (fun i => fn x (i + 1) - fn x i)
      (fun i => 3 * (fn y (i + 1) - fn y i) / (fn x (i + 1) - fn x i) - 3 * (fn y i - fn y (i - 1)) / (fn x (i + 1) - fn x i))
      (coefs (y.length - 1) (fn y) (fn x)) := by
  rw [hl]
  exact coefs_good (by omega) _ fun i hi => fn_lt hx i (i + 1) (by omega) (by omega)

/-- **C31**: the spline is a continuous function passing through all the knots, whatever their spacing -/
theorem C31_continuous {y x : List ℝ} (hx : Increasing x) (hl : y.length = x.length) (hn : 2 ≤ x.length) :
    ∃ f : ℝ → ℝ, (∀ t, spline y x t = .ok (f t)) ∧ Continuous f ∧ ∀ (i : Nat) (hi : i < x.length), f x[i] = y[i]'(by omega) := by
  refine ⟨_, spline_paste hx hl hn, ?_, ?_⟩
  · exact pasteAll_continuous (fun k => ((piece_C2 _ _ _ k).contDiff).continuous) _ (fn_lt hx)
      (piece_value (good_list hx hl hn))
  · intro i hi
    rw [pasteAll_mid _ _ _ (i + 1) _ (by omega) (fun j hj => ?_) (fun j hj hj' => ?_)]
    · simp only [piece, fn_eq hi, sub_self, mul_zero, add_zero]
      rw [fn_eq (by omega)]
    · rw [fn_eq (by omega)]
      exact hx.le (by omega) hi
    · rw [fn_eq (by omega)]
      exact hx.lt (by omega) (by omega)

/-- **C31**: with equal steps the spline is twice continuously differentiable -/
theorem C31_smooth_partial {y x : List ℝ} (hx : Increasing x) (hl : y.length = x.length) (hn : 2 ≤ x.length) (s : ℝ)
    (hs : ∀ (i : Nat) (hi : i + 1 < x.length), x[i + 1] - x[i] = s) :
    ∃ f : ℝ → ℝ, (∀ t, spline y x t = .ok (f t)) ∧ ContDiff ℝ 2 f := by
  refine ⟨_, spline_paste hx hl hn, ?_⟩
  have hg := good_list (y := y) hx hl hn
  refine (pasteAll_C2 (piece_C2 _ _ _) _ (fn_lt hx) (piece_value hg) (piece_first (by omega) hg ?_) (piece_second hg)).contDiff
  intro i hi
  simp only [Nat.add_sub_cancel]
  have e1 : fn x (i + 1) - fn x i = s := by rw [fn_eq (by omega), fn_eq (by omega)]; exact hs i (by omega)
  have e2 : fn x (i + 1 + 1) - fn x (i + 1) = s := by rw [fn_eq (by omega), fn_eq (by omega)]; exact hs (i + 1) (by omega)
  rw [e1, e2]
  ring

/-- an equally spaced grid -/
example : Increasing ([0, 2, 4] : List ℝ) ∧ ∀ (i : Nat) (hi : i + 1 < ([0, 2, 4] : List ℝ).length), ([0, 2, 4] : List ℝ)[i + 1] - ([0, 2, 4] : List ℝ)[i] = 2 := by
  refine ⟨by norm_num [Increasing], fun i hi => ?_⟩
  simp at hi
  match i, hi with
  | 0, _ => norm_num
  | 1, _ => norm_num

/-- **C31** refuted for unequal steps: at an interior knot the spline is differentiable exactly when the two steps are equal or the data do
not change over the first one -/
theorem C31_kink_refuted {y x : List ℝ} (hx : Increasing x) (hl : y.length = x.length) (hn : 2 ≤ x.length) {f : ℝ → ℝ}
    (hf : ∀ t, spline y x t = .ok (f t)) (i : Nat) (hi : i + 2 < x.length) :
    DifferentiableAt ℝ f x[i + 1] ↔ y[i + 1]'(by omega) = y[i]'(by omega) ∨ x[i + 2] - x[i + 1] = x[i + 1] - x[i] := by
  have hfe : f = pasteAll (fn x) (piece (fn y) (fn x) (coefs (y.length - 1) (fn y) (fn x))) (x.length - 1 + 1) := by
    funext t
    have := hf t
    rw [spline_paste hx hl hn] at this
    injection this with this
    exact this.symm
  have hg := good_list (y := y) hx hl hn
  generalize coefs (y.length - 1) (fn y) (fn x) = q at hg hfe
  have hxi : fn x (i + 1) = x[i + 1] := fn_eq (by omega)
  have hv := piece_value hg (i + 1) (by omega)
  have hval : f x[i + 1] = piece (fn y) (fn x) q (i + 2) x[i + 1] := by
    rw [hfe, pasteAll_mid _ _ _ (i + 2) _ (by omega) (fun j hj => ?_) (fun j hj hj' => ?_)]
    · rw [fn_eq (by omega)]; exact hx.le (by omega) (by omega)
    · rw [fn_eq (by omega)]; exact hx.lt (by omega) (by omega)
  -- the two one-sided derivatives
  have hleft : HasDerivWithinAt f (piece' (fn x) q (i + 1) x[i + 1]) (Set.Iic x[i + 1]) x[i + 1] := by
    have h1 := ((piece_C2 (fn y) (fn x) q (i + 1)).d1 x[i + 1]).hasDerivWithinAt (s := Set.Iic x[i + 1])
    refine h1.congr_of_eventuallyEq ?_ ?_
    · have hnb : Set.Ioi x[i] ∈ 𝓝[Set.Iic x[i + 1]] x[i + 1] := mem_nhdsWithin_of_mem_nhds (isOpen_Ioi.mem_nhds (hx.lt (by omega) (by omega)))
      filter_upwards [hnb, self_mem_nhdsWithin] with t ht1 ht2
      rcases lt_or_eq_of_le (show t ≤ x[i + 1] from ht2) with ht | ht
      · rw [hfe, pasteAll_mid _ _ _ (i + 1) _ (by omega) (fun j hj => ?_) (fun j hj hj' => ?_)]
        · rw [fn_eq (by omega)]
          exact (hx.le (show j ≤ i by omega) (by omega)).trans (le_of_lt ht1)
        · rw [fn_eq (by omega)]
          exact lt_of_lt_of_le ht (hx.le hj (by omega))
      · rw [ht, hval]
        rw [hxi] at hv; exact hv.symm
    · rw [hval]; rw [hxi] at hv; exact hv.symm
  have hright : HasDerivWithinAt f (piece' (fn x) q (i + 2) x[i + 1]) (Set.Ici x[i + 1]) x[i + 1] := by
    have h1 := ((piece_C2 (fn y) (fn x) q (i + 2)).d1 x[i + 1]).hasDerivWithinAt (s := Set.Ici x[i + 1])
    refine h1.congr_of_eventuallyEq ?_ hval
    have hnb : Set.Iio x[i + 2] ∈ 𝓝[Set.Ici x[i + 1]] x[i + 1] := mem_nhdsWithin_of_mem_nhds (isOpen_Iio.mem_nhds (hx.lt (by omega) (by omega)))
    filter_upwards [hnb, self_mem_nhdsWithin] with t ht1 ht2
    rw [hfe, pasteAll_mid _ _ _ (i + 2) _ (by omega) (fun j hj => ?_) (fun j hj hj' => ?_)]
    · rw [fn_eq (by omega)]
      exact (hx.le (show j ≤ i + 1 by omega) (by omega)).trans ht2
    · rw [fn_eq (by omega)]
      exact lt_of_lt_of_le ht1 (hx.le hj (by omega))
  have hiff : DifferentiableAt ℝ f x[i + 1] ↔ piece' (fn x) q (i + 1) x[i + 1] = piece' (fn x) q (i + 2) x[i + 1] := by
    constructor
    · intro hd
      have e1 := (uniqueDiffWithinAt_Iic x[i + 1]).eq_deriv _ hleft hd.hasDerivAt.hasDerivWithinAt
      have e2 := (uniqueDiffWithinAt_Ici x[i + 1]).eq_deriv _ hright hd.hasDerivAt.hasDerivWithinAt
      rw [e1, e2]
    · intro he
      rw [← he] at hright
      have := hleft.union hright
      rw [Set.Iic_union_Ici] at this
      exact (hasDerivWithinAt_univ.1 this).differentiableAt
  rw [hiff]
  have h1 := hg.first i (by omega)
  have p1 : 0 < fn x (i + 1) - fn x i := sub_pos.2 (fn_lt hx i (i + 1) (by omega) (by omega))
  have p2 : 0 < fn x (i + 2) - fn x (i + 1) := sub_pos.2 (fn_lt hx (i + 1) (i + 2) (by omega) (by omega))
  have e : piece' (fn x) q (i + 1) x[i + 1] - piece' (fn x) q (i + 2) x[i + 1] =
      (fn y (i + 1) - fn y i) * (1 / (fn x (i + 1) - fn x i) - 1 / (fn x (i + 2) - fn x (i + 1))) := by
    rw [← hxi]
    simp only [piece', sub_self, mul_zero, add_zero]
    rw [h1]
    simp only [Nat.add_sub_cancel]
    have : fn x (i + 1 + 1) = fn x (i + 2) := rfl
    have : fn y (i + 1 + 1) = fn y (i + 2) := rfl
    ring
  rw [← sub_eq_zero, e, mul_eq_zero, sub_eq_zero, sub_eq_zero, one_div, one_div, inv_inj, eq_comm (a := fn x (i + 1) - fn x i)]
  rw [fn_eq (show i + 1 < y.length by omega), fn_eq (show i < y.length by omega), fn_eq (show i + 1 < x.length by omega),
    fn_eq (show i < x.length by omega), fn_eq (show i + 2 < x.length by omega)]

/-- knots 0, 1, 3 and data 0, 1, 0: a corner at 1 -/
example : ∃ f : ℝ → ℝ, (∀ t, spline [0, 1, 0] [0, 1, 3] t = .ok (f t)) ∧ ¬ DifferentiableAt ℝ f 1 := by
  have hx : Increasing ([0, 1, 3] : List ℝ) := by norm_num [Increasing]
  obtain ⟨f, hf, -, -⟩ := C31_continuous (y := [0, 1, 0]) hx rfl (by simp)
  refine ⟨f, hf, ?_⟩
  have := C31_kink_refuted (y := [0, 1, 0]) hx rfl (by simp) hf 0 (by simp)
  simp only [List.getElem_cons_succ, List.getElem_cons_zero] at this
  rw [this]
  norm_num

/-- **C31**: the vector form is the scalar form at each position -/
theorem C31_vector (y x xn : List ℝ) (hl : y.length = x.length) (hn : 2 ≤ y.length) : splineV y x xn = xn.mapM (spline y x) := by
  unfold splineV
  rw [Res.check_pos hl, Res.check_pos hn]
  simp only [Res.ok_bind]
  congr 1
  funext t
  unfold spline
  rw [Res.check_pos hl, Res.check_pos hn]
  rfl

/-- **C31**: on a regular grid the spline passes through all the values and is twice continuously differentiable -/
theorem C31_regular {y : List ℝ} (hn : 2 ≤ y.length) :
    ∃ f : ℝ → ℝ, (∀ t, splineReg y t = .ok (f t)) ∧ ContDiff ℝ 2 f ∧ ∀ (i : Nat) (hi : i < y.length), f i = y[i] := by
  have hg0 := coefsReg_good (show 0 < y.length - 1 by omega) (fn y)
  have hX : ∀ i j : Nat, i < j → j < y.length - 1 + 1 → (i : ℝ) < (j : ℝ) := fun i j h _ => Nat.cast_lt.2 h
  have hg : Good (y.length - 1) (fn y) (fun i => ((i + 1 : Nat) : ℝ) - (i : ℝ)) (fun i => 3 * (fn y (i + 1) - fn y i) - 3 * (fn y i - fn y (i - 1)))
      (coefsReg (y.length - 1) (fn y)) := by
    have : (fun i : Nat => ((i + 1 : Nat) : ℝ) - (i : ℝ)) = fun _ => (1 : ℝ) := by funext i; push_cast; ring
    rw [this]; exact hg0
  have hval : ∀ t, splineReg y t = .ok (pasteAll (fun i => (i : ℝ)) (piece (fn y) (fun i => (i : ℝ)) (coefsReg (y.length - 1) (fn y))) (y.length - 1 + 1) t) := by
    intro t
    unfold splineReg
    rw [Res.check_pos hn]
    simp only [Res.ok_bind]
    by_cases hneg : ⌊t⌋ < 0
    · rw [if_pos hneg]
      have ht : t < 0 := Int.floor_lt_zero.1 hneg
      rw [pasteAll_mid _ _ _ 0 t (by omega) (by omega) (fun j _ _ => lt_of_lt_of_le ht (Nat.cast_nonneg _))]
      simp [piece]
    · rw [if_neg hneg]
      have h0 : 0 ≤ ⌊t⌋ := not_lt.1 hneg
      obtain ⟨k, hk⟩ := Int.eq_ofNat_of_zero_le h0
      have hk1 : (k : ℝ) ≤ t := by
        have := Int.floor_le t
        rw [hk] at this; simpa using this
      have hk2 : t < (k : ℝ) + 1 := by
        have := Int.lt_floor_add_one t
        rw [hk] at this; simpa using this
      rw [hk]
      have hif : (if ((y.length - 1 : Nat) : Int) < (k : Int) then y.length - 1 else (k : Int).toNat) = min k (y.length - 1) := by
        split <;> omega
      rw [hif]
      rw [pasteAll_mid _ _ _ (min k (y.length - 1) + 1) t (by omega) (fun j hj => ?_) (fun j hj hj' => ?_)]
      · rfl
      · have : (j : ℝ) ≤ (k : ℝ) := Nat.cast_le.2 (by omega)
        linarith
      · have : ((k + 1 : Nat) : ℝ) ≤ (j : ℝ) := Nat.cast_le.2 (by omega)
        push_cast at this
        linarith
  refine ⟨_, hval, ?_, ?_⟩
  · refine (pasteAll_C2 (piece_C2 _ _ _) _ hX (piece_value hg) (piece_first (by omega) hg ?_) (piece_second hg)).contDiff
    intro i _
    have e1 : ((i + 2 : Nat) : ℝ) - ((i + 1 : Nat) : ℝ) = 1 := by push_cast; ring
    have e2 : ((i + 1 : Nat) : ℝ) - (i : ℝ) = 1 := by push_cast; ring
    simp only [Nat.add_sub_cancel]
    rw [e1, e2]
    ring
  · intro i hi
    rw [pasteAll_mid _ _ _ (i + 1) _ (by omega) (fun j hj => Nat.cast_le.2 (by omega)) (fun j hj hj' => Nat.cast_lt.2 (by omega))]
    simp only [piece, sub_self, mul_zero, add_zero]
    exact fn_eq hi

/-- **C31**: fewer than two values, or unequal sizes, are refused -/
theorem C31_refused (y x : List ℝ) (t : ℝ) (h : y.length ≠ x.length ∨ y.length < 2) : spline y x t = .abort := by
  unfold spline
  by_cases h1 : y.length = x.length
  · rw [Res.check_pos h1, Res.ok_bind, Res.check_neg (by omega)]; rfl
  · rw [Res.check_neg h1]; rfl

end Verif.Spline
