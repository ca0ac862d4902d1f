import Verif.Math.MpfitQR
import Mathlib.Algebra.Field.Rat
import Mathlib.Algebra.Order.Ring.Unbundled.Rat
import Mathlib.Data.Rat.Sqrt
/-!
# C145: the factorization of the Jacobian in `mpfit`

The specification only knows scalar products: those of the derivatives of the deviates, and those with the deviates themselves.
-/
namespace Verif.Mpfit
open Verif

variable {K : Type} [Field K] [LinearOrder K] [IsStrictOrderedRing K]

omit [IsStrictOrderedRing K] in
theorem applyQ_dot {n m : Nat} (hnm : n ≤ m) {a : Nat → Nat → K} {ipiv : Nat → Nat} {i : Nat} (hi : i ≤ n)
    (h : ∀ p, p < i → a (ipiv p) p ≠ 0 → dot p m (a (ipiv p)) (a (ipiv p)) = 2 * a (ipiv p) p) (w w' : Nat → K) :
    dot 0 m (applyQ m a ipiv i w) (applyQ m a ipiv i w') = dot 0 m w w' := by
  induction i with
  | zero => rfl
  | succ i ih =>
    rw [applyQ_succ, applyQ_succ]
    rw [← ih (by omega) fun p hp => h p (by omega)]
    by_cases h0 : a (ipiv i) i ≠ 0
    · rw [if_pos h0, if_pos h0]
      exact house_dot (by omega) h0 (h i (by omega) h0) _ _
    · rw [if_neg h0, if_neg h0]

omit [IsStrictOrderedRing K] in
theorem applyQ_fixed {m : Nat} {a : Nat → Nat → K} {ipiv : Nat → Nat} {p i : Nat} (hi : p < i) (w : Nat → K) :
    applyQ m a ipiv i w p = applyQ m a ipiv (p + 1) w p := by
  induction i with
  | zero => omega
  | succ i ih =>
    by_cases hp : p = i
    · subst hp; rfl
    · rw [applyQ_succ, ← ih (by omega)]
      split
      · unfold house; rw [if_neg (by omega)]
      · rfl

omit [IsStrictOrderedRing K] in
theorem qtf_fold {n m : Nat} {a : Nat → Nat → K} {ipiv : Nat → Nat} (hp : Perm n ipiv) (rdiag f : Nat → K) :
    ∀ k, k ≤ n → let t := (List.range k).foldl (qtfStep m ipiv rdiag) (a, f, fun _ => 0)
      (∀ p, p < n → ∀ c, t.1 (ipiv p) c = if p < k ∧ c = p then rdiag p else a (ipiv p) c) ∧ t.2.1 = applyQ m a ipiv k f ∧
        ∀ p, p < k → t.2.2 p = applyQ m a ipiv (p + 1) f p := by
  intro k
  induction k with
  | zero => intro _; exact ⟨fun p _ c => by simp, rfl, by omega⟩
  | succ k ih =>
    intro hk
    obtain ⟨h1, h2, h3⟩ := ih (by omega)
    rw [List.range_succ, List.foldl_append]
    generalize (List.range k).foldl (qtfStep m ipiv rdiag) (a, f, fun _ => 0) = t at *
    have hrow : t.1 (ipiv k) = a (ipiv k) := by
      funext c
      rw [h1 k (by omega), if_neg (by omega)]
    have hw : (qtfStep m ipiv rdiag t k).2.1 = applyQ m a ipiv (k + 1) f := by
      unfold qtfStep
      dsimp only
      rw [applyQ_succ, hrow, h2]
      rfl
    rw [List.foldl_cons, List.foldl_nil]
    refine ⟨?_, hw, ?_⟩
    · intro p hpn c
      unfold qtfStep
      dsimp only
      by_cases hpk : p = k
      · subst hpk
        by_cases hc : c = p
        · rw [if_pos ⟨rfl, hc⟩, if_pos ⟨by omega, hc⟩]
        · rw [if_neg fun h => hc h.2, if_neg fun h => hc h.2, hrow]
      · rw [if_neg fun h => hpk (hp.inj _ _ hpn (by omega) h.1), h1 p hpn]
        by_cases hc : p < k ∧ c = p
        · rw [if_pos hc, if_pos ⟨by omega, hc.2⟩]
        · rw [if_neg hc, if_neg fun h => hc ⟨by omega, h.2⟩]
    · intro p hpk
      have he : (qtfStep m ipiv rdiag t k).2.2 p = if p = k then (qtfStep m ipiv rdiag t k).2.1 k else t.2.2 p := rfl
      rw [he]
      by_cases hpk' : p = k
      · subst hpk'
        rw [if_pos rfl, hw]
      · rw [if_neg hpk', h3 p (by omega)]

/-- the factorization: there is a rotation of the space of the deviates which gives the triangular matrix and `qtf` -/
theorem factor_spec {N : Num K} (hN : IsRoot N.sq) {n m : Nat} (hnm : n ≤ m) (a : Nat → Nat → K) (f : Nat → K) :
    Perm n (factor N n m a f).ipiv ∧ ∃ F : (Nat → K) → Nat → K, (∀ w w', dot 0 m (F w) (F w') = dot 0 m w w') ∧
      (∀ p, p < n → ∀ c, c < m → F (a ((factor N n m a f).ipiv p)) c = if c ≤ p then (factor N n m a f).r p c else 0) ∧
      ∀ c, c < n → F f c = (factor N n m a f).qtf c := by
  have h := qrfac_spec hN hnm a
  obtain ⟨h1, h2, h3⟩ := qtf_fold (m := m) (a := (qrfac N n m a).a) h.perm (qrfac N n m a).rdiag f n (le_refl _)
  unfold factor
  dsimp only
  refine ⟨h.perm, applyQ m (qrfac N n m a).a (qrfac N n m a).ipiv n, applyQ_dot hnm (le_refl _) h.unit, ?_, ?_⟩
  · intro p hp c hc
    rw [h.done p hp c hc, h1 p hp c]
    by_cases hcp : c < p
    · rw [if_pos hcp, if_pos hcp.le, if_neg (by omega)]
    · rw [if_neg hcp]
      by_cases hcp' : c = p
      · rw [if_pos hcp', if_pos (by omega), if_pos ⟨hp, hcp'⟩]
      · rw [if_neg hcp', if_neg (by omega)]
  · intro c hc
    rw [h3 c hc]
    exact applyQ_fixed hc f

omit [LinearOrder K] [IsStrictOrderedRing K] in
/-- a scalar product with a vector that ends at `p` -/
theorem dot_short {m p : Nat} (hp : p < m) {v r w : Nat → K} (hv : ∀ c, c < m → v c = if c ≤ p then r c else 0) :
    dot 0 m v w = ∑ i ∈ Finset.range (p + 1), r i * w i := by
  unfold dot
  rw [← Finset.range_eq_Ico, ← Finset.sum_subset (Finset.range_subset_range.2 (show p + 1 ≤ m by omega))]
  · refine Finset.sum_congr rfl fun c hc => ?_
    rw [Finset.mem_range] at hc
    rw [hv c (by omega), if_pos (by omega)]
  · intro c hc hc'
    rw [Finset.mem_range] at hc hc'
    rw [hv c hc, if_neg (by omega), zero_mul]

/-- **C145** the triangular matrix and the vector which `mpfit` uses in place of the derivatives and of the deviates have the same scalar products: between
the derivatives, and between the derivatives and the deviates; `ipiv` is a permutation of the parameters -/
theorem C145_factor {N : Num K} (hN : IsRoot N.sq) {n m : Nat} (hnm : n ≤ m) (a : Nat → Nat → K) (f : Nat → K) :
    let q := factor N n m a f
    Perm n q.ipiv ∧
      (∀ p p', p ≤ p' → p' < n → ∑ c ∈ Finset.range m, a (q.ipiv p) c * a (q.ipiv p') c = ∑ i ∈ Finset.range (p + 1), q.r p i * q.r p' i) ∧
      (∀ p, p < n → ∑ c ∈ Finset.range m, a (q.ipiv p) c * f c = ∑ i ∈ Finset.range (p + 1), q.r p i * q.qtf i) ∧
      ∀ p, 0 ≤ q.acnorm p ∧ q.acnorm p * q.acnorm p = ∑ c ∈ Finset.range m, a p c * a p c := by
  intro q
  obtain ⟨h1, F, h2, h3, h4⟩ := factor_spec hN hnm a f
  have hd : ∀ v w : Nat → K, ∑ c ∈ Finset.range m, v c * w c = dot 0 m v w := fun v w => by
    unfold dot; rw [Finset.range_eq_Ico]
  refine ⟨h1, ?_, ?_, ?_⟩
  · intro p p' hpp hp'
    rw [hd, ← h2, dot_short (p := p) (by omega) (h3 p (by omega))]
    refine Finset.sum_congr rfl fun i hi => ?_
    rw [Finset.mem_range] at hi
    rw [h3 p' hp' i (by omega), if_pos (by omega)]
  · intro p hp
    rw [hd, ← h2, dot_short (p := p) (by omega) (h3 p hp)]
    refine Finset.sum_congr rfl fun i hi => ?_
    rw [Finset.mem_range] at hi
    rw [h4 i (by omega)]
  · intro p
    rw [hd]
    exact vnorm_tail hN (a p) 0 m

theorem foldl_lt_iff {l : List Nat} {c : Nat → Prop} [DecidablePred c] {g : Nat → K} {b t : K} (hb : b < t) :
    l.foldl (fun (x : K) p => if c p then max x (g p) else x) b < t ↔ ∀ p ∈ l, c p → g p < t := by
  induction l generalizing b with
  | nil => simp [hb]
  | cons a l ih =>
    rw [List.foldl_cons]
    by_cases ha : c a
    · rw [if_pos ha]
      by_cases hg : g a < t
      · rw [ih (max_lt hb hg)]
        simp [ha, hg]
      · constructor
        · intro h
          exfalso
          have : ∀ (l : List Nat) (x : K), x ≤ l.foldl (fun (x : K) p => if c p then max x (g p) else x) x := by
            intro l
            induction l with
            | nil => intro x; exact le_refl _
            | cons a l ih =>
              intro x
              rw [List.foldl_cons]
              refine le_trans ?_ (ih _)
              split
              · exact le_max_left _ _
              · exact le_refl _
          exact hg (lt_of_le_of_lt ((le_max_right _ _).trans (this l (max b (g a)))) h)
        · intro h
          exact absurd (h a (by simp) ha) hg
    · rw [if_neg ha, ih hb]
      simp [ha]

/-- **C145** the first test of convergence: `mpfit` stops with the reason `gtol` when, for each fitted parameter, the scalar product of the derivative and of
the deviates is smaller than `gtol` times the norm of the derivative -/
theorem C145_gtol {N : Num K} (hN : IsRoot N.sq) {n m : Nat} (hnm : n ≤ m) (a : Nat → Nat → K) (f : Nat → K) {fn gtol : K} (h0 : fn ≠ 0) (hg : 0 < gtol) :
    gradNorm n (factor N n m a f) (some fn) < gtol ↔
      ∀ l, l < n → (∃ c, c < m ∧ a l c ≠ 0) → |∑ c ∈ Finset.range m, a l c * f c| < gtol * (factor N n m a f).acnorm l := by
  obtain ⟨h1, _, h3, h4⟩ := C145_factor hN hnm a f
  generalize factor N n m a f = q at *
  unfold gradNorm
  rw [if_neg (by simpa using h0), foldl_lt_iff hg]
  have hsum : ∀ p, p < n → ((List.range (p + 1)).map fun i => q.r p i * q.qtf i).sum = ∑ c ∈ Finset.range m, a (q.ipiv p) c * f c := by
    intro p hp
    rw [h3 p hp]
    rfl
  have hnz : ∀ l, q.acnorm l ≠ 0 ↔ ∃ c, c < m ∧ a l c ≠ 0 := by
    intro l
    obtain ⟨k1, k2⟩ := h4 l
    rw [← not_iff_not]
    push Not
    constructor
    · intro h c hc
      rw [h, zero_mul] at k2
      have := (Finset.sum_eq_zero_iff_of_nonneg (fun c _ => mul_self_nonneg (a l c))).1 k2.symm c (Finset.mem_range.2 hc)
      exact mul_self_eq_zero.1 this
    · intro h
      rw [Finset.sum_eq_zero fun c hc => by rw [h c (Finset.mem_range.1 hc), zero_mul]] at k2
      exact mul_self_eq_zero.1 k2
  have hdiv : ∀ p, p < n → q.acnorm (q.ipiv p) ≠ 0 →
      (|((List.range (p + 1)).map fun i => q.r p i * q.qtf i).sum / q.acnorm (q.ipiv p)| < gtol ↔
        |∑ c ∈ Finset.range m, a (q.ipiv p) c * f c| < gtol * q.acnorm (q.ipiv p)) := by
    intro p hp hne
    have hpos : 0 < q.acnorm (q.ipiv p) := lt_of_le_of_ne (h4 _).1 (Ne.symm hne)
    rw [hsum p hp, abs_div, abs_of_pos hpos, div_lt_iff₀ hpos]
  -- the permutation reaches each parameter
  have hsurj : ∀ l, l < n → ∃ p, p < n ∧ q.ipiv p = l := by
    intro l hl
    have hinj : Function.Injective (fun p : Fin n => (⟨q.ipiv p, h1.lt p p.2⟩ : Fin n)) := fun p p' h => by
      have := h1.inj p p' p.2 p'.2 (by simpa using h)
      exact Fin.ext this
    obtain ⟨p, hp⟩ := (Finite.injective_iff_surjective.1 hinj) ⟨l, hl⟩
    exact ⟨p, p.2, by simpa using hp⟩
  constructor
  · intro h l hl hc
    obtain ⟨p, hp, rfl⟩ := hsurj l hl
    have hne := (hnz _).2 hc
    exact (hdiv p hp hne).1 (h p (List.mem_range.2 hp) hne)
  · intro h p hp hne
    rw [List.mem_range] at hp
    exact (hdiv p hp hne).2 (h _ (h1.lt p hp) ((hnz _).1 hne))

/-- **C145 (refuted)** the convergence does not depend on the unit of the deviates: with deviates in a smaller unit the test is met anywhere -/
theorem C145_unit_refuted {N : Num K} (hN : IsRoot N.sq) {n m : Nat} (hnm : n ≤ m) (a : Nat → Nat → K) (f : Nat → K) {gtol : K} (hg : 0 < gtol)
    (b : K) (hb : ∀ l, l < n → (∃ c, c < m ∧ a l c ≠ 0) → |∑ c ∈ Finset.range m, a l c * f c| < b * (factor N n m a f).acnorm l) (hb0 : 0 < b) {fn : K} (h0 : fn ≠ 0) :
    gradNorm n (factor N n m (fun l c => gtol / b * a l c) (fun c => gtol / b * f c)) (some fn) < gtol := by
  have hu : 0 < gtol / b := div_pos hg hb0
  rw [C145_gtol hN hnm _ _ h0 hg]
  intro l hl ⟨c, hc, hne⟩
  have h1 := hb l hl ⟨c, hc, fun h => hne (by rw [h, mul_zero])⟩
  obtain ⟨_, _, _, k4⟩ := C145_factor hN hnm a f
  obtain ⟨_, _, _, k4'⟩ := C145_factor hN hnm (fun l c => gtol / b * a l c) (fun c => gtol / b * f c)
  have hac : (factor N n m (fun l c => gtol / b * a l c) (fun c => gtol / b * f c)).acnorm l = gtol / b * (factor N n m a f).acnorm l := by
    have e1 := (k4 l).2
    have e2 := (k4' l).2
    have e3 : ∑ c ∈ Finset.range m, gtol / b * a l c * (gtol / b * a l c) = (gtol / b) ^ 2 * ∑ c ∈ Finset.range m, a l c * a l c := by
      rw [Finset.mul_sum]
      exact Finset.sum_congr rfl fun c _ => by ring
    rw [e3, ← e1] at e2
    have e4 : (factor N n m (fun l c => gtol / b * a l c) (fun c => gtol / b * f c)).acnorm l ^ 2 = (gtol / b * (factor N n m a f).acnorm l) ^ 2 := by
      rw [sq, e2]; ring
    exact (sq_eq_sq₀ (k4' l).1 (mul_nonneg hu.le (k4 l).1)).1 e4
  rw [hac]
  have e : ∑ c ∈ Finset.range m, gtol / b * a l c * (gtol / b * f c) = (gtol / b) ^ 2 * ∑ c ∈ Finset.range m, a l c * f c := by
    rw [Finset.mul_sum]
    exact Finset.sum_congr rfl fun c _ => by ring
  rw [e, abs_mul, abs_of_pos (by positivity)]
  calc (gtol / b) ^ 2 * |∑ c ∈ Finset.range m, a l c * f c| < (gtol / b) ^ 2 * (b * (factor N n m a f).acnorm l) :=
        mul_lt_mul_of_pos_left h1 (by positivity)
    _ = gtol * (gtol / b * (factor N n m a f).acnorm l) := by field_simp

/-- two parameters and two deviates, whose derivatives are `(3, 4)` and `(0, 5)`: the second line of the triangle has the sign of a reflection -/
example :
    let N : Num ℚ := ⟨Rat.sqrt, 1 / 2 ^ 52, 1 / 2 ^ 26, 1 / 2 ^ 1022, 2 ^ 1023⟩
    let q := factor N 2 2 (fun p c => if p = 0 then (if c = 0 then 3 else 4) else if c = 0 then 0 else 5) (fun c => if c = 0 then 1 else 2)
    q.ipiv 0 = 0 ∧ q.ipiv 1 = 1 ∧ q.r 0 0 = -5 ∧ q.r 1 0 = -4 ∧ q.r 1 1 = -3 ∧ q.qtf 0 = -11 / 5 ∧ q.qtf 1 = -2 / 5 ∧ q.acnorm 0 = 5 := by decide +kernel

/-- the hypothesis of `C145_unit_refuted`: one deviate `1` with a derivative `1` is far from the minimum for `gtol = 1/100`, not in a unit 200 times larger -/
example : let N : Num ℚ := ⟨Rat.sqrt, 1 / 2 ^ 52, 1 / 2 ^ 26, 1 / 2 ^ 1022, 2 ^ 1023⟩
    ¬ gradNorm 1 (factor N 1 1 (fun _ _ => 1) (fun _ => 1)) (some 1) < 1 / 100 ∧
      gradNorm 1 (factor N 1 1 (fun _ _ => 1 / 200) (fun _ => 1 / 200)) (some (1 / 200)) < 1 / 100 := by decide +kernel

end Verif.Mpfit
