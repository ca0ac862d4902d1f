import Verif.Math.SplineLemmas
import Mathlib.Analysis.Calculus.ContDiff.Basic
import Mathlib.Analysis.Calculus.Deriv.Basic
import Mathlib.Analysis.Calculus.Deriv.Add
import Mathlib.Analysis.Calculus.Deriv.Mul
import Mathlib.Analysis.Calculus.Deriv.Pow
import Mathlib.Analysis.Calculus.IteratedDeriv.Defs
/-!
# Pasting smooth functions
-/
namespace Verif.Spline
open Verif Filter Topology

/-- `f` before `a`, `g` from `a` on -/
noncomputable def paste (a : ℝ) (f g : ℝ → ℝ) (t : ℝ) : ℝ := if t < a then f t else g t

theorem paste_continuous {a : ℝ} {f g : ℝ → ℝ} (hf : Continuous f) (hg : Continuous g) (h : f a = g a) : Continuous (paste a f g) := by
  have e : paste a f g = fun t => if a ≤ t then g t else f t := by
    funext t
    unfold paste
    by_cases ht : t < a
    · rw [if_pos ht, if_neg (not_le.2 ht)]
    · rw [if_neg ht, if_pos (not_lt.1 ht)]
  rw [e]
  exact Continuous.if_le hg hf continuous_const continuous_id fun t ht => by
    rw [← (show a = t from ht)]; exact h.symm

theorem paste_hasDerivAt {a : ℝ} {f g f' g' : ℝ → ℝ} (hf : ∀ t, HasDerivAt f (f' t) t) (hg : ∀ t, HasDerivAt g (g' t) t) (h : f a = g a)
    (h' : f' a = g' a) (t : ℝ) : HasDerivAt (paste a f g) (paste a f' g' t) t := by
  rcases lt_trichotomy t a with ht | rfl | ht
  · have e : paste a f g =ᶠ[𝓝 t] f := by
      filter_upwards [isOpen_Iio.mem_nhds ht] with s hs
      exact if_pos hs
    rw [paste, if_pos ht]
    exact (hf t).congr_of_eventuallyEq e
  · have e : paste t f' g' t = g' t := if_neg (lt_irrefl _)
    rw [e]
    have h1 : HasDerivWithinAt (paste t f g) (g' t) (Set.Iic t) t := by
      rw [← h']
      refine (hf t).hasDerivWithinAt.congr ?_ ?_
      · intro s hs
        rcases lt_or_eq_of_le (show s ≤ t from hs) with hs | hs
        · exact if_pos hs
        · rw [hs, paste, if_neg (lt_irrefl _), h]
      · rw [paste, if_neg (lt_irrefl _), h]
    have h2 : HasDerivWithinAt (paste t f g) (g' t) (Set.Ici t) t := by
      refine (hg t).hasDerivWithinAt.congr ?_ ?_
      · intro s hs
        exact if_neg (not_lt.2 hs)
      · exact if_neg (lt_irrefl _)
    have := h1.union h2
    rw [Set.Iic_union_Ici] at this
    exact hasDerivWithinAt_univ.1 this
  · have e : paste a f g =ᶠ[𝓝 t] g := by
      filter_upwards [isOpen_Ioi.mem_nhds ht] with s hs
      exact if_neg (not_lt.2 (le_of_lt hs))
    rw [paste, if_neg (not_lt.2 ht.le)]
    exact (hg t).congr_of_eventuallyEq e

/-- a function with its first and second derivative -/
structure C2 (f f' f'' : ℝ → ℝ) : Prop where
  d1 : ∀ t, HasDerivAt f (f' t) t
  d2 : ∀ t, HasDerivAt f' (f'' t) t
  cont : Continuous f''

theorem C2.contDiff {f f' f'' : ℝ → ℝ} (h : C2 f f' f'') : ContDiff ℝ 2 f := by
  have e1 : deriv f = f' := funext fun t => (h.d1 t).deriv
  have e2 : deriv f' = f'' := funext fun t => (h.d2 t).deriv
  rw [show (2 : WithTop ℕ∞) = 1 + 1 by norm_num, contDiff_succ_iff_deriv]
  refine ⟨fun t => (h.d1 t).differentiableAt, by simp, ?_⟩
  rw [e1, show (1 : WithTop ℕ∞) = 0 + 1 by norm_num, contDiff_succ_iff_deriv]
  refine ⟨fun t => (h.d2 t).differentiableAt, by simp, ?_⟩
  rw [e2]
  exact contDiff_zero.2 h.cont

theorem C2.paste {a : ℝ} {f f' f'' g g' g'' : ℝ → ℝ} (hf : C2 f f' f'') (hg : C2 g g' g'') (h0 : f a = g a) (h1 : f' a = g' a) (h2 : f'' a = g'' a) :
    C2 (paste a f g) (paste a f' g') (paste a f'' g'') :=
  ⟨paste_hasDerivAt hf.d1 hg.d1 h0 h1, paste_hasDerivAt hf.d2 hg.d2 h1 h2, paste_continuous hf.cont hg.cont h2⟩

/-- pieces `0 … m` pasted at `X 0 < … < X (m-1)` -/
noncomputable def pasteAll (X : Nat → ℝ) (p : Nat → ℝ → ℝ) : Nat → ℝ → ℝ
  | 0 => p 0
  | m + 1 => paste (X m) (pasteAll X p m) (p (m + 1))

theorem pasteAll_last (X : Nat → ℝ) (p : Nat → ℝ → ℝ) : ∀ (m : Nat) (t : ℝ), (∀ j < m, X j ≤ t) → pasteAll X p m t = p m t
  | 0, _, _ => rfl
  | m + 1, t, h => if_neg (not_lt.2 (h m (by omega)))

theorem pasteAll_mid (X : Nat → ℝ) (p : Nat → ℝ → ℝ) : ∀ (m k : Nat) (t : ℝ), k ≤ m → (∀ j < k, X j ≤ t) →
    (∀ j, k ≤ j → j < m → t < X j) → pasteAll X p m t = p k t
  | 0, k, t, hk, h1, h2 => by
    obtain rfl : k = 0 := by omega
    rfl
  | m + 1, k, t, hk, h1, h2 => by
    by_cases hkm : k = m + 1
    · subst hkm
      exact pasteAll_last X p _ t h1
    · show paste _ _ _ _ = _
      rw [paste, if_pos (h2 m (by omega) (by omega))]
      exact pasteAll_mid X p m k t (by omega) h1 (fun j hj hj' => h2 j hj (by omega))

theorem pasteAll_C2 {X : Nat → ℝ} {p p' p'' : Nat → ℝ → ℝ} (hp : ∀ k, C2 (p k) (p' k) (p'' k)) : ∀ (m : Nat),
    (∀ i j, i < j → j < m → X i < X j) →
    (∀ k < m, p k (X k) = p (k + 1) (X k)) → (∀ k < m, p' k (X k) = p' (k + 1) (X k)) → (∀ k < m, p'' k (X k) = p'' (k + 1) (X k)) →
    C2 (pasteAll X p m) (pasteAll X p' m) (pasteAll X p'' m)
  | 0, _, _, _, _ => hp 0
  | m + 1, hX, h0, h1, h2 => by
    have ih := pasteAll_C2 hp m (fun i j hij hj => hX i j hij (by omega)) (fun k hk => h0 k (by omega)) (fun k hk => h1 k (by omega)) (fun k hk => h2 k (by omega))
    have hlast : ∀ q : Nat → ℝ → ℝ, pasteAll X q m (X m) = q m (X m) := fun q => pasteAll_last X q m _ fun j hj => (hX j m hj (by omega)).le
    exact ih.paste (hp (m + 1)) ((hlast p).trans (h0 m (by omega))) ((hlast p').trans (h1 m (by omega))) ((hlast p'').trans (h2 m (by omega)))

theorem pasteAll_continuous {X : Nat → ℝ} {p : Nat → ℝ → ℝ} (hp : ∀ k, Continuous (p k)) : ∀ (m : Nat),
    (∀ i j, i < j → j < m → X i < X j) →
    (∀ k < m, p k (X k) = p (k + 1) (X k)) → Continuous (pasteAll X p m)
  | 0, _, _ => hp 0
  | m + 1, hX, h0 => paste_continuous (pasteAll_continuous hp m (fun i j hij hj => hX i j hij (by omega)) fun k hk => h0 k (by omega)) (hp (m + 1))
      ((pasteAll_last X p m _ fun j hj => (hX j m hj (by omega)).le).trans (h0 m (by omega)))

/-- a cubic polynomial around `x0` -/
theorem cubic_C2 (x0 a b c d : ℝ) : C2 (fun t => a + b * (t - x0) + c * (t - x0) * (t - x0) + d * (t - x0) * (t - x0) * (t - x0))
    (fun t => b + 2 * c * (t - x0) + 3 * d * (t - x0) * (t - x0)) (fun t => 2 * c + 6 * d * (t - x0)) := by
  have hx : ∀ t : ℝ, HasDerivAt (fun t : ℝ => t - x0) 1 t := fun t => (hasDerivAt_id t).sub_const x0
  refine ⟨fun t => ?_, fun t => ?_, by fun_prop⟩
  · have h1 := (hx t).const_mul b
    have h2 := ((hx t).const_mul c).mul (hx t)
    have h3 := (((hx t).const_mul d).mul (hx t)).mul (hx t)
    have := (((h1.const_add a).add h2).add h3)
    refine HasDerivAt.congr_deriv this ?_
    simp only [Pi.mul_apply]
    ring
  · have h1 := (hx t).const_mul (2 * c)
    have h2 := ((hx t).const_mul (3 * d)).mul (hx t)
    have := ((h1.const_add b).add h2)
    refine HasDerivAt.congr_deriv this ?_
    ring

end Verif.Spline
