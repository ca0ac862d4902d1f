import Verif.Astro.Sed
import Verif.Math.IntegrateProps
import Verif.Core.AccessProps
import Mathlib.Data.List.Chain
import Mathlib.Tactic.LinearCombination

/-!
# Flux of a spectrum through a filter: C103, C104

The specification uses the piecewise linear functions computed by `interpolate` for the filter and the spectrum, and integrals of Mathlib.
-/
namespace Verif.Sed
open Verif Verif.Math MeasureTheory

/-- the trapezoid rule for the function `G` on the nodes of a list -/
noncomputable def trapSum (G : ℝ → ℝ) : List ℝ → ℝ
  | a :: b :: t => (G b + G a) / 2 * (b - a) + trapSum G (b :: t)
  | _ => 0

/-- two successive nodes, with no point of the two grids strictly between -/
def Seg (flam lam : List ℝ) (a b : ℝ) : Prop :=
  a ≤ b ∧ (∃ (i : Nat) (h : i + 1 < flam.length), flam[i] ≤ a ∧ b ≤ flam[i + 1]) ∧ ∃ (j : Nat) (h : j + 1 < lam.length), lam[j] ≤ a ∧ b ≤ lam[j + 1]

theorem sedInterp_eq {l r : List ℝ} {f : ℝ → ℝ} (hl : Increasing l) (hr : r.length = l.length) (hf : IsInterpolant r l f) {i : Nat}
    (hi : i + 1 < l.length) {x : ℝ} (h1 : l[i] ≤ x) (h2 : x ≤ l[i + 1]) : sedInterp l r x i = .ok (f x) := by
  unfold sedInterp
  rw [Res.rd_lt (by omega), Res.rd_lt (by omega), Res.rd_lt (by omega), Res.rd_lt (by omega)]
  simp only [Res.ok_bind]
  rw [interpolant_chord hl hr (by omega) hf i hi x h1 h2]

theorem knot_eq {l r : List ℝ} {f : ℝ → ℝ} (hl : Increasing l) (hr : r.length = l.length) (h2 : 2 ≤ l.length) (hf : IsInterpolant r l f) {i : Nat}
    (hi : i < l.length) : r[i]'(by omega) = f l[i] := by
  have := C30_knot r l hl hr h2 i hi
  rw [hf] at this; simpa using this.symm

/-- the loop adds up the trapezoids on nodes that do not depend on the values -/
theorem sedLoop_spec {flam lam : List ℝ} (hF : Increasing flam) (hL : Increasing lam) (nf : 2 ≤ flam.length) (nl : 2 ≤ lam.length)
    (hlast : flam[flam.length - 1] < lam[lam.length - 1]) : ∀ (n ifil ised : Nat) (plam : ℝ) (hi : ifil < flam.length) (hj : ised < lam.length),
    (flam.length - 1 - ifil) + (lam.length - 1 - ised) < n → flam[ifil] ≤ plam → lam[ised] ≤ plam →
    (∀ h : ifil + 1 < flam.length, plam ≤ flam[ifil + 1]) → (∀ h : ised + 1 < lam.length, plam ≤ lam[ised + 1]) →
    (ifil = flam.length - 1 → plam = flam[flam.length - 1] ∧ ∀ j (h : j < lam.length), ised < j → plam < lam[j]) →
    ∃ ks : List ℝ, (plam :: ks).IsChain (Seg flam lam) ∧ (plam :: ks).getLast (by simp) = flam[flam.length - 1] ∧
      (∀ x, x ∈ ks ↔ (∃ j, ∃ h : j < flam.length, ifil < j ∧ x = flam[j]) ∨
        ∃ j, ∃ h : j < lam.length, ised < j ∧ x = lam[j] ∧ x ≤ flam[flam.length - 1]) ∧
      ∀ (fres sed : List ℝ) (F S : ℝ → ℝ), fres.length = flam.length → sed.length = lam.length → IsInterpolant fres flam F →
        IsInterpolant sed lam S → ∀ value, sedLoop flam fres lam sed n ifil ised plam (F plam * S plam) value =
          .ok (flam.length - 1, value + trapSum (fun t => F t * S t) (plam :: ks)) := by
  intro n
  induction n with
  | zero => intro ifil ised plam hi hj hn; omega
  | succ n ih =>
    intro ifil ised plam hi hj hn hf hl hf1 hl1 hend
    by_cases hif : ifil = flam.length - 1
    · obtain ⟨he, hj'⟩ := hend hif
      refine ⟨[], List.isChain_singleton _, he, fun x => ⟨fun h => by simp at h, ?_⟩, ?_⟩
      · rintro (⟨j, h, h1, -⟩ | ⟨j, h, h1, h2, h3⟩)
        · omega
        · have := hj' j h h1
          rw [h2] at h3; linarith
      · intro fres sed F S h1 h2 h3 h4 value
        rw [sedLoop, if_neg (by omega)]
        simp [trapSum, hif]
    · have hif' : ifil + 1 < flam.length := by omega
      have hp := hf1 hif'
      have hpl : flam[ifil + 1] ≤ flam[flam.length - 1] := hF.le (by omega) (by omega)
      have hjs : ised + 1 < lam.length := by
        by_contra hc
        have : ised = lam.length - 1 := by omega
        subst this
        linarith
      have hq := hl1 hjs
      by_cases hc : flam[ifil + 1] < lam[ised + 1]
      · obtain ⟨ks, k1, k2, k3, k4⟩ := ih (ifil + 1) ised flam[ifil + 1] hif' hj (by omega) (le_refl _) (by linarith)
          (fun h => (hF.lt (by omega) h).le) (fun _ => hc.le) (fun h => ⟨by simp only [h], fun j hj h => lt_of_lt_of_le hc (hL.le (by omega) hj)⟩)
        have hseg : Seg flam lam plam flam[ifil + 1] := ⟨hp, ⟨ifil, hif', hf, le_refl _⟩, ised, hjs, hl, hc.le⟩
        refine ⟨flam[ifil + 1] :: ks, List.isChain_cons_cons.2 ⟨hseg, k1⟩, by rw [List.getLast_cons (by simp)]; exact k2, fun x => ?_, ?_⟩
        · rw [List.mem_cons, k3]
          constructor
          · rintro (h | ⟨j, h, h1, h2⟩ | h)
            · exact .inl ⟨ifil + 1, hif', by omega, h⟩
            · exact .inl ⟨j, h, by omega, h2⟩
            · exact .inr h
          · rintro (⟨j, h, h1, h2⟩ | h)
            · by_cases hjj : j = ifil + 1
              · subst hjj; exact .inl h2
              · exact .inr (.inl ⟨j, h, by omega, h2⟩)
            · exact .inr (.inr h)
        · intro fres sed F S h1 h2 h3 h4 value
          rw [sedLoop, if_pos (by omega), Res.rd_lt hif', Res.rd_lt hjs]
          simp only [Res.ok_bind]
          rw [if_pos hc, Res.rd_lt (by omega), sedInterp_eq hL h2 h4 hjs (by linarith) hc.le]
          simp only [Res.ok_bind]
          rw [knot_eq hF h1 nf h3 hif', k4 fres sed F S h1 h2 h3 h4]
          simp only [trapSum, add_assoc]
      · rw [not_lt] at hc
        obtain ⟨ks, k1, k2, k3, k4⟩ := ih ifil (ised + 1) lam[ised + 1] hi hjs (by omega) (by linarith) (le_refl _)
          (fun _ => hc) (fun h => (hL.lt (by omega) h).le) (fun h => absurd h hif)
        have hseg : Seg flam lam plam lam[ised + 1] := ⟨hq, ⟨ifil, hif', hf, hc⟩, ised, hjs, hl, le_refl _⟩
        refine ⟨lam[ised + 1] :: ks, List.isChain_cons_cons.2 ⟨hseg, k1⟩, by rw [List.getLast_cons (by simp)]; exact k2, fun x => ?_, ?_⟩
        · rw [List.mem_cons, k3]
          constructor
          · rintro (h | h | ⟨j, h, h1, h2⟩)
            · exact .inr ⟨ised + 1, hjs, by omega, h, by rw [h]; linarith⟩
            · exact .inl h
            · exact .inr ⟨j, h, by omega, h2⟩
          · rintro (h | ⟨j, h, h1, h2⟩)
            · exact .inr (.inl h)
            · by_cases hjj : j = ised + 1
              · subst hjj; exact .inl h2.1
              · exact .inr (.inr ⟨j, h, by omega, h2⟩)
        · intro fres sed F S h1 h2 h3 h4 value
          rw [sedLoop, if_pos (by omega), Res.rd_lt hif', Res.rd_lt hjs]
          simp only [Res.ok_bind]
          rw [if_neg (not_lt.2 hc), Res.rd_lt (by omega), sedInterp_eq hF h1 h3 hif' (by linarith) hc]
          simp only [Res.ok_bind]
          rw [knot_eq hL h2 nl h4 hjs, mul_comm (S _) (F _), k4 fres sed F S h1 h2 h3 h4]
          simp only [trapSum, add_assoc]

/-- the nodes used for a filter and a spectrum: the points of the filter and those of the spectrum inside the filter, in increasing order -/
def Nodes (flam lam : List ℝ) (ks : List ℝ) : Prop :=
  ks.IsChain (Seg flam lam) ∧ ks.head? = flam.head? ∧ ks.getLast? = flam.getLast? ∧
    ∀ x, x ∈ ks ↔ x ∈ flam ∨ (x ∈ lam ∧ (∃ a ∈ flam, a ≤ x) ∧ ∃ b ∈ flam, x ≤ b)

/-- **C103**: when the spectrum starts at or before the filter and ends after it, the flux is the trapezoid rule for the product of the two
piecewise linear functions, on all the points of the filter and all those of the spectrum inside of it -/
theorem C103_flux_partial {flam lam : List ℝ} (hF : Increasing flam) (hL : Increasing lam) (nf : 2 ≤ flam.length) (nl : 2 ≤ lam.length)
    (hfirst : lam[0] ≤ flam[0]) (hlast : flam[flam.length - 1] < lam[lam.length - 1]) : ∃ ks, Nodes flam lam ks ∧
    ∀ (fres sed : List ℝ) (F S : ℝ → ℝ), fres.length = flam.length → sed.length = lam.length → IsInterpolant fres flam F →
      IsInterpolant sed lam S → sed2flux flam fres lam sed = .ok (some (trapSum (fun t => F t * S t) ks)) := by
  obtain ⟨r, hr1, hr2⟩ := lowerB_spec hL flam[0]
  cases r with
  | none => exact absurd (hr2 _ (List.getElem_mem (by omega : 0 < lam.length))) (not_lt.2 hfirst)
  | some ised =>
    obtain ⟨hi, hle, hgt⟩ := hr2
    have h0l : flam[0] ≤ flam[flam.length - 1] := hF.le (by omega) (by omega)
    have hi1 : ised + 1 < lam.length := by
      by_contra hc
      have : ised = lam.length - 1 := by omega
      subst this
      linarith
    obtain ⟨ks, k1, k2, k3, k4⟩ := sedLoop_spec hF hL nf nl hlast (flam.length + lam.length) 0 ised flam[0] (by omega) hi (by omega)
      (le_refl _) hle (fun h => (hF.lt (by omega) h).le) (fun h => (hgt _ h (by omega)).le) (fun h => by omega)
    refine ⟨flam[0] :: ks, ⟨k1, ?_, ?_, fun x => ?_⟩, ?_⟩
    · rw [List.head?_cons, List.head?_eq_getElem?, List.getElem?_eq_getElem]
    · rw [List.getLast?_eq_some_getLast (by simp), k2, List.getLast?_eq_getElem?, List.getElem?_eq_getElem]
    · rw [List.mem_cons, k3]
      constructor
      · rintro (h | ⟨j, h, h1, h2⟩ | ⟨j, h, h1, h2, h3⟩)
        · exact .inl (h ▸ List.getElem_mem _)
        · exact .inl (h2 ▸ List.getElem_mem _)
        · exact .inr ⟨h2 ▸ List.getElem_mem _, ⟨flam[0], List.getElem_mem _, by rw [h2]; exact (hgt j h h1).le⟩, flam[flam.length - 1], List.getElem_mem _, h3⟩
      · rintro (h | ⟨h, ⟨a, ha, hax⟩, b, hb, hbx⟩)
        · obtain ⟨j, hj, rfl⟩ := List.mem_iff_getElem.1 h
          cases j with
          | zero => exact .inl rfl
          | succ j => exact .inr (.inl ⟨j + 1, hj, by omega, rfl⟩)
        · obtain ⟨j, hj, rfl⟩ := List.mem_iff_getElem.1 h
          obtain ⟨ia, hia, rfl⟩ := List.mem_iff_getElem.1 ha
          obtain ⟨ib, hib, rfl⟩ := List.mem_iff_getElem.1 hb
          have ha0 : flam[0] ≤ flam[ia] := hF.le (by omega) hia
          have hbl : flam[ib] ≤ flam[flam.length - 1] := hF.le (by omega) (by omega)
          by_cases hji : ised < j
          · exact .inr (.inr ⟨j, hj, hji, rfl, by linarith⟩)
          · have : lam[j] ≤ lam[ised] := hL.le (by omega) hi
            exact .inl (by linarith)
    · intro fres sed F S h1 h2 h3 h4
      unfold sed2flux
      rw [Res.check_pos h1.symm, Res.check_pos h2.symm, Res.check_pos (by intro h; simp [h] at nf), Res.check_pos (by intro h; simp [h] at nl)]
      simp only [Res.ok_bind]
      rw [Res.rd_lt (by omega)]
      simp only [Res.ok_bind]
      rw [hr1]
      simp only [Res.ok_bind]
      rw [Res.rd_lt (by omega), sedInterp_eq hL h2 h4 hi1 hle (hgt _ hi1 (by omega)).le]
      simp only [Res.ok_bind]
      rw [knot_eq hF h1 nf h3 (by omega), k4 fres sed F S h1 h2 h3 h4]
      simp

theorem trapSum_congr {G H : ℝ → ℝ} : ∀ {ks : List ℝ}, (∀ x ∈ ks, G x = H x) → trapSum G ks = trapSum H ks
  | [], _ => rfl
  | [_], _ => rfl
  | a :: b :: t, h => by
    simp only [trapSum]
    rw [h a (by simp), h b (by simp), trapSum_congr (ks := b :: t) fun x hx => h x (List.mem_cons_of_mem _ hx)]

theorem trapSum_add (G H : ℝ → ℝ) : ∀ ks : List ℝ, trapSum (fun t => G t + H t) ks = trapSum G ks + trapSum H ks
  | [] => by simp [trapSum]
  | [_] => by simp [trapSum]
  | a :: b :: t => by
    simp only [trapSum]
    rw [trapSum_add G H (b :: t)]; ring

theorem trapSum_mul (c : ℝ) (G : ℝ → ℝ) : ∀ ks : List ℝ, trapSum (fun t => G t * c) ks = trapSum G ks * c
  | [] => by simp [trapSum]
  | [_] => by simp [trapSum]
  | a :: b :: t => by
    simp only [trapSum]
    rw [trapSum_mul c G (b :: t)]; ring

theorem trapSum_mono {G H : ℝ → ℝ} {R : ℝ → ℝ → Prop} (hR : ∀ a b, R a b → a ≤ b) : ∀ {ks : List ℝ}, ks.IsChain R → (∀ x ∈ ks, G x ≤ H x) →
    trapSum G ks ≤ trapSum H ks
  | [], _, _ => le_refl _
  | [_], _, _ => le_refl _
  | a :: b :: t, hc, h => by
    simp only [trapSum]
    rw [List.isChain_cons_cons] at hc
    have h1 := h a (by simp)
    have h2 := h b (by simp)
    have h3 := trapSum_mono hR hc.2 (G := G) (H := H) fun x hx => h x (List.mem_cons_of_mem _ hx)
    have h4 := hR _ _ hc.1
    have : (G b + G a) / 2 * (b - a) ≤ (H b + H a) / 2 * (b - a) := mul_le_mul_of_nonneg_right (by linarith) (by linarith)
    linarith

/-- the trapezoid rule is exact for the filter alone -/
theorem trapSum_filter {flam lam fres : List ℝ} {F : ℝ → ℝ} (hF : Increasing flam) (hl : fres.length = flam.length) (nf : 2 ≤ flam.length)
    (hf : IsInterpolant fres flam F) : ∀ {ks : List ℝ} (h : ks ≠ []), ks.IsChain (Seg flam lam) →
    trapSum F ks = ∫ t in (ks.head h)..(ks.getLast h), F t ∧ IntervalIntegrable F volume (ks.head h) (ks.getLast h)
  | [], h, _ => absurd rfl h
  | [a], _, _ => by simp [trapSum]
  | a :: b :: t, _, hc => by
    rw [List.isChain_cons_cons] at hc
    obtain ⟨h1, h2⟩ := trapSum_filter hF hl nf hf (ks := b :: t) (by simp) hc.2
    obtain ⟨hab, ⟨i, hi, ha, hb⟩, -⟩ := hc.1
    obtain ⟨s1, s2⟩ := seg_integral hF hl nf hf i hi a b ha hab hb
    have := intervalIntegral.integral_add_adjacent_intervals s1 h2
    have hg0 : (a :: b :: t).getLast (by simp) = (b :: t).getLast (by simp) := List.getLast_cons (by simp)
    refine ⟨?_, by rw [hg0]; exact s1.trans h2⟩
    simp only [trapSum]
    rw [h1]
    have hg : (a :: b :: t).getLast (by simp) = (b :: t).getLast (by simp) := List.getLast_cons (by simp)
    simp only [List.head_cons, hg] at *
    rw [← this, s2]
    ring

theorem Nodes.ne {flam lam ks : List ℝ} (h : Nodes flam lam ks) (nf : 2 ≤ flam.length) : ks ≠ [] := by
  intro hk
  have := h.2.1
  rw [hk] at this
  match flam, nf with
  | _ :: _, _ => simp at this

theorem Nodes.total {flam lam fres ks : List ℝ} {F : ℝ → ℝ} (h : Nodes flam lam ks) (hF : Increasing flam) (hl : fres.length = flam.length)
    (nf : 2 ≤ flam.length) (hf : IsInterpolant fres flam F) : trapSum F ks = ∫ t in flam[0]..flam[flam.length - 1], F t := by
  rw [(trapSum_filter hF hl nf hf (h.ne nf) h.1).1]
  have h1 := h.2.1
  have h2 := h.2.2.1
  rw [List.head?_eq_some_head (h.ne nf), List.head?_eq_getElem?, List.getElem?_eq_getElem (by omega), Option.some.injEq] at h1
  rw [List.getLast?_eq_some_getLast (h.ne nf), List.getLast?_eq_getElem?, List.getElem?_eq_getElem (by omega), Option.some.injEq] at h2
  rw [h1, h2]

/-- data have an interpolant -/
theorem exists_interpolant {x y : List ℝ} (h : Increasing x) (hl : y.length = x.length) (hn : 2 ≤ x.length) : ∃ f, IsInterpolant y x f := by
  have : ∀ t, ∃ v, interpolate y x t = .ok v := fun t => by
    rw [interpolate_eq hl hn]
    obtain ⟨v, i, h1, -⟩ := interpAt_chord h hl hn t
    exact ⟨v, h1⟩
  exact ⟨fun t => (this t).choose, fun t => (this t).choose_spec⟩

theorem interpolant_const {x : List ℝ} (h : Increasing x) (hn : 2 ≤ x.length) (c : ℝ) : IsInterpolant (List.replicate x.length c) x fun _ => c := by
  intro t
  rw [interpolate_eq (by simp) hn]
  obtain ⟨v, i, h1, ⟨xa, xb, ya, yb, g1, g2, g3, g4, g5⟩, hi, -⟩ := interpAt_chord h (y := List.replicate x.length c) (by simp) hn t
  rw [h1]
  obtain ⟨i1, rfl⟩ := List.getElem?_eq_some_iff.1 g1
  obtain ⟨i2, rfl⟩ := List.getElem?_eq_some_iff.1 g2
  obtain ⟨i3, rfl⟩ := List.getElem?_eq_some_iff.1 g3
  obtain ⟨i4, rfl⟩ := List.getElem?_eq_some_iff.1 g4
  have hlt := h.lt (show i < i + 1 by omega) hi
  simp only [List.getElem_replicate, sub_self, zero_mul] at g5
  rcases mul_eq_zero.1 g5 with h | h
  · rw [show v = c by linarith]
  · linarith

/-- **C103**: the flux of a flat spectrum is its value times the integral of the filter; hence the value for a normalized filter -/
theorem C103_flat_partial {flam lam fres : List ℝ} (hF : Increasing flam) (hL : Increasing lam) (nf : 2 ≤ flam.length) (nl : 2 ≤ lam.length)
    (hl : fres.length = flam.length) (hfirst : lam[0] ≤ flam[0]) (hlast : flam[flam.length - 1] < lam[lam.length - 1]) (c : ℝ) :
    ∃ a, integrate flam fres = .ok a ∧ sed2flux flam fres lam (List.replicate lam.length c) = .ok (some (a * c)) := by
  obtain ⟨ks, hk, hs⟩ := C103_flux_partial hF hL nf nl hfirst hlast
  obtain ⟨F, hf⟩ := exists_interpolant hF hl nf
  refine ⟨_, C29_full hF hl nf hf, ?_⟩
  rw [hs fres _ F (fun _ => c) hl (by simp) hf (interpolant_const hL nl c), trapSum_mul, hk.total hF hl nf hf]

theorem interpolant_between {x y : List ℝ} {f : ℝ → ℝ} (h : Increasing x) (hl : y.length = x.length) (hn : 2 ≤ x.length) (hf : IsInterpolant y x f)
    {m M : ℝ} (hy : ∀ v ∈ y, m ≤ v ∧ v ≤ M) {t : ℝ} {i : Nat} (hi : i + 1 < x.length) (h1 : x[i] ≤ t) (h2 : t ≤ x[i + 1]) : m ≤ f t ∧ f t ≤ M := by
  rw [interpolant_chord h hl hn hf i hi t h1 h2]
  have hlt := h.lt (show i < i + 1 by omega) hi
  obtain ⟨a1, a2⟩ := hy (y[i]'(by omega)) (List.getElem_mem _)
  obtain ⟨b1, b2⟩ := hy (y[i + 1]'(by omega)) (List.getElem_mem _)
  have hq0 : 0 ≤ (t - x[i]) / (x[i + 1] - x[i]) := div_nonneg (by linarith) (by linarith)
  have hq1 : (t - x[i]) / (x[i + 1] - x[i]) ≤ 1 := (div_le_one (by linarith)).2 (by linarith)
  unfold interp2
  generalize (t - x[i]) / (x[i + 1] - x[i]) = q at hq0 hq1
  generalize y[i]'(by omega) = u at *
  generalize y[i + 1]'(by omega) = w at *
  constructor <;> nlinarith

/-- every node is in an interval of each grid -/
theorem chain_mem {flam lam : List ℝ} : ∀ {ks : List ℝ}, 2 ≤ ks.length → ks.IsChain (Seg flam lam) → ∀ x ∈ ks,
    (∃ (i : Nat) (h : i + 1 < flam.length), flam[i] ≤ x ∧ x ≤ flam[i + 1]) ∧ ∃ (j : Nat) (h : j + 1 < lam.length), lam[j] ≤ x ∧ x ≤ lam[j + 1]
  | [_], h, _, _, _ => by simp at h
  | [a, b], _, hc, x, hx => by
    rw [List.isChain_cons_cons] at hc
    obtain ⟨hab, ⟨i, hi, h1, h2⟩, j, hj, h3, h4⟩ := hc.1
    simp only [List.mem_cons, List.not_mem_nil, or_false] at hx
    rcases hx with rfl | rfl
    · exact ⟨⟨i, hi, h1, by linarith⟩, j, hj, h3, by linarith⟩
    · exact ⟨⟨i, hi, by linarith, h2⟩, j, hj, by linarith, h4⟩
  | a :: b :: c :: t, _, hc, x, hx => by
    rw [List.isChain_cons_cons] at hc
    rcases List.mem_cons.1 hx with rfl | hx
    · obtain ⟨hab, ⟨i, hi, h1, h2⟩, j, hj, h3, h4⟩ := hc.1
      exact ⟨⟨i, hi, h1, by linarith⟩, j, hj, h3, by linarith⟩
    · exact chain_mem (by simp) hc.2 x hx

theorem Nodes.two {flam lam ks : List ℝ} (h : Nodes flam lam ks) (hF : Increasing flam) (nf : 2 ≤ flam.length) : 2 ≤ ks.length := by
  have h1 := (h.2.2.2 flam[0]).2 (.inl (List.getElem_mem _))
  have h2 := (h.2.2.2 flam[1]).2 (.inl (List.getElem_mem _))
  have h3 := hF.lt (show 0 < 1 by omega) (by omega : 1 < flam.length)
  match ks, h1, h2 with
  | [], h1, _ => simp at h1
  | [a], h1, h2 =>
    simp only [List.mem_singleton] at h1 h2
    rw [h1, h2] at h3
    exact absurd h3 (lt_irrefl _)
  | _ :: _ :: _, _, _ => simp

/-- **C103**: through a filter that is nowhere negative, the flux is between the least and the greatest value of the spectrum, times the integral of the
filter -/
theorem C103_bounds_partial {flam lam fres sed : List ℝ} (hF : Increasing flam) (hL : Increasing lam) (nf : 2 ≤ flam.length) (nl : 2 ≤ lam.length)
    (hl : fres.length = flam.length) (hls : sed.length = lam.length) (hfirst : lam[0] ≤ flam[0])
    (hlast : flam[flam.length - 1] < lam[lam.length - 1]) (hpos : ∀ r ∈ fres, 0 ≤ r) {m M : ℝ} (hs : ∀ v ∈ sed, m ≤ v ∧ v ≤ M) :
    ∃ a v, integrate flam fres = .ok a ∧ sed2flux flam fres lam sed = .ok (some v) ∧ a * m ≤ v ∧ v ≤ a * M := by
  obtain ⟨ks, hk, hsum⟩ := C103_flux_partial hF hL nf nl hfirst hlast
  obtain ⟨F, hf⟩ := exists_interpolant hF hl nf
  obtain ⟨S, hS⟩ := exists_interpolant hL hls nl
  refine ⟨_, _, C29_full hF hl nf hf, hsum fres sed F S hl hls hf hS, ?_, ?_⟩
  all_goals
    rw [← hk.total hF hl nf hf, ← trapSum_mul]
    refine trapSum_mono (R := Seg flam lam) (fun a b h => h.1) hk.1 fun x hx => ?_
    obtain ⟨⟨i, hi, h1, h2⟩, j, hj, h3, h4⟩ := chain_mem (hk.two hF nf) hk.1 x hx
    obtain ⟨b1, b2⟩ := interpolant_between hL hls nl hS hs hj h3 h4
    obtain ⟨M', hM'⟩ : ∃ M', ∀ r ∈ fres, r ≤ M' := ⟨(fres.map fun r => |r|).sum, fun r hr =>
      le_trans (le_abs_self r) (List.single_le_sum (by simp) _ (List.mem_map.2 ⟨r, hr, rfl⟩))⟩
    have f0 := (interpolant_between hF hl nf hf (fun v hv => ⟨hpos v hv, hM' v hv⟩) hi h1 h2).1
    nlinarith

/-- the interpolant of a combination of data -/
theorem interpolant_comb {x y z : List ℝ} {f g : ℝ → ℝ} (h : Increasing x) (hy : y.length = x.length) (hz : z.length = x.length) (hn : 2 ≤ x.length)
    (hf : IsInterpolant y x f) (hg : IsInterpolant z x g) (p q : ℝ) : IsInterpolant (List.zipWith (fun a b => p * a + q * b) y z) x fun t => p * f t + q * g t := by
  intro t
  have ef := hf t
  have eg := hg t
  rw [interpolate_eq hy hn] at ef
  rw [interpolate_eq hz hn] at eg
  rw [interpolate_eq (by simp [hy, hz]) hn]
  unfold interpAt at ef eg ⊢
  obtain ⟨r, hr1, hr2⟩ := lowerB_spec h t
  rw [hr1] at ef eg ⊢
  simp only [Res.ok_bind] at ef eg ⊢
  have hi : interval x.length r + 1 < x.length := by
    cases r with
    | none => simp only [interval]; omega
    | some l =>
      obtain ⟨hl, -⟩ := hr2
      simp only [interval]; split <;> omega
  generalize interval x.length r = i at *
  have hlz : (List.zipWith (fun a b => p * a + q * b) y z).length = x.length := by simp [hy, hz]
  rw [Res.rd_lt (by omega), Res.rd_lt (by omega), Res.rd_lt (by omega), Res.rd_lt (by omega)] at ef eg ⊢
  simp only [Res.ok_bind, Res.pure_def, Res.ok.injEq] at ef eg ⊢
  rw [← ef, ← eg]
  simp only [List.getElem_zipWith]
  ring

/-- **C103**: the flux of a combination of two spectra is the combination of their fluxes -/
theorem C103_linear_partial {flam lam fres s1 s2 : List ℝ} (hF : Increasing flam) (hL : Increasing lam) (nf : 2 ≤ flam.length) (nl : 2 ≤ lam.length)
    (hl : fres.length = flam.length) (h1 : s1.length = lam.length) (h2 : s2.length = lam.length) (hfirst : lam[0] ≤ flam[0])
    (hlast : flam[flam.length - 1] < lam[lam.length - 1]) (p q : ℝ) : ∃ v w, sed2flux flam fres lam s1 = .ok (some v) ∧
      sed2flux flam fres lam s2 = .ok (some w) ∧ sed2flux flam fres lam (List.zipWith (fun a b => p * a + q * b) s1 s2) = .ok (some (p * v + q * w)) := by
  obtain ⟨ks, hk, hsum⟩ := C103_flux_partial hF hL nf nl hfirst hlast
  obtain ⟨F, hf⟩ := exists_interpolant hF hl nf
  obtain ⟨S1, hS1⟩ := exists_interpolant hL h1 nl
  obtain ⟨S2, hS2⟩ := exists_interpolant hL h2 nl
  refine ⟨_, _, hsum fres s1 F S1 hl h1 hf hS1, hsum fres s2 F S2 hl h2 hf hS2, ?_⟩
  rw [hsum fres _ F _ hl (by simp [h1, h2]) hf (interpolant_comb hL h1 h2 nl hS1 hS2 p q)]
  congr 2
  rw [trapSum_congr (H := fun t => F t * S1 t * p + F t * S2 t * q) (fun x _ => by ring), trapSum_add, trapSum_mul, trapSum_mul]
  ring

/-- **C103**: a filter that starts before the spectrum gives NaN -/
theorem C103_before {flam lam fres sed : List ℝ} (hL : Increasing lam) (nf : flam ≠ []) (nl : lam ≠ [])
    (hl : fres.length = flam.length) (hls : sed.length = lam.length) (h : flam.head nf < lam.head nl) : sed2flux flam fres lam sed = .ok none := by
  have nf' : 0 < flam.length := List.length_pos_of_ne_nil nf
  have nl' : 0 < lam.length := List.length_pos_of_ne_nil nl
  rw [List.head_eq_getElem, List.head_eq_getElem] at h
  obtain ⟨r, hr1, hr2⟩ := lowerB_spec hL flam[0]
  unfold sed2flux
  rw [Res.check_pos hl.symm, Res.check_pos hls.symm, Res.check_pos nf, Res.check_pos nl]
  simp only [Res.ok_bind]
  rw [Res.rd_lt nf']
  simp only [Res.ok_bind]
  rw [hr1]
  cases r with
  | none => rfl
  | some i =>
    obtain ⟨hi, h1, -⟩ := hr2
    have : lam[0] ≤ lam[i] := hL.le (by omega) hi
    linarith

/-- the loop stops before the end of a filter that is not covered -/
theorem sedLoop_short {flam lam fres sed : List ℝ} (hF : Increasing flam) (hL : Increasing lam) (hl : fres.length = flam.length)
    (hls : sed.length = lam.length) (nf : 2 ≤ flam.length) (nl : 2 ≤ lam.length) (hlast : lam[lam.length - 1] ≤ flam[flam.length - 1]) :
    ∀ (n ifil ised : Nat) (plam pval value : ℝ), ifil < flam.length - 1 → ised < lam.length →
    (flam.length - 1 - ifil) + (lam.length - 1 - ised) < n → ∃ i v, sedLoop flam fres lam sed n ifil ised plam pval value = .ok (i, v) ∧ i ≠ flam.length - 1 := by
  intro n
  induction n with
  | zero => intro ifil ised plam pval value hi hj hn; omega
  | succ n ih =>
    intro ifil ised plam pval value hi hj hn
    rw [sedLoop]
    by_cases hc : ised < lam.length - 1
    · rw [if_pos ⟨hi, hc⟩, Res.rd_lt (by omega), Res.rd_lt (by omega)]
      simp only [Res.ok_bind]
      by_cases hcc : flam[ifil + 1] < lam[ised + 1]
      · have hlt : ifil + 1 < flam.length - 1 := by
          by_contra hge
          have : ifil + 1 = flam.length - 1 := by omega
          have h1 : lam[ised + 1] ≤ lam[lam.length - 1] := hL.le (by omega) (by omega)
          simp only [this] at hcc
          linarith
        rw [if_pos hcc, Res.rd_lt (by omega)]
        unfold sedInterp
        rw [Res.rd_lt (by omega), Res.rd_lt (by omega), Res.rd_lt (by omega), Res.rd_lt (by omega)]
        simp only [Res.ok_bind]
        exact ih _ _ _ _ _ hlt hj (by omega)
      · rw [if_neg hcc, Res.rd_lt (by omega)]
        unfold sedInterp
        rw [Res.rd_lt (by omega), Res.rd_lt (by omega), Res.rd_lt (by omega), Res.rd_lt (by omega)]
        simp only [Res.ok_bind]
        exact ih _ _ _ _ _ hi (by omega) (by omega)
    · rw [if_neg (by omega)]
      exact ⟨ifil, value, rfl, by omega⟩

/-- **C103**: a filter that ends after the spectrum gives NaN; refuted for a filter that ends where the spectrum ends, which is covered and gives NaN too -/
theorem C103_short_refuted {flam lam fres sed : List ℝ} (hF : Increasing flam) (hL : Increasing lam) (nf : 2 ≤ flam.length) (nl : 2 ≤ lam.length)
    (hl : fres.length = flam.length) (hls : sed.length = lam.length) (hfirst : lam[0] ≤ flam[0]) (hstart : flam[0] < lam[lam.length - 1])
    (hlast : lam[lam.length - 1] ≤ flam[flam.length - 1]) : sed2flux flam fres lam sed = .ok none := by
  obtain ⟨r, hr1, hr2⟩ := lowerB_spec hL flam[0]
  unfold sed2flux
  rw [Res.check_pos hl.symm, Res.check_pos hls.symm, Res.check_pos (by intro h; simp [h] at nf), Res.check_pos (by intro h; simp [h] at nl)]
  simp only [Res.ok_bind]
  rw [Res.rd_lt (by omega)]
  simp only [Res.ok_bind]
  rw [hr1]
  cases r with
  | none => rfl
  | some ised =>
    obtain ⟨hi, hle, hgt⟩ := hr2
    have hi1 : ised + 1 < lam.length := by
      by_contra hc
      have : ised = lam.length - 1 := by omega
      subst this
      linarith
    simp only [Res.ok_bind]
    unfold sedInterp
    rw [Res.rd_lt (by omega), Res.rd_lt (by omega), Res.rd_lt (by omega), Res.rd_lt (by omega), Res.rd_lt (by omega)]
    simp only [Res.ok_bind]
    obtain ⟨i, v, h1, h2⟩ := sedLoop_short hF hL hl hls nf nl hlast (flam.length + lam.length) 0 ised flam[0]
      (fres[0] * interp2 sed[ised] sed[ised + 1] lam[ised] lam[ised + 1] flam[0]) 0 (by omega) hi (by omega)
    rw [h1]
    simp only [Res.ok_bind]
    rw [if_pos h2]

/-- **C103** refuted for a filter that starts at or after the end of the spectrum: the call reads after the end of the spectrum -/
theorem C103_beyond_refuted {flam lam fres sed : List ℝ} (hL : Increasing lam) (nf : flam ≠ []) (nl : lam ≠ [])
    (hl : fres.length = flam.length) (hls : sed.length = lam.length) (h : lam.getLast nl ≤ flam.head nf) : sed2flux flam fres lam sed = .ub := by
  have nf' : 0 < flam.length := List.length_pos_of_ne_nil nf
  have nl' : 0 < lam.length := List.length_pos_of_ne_nil nl
  rw [List.head_eq_getElem, List.getLast_eq_getElem] at h
  obtain ⟨r, hr1, hr2⟩ := lowerB_spec hL flam[0]
  unfold sed2flux
  rw [Res.check_pos hl.symm, Res.check_pos hls.symm, Res.check_pos nf, Res.check_pos nl]
  simp only [Res.ok_bind]
  rw [Res.rd_lt nf']
  simp only [Res.ok_bind]
  rw [hr1]
  cases r with
  | none =>
    have := hr2 lam[lam.length - 1] (List.getElem_mem _)
    linarith
  | some i =>
    obtain ⟨hi, h1, h2⟩ := hr2
    have : i = lam.length - 1 := by
      by_contra hc
      have := h2 (lam.length - 1) (by omega) (by omega)
      linarith
    simp only [Res.ok_bind]
    unfold sedInterp
    rw [Res.rd_lt (by omega), Res.rd_lt (by omega), Res.rd_ub (by omega)]
    rfl

/-- what the trapezoid rule adds to the integral of a product of two functions that are linear between the nodes -/
noncomputable def excess (F S : ℝ → ℝ) : List ℝ → ℝ
  | a :: b :: t => (F b - F a) * (S b - S a) * (b - a) / 6 + excess F S (b :: t)
  | _ => 0

/-- the product of two affine functions -/
theorem integral_product (p q u v a b : ℝ) : ∫ t in a..b, (p + q * t) * (u + v * t) =
    ((p + q * a) * (u + v * a) + (p + q * b) * (u + v * b)) / 2 * (b - a) - ((p + q * b) - (p + q * a)) * ((u + v * b) - (u + v * a)) * (b - a) / 6 := by
  have h : ∀ t ∈ Set.uIcc a b, HasDerivAt (fun t => p * u * t + (p * v + q * u) * t ^ 2 / 2 + q * v * t ^ 3 / 3) ((p + q * t) * (u + v * t)) t := by
    intro t _
    have h1 := (hasDerivAt_id t).const_mul (p * u)
    have h2 := (((hasDerivAt_id t).pow 2).const_mul (p * v + q * u)).div_const 2
    have h3 := (((hasDerivAt_id t).pow 3).const_mul (q * v)).div_const 3
    refine ((h1.add h2).add h3).congr_deriv ?_
    simp only [id_eq, Nat.cast_ofNat, mul_one]
    ring
  rw [intervalIntegral.integral_eq_sub_of_hasDerivAt h (by apply Continuous.intervalIntegrable; fun_prop)]
  ring

/-- an interpolant is affine on an interval of its grid -/
theorem interpolant_affine {x y : List ℝ} {f : ℝ → ℝ} (h : Increasing x) (hl : y.length = x.length) (hn : 2 ≤ x.length) (hf : IsInterpolant y x f) {i : Nat}
    (hi : i + 1 < x.length) {a b : ℝ} (ha : x[i] ≤ a) (hb : b ≤ x[i + 1]) : ∃ p q, ∀ t, a ≤ t → t ≤ b → f t = p + q * t := by
  refine ⟨(y[i]'(by omega)) - ((y[i + 1]'(by omega)) - (y[i]'(by omega))) / (x[i + 1] - x[i]) * x[i], ((y[i + 1]'(by omega)) - (y[i]'(by omega))) / (x[i + 1] - x[i]), ?_⟩
  intro t h1 h2
  rw [interpolant_chord h hl hn hf i hi t (by linarith) (by linarith)]
  unfold interp2; ring

theorem trapSum_product {flam lam fres sed : List ℝ} {F S : ℝ → ℝ} (hF : Increasing flam) (hL : Increasing lam) (nf : 2 ≤ flam.length)
    (nl : 2 ≤ lam.length) (hl : fres.length = flam.length) (hls : sed.length = lam.length) (hf : IsInterpolant fres flam F)
    (hS : IsInterpolant sed lam S) : ∀ {ks : List ℝ} (h : ks ≠ []), ks.IsChain (Seg flam lam) →
    trapSum (fun t => F t * S t) ks = (∫ t in (ks.head h)..(ks.getLast h), F t * S t) + excess F S ks ∧
      IntervalIntegrable (fun t => F t * S t) volume (ks.head h) (ks.getLast h)
  | [], h, _ => absurd rfl h
  | [a], _, _ => by simp [trapSum, excess]
  | a :: b :: t, _, hc => by
    rw [List.isChain_cons_cons] at hc
    obtain ⟨h1, h2⟩ := trapSum_product hF hL nf nl hl hls hf hS (ks := b :: t) (by simp) hc.2
    obtain ⟨hab, ⟨i, hi, ha, hb⟩, j, hj, ha', hb'⟩ := hc.1
    obtain ⟨p, q, e1⟩ := interpolant_affine hF hl nf hf hi ha hb
    obtain ⟨u, v, e2⟩ := interpolant_affine hL hls nl hS hj ha' hb'
    have heq : Set.EqOn (fun t => F t * S t) (fun t => (p + q * t) * (u + v * t)) (Set.uIcc a b) := by
      intro t ht
      rw [Set.uIcc_of_le hab] at ht
      simp only [e1 t ht.1 ht.2, e2 t ht.1 ht.2]
    have s1 : IntervalIntegrable (fun t => F t * S t) volume a b := by
      refine IntervalIntegrable.congr (g := fun t => F t * S t) (heq.symm.mono Set.uIoc_subset_uIcc) ?_
      apply Continuous.intervalIntegrable
      fun_prop
    have hg : (a :: b :: t).getLast (by simp) = (b :: t).getLast (by simp) := List.getLast_cons (by simp)
    have := intervalIntegral.integral_add_adjacent_intervals s1 h2
    refine ⟨?_, by rw [hg]; exact s1.trans h2⟩
    simp only [trapSum, excess]
    rw [h1]
    simp only [List.head_cons, hg] at *
    rw [← this, intervalIntegral.integral_congr heq, integral_product, e1 a (le_refl _) hab, e1 b hab (le_refl _), e2 a (le_refl _) hab, e2 b hab (le_refl _)]
    ring

/-- **C103**: the flux differs from the integral of filter times spectrum by the sum of the products of the steps of the two functions times a sixth of
the widths: it is exact where one of the two is constant, and not otherwise -/
theorem C103_integral_partial {flam lam fres sed : List ℝ} {F S : ℝ → ℝ} (hF : Increasing flam) (hL : Increasing lam) (nf : 2 ≤ flam.length)
    (nl : 2 ≤ lam.length) (hl : fres.length = flam.length) (hls : sed.length = lam.length) (hfirst : lam[0] ≤ flam[0])
    (hlast : flam[flam.length - 1] < lam[lam.length - 1]) (hf : IsInterpolant fres flam F) (hS : IsInterpolant sed lam S) : ∃ ks, Nodes flam lam ks ∧
    sed2flux flam fres lam sed = .ok (some ((∫ t in flam[0]..flam[flam.length - 1], F t * S t) + excess F S ks)) := by
  obtain ⟨ks, hk, hsum⟩ := C103_flux_partial hF hL nf nl hfirst hlast
  refine ⟨ks, hk, ?_⟩
  rw [hsum fres sed F S hl hls hf hS, (trapSum_product hF hL nf nl hl hls hf hS (hk.ne nf) hk.1).1]
  have h1 := hk.2.1
  have h2 := hk.2.2.1
  rw [List.head?_eq_some_head (hk.ne nf), List.head?_eq_getElem?, List.getElem?_eq_getElem (by omega), Option.some.injEq] at h1
  rw [List.getLast?_eq_some_getLast (hk.ne nf), List.getLast?_eq_getElem?, List.getElem?_eq_getElem (by omega), Option.some.injEq] at h2
  rw [h1, h2]

/-- a top-hat filter and a spectrum with a step: nodes 1, 2, 3 -/
example : sed2flux ([1, 3] : List ℚ) [1, 1] [0, 2, 4] [0, 2, 2] = .ok (some (7 / 2)) := by decide +kernel

/-- both sloped on the same interval: 1/2 instead of the integral 1/3 -/
example : sed2flux ([0, 1] : List ℚ) [0, 1] [0, 1, 2] [0, 1, 1] = .ok (some (1 / 2)) := by decide +kernel

/-- the filter ends with the spectrum, or starts where it ends -/
example : sed2flux ([0, 1] : List ℚ) [1, 1] [0, 1] [1, 1] = .ok none ∧ sed2flux ([1, 2] : List ℚ) [1, 1] [0, 1] [1, 1] = .ub := by decide +kernel

/-- a normalized filter on a flat spectrum -/
example : ∃ a, integrate [1, 2] [1, (1 : ℝ)] = .ok a ∧ sed2flux [1, 2] [1, (1 : ℝ)] [0, 1, 3] (List.replicate 3 5) = .ok (some (a * 5)) :=
  C103_flat_partial (flam := [1, 2]) (lam := [0, 1, 3]) (fres := [1, 1]) (by norm_num [Increasing]) (by norm_num [Increasing]) (by simp) (by simp) rfl (by norm_num) (by norm_num) 5

/-! ### C104: `sed_luminosity` -/

/-- the part of a vector between two positions -/
def slice (x : List ℝ) (s e : Nat) : List ℝ := (x.take (e + 1)).drop s

theorem slice_length (x : List ℝ) {s e : Nat} (h : e < x.length) : (slice x s e).length = e + 1 - s := by
  simp [slice]; omega

theorem slice_get (x : List ℝ) {s e k : Nat} (h : e < x.length) (hk : k < (slice x s e).length) :
    (slice x s e)[k] = x[s + k]'(by rw [slice_length x h] at hk; omega) := by
  simp [slice]

theorem bracket_slice {x : List ℝ} {s e : Nat} (hx : x.length < Core.maxSize) (hse : s ≤ e) (he : e < x.length) :
    (do let li ← Core.bracket x.length (.leftRight s e); li.mapM (Res.rd x)) = .ok (slice x s e) := by
  obtain ⟨c, h1, h2, h3⟩ := Core.C05_left_right x.length s e hx hse he
  rw [h1]
  simp only [Res.ok_bind]
  refine Res.mapM_getElem (by rw [h2, slice_length x he]) fun i hi hr => ?_
  rw [slice_get x he, h3, Res.rd_lt]

theorem slice_increasing {x : List ℝ} (h : Increasing x) (s e : Nat) : Increasing (slice x s e) :=
  (h.sublist ((List.drop_sublist s _).trans (List.take_sublist _ _)))

/-- the interpolant of a part of the data is that of the data there -/
theorem slice_interpolant {x y : List ℝ} {f g : ℝ → ℝ} (h : Increasing x) (hl : y.length = x.length) {s e : Nat} (hse : s < e) (he : e < x.length)
    (hf : IsInterpolant y x f) (hg : IsInterpolant (slice y s e) (slice x s e) g) {t : ℝ} (h1 : x[s] ≤ t) (h2 : t ≤ x[e]) : g t = f t := by
  have hls := slice_length x (s := s) he
  have hls' := slice_length y (s := s) (by omega : e < y.length)
  obtain ⟨i, hi, hi1, hi2⟩ : ∃ i, ∃ hi : i + 1 < e + 1 - s, x[s + i]'(by omega) ≤ t ∧ t ≤ x[s + i + 1]'(by omega) := by
    have : ∀ m, ∀ hm : s + m ≤ e, t ≤ x[s + m]'(by omega) → 0 < m → ∃ i, ∃ hi : i + 1 < e + 1 - s, x[s + i]'(by omega) ≤ t ∧ t ≤ x[s + i + 1]'(by omega) := by
      intro m
      induction m with
      | zero => intro _ _ h; omega
      | succ m ih =>
        intro hm ht _
        by_cases hc : x[s + m]'(by omega) ≤ t
        · exact ⟨m, by omega, hc, ht⟩
        · rw [not_le] at hc
          by_cases hm0 : m = 0
          · subst hm0
            simp only [Nat.add_zero] at hc
            linarith
          · exact ih (by omega) hc.le (by omega)
    exact this (e - s) (by omega) (by simpa [Nat.add_sub_cancel' hse.le] using h2) (by omega)
  rw [interpolant_chord h hl (by omega) hf (s + i) (by omega) t hi1 hi2]
  rw [interpolant_chord (slice_increasing h s e) (by omega) (by omega) hg i (by omega) t (by rw [slice_get x he]; exact hi1) (by rw [slice_get x he]; exact hi2)]
  rw [slice_get x he, slice_get x he, slice_get y (by omega), slice_get y (by omega)]
  rfl

/-- **C104**: inside the spectrum, the result is the integral of the spectrum divided by the wavelength, from the last point at or before the first bound to
the first point after the second bound -/
theorem C104_luminosity_partial {lam sed : List ℝ} {g : ℝ → ℝ} (hL : Increasing lam) (hls : sed.length = lam.length) (hsz : lam.length < Core.maxSize)
    (hg : IsInterpolant (List.zipWith (· / ·) sed lam) lam g) {l0 l1 : ℝ} (h01 : l0 ≤ l1) (nl : 0 < lam.length) (h0 : lam[0] ≤ l0)
    (h1 : l1 < lam[lam.length - 1]) : ∃ s e, ∃ (hse : s < e) (he : e < lam.length), lam[s] ≤ l0 ∧ l0 < lam[s + 1] ∧ lam[e - 1] ≤ l1 ∧ l1 < lam[e] ∧
      sedLuminosity lam sed l0 l1 = .ok (some (∫ t in lam[s]..lam[e], g t)) := by
  obtain ⟨r, hr1, hr2⟩ := lowerB_spec hL l0
  obtain ⟨q, hq1, hq2⟩ := upperB_spec hL l1
  cases r with
  | none => exact absurd (hr2 _ (List.getElem_mem nl)) (not_lt.2 h0)
  | some s =>
    cases q with
    | none => exact absurd (hq2 lam[lam.length - 1] (List.getElem_mem _)) (not_le.2 h1)
    | some e =>
      obtain ⟨hs, hs1, hs2⟩ := hr2
      obtain ⟨he, he1, he2⟩ := hq2
      have hse : s < e := by
        by_contra hc
        have : lam[e] ≤ lam[s] := hL.le (by omega) hs
        linarith
      refine ⟨s, e, hse, he, hs1, hs2 _ (by omega) (by omega), he2 _ (by omega) (by omega), he1, ?_⟩
      unfold sedLuminosity
      rw [hr1, hq1]
      simp only [Res.ok_bind]
      have b1 := bracket_slice hsz hse.le he
      have b2 := bracket_slice (x := sed) (by omega) hse.le (by omega)
      have reassoc : ∀ {α β γ : Type} (a : Res α) (b : α → Res β) (c : β → Res γ), (do let x ← a; let y ← b x; c y) = (do let y ← (do let x ← a; b x); c y) := by
        intro α β γ a b c; cases a <;> rfl
      rw [reassoc, b1]
      simp only [Res.ok_bind]
      rw [reassoc, b2]
      simp only [Res.ok_bind]
      have hz : List.zipWith (· / ·) (slice sed s e) (slice lam s e) = slice (List.zipWith (· / ·) sed lam) s e := by
        simp only [slice, List.take_zipWith, List.drop_zipWith]
      rw [hz]
      have hlx := slice_length lam (s := s) he
      have hly := slice_length (List.zipWith (· / ·) sed lam) (s := s) (e := e) (by simp [hls]; exact he)
      obtain ⟨g', hg'⟩ := exists_interpolant (slice_increasing hL s e) (y := slice (List.zipWith (· / ·) sed lam) s e) (by omega) (by omega)
      rw [C29_full (slice_increasing hL s e) (by omega) (by omega) hg']
      simp only [Res.ok_bind]
      rw [slice_get lam he, slice_get lam he]
      have e1 : s + ((slice lam s e).length - 1) = e := by omega
      simp only [e1, Nat.add_zero]
      congr 2
      refine intervalIntegral.integral_congr fun t ht => ?_
      rw [Set.uIcc_of_le (hL.le hse.le he)] at ht
      exact slice_interpolant hL (by simp [hls]) hse he hg hg' ht.1 ht.2

/-- **C104**: a bound outside of the spectrum gives NaN -/
theorem C104_outside {lam sed : List ℝ} (hL : Increasing lam) {l0 l1 : ℝ} (h : (∀ a ∈ lam, l0 < a) ∨ ∀ a ∈ lam, a ≤ l1) :
    sedLuminosity lam sed l0 l1 = .ok none := by
  obtain ⟨r, hr1, hr2⟩ := lowerB_spec hL l0
  obtain ⟨q, hq1, hq2⟩ := upperB_spec hL l1
  unfold sedLuminosity
  rw [hr1, hq1]
  simp only [Res.ok_bind]
  cases r with
  | none => rfl
  | some s =>
    cases q with
    | none => rfl
    | some e =>
      obtain ⟨hs, hs1, -⟩ := hr2
      obtain ⟨he, he1, -⟩ := hq2
      rcases h with h | h
      · exact absurd (h _ (List.getElem_mem hs)) (not_lt.2 hs1)
      · exact absurd (h _ (List.getElem_mem he)) (not_le.2 he1)

/-- **C104** refuted: the region integrated is larger than the one asked for. With a constant integrand and bounds that are points of the spectrum, the result is
2 instead of 1; the full range of the spectrum gives NaN -/
theorem C104_region_refuted : sedLuminosity ([1, 2, 3] : List ℚ) [1, 2, 3] 1 2 = .ok (some 2) ∧ sedLuminosity ([1, 2, 3] : List ℚ) [1, 2, 3] 1 3 = .ok none := by
  decide +kernel

/-- the region asked for is inside the region integrated -/
example : sedLuminosity ([1, 2, 3, 4] : List ℚ) [1, 4, 3, 4] (3 / 2) (5 / 2) = .ok (some 3) := by decide +kernel

end Verif.Sed
