import Verif.Math.MpfitInv
import Verif.Math.MpfitAlg
import Mathlib.Algebra.Order.Archimedean.Basic
import Mathlib.Data.Rat.Floor
import Mathlib.Algebra.Field.Rat
import Mathlib.Algebra.Order.Ring.Unbundled.Rat
import Mathlib.Data.Rat.Sqrt
/-!
# C144: what a fit with `mpfit` guarantees

The specification does not know the algorithm: it speaks of the points where the function of the caller is evaluated (`evals`), of the parameters
that are returned, and of the norm of the deviates. All theorems hold for any numerical part `A`.
-/
namespace Verif.Mpfit
open Verif

variable {K : Type} [Field K] [LinearOrder K] [IsStrictOrderedRing K]

/-- a parameter is held: frozen, or with both limits equal -/
def Held (o : Opts K) (i : Nat) : Prop := o.frozen.getD i false = true ∨ ∃ v, o.lower.getD i none = some v ∧ o.upper.getD i none = some v

omit [IsStrictOrderedRing K] in
theorem held_not_free {o : Opts K} {i : Nat} (h : Held o i) : i ∉ ifree o := by
  intro hm
  have := (mem_ifree.1 hm).2
  unfold isFree at this
  rcases h with h | ⟨v, h1, h2⟩
  · rw [h] at this; simp at this
  · rw [h1, h2] at this; simp at this

omit [IsStrictOrderedRing K] in
theorem free_of_not_held {o : Opts K} {i : Nat} (hi : i < o.nparam) (h : ¬ Held o i) : i ∈ ifree o := by
  refine mem_ifree.2 ⟨hi, ?_⟩
  unfold isFree
  unfold Held at h
  push Not at h
  obtain ⟨h1, h2⟩ := h
  have h1 : o.frozen.getD i false = false := by simpa using h1
  rw [h1]
  cases hu : o.upper.getD i none with
  | none => simp
  | some u =>
    cases hl : o.lower.getD i none with
    | none => simp
    | some l =>
      have : u ≠ l := fun he => h2 l hl (by rw [hu, he])
      simpa using this

omit [IsStrictOrderedRing K] in
/-- the invariant at the beginning -/
theorem start_inv {A : Alg K} {o : Opts K} {dev : List K → List (Option K)} {x0 : List K} {s : St K} (h : start A o dev x0 = .ok s)
    (hl : o.nparam = x0.length) {P : Nat → K → Prop} (hP : ∀ i v, i ∈ ifree o → x0[i]? = some v → P i v) :
    Inv A o dev x0 s.fnorm P s ∧ s.iter = 1 ∧ enorm A (dev s.xall) = .ok s.fnorm1 ∧ enorm A (dev x0) = .ok s.fnorm ∧ s.fvec = dev x0 ∧
      s.xall = x0 ∧ s.x = (ifree o).map (fun i => x0.getD i 0) := by
  unfold start at h
  dsimp only at h
  obtain ⟨f, hf, h⟩ := Res.bind_eq_ok.1 h
  injection h with h
  subst h
  refine ⟨⟨rfl, by simp, fun _ _ => rfl, ?_, ?_, ?_, hf, Or.inl ⟨rfl, rfl, rfl⟩⟩, rfl, hf, hf, rfl, rfl, rfl⟩
  · intro e he
    rw [List.mem_singleton] at he
    subst he
    exact ⟨rfl, fun _ _ => rfl⟩
  · intro p ip v hp hv
    dsimp only at hv
    rw [List.getElem?_map, hp] at hv
    injection hv with hv
    have hm := List.mem_of_getElem? hp
    have hi : ip < x0.length := hl ▸ (mem_ifree.1 hm).1
    refine hP ip v hm ?_
    rw [← hv, List.getElem?_eq_getElem hi]
    simp [hi]
  · dsimp only
    rw [scatter_self _ _ (ifree_nodup o)]

/-- the relation between the options given by the caller and those that are used -/
theorem useOpts_ok {o o' : Opts K} {n : Nat} (h : useOpts o n = .ok o') (hn : o.nparam ≠ 0) : o' = o ∧ o.nparam = n := by
  unfold useOpts at h
  rw [if_neg hn] at h
  by_cases hc : o.nparam = n
  · rw [Res.check_pos hc] at h
    injection h with h
    exact ⟨h.symm, hc⟩
  · rw [Res.check_neg hc] at h
    cases h

/-- the summary of a fit that returns -/
theorem mpfit_ok {A : Alg K} (heps : 0 ≤ A.eps) (hn : ∀ l, 0 ≤ A.norm l) {fuel : Nat} {dev : List K → List (Option K)} {x0 : List K} {o : Opts K}
    {r : Result K} (ho : o.nparam ≠ 0) (h : mpfit A fuel dev x0 o = .ok r) :
    o.nparam = x0.length ∧ 0 < (ifree o).length ∧ (ifree o).length ≤ (dev x0).length ∧ r.dof = (dev x0).length - (ifree o).length ∧
    ∃ f0, enorm A (dev x0) = .ok f0 ∧ ∃ s : St K, r.iter = s.iter ∧ r.params = scatter x0 (ifree o) s.x ∧ (∃ e0 ∈ s.evals, e0 = s.xall) ∧
      r.evals = r.params :: s.evals ∧ (∃ f, enorm A (dev r.params) = .ok f ∧ f = s.fnorm ∧ r.chi2 = (maxO f s.fnorm1).map fun a => a ^ 2) ∧
      enorm A (dev s.xall) = .ok s.fnorm1 ∧ s.iter ≤ max 2 o.maxIter ∧
      (r.success = true → r.reason = .gtol ∨ r.reason = .ftol ∨ r.reason = .xtol ∨ r.reason = .ftolXtol) ∧
      (r.reason = .maxIter → o.maxIter ≤ s.iter ∧ r.success = false) ∧
      (o.nocovar = true → r.covar = [] ∧ r.errors = []) ∧ (o.nocovar = false → r.covar = fullCovar A o x0.length s.q) ∧
      ∀ P : Nat → K → Prop, Kept A o P → (∀ i v, i ∈ ifree o → x0[i]? = some v → P i v) → Inv A o dev x0 f0 P s := by
  unfold mpfit at h
  obtain ⟨o', ho', h⟩ := Res.bind_eq_ok.1 h
  obtain ⟨hoo, hl⟩ := useOpts_ok ho' ho
  rw [hoo] at h
  obtain ⟨s0, hs0, h⟩ := Res.bind_eq_ok.1 h
  dsimp only at h
  obtain ⟨⟨s, c, rs⟩, hloop, h⟩ := Res.bind_eq_ok.1 h
  dsimp only at h
  obtain ⟨f, hf, h⟩ := Res.bind_eq_ok.1 h
  obtain ⟨i1, i2, i3, i4, i5, i6, i7⟩ := start_inv hs0 hl (P := fun _ _ => True) (fun _ _ _ _ => trivial)
  obtain ⟨k1, k2, k3, k4, k5, k6⟩ := loop_ok heps hn (P := fun _ _ => True) (fun _ _ _ _ _ _ _ => trivial) i1 (Or.inl rfl) (Or.inl (by omega)) i3 hloop
  have hsc : scatter s.xall (ifree o) s.x = scatter x0 (ifree o) s.x :=
    scatter_congr (ifree_nodup o) k1.len k1.xlen k1.fix
  rw [hsc] at h hf
  have hev : ∃ e0 ∈ s.evals, e0 = s.xall := by
    -- the current point is one of those that have been evaluated
    have key : ∀ (fuel : Nat) (new : Bool) (s s' : St K) (c : Bool) (r : Reason), s.xall ∈ s.evals → loop A o dev fuel new s = .ok (s', c, r) →
        (new = true ∨ s.ratio < 1 / 10000) → s'.xall ∈ s'.evals := by
      intro fuel
      induction fuel with
      | zero => intro new s s' c r _ h; cases h
      | succ fuel ih =>
        intro new s s' c r hs h hnew
        rw [loop] at h
        obtain ⟨⟨s1, stop⟩, h1, h⟩ := Res.bind_eq_ok.1 h
        dsimp only at h
        have key : s1.xall ∈ s1.evals ∧ (stop = none → s1.ratio < 1 / 10000) := by
          cases new with
          | false =>
            rw [if_neg (by simp)] at h1
            injection h1 with h1
            injection h1 with h1 h2
            subst h1
            exact ⟨hs, fun _ => hnew.resolve_left (by simp)⟩
          | true =>
            rw [if_pos rfl] at h1
            obtain ⟨⟨e1, _⟩, _, _, _, e9⟩ := top_ok h1
            refine ⟨?_, ?_⟩
            · rw [e1]; exact top_evals h1 hs
            · intro hst
              rcases e9 with e9 | e9 | e9
              · rw [hst] at e9; cases e9
              · rw [hst] at e9; cases e9
              · rw [e9.2.1]; norm_num
        cases stop with
        | some st =>
          obtain ⟨b, r'⟩ := st
          injection h with h
          injection h with h2 h
          subst h2
          exact key.1
        | none =>
          dsimp only at h
          obtain ⟨⟨s2, nx⟩, h2, h⟩ := Res.bind_eq_ok.1 h
          dsimp only at h
          obtain ⟨step, fnorm, _, _, _, t2, _, _, _, _, _, _, t6⟩ := trial_ok h2 hn (key.2 rfl)
          have h3 : s2.xall ∈ s2.evals := by rw [t2]; simp
          cases nx with
          | stop b r' =>
            injection h with h
            injection h with h2 h
            subst h2
            exact h3
          | outer => exact ih _ _ _ _ _ h3 h (Or.inl rfl)
          | inner =>
            refine ih _ _ _ _ _ h3 h (Or.inr ?_)
            rcases t6 with ⟨_, _, _, _, _, _, k7, _⟩ | ⟨_, _, _, _, k5, _⟩
            · exact k7
            · exact absurd rfl k5
    refine ⟨s.xall, key fuel true s0 s c rs ?_ hloop (Or.inl rfl), rfl⟩
    unfold start at hs0
    obtain ⟨f, hf, h⟩ := Res.bind_eq_ok.1 hs0
    injection h with h
    subst h
    simp
  injection h with h
  subst h
  refine ⟨hl, (k5 rfl).1, ?_, ?_, s0.fnorm, i4, s, rfl, rfl, hev, rfl, ⟨f, hf, ?_, rfl⟩, k6, k2, k3, k4, ?_, ?_, ?_⟩
  · have := (k5 rfl).2
    rwa [i5] at this
  · dsimp only; rw [i5]
  · have e := k1.fn
    rw [← k1.fv, hf] at e
    injection e
  · intro hc; dsimp only; rw [if_pos hc, if_pos hc]; exact ⟨rfl, rfl⟩
  · intro hc; dsimp only; rw [if_neg (by simp [hc])]
    rw [scatter_length]
  · intro P hP h0
    obtain ⟨j1, _⟩ := start_inv hs0 hl h0
    exact (loop_ok heps hn hP j1 (Or.inl rfl) (Or.inl (by omega)) i3 hloop).1

omit [IsStrictOrderedRing K] in
/-- the value of a fitted parameter in the result -/
theorem scatter_value {o : Opts K} {x0 x : List K} (hx : x.length = (ifree o).length) {i : Nat} {v : K} (hi : i ∈ ifree o)
    (h : (scatter x0 (ifree o) x)[i]? = some v) : ∃ p : Nat, (ifree o)[p]? = some i ∧ x[p]? = some v := by
  obtain ⟨p, hp, he⟩ := List.getElem_of_mem hi
  have e1 : (ifree o)[p]? = some i := by rw [List.getElem?_eq_getElem hp, he]
  have e2 : x[p]? = some x[p] := List.getElem?_eq_getElem (by omega)
  have hv : i < x0.length := by
    have := (List.getElem?_eq_some_iff.1 h).1
    rwa [scatter_length] at this
  have := scatter_get x0 x (ifree_nodup o) e1 e2 hv
  rw [h] at this
  injection this with this
  exact ⟨p, e1, by rw [e2, this]⟩

/-- **C144** the parameters that are frozen, or whose two limits are equal, are never changed: neither in the result, nor in any call of the
function of the caller, which always gets all parameters -/
theorem C144_frozen {A : Alg K} (heps : 0 ≤ A.eps) (hn : ∀ l, 0 ≤ A.norm l) {fuel : Nat} {dev : List K → List (Option K)} {x0 : List K} {o : Opts K}
    {r : Result K} (ho : o.nparam ≠ 0) (h : mpfit A fuel dev x0 o = .ok r) :
    r.params ∈ r.evals ∧ ∀ e ∈ r.evals, e.length = x0.length ∧ ∀ i, Held o i → e[i]? = x0[i]? := by
  obtain ⟨_, _, _, _, f0, _, s, _, e2, _, e3, _, _, _, _, _, _, _, hP⟩ := mpfit_ok heps hn ho h
  have hs := hP (fun _ _ => True) (fun _ _ _ _ _ _ _ => trivial) (fun _ _ _ _ => trivial)
  refine ⟨by rw [e3]; simp, ?_⟩
  intro e he
  rw [e3] at he
  rcases List.mem_cons.1 he with he | he
  · subst he
    rw [e2]
    exact ⟨scatter_length _ _ _, fun i hi => scatter_not _ _ _ (held_not_free hi)⟩
  · exact ⟨(hs.ev e he).1, fun i hi => (hs.ev e he).2 i (held_not_free hi)⟩

/-- a value is within the limits of a parameter -/
def Within (o : Opts K) (i : Nat) (v : K) : Prop :=
  (∀ l, o.lower.getD i none = some l → l ≤ v) ∧ ∀ u, o.upper.getD i none = some u → v ≤ u

theorem upEdge_le {A : Alg K} (heps : 0 ≤ A.eps) (u : K) : upEdge A u ≤ u := by
  unfold upEdge
  rcases lt_trichotomy u 0 with h | h | h
  · rw [if_neg (not_le.2 h), if_neg h.ne]
    nlinarith
  · subst h; simp [heps]
  · rw [if_pos h.le, if_neg h.ne']
    nlinarith

theorem le_lowEdge {A : Alg K} (heps : 0 ≤ A.eps) (l : K) : l ≤ lowEdge A l := by
  unfold lowEdge
  rcases lt_trichotomy l 0 with h | h | h
  · rw [if_neg (not_le.2 h), if_neg h.ne]
    nlinarith
  · subst h; simp [heps]
  · rw [if_pos h.le, if_neg h.ne']
    nlinarith

omit [IsStrictOrderedRing K] in
theorem pegUp_lt {A : Alg K} {u y : K} (h : y < upEdge A u) : pegUp A y (some u) = y := if_neg (not_le.2 h)

omit [IsStrictOrderedRing K] in
theorem pegLow_gt {A : Alg K} {l y : K} (h : lowEdge A l < y) : pegLow A y (some l) = y := if_neg (not_le.2 h)

theorem peg_within {A : Alg K} (heps : 0 ≤ A.eps) {o : Opts K} {i : Nat}
    (hlu : ∀ l u, o.lower.getD i none = some l → o.upper.getD i none = some u → l ≤ u) (y : K) : Within o i (peg A o i y) := by
  unfold Within peg
  have hu : ∀ u, o.upper.getD i none = some u → pegUp A y (o.upper.getD i none) ≤ u := by
    intro u hu
    rw [hu]
    unfold pegUp
    dsimp only
    split
    · exact le_refl _
    · rename_i hh
      exact (not_le.1 hh).le.trans (upEdge_le heps u)
  generalize pegUp A y (o.upper.getD i none) = z at *
  constructor
  · intro l hl
    rw [hl]
    unfold pegLow
    dsimp only
    split
    · exact le_refl _
    · rename_i hh
      exact (le_lowEdge heps l).trans (not_le.1 hh).le
  · intro u hu'
    unfold pegLow
    split
    · rename_i l hl
      split
      · exact hlu l u hl hu'
      · exact hu u hu'
    · exact hu u hu'

/-- **C144** the parameters of the result are within their limits when those at the start are -/
theorem C144_limits {A : Alg K} (heps : 0 ≤ A.eps) (hn : ∀ l, 0 ≤ A.norm l) {fuel : Nat} {dev : List K → List (Option K)} {x0 : List K} {o : Opts K}
    {r : Result K} (ho : o.nparam ≠ 0) (h : mpfit A fuel dev x0 o = .ok r)
    (hlu : ∀ i l u, o.lower.getD i none = some l → o.upper.getD i none = some u → l ≤ u) (h0 : ∀ i v, x0[i]? = some v → Within o i v) :
    ∀ i v, r.params[i]? = some v → Within o i v := by
  obtain ⟨hl, _, _, _, f0, _, s, _, e2, _, e3, _, _, _, _, _, _, _, hP⟩ := mpfit_ok heps hn ho h
  have hs := hP (fun i v => Within o i v) (fun ip _ x w a _ _ => peg_within heps (hlu ip) _) (fun i v _ hv => h0 i v hv)
  intro i v hv
  rw [e2] at hv
  by_cases hi : i ∈ ifree o
  · obtain ⟨p, hp, hx⟩ := scatter_value hs.xlen hi hv
    exact hs.par p i v hp hx
  · rw [scatter_not _ _ _ hi] at hv
    exact h0 i v hv

/-- **C144** the result is never worse than the start: either it is the start, or the norm of the deviates is smaller (and none is NaN) -/
theorem C144_never_worse {A : Alg K} (heps : 0 ≤ A.eps) (hn : ∀ l, 0 ≤ A.norm l) {fuel : Nat} {dev : List K → List (Option K)} {x0 : List K}
    {o : Opts K} {r : Result K} (ho : o.nparam ≠ 0) (h : mpfit A fuel dev x0 o = .ok r) :
    (r.iter = 1 ∧ r.params = x0) ∨
      (1 < r.iter ∧ ∃ a b, enorm A (dev x0) = .ok (some a) ∧ enorm A (dev r.params) = .ok (some b) ∧ b < a) := by
  obtain ⟨hl, _, _, _, f0, hf0, s, e1, e2, _, e3, ⟨f, hf, hff, _⟩, _, _, _, _, _, _, hP⟩ := mpfit_ok heps hn ho h
  have hs := hP (fun _ _ => True) (fun _ _ _ _ _ _ _ => trivial) (fun _ _ _ _ => trivial)
  rcases hs.prog with ⟨p1, p2, _⟩ | ⟨p1, a, b, p2, p3, p4⟩
  · left
    rw [e1, e2, p2]
    exact ⟨p1, scatter_self _ _ (ifree_nodup o)⟩
  · right
    refine ⟨by omega, a, b, by rw [hf0, p2], by rw [hf, hff, p3], p4⟩

/-- **C144** the iterations are bounded, and a fit is successful only for a reason of convergence -/
theorem C144_reason {A : Alg K} (heps : 0 ≤ A.eps) (hn : ∀ l, 0 ≤ A.norm l) {fuel : Nat} {dev : List K → List (Option K)} {x0 : List K} {o : Opts K}
    {r : Result K} (ho : o.nparam ≠ 0) (h : mpfit A fuel dev x0 o = .ok r) :
    1 ≤ r.iter ∧ r.iter ≤ max 2 o.maxIter ∧ (r.success = true → r.reason = .gtol ∨ r.reason = .ftol ∨ r.reason = .xtol ∨ r.reason = .ftolXtol) ∧
      (r.reason = .maxIter → o.maxIter ≤ r.iter ∧ r.success = false) := by
  obtain ⟨hl, _, _, _, f0, hf0, s, e1, e2, _, e3, _, _, e4, e5, e6, _, _, hP⟩ := mpfit_ok heps hn ho h
  have hs := hP (fun _ _ => True) (fun _ _ _ _ _ _ _ => trivial) (fun _ _ _ _ => trivial)
  refine ⟨?_, by omega, e5, by rw [e1]; exact e6⟩
  rcases hs.prog with ⟨p1, _⟩ | ⟨p1, _⟩ <;> omega

/-- **C144** the reported chi square is that of a point where the function has been evaluated, and not less than that of the parameters -/
theorem C144_chi2_partial {A : Alg K} (heps : 0 ≤ A.eps) (hn : ∀ l, 0 ≤ A.norm l) {fuel : Nat} {dev : List K → List (Option K)} {x0 : List K}
    {o : Opts K} {r : Result K} (ho : o.nparam ≠ 0) (h : mpfit A fuel dev x0 o = .ok r) :
    ∃ e ∈ r.evals, ∃ f g, enorm A (dev e) = .ok f ∧ enorm A (dev r.params) = .ok g ∧ r.chi2 = f.map (· ^ 2) ∧
      ∀ a, g = some a → ∃ c, r.chi2 = some c ∧ a ^ 2 ≤ c := by
  obtain ⟨hl, _, _, _, f0, hf0, s, e1, e2, ⟨e0, he0, he0'⟩, e3, ⟨f, hf, hff, hc⟩, h1, _, _, _, _, _, hP⟩ := mpfit_ok heps hn ho h
  subst he0'
  by_cases hlt : ltO f s.fnorm1 = true
  · have hm : maxO f s.fnorm1 = s.fnorm1 := by unfold maxO; rw [if_pos hlt]
    rw [hm] at hc
    refine ⟨s.xall, by rw [e3]; simp [he0], s.fnorm1, f, h1, hf, hc, ?_⟩
    intro a ha
    rw [ha] at hlt
    cases h1' : s.fnorm1 with
    | none => rw [h1'] at hlt; simp [ltO] at hlt
    | some b =>
      rw [h1'] at hlt hc
      have hab : a < b := by simpa [ltO] using hlt
      have ha0 : 0 ≤ a := enorm_nonneg hn (ha ▸ hf)
      exact ⟨b ^ 2, hc, pow_le_pow_left₀ ha0 hab.le 2⟩
  · have hm : maxO f s.fnorm1 = f := by unfold maxO; rw [if_neg hlt]
    rw [hm] at hc
    refine ⟨r.params, by rw [e3]; simp, f, f, hf, hf, hc, ?_⟩
    intro a ha
    exact ⟨a ^ 2, by rw [hc, ha]; rfl, le_refl _⟩

/-- **C144** the covariance has a line for each parameter, zero for those that are held; no covariance and no errors when `nocovar` is set -/
theorem C144_covar {A : Alg K} (heps : 0 ≤ A.eps) (hn : ∀ l, 0 ≤ A.norm l) {fuel : Nat} {dev : List K → List (Option K)} {x0 : List K} {o : Opts K}
    {r : Result K} (ho : o.nparam ≠ 0) (h : mpfit A fuel dev x0 o = .ok r) :
    (o.nocovar = true → r.covar = [] ∧ r.errors = []) ∧
      (o.nocovar = false → r.covar.length = x0.length ∧ (∀ row ∈ r.covar, row.length = x0.length) ∧
        ∀ i j row v, Held o i ∨ Held o j → r.covar[i]? = some row → row[j]? = some v → v = 0) := by
  obtain ⟨hl, _, _, _, f0, hf0, s, _, _, _, _, _, _, _, _, _, c1, c2, _⟩ := mpfit_ok heps hn ho h
  refine ⟨c1, fun hc => ?_⟩
  rw [c2 hc]
  unfold fullCovar
  dsimp only
  refine ⟨by simp, ?_, ?_⟩
  · intro row hrow
    obtain ⟨i, _, he⟩ := List.mem_map.1 hrow
    rw [← he]
    simp
  · intro i j row v hh hrow hv
    rw [List.getElem?_map] at hrow
    obtain ⟨i', hi', he⟩ := Option.map_eq_some_iff.1 hrow
    obtain ⟨hlt, hi'⟩ := List.getElem?_eq_some_iff.1 hi'
    rw [List.getElem_range] at hi'
    subst hi'
    rw [← he, List.getElem?_map] at hv
    obtain ⟨j', hj', he'⟩ := Option.map_eq_some_iff.1 hv
    obtain ⟨hlt', hj'⟩ := List.getElem?_eq_some_iff.1 hj'
    rw [List.getElem_range] at hj'
    subst hj'
    have key : ∀ k, Held o k → (ifree o).idxOf? k = none := fun k hk => by
      rw [List.idxOf?_eq_none_iff]; exact held_not_free hk
    rw [← he']
    rcases hh with hh | hh
    · rw [key i hh]
    · rw [key j hh]
      cases (ifree o).idxOf? i <;> rfl

/-- **C144** without anything to fit, `mpfit` aborts -/
theorem C144_all_frozen (A : Alg K) {fuel : Nat} (hfuel : 0 < fuel) (dev : List K → List (Option K)) (x0 : List K) {o : Opts K} (ho : o.nparam ≠ 0)
    (h : ∀ i < o.nparam, Held o i) : mpfit A fuel dev x0 o = .abort := by
  have hfree : ifree o = [] := by
    rw [List.eq_nil_iff_forall_not_mem]
    intro i hi
    exact held_not_free (h i (mem_ifree.1 hi).1) hi
  unfold mpfit useOpts
  rw [if_neg ho]
  by_cases hl : o.nparam = x0.length
  · rw [Res.check_pos hl]
    simp only [Res.ok_bind]
    unfold start
    dsimp only
    have hen : enorm A (dev x0) = .abort ∨ ∃ f, enorm A (dev x0) = .ok f := by
      unfold enorm
      split
      · exact Or.inl rfl
      · split
        · exact Or.inr ⟨_, rfl⟩
        · split
          · exact Or.inr ⟨_, rfl⟩
          · split
            · exact Or.inr ⟨_, rfl⟩
            · exact Or.inr ⟨_, rfl⟩
    rcases hen with hen | ⟨f, hen⟩
    · rw [hen]; rfl
    · rw [hen]
      obtain ⟨fuel, rfl⟩ := Nat.exists_eq_succ_of_ne_zero hfuel.ne'
      simp only [Res.ok_bind, loop, if_pos rfl]
      unfold top jacobian
      rw [hfree]
      rfl
  · rw [Res.check_neg hl]
    rfl

/-- **C144 (refuted)** an option is ignored when the number of parameters has not been given to `mpfit_options` -/
theorem C144_options_refuted (A : Alg K) (fuel : Nat) (dev : List K → List (Option K)) (x0 : List K) (o : Opts K) (h : o.nparam = 0) :
    mpfit A fuel dev x0 o = mpfit A fuel dev x0 { (Opts.default 0 : Opts K) with nparam := 0 } := by
  unfold mpfit useOpts
  rw [if_pos h, if_pos rfl]

/-- **C144 (refuted)** a parameter with both limits stays where it is: it is never fitted -/
theorem C144_two_limits_refuted {A : Alg K} (heps : 0 ≤ A.eps) (hn : ∀ l, 0 ≤ A.norm l) {fuel : Nat} {dev : List K → List (Option K)} {x0 : List K}
    {o : Opts K} {r : Result K} (ho : o.nparam ≠ 0) (h : mpfit A fuel dev x0 o = .ok r) {i : Nat} {l u v : K} (hl : o.lower.getD i none = some l)
    (hu : o.upper.getD i none = some u) (hv : x0[i]? = some v) (h1 : lowEdge A l < v) (h2 : v < upEdge A u) : r.params[i]? = some v := by
  obtain ⟨_, _, _, _, f0, _, s, _, e2, _, e3, _, _, _, _, _, _, _, hP⟩ := mpfit_ok heps hn ho h
  have hs := hP (fun j w => j = i → w = v) (by
    intro ip _ x w a hx _ hi
    subst hi
    have hx := hx rfl
    subst hx
    rw [clipStep_both (by rw [hl]; rfl) (by rw [hu]; rfl), zero_mul, add_zero]
    unfold peg
    rw [hl, hu]
    rw [pegUp_lt h2, pegLow_gt h1]) (fun j w _ hw hj => by
      subst hj
      rw [hv] at hw
      injection hw with hw
      exact hw.symm)
  rw [e2]
  by_cases hi : i ∈ ifree o
  · have hlt : i < (scatter x0 (ifree o) s.x).length := by
      rw [scatter_length]; exact (List.getElem?_eq_some_iff.1 hv).1
    obtain ⟨p, hp, hx⟩ := scatter_value hs.xlen hi (List.getElem?_eq_getElem hlt)
    rw [List.getElem?_eq_getElem hlt, hs.par p i _ hp hx rfl]
  · rw [scatter_not _ _ _ hi, hv]

/-- **C144 (refuted)** a parameter with a lower limit only never decreases: it is not fitted when the best value is below the start -/
theorem C144_lower_limit_refuted {A : Alg K} (heps : 0 ≤ A.eps) (hn : ∀ l, 0 ≤ A.norm l) {fuel : Nat} {dev : List K → List (Option K)} {x0 : List K}
    {o : Opts K} {r : Result K} (ho : o.nparam ≠ 0) (h : mpfit A fuel dev x0 o = .ok r) {i : Nat} {l v w : K} (hl : o.lower.getD i none = some l)
    (hu : o.upper.getD i none = none) (hv : x0[i]? = some v) (h1 : lowEdge A l < v) (hw : r.params[i]? = some w) : v ≤ w := by
  obtain ⟨_, _, _, _, f0, _, s, _, e2, _, e3, _, _, _, _, _, _, _, hP⟩ := mpfit_ok heps hn ho h
  have hs := hP (fun j w => j = i → v ≤ w) (by
    intro ip _ x w a hx ha hi
    subst hi
    have hx := hx rfl
    have hc : 0 ≤ clipStep o ip w := clipStep_low (by rw [hl]; rfl) hu
    have hy : v ≤ x + clipStep o ip w * a := by nlinarith
    unfold peg
    rw [hl, hu]
    rw [pegUp, pegLow_gt (lt_of_lt_of_le h1 hy)]
    exact hy) (fun j w _ hw' hj => by
      subst hj
      rw [hv] at hw'
      injection hw' with hw'
      exact hw'.le)
  rw [e2] at hw
  by_cases hi : i ∈ ifree o
  · obtain ⟨p, hp, hx⟩ := scatter_value hs.xlen hi hw
    exact hs.par p i _ hp hx rfl
  · rw [scatter_not _ _ _ hi, hv] at hw
    injection hw with hw
    exact hw.le

/-- **C144 (refuted)** a parameter with an upper limit only never increases -/
theorem C144_upper_limit_refuted {A : Alg K} (heps : 0 ≤ A.eps) (hn : ∀ l, 0 ≤ A.norm l) {fuel : Nat} {dev : List K → List (Option K)} {x0 : List K}
    {o : Opts K} {r : Result K} (ho : o.nparam ≠ 0) (h : mpfit A fuel dev x0 o = .ok r) {i : Nat} {u v w : K} (hl : o.lower.getD i none = none)
    (hu : o.upper.getD i none = some u) (hv : x0[i]? = some v) (h1 : v < upEdge A u) (hw : r.params[i]? = some w) : w ≤ v := by
  obtain ⟨_, _, _, _, f0, _, s, _, e2, _, e3, _, _, _, _, _, _, _, hP⟩ := mpfit_ok heps hn ho h
  have hs := hP (fun j w => j = i → w ≤ v) (by
    intro ip _ x w a hx ha hi
    subst hi
    have hx := hx rfl
    have hc : clipStep o ip w ≤ 0 := clipStep_up (by rw [hu]; rfl)
    have hy : x + clipStep o ip w * a ≤ v := by nlinarith
    unfold peg
    rw [hl, hu]
    rw [pegUp_lt (lt_of_le_of_lt hy h1), pegLow]
    exact hy) (fun j w _ hw' hj => by
      subst hj
      rw [hv] at hw'
      injection hw' with hw'
      exact hw'.ge)
  rw [e2] at hw
  by_cases hi : i ∈ ifree o
  · obtain ⟨p, hp, hx⟩ := scatter_value hs.xlen hi hw
    exact hs.par p i _ hp hx rfl
  · rw [scatter_not _ _ _ hi, hv] at hw
    injection hw with hw
    exact hw.ge

/-! ### Fits of rational numbers, with the linear algebra of `MpfitAlg` -/

/-- the numbers of the machine; the root is exact for squares -/
def numQ : Num ℚ := ⟨Rat.sqrt, 1 / 2 ^ 52, 1 / 2 ^ 26, 1 / 2 ^ 1022, 2 ^ 1023⟩

theorem numQ_norm (l : List ℚ) : 0 ≤ (realAlg numQ).norm l := by
  show 0 ≤ vnorm numQ l
  cases l with
  | nil => exact le_refl _
  | cons a l =>
    unfold vnorm
    dsimp only
    split
    · exact le_refl _
    · split
      · exact mul_nonneg (le_max_of_le_left (abs_nonneg _)) (Rat.sqrt_nonneg _)
      · exact Rat.sqrt_nonneg _

theorem numQ_eps : 0 ≤ (realAlg numQ).eps := by decide +kernel

/-- the deviates `3a - 3`, `4a - 8`, `b` -/
def exDev (x : List ℚ) : List (Option ℚ) := [some (3 * x.getD 0 0 - 3), some (4 * x.getD 0 0 - 8), some (x.getD 1 0)]

/-- the options with the second parameter frozen -/
def exOpts : Opts ℚ := { (Opts.default 2 : Opts ℚ) with frozen := [false, true] }

/-- a fit that moves a parameter, keeps another, and ends at the minimum -/
theorem exFit : ∃ r, mpfit (realAlg numQ) 10 exDev [5, 7] exOpts = .ok r ∧ r.params = [41 / 25, 7] ∧ r.success = true ∧ r.reason = .gtol ∧
    r.iter = 2 ∧ r.covar = [[1 / 25, 0], [0, 0]] ∧ r.errors = [1 / 5, 0] ∧ r.dof = 2 ∧ r.chi2 = some (1369 / 25) := by
  have h : (match mpfit (realAlg numQ) 10 exDev [5, 7] exOpts with
      | .ok r => decide (r.params = [41 / 25, 7] ∧ r.success = true ∧ r.reason = .gtol ∧
          r.iter = 2 ∧ r.covar = [[1 / 25, 0], [0, 0]] ∧ r.errors = [1 / 5, 0] ∧ r.dof = 2 ∧ r.chi2 = some (1369 / 25))
      | _ => false) = true := by decide +kernel
  split at h
  · rename_i r hr
    exact ⟨r, hr, of_decide_eq_true h⟩
  · cases h

/-- the hypotheses of the theorems hold for this fit -/
example : Held exOpts 1 ∧ ¬ Held exOpts 0 ∧ exOpts.nparam ≠ 0 ∧ (∀ i v, ([5, 7] : List ℚ)[i]? = some v → Within exOpts i v) ∧
    (∀ i l u, exOpts.lower.getD i none = some l → exOpts.upper.getD i none = some u → l ≤ u) := by
  have hl : ∀ i, exOpts.lower.getD i none = none := by
    intro i
    rcases i with _ | _ | i <;> rfl
  have hu : ∀ i, exOpts.upper.getD i none = none := by
    intro i
    rcases i with _ | _ | i <;> rfl
  refine ⟨Or.inl rfl, ?_, by decide, ?_, ?_⟩
  · rintro (h | ⟨v, h, _⟩)
    · exact absurd h (by decide)
    · rw [hl] at h; cases h
  · intro i v _
    exact ⟨fun l h => (by rw [hl] at h; cases h), fun u h => (by rw [hu] at h; cases h)⟩
  · intro i l u h
    rw [hl] at h; cases h

/-- **C144 (refuted)** "a successful fit is at a minimum": one deviate `x - 3` and a lower limit of 0 that plays no role; the fit which starts at 5 stays there,
is successful and has a chi square of 4 and an error of 0 -/
theorem C144_minimum_refuted : ∃ r, mpfit (realAlg numQ) 10 (fun x => [some (x.getD 0 0 - 3)]) [5] { (Opts.default 1 : Opts ℚ) with lower := [some 0] } = .ok r ∧
    r.params = [5] ∧ r.success = true ∧ r.reason = .gtol ∧ r.chi2 = some 4 ∧ r.errors = [0] := by
  have h : (match mpfit (realAlg numQ) 10 (fun x => [some (x.getD 0 0 - 3)]) [5] { (Opts.default 1 : Opts ℚ) with lower := [some 0] } with
      | .ok r => decide (r.params = [5] ∧ r.success = true ∧ r.reason = .gtol ∧ r.chi2 = some 4 ∧ r.errors = [0])
      | _ => false) = true := by decide +kernel
  split at h
  · rename_i r hr
    exact ⟨r, hr, of_decide_eq_true h⟩
  · cases h

/-- without the limit the same fit ends at 3 -/
example : (match mpfit (realAlg numQ) 10 (fun x => [some (x.getD 0 0 - 3)]) [5] (Opts.default 1) with
      | .ok r => decide (r.params = [3] ∧ r.success = true ∧ r.reason = .gtol ∧ r.chi2 = some 0 ∧ r.errors = [1])
      | _ => false) = true := by decide +kernel

/-- **C144 (refuted)** "the reported chi square is that of the parameters": the last trial has been rejected, its chi square is reported -/
theorem C144_chi2_refuted : ∃ r, mpfit (realAlg numQ) 10 (fun x => if x.getD 0 0 < 1 / 2 then [some 10] else [some (x.getD 0 0)]) [1]
      { (Opts.default 1 : Opts ℚ) with maxIter := 1 } = .ok r ∧ r.params = [1] ∧ r.chi2 = some 100 := by
  have h : (match mpfit (realAlg numQ) 10 (fun x => if x.getD 0 0 < 1 / 2 then [some 10] else [some (x.getD 0 0)]) [1]
      { (Opts.default 1 : Opts ℚ) with maxIter := 1 } with
      | .ok r => decide (r.params = [1] ∧ r.chi2 = some 100)
      | _ => false) = true := by decide +kernel
  split at h
  · rename_i r hr
    exact ⟨r, hr, of_decide_eq_true h⟩
  · cases h

/-- **C144 (refuted)** "the function is only evaluated within the limits": a two-sided derivative at a lower limit -/
theorem C144_evals_refuted : ∃ r, mpfit (realAlg numQ) 10 (fun x => [some (x.getD 0 0 - 3)]) [1]
      { (Opts.default 1 : Opts ℚ) with lower := [some 1], deriv := [2], derivStep := [1 / 2] } = .ok r ∧ r.params = [3] ∧ [1 / 2] ∈ r.evals := by
  have h : (match mpfit (realAlg numQ) 10 (fun x => [some (x.getD 0 0 - 3)]) [1]
      { (Opts.default 1 : Opts ℚ) with lower := [some 1], deriv := [2], derivStep := [1 / 2] } with
      | .ok r => decide (r.params = [3] ∧ [1 / 2] ∈ r.evals)
      | _ => false) = true := by decide +kernel
  split at h
  · rename_i r hr
    exact ⟨r, hr, of_decide_eq_true h⟩
  · cases h

/-- **C144 (refuted)** "deviates that are NaN are noticed": the norm of NaN and zeros is zero, and the fit is perfect -/
theorem C144_nan_refuted : ∃ r, mpfit (realAlg numQ) 10 (fun x => [some (x.getD 0 0 - 3), if x.getD 0 0 = 3 then none else some 0]) [5] (Opts.default 1) = .ok r ∧
    r.params = [3] ∧ r.chi2 = some 0 ∧ r.success = false ∧ r.reason = .overflow := by
  have h : (match mpfit (realAlg numQ) 10 (fun x => [some (x.getD 0 0 - 3), if x.getD 0 0 = 3 then none else some 0]) [5] (Opts.default 1) with
      | .ok r => decide (r.params = [3] ∧ r.chi2 = some 0 ∧ r.success = false ∧ r.reason = .overflow)
      | _ => false) = true := by decide +kernel
  split at h
  · rename_i r hr
    exact ⟨r, hr, of_decide_eq_true h⟩
  · cases h

/-- a parameter with two limits that is not moved, whereas its neighbour is -/
example : (match mpfit (realAlg numQ) 10 (fun x => [some (x.getD 0 0 - 3), some (x.getD 1 0 - 2)]) [5, 7]
      { (Opts.default 2 : Opts ℚ) with lower := [some 0, none], upper := [some 10, none] } with
      | .ok r => decide (r.params[0]? = some 5 ∧ r.params[1]? = some 2)
      | _ => false) = true ∧ lowEdge (realAlg numQ) 0 < 5 ∧ 5 < upEdge (realAlg numQ) 10 := by decide +kernel

/-- limits of both kinds, in the directions that are allowed -/
example : (match mpfit (realAlg numQ) 10 (fun x => [some (x.getD 0 0 - 8), some (x.getD 1 0 - 2)]) [5, 7]
      { (Opts.default 2 : Opts ℚ) with lower := [some 0, none], upper := [none, some 10] } with
      | .ok r => decide (r.params = [8, 2])
      | _ => false) = true ∧ lowEdge (realAlg numQ) 0 < 5 ∧ 7 < upEdge (realAlg numQ) 10 := by decide +kernel

/-- all parameters held -/
example : ∀ i < 2, Held { (Opts.default 2 : Opts ℚ) with frozen := [true, false], lower := [none, some 1], upper := [none, some 1] } i := by
  intro i hi
  rcases i with _ | _ | i
  · exact Or.inl rfl
  · exact Or.inr ⟨1, rfl, rfl⟩
  · omega

end Verif.Mpfit
