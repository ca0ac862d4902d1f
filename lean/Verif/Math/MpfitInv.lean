import Verif.Math.MpfitLemmas
/-!
# The invariant of the loops of `mpfit`
-/
namespace Verif.Mpfit
open Verif

variable {K : Type} [Field K] [LinearOrder K] [IsStrictOrderedRing K]

/-- what holds at each trial: `P` is a property of the values of the fitted parameters, `f0` is the norm at the start -/
structure Inv (A : Alg K) (o : Opts K) (dev : List K → List (Option K)) (x0 : List K) (f0 : Option K) (P : Nat → K → Prop) (s : St K) : Prop where
  len : s.xall.length = x0.length
  xlen : s.x.length = (ifree o).length
  fix : ∀ i, i ∉ ifree o → s.xall[i]? = x0[i]?
  ev : ∀ e ∈ s.evals, e.length = x0.length ∧ ∀ i, i ∉ ifree o → e[i]? = x0[i]?
  par : ∀ (p ip : Nat) (v : K), (ifree o)[p]? = some ip → s.x[p]? = some v → P ip v
  fv : dev (scatter x0 (ifree o) s.x) = s.fvec
  fn : enorm A s.fvec = .ok s.fnorm
  prog : (s.iter = 1 ∧ s.x = (ifree o).map (fun i => x0.getD i 0) ∧ s.fnorm = f0) ∨
    (1 < s.iter ∧ ∃ a b, f0 = some a ∧ s.fnorm = some b ∧ b < a)

theorem enorm_nonneg {A : Alg K} (hA : ∀ l, 0 ≤ A.norm l) {v : List (Option K)} {a : K} (h : enorm A v = .ok (some a)) : 0 ≤ a := by
  unfold enorm at h
  split at h
  · cases h
  · split at h
    · cases h
    · split at h
      · injection h with h; injection h with h; subst h; exact le_refl _
      · split at h
        · cases h
        · injection h with h; injection h with h; subst h; exact hA _

theorem normK_nonneg {A : Alg K} (hA : ∀ l, 0 ≤ A.norm l) {v : List K} {a : K} (h : normK A v = .ok a) : 0 ≤ a := by
  unfold normK at h
  obtain ⟨b, hb, h⟩ := Res.bind_eq_ok.1 h
  cases b with
  | none => cases h
  | some b =>
    injection h with h
    subst h
    exact enorm_nonneg hA hb

/-- an actual reduction that is positive -/
theorem actualRed_pos {fnorm : K} (hf : 0 < fnorm) {f1 : Option K} (h : 0 < actualRed fnorm f1) (h1 : ∀ a, f1 = some a → 0 ≤ a) :
    ∃ a, f1 = some a ∧ a < fnorm := by
  unfold actualRed at h
  split at h
  · rename_i a
    refine ⟨a, rfl, ?_⟩
    split at h
    · have h2 : (a / fnorm) ^ 2 < 1 := by linarith
      have h3 : 0 ≤ a / fnorm := div_nonneg (h1 a rfl) hf.le
      have h4 : a / fnorm < 1 := by
        by_contra hc
        nlinarith [not_lt.1 hc]
      rwa [div_lt_one hf] at h4
    · linarith
  · linarith

/-- the tests of convergence tell what comes next -/
theorem converge_cases (A : Alg K) (o : Opts K) (s : St K) (actred prered : K) (b : Bool) :
    (∃ c r, converge A o s actred prered b = .stop c r ∧ (c = true → r = .ftol ∨ r = .xtol ∨ r = .ftolXtol) ∧
      (r = .maxIter → o.maxIter ≤ s.iter ∧ c = false)) ∨
    (converge A o s actred prered b = (if b then .outer else .inner) ∧ s.iter < o.maxIter ∧ o.xtol * s.xnorm < s.delta) := by
  unfold converge
  dsimp only
  split
  · left
    refine ⟨_, _, rfl, ?_, ?_⟩
    · intro _
      split
      · simp
      · split <;> simp
    · intro h
      split at h
      · cases h
      · split at h <;> cases h
  · rename_i hx
    rw [not_or] at hx
    split
    · rename_i hm
      exact Or.inl ⟨_, _, rfl, by simp, fun _ => ⟨hm, rfl⟩⟩
    · rename_i hm
      split
      · exact Or.inl ⟨_, _, rfl, by simp, by simp⟩
      · split
        · exact Or.inl ⟨_, _, rfl, by simp, by simp⟩
        · split
          · exact Or.inl ⟨_, _, rfl, by simp, by simp⟩
          · right
            refine ⟨?_, by omega, not_le.1 hx.2⟩
            cases b <;> rfl

/-- the bound on the steps after a step that is refused -/
theorem newBound_half {s : St K} {fnorm actred dirder pnorm : K} (hr : s.ratio < 1 / 10000) (hd : 0 ≤ s.delta) (hp : 0 ≤ pnorm) (hdd : dirder ≤ 0) :
    0 ≤ (newBound s fnorm actred dirder pnorm).1 ∧ (newBound s fnorm actred dirder pnorm).1 ≤ s.delta / 2 := by
  unfold newBound
  rw [if_pos (by linarith [show (1 : K) / 10000 ≤ 1 / 4 by norm_num])]
  dsimp only
  generalize ht : (if actred < 0 then 1 / 2 * dirder / (dirder + 1 / 2 * actred) else (1 : K) / 2) = temp
  have h1 : temp ≤ 1 / 2 := by
    rw [← ht]
    split
    · rename_i ha
      have hneg : dirder + 1 / 2 * actred < 0 := by linarith
      rw [div_le_iff_of_neg hneg]
      linarith
    · exact le_refl _
  generalize ht2 : (if s.fnorm1.any (fun f1 => decide (fnorm ≤ 1 / 10 * f1)) = true ∨ temp < 1 / 10 then (1 : K) / 10 else temp) = t2
  have h2 : t2 ≤ 1 / 2 ∧ 0 ≤ t2 := by
    rw [← ht2]
    split
    · constructor <;> norm_num
    · rename_i hc
      rw [not_or, not_lt] at hc
      exact ⟨h1, le_trans (by norm_num) hc.2⟩
  have h3 : 0 ≤ min s.delta (pnorm * 10) := le_min hd (by linarith)
  have h4 : min s.delta (pnorm * 10) ≤ s.delta := min_le_left _ _
  exact ⟨mul_nonneg h2.2 h3, by nlinarith⟩

theorem newBound_nonneg {s : St K} {fnorm actred dirder pnorm : K} (hd : 0 ≤ s.delta) (hp : 0 ≤ pnorm) :
    0 ≤ (newBound s fnorm actred dirder pnorm).1 := by
  unfold newBound
  by_cases h : s.ratio ≤ 1 / 4
  · rw [if_pos h]
    dsimp only
    generalize (if actred < 0 then 1 / 2 * dirder / (dirder + 1 / 2 * actred) else (1 : K) / 2) = temp
    refine mul_nonneg ?_ (le_min hd (by linarith))
    split
    · norm_num
    · rename_i hc
      rw [not_or, not_lt] at hc
      exact le_trans (by norm_num) hc.2
  · rw [if_neg h]
    split
    · dsimp only; linarith
    · exact hd

/-- the decision on a trial -/
theorem judge_ok {A : Alg K} {o : Opts K} {s s' : St K} {y : List K} {wa4 : List (Option K)} {fnorm actred prered dirder pnorm : K} {nx : Next}
    (h : judge A o s y wa4 fnorm actred prered dirder pnorm = .ok (s', nx)) (hr : s.ratio < 1 / 10000) (hp : 0 ≤ pnorm) (hpre : 0 ≤ prered)
    (hdir : dirder ≤ 0) :
    s'.xall = s.xall ∧ s'.evals = s.evals ∧ s'.fnorm1 = s.fnorm1 ∧ s'.gnorm = s.gnorm ∧ s'.diag = s.diag ∧
      (nx = .outer ∨ nx = .inner → s'.iter < o.maxIter ∧ o.xtol * s'.xnorm < s'.delta) ∧
      (∀ c r, nx = .stop c r → (c = true → r = .ftol ∨ r = .xtol ∨ r = .ftolXtol) ∧ (r = .maxIter → o.maxIter ≤ s'.iter ∧ c = false)) ∧
      (0 ≤ s.delta → 0 ≤ s'.delta) ∧
      ((s'.x = s.x ∧ s'.fvec = s.fvec ∧ s'.fnorm = s.fnorm ∧ s'.iter = s.iter ∧ s'.xnorm = s.xnorm ∧ nx ≠ .outer ∧ s'.ratio < 1 / 10000 ∧
          (0 ≤ s.delta → s'.delta ≤ s.delta / 2)) ∨
        (s'.x = y ∧ s'.fvec = wa4 ∧ s'.fnorm = s.fnorm1 ∧ s'.iter = s.iter + 1 ∧ nx ≠ .inner ∧
          normK A (scaled s.diag y) = .ok s'.xnorm ∧ 0 < actred)) := by
  unfold judge at h
  dsimp only at h
  generalize hra : (if prered ≠ 0 then actred / prered else s.ratio) = ratio at h
  generalize hnb : newBound { s with ratio := ratio } fnorm actred dirder pnorm = nb at h
  have hnbn : 0 ≤ s.delta → 0 ≤ nb.1 := by
    intro hd
    rw [← hnb]
    exact newBound_nonneg hd hp
  by_cases hacc : 1 / 10000 ≤ ratio
  · rw [if_pos hacc] at h
    obtain ⟨xn, hxn, h⟩ := Res.bind_eq_ok.1 h
    injection h with h
    injection h with hs hnx
    rw [hs] at hnx
    have hcv := converge_cases A o s' actred prered true
    rw [hnx] at hcv
    have hpos : 0 < actred := by
      rw [← hra] at hacc
      split at hacc
      · rename_i hp
        have hpp : 0 < prered := lt_of_le_of_ne hpre (Ne.symm hp)
        by_contra hc
        have : actred / prered ≤ 0 := div_nonpos_of_nonpos_of_nonneg (not_lt.1 hc) hpp.le
        linarith [show (0 : K) < 1 / 10000 by norm_num]
      · linarith
    refine ⟨by rw [← hs], by rw [← hs], by rw [← hs], by rw [← hs], by rw [← hs], ?_, ?_, ?_, Or.inr ⟨by rw [← hs], by rw [← hs], by rw [← hs],
      by rw [← hs], ?_, ?_, hpos⟩⟩
    · intro hnx'
      rcases hcv with ⟨c, r, hc, _⟩ | hc
      · rw [hc] at hnx'; rcases hnx' with hh | hh <;> cases hh
      · exact hc.2
    · intro c r hcr
      rcases hcv with ⟨c', r', hc, h1, h2⟩ | hc
      · rw [hcr] at hc; injection hc with hc1 hc2; subst hc1 hc2; exact ⟨h1, h2⟩
      · rw [hcr] at hc; cases hc.1
    · intro hd; rw [← hs]; exact hnbn hd
    · intro hh
      rcases hcv with ⟨c, r, hc, _⟩ | hc
      · rw [hc] at hh; cases hh
      · rw [hh] at hc; cases hc.1
    · rw [← hs]; exact hxn
  · rw [if_neg hacc] at h
    injection h with h
    injection h with hs hnx
    rw [hs] at hnx
    have hcv := converge_cases A o s' actred prered false
    rw [hnx] at hcv
    refine ⟨by rw [← hs], by rw [← hs], by rw [← hs], by rw [← hs], by rw [← hs], ?_, ?_, ?_, Or.inl ⟨by rw [← hs], by rw [← hs], by rw [← hs],
      by rw [← hs], by rw [← hs], ?_, ?_, ?_⟩⟩
    · intro hnx'
      rcases hcv with ⟨c, r, hc, _⟩ | hc
      · rw [hc] at hnx'; rcases hnx' with hh | hh <;> cases hh
      · exact hc.2
    · intro c r hcr
      rcases hcv with ⟨c', r', hc, h1, h2⟩ | hc
      · rw [hcr] at hc; injection hc with hc1 hc2; subst hc1 hc2; exact ⟨h1, h2⟩
      · rw [hcr] at hc; cases hc.1
    · intro hd; rw [← hs]; exact hnbn hd
    · intro hh
      rcases hcv with ⟨c, r, hc, _⟩ | hc
      · rw [hc] at hh; cases hh
      · rw [hh] at hc; cases hc.1
    · rw [← hs]; exact not_le.1 hacc
    · intro hd
      rw [← hs]
      dsimp only
      rw [← hnb]
      exact (newBound_half (s := { s with ratio := ratio }) (not_le.1 hacc) hd hp hdir).2

/-- what a trial does -/
theorem trial_ok {A : Alg K} {o : Opts K} {dev : List K → List (Option K)} {s s' : St K} {nx : Next}
    (h : trial A o dev s = .ok (s', nx)) (hn : ∀ l, 0 ≤ A.norm l) (hr : s.ratio < 1 / 10000) :
    ∃ step fnorm, s.fnorm = some fnorm ∧ fnorm ≠ 0 ∧ s'.xall = scatter s.xall (ifree o) (move A o s.x step).2.2 ∧ s'.evals = s'.xall :: s.evals ∧
      enorm A (dev s'.xall) = .ok s'.fnorm1 ∧ s'.gnorm = s.gnorm ∧ s'.diag = s.diag ∧
      (nx = .outer ∨ nx = .inner → s'.iter < o.maxIter ∧ o.xtol * s'.xnorm < s'.delta) ∧
      (∀ c r, nx = .stop c r → (c = true → r = .ftol ∨ r = .xtol ∨ r = .ftolXtol) ∧ (r = .maxIter → o.maxIter ≤ s'.iter ∧ c = false)) ∧
      (0 ≤ s.delta → 0 ≤ s'.delta) ∧
      ((s'.x = s.x ∧ s'.fvec = s.fvec ∧ s'.fnorm = s.fnorm ∧ s'.iter = s.iter ∧ s'.xnorm = s.xnorm ∧ nx ≠ .outer ∧ s'.ratio < 1 / 10000 ∧
          (0 ≤ s.delta → s'.delta ≤ s.delta / 2)) ∨
        (s'.x = (move A o s.x step).2.2 ∧ s'.fvec = dev s'.xall ∧ s'.fnorm = s'.fnorm1 ∧ s'.iter = s.iter + 1 ∧ nx ≠ .inner ∧
          normK A (scaled s.diag s'.x) = .ok s'.xnorm ∧ 0 < actualRed fnorm s'.fnorm1)) := by
  unfold trial at h
  cases hf : s.fnorm with
  | none => rw [hf] at h; cases h
  | some fnorm =>
    rw [hf] at h
    dsimp only at h
    by_cases h0 : fnorm = 0
    · rw [if_pos h0] at h; cases h
    rw [if_neg h0] at h
    generalize A.lm (ifree o).length s.q s.diag s.delta s.par = l at h
    refine ⟨l.2.1, fnorm, rfl, h0, ?_⟩
    unfold trialAt at h
    dsimp only at h
    obtain ⟨pnorm, hpn, h⟩ := Res.bind_eq_ok.1 h
    obtain ⟨fnorm1, hf1, h⟩ := Res.bind_eq_ok.1 h
    obtain ⟨wn, hwn, h⟩ := Res.bind_eq_ok.1 h
    have hpn0 := normK_nonneg hn hpn
    obtain ⟨j1, j2, j3, j4, j5, j6, j7, j8, j9⟩ := judge_ok h hr hpn0 (by positivity) (by rw [neg_nonpos]; positivity)
    dsimp only at j1 j2 j3 j4 j5 j8 j9
    have hd1 : 0 ≤ s.delta → 0 ≤ (if s.iter = 1 then min s.delta pnorm else s.delta) ∧ (if s.iter = 1 then min s.delta pnorm else s.delta) ≤ s.delta := by
      intro hd
      split
      · exact ⟨le_min hd hpn0, min_le_left _ _⟩
      · exact ⟨hd, le_refl _⟩
    refine ⟨j1, by rw [j2, j1], by rw [j1, j3]; exact hf1, j4, j5, j6, j7, fun hd => j8 (hd1 hd).1, ?_⟩
    rcases j9 with ⟨k1, k2, k3, k4, k5, k6, k7, k8⟩ | ⟨k1, k2, k3, k4, k5, k6, k7⟩
    · exact Or.inl ⟨k1, k2, by rw [k3, hf], k4, k5, k6, k7, fun hd => le_trans (k8 (hd1 hd).1) (by linarith [(hd1 hd).2])⟩
    · exact Or.inr ⟨k1, by rw [k2, j1], by rw [k3, j3], k4, k5, by rw [k1]; exact k6, by rw [j3]; exact k7⟩

/-! ### The beginning of an iteration -/

/-- a point which differs from the current one by a fitted parameter -/
def Near (o : Opts K) (xall e : List K) : Prop := e.length = xall.length ∧ ∀ i, i ∉ ifree o → e[i]? = xall[i]?

omit [IsStrictOrderedRing K] in
theorem jacRow_ok {A : Alg K} {o : Opts K} {dev : List K → List (Option K)} {xall : List K} {fvec : List (Option K)} {ip : Nat} {x : K}
    {r : List (Option K) × List (List K)} (h : jacRow A o dev xall fvec ip x = .ok r) (hip : ip ∈ ifree o) : ∀ e ∈ r.2, Near o xall e := by
  have key : ∀ v, Near o xall (xall.set ip v) := fun v =>
    ⟨List.length_set, fun i hi => List.getElem?_set_ne fun hh => by subst hh; exact hi hip⟩
  unfold jacRow at h
  dsimp only at h
  split at h
  · obtain ⟨_, _, h⟩ := Res.bind_eq_ok.1 h
    injection h with h
    subst h
    intro e he
    rw [List.mem_singleton] at he
    subst he
    exact key _
  · obtain ⟨_, _, h⟩ := Res.bind_eq_ok.1 h
    obtain ⟨_, _, h⟩ := Res.bind_eq_ok.1 h
    injection h with h
    subst h
    intro e he
    rcases List.mem_cons.1 he with he | he
    · subst he
      rw [List.set_set]
      exact key _
    · rw [List.mem_singleton] at he
      subst he
      exact key _

omit [IsStrictOrderedRing K] in
theorem jacobian_ok {A : Alg K} {o : Opts K} {dev : List K → List (Option K)} {s : St K} {r : List (List (Option K)) × List (List K)}
    (h : jacobian A o dev s = .ok r) : ∀ e ∈ r.2, e ∈ s.evals ∨ Near o s.xall e := by
  unfold jacobian at h
  have key : ∀ (l : List (Nat × K)) (acc r : List (List (Option K)) × List (List K)), (∀ p ∈ l, p.1 ∈ ifree o) →
      l.foldlM (fun (acc : List (List (Option K)) × List (List K)) p => (do
        let r ← jacRow A o dev s.xall s.fvec p.1 p.2
        .ok (acc.1 ++ [zeroRow o s.fvec p.1 r.1], r.2 ++ acc.2) : Res _)) acc = .ok r →
      ∀ e ∈ r.2, e ∈ acc.2 ∨ Near o s.xall e := by
    intro l
    induction l with
    | nil =>
      intro acc r _ h e he
      injection h with h
      subst h
      exact Or.inl he
    | cons p l ih =>
      intro acc r hl h e he
      rw [List.foldlM_cons] at h
      obtain ⟨a, ha, h⟩ := Res.bind_eq_ok.1 h
      obtain ⟨b, hb, ha⟩ := Res.bind_eq_ok.1 ha
      injection ha with ha
      subst ha
      rcases ih _ r (fun p hp => hl p (by simp [hp])) h e he with h1 | h1
      · rcases List.mem_append.1 h1 with h1 | h1
        · exact Or.inr (jacRow_ok hb (hl p (by simp)) e h1)
        · exact Or.inl h1
      · exact Or.inr h1
  exact key _ _ _ (fun p hp => (List.of_mem_zip hp).1) h

omit [IsStrictOrderedRing K] in
theorem firstScale_ok {A : Alg K} {s s' : St K} {q : QR K} (h : firstScale A s q = .ok s') :
    (s'.xall = s.xall ∧ s'.x = s.x ∧ s'.fvec = s.fvec ∧ s'.fnorm = s.fnorm ∧ s'.fnorm1 = s.fnorm1 ∧ s'.iter = s.iter ∧ s'.evals = s.evals) ∧
    ((s.iter ≠ 1 ∧ s' = s) ∨ (s.iter = 1 ∧ s'.diag = (fun p => if q.acnorm p = 0 then 1 else q.acnorm p) ∧ normK A (scaled s'.diag s.x) = .ok s'.xnorm ∧
      s'.delta = (if 100 * s'.xnorm = 0 then 100 else 100 * s'.xnorm))) := by
  unfold firstScale at h
  by_cases h1 : s.iter = 1
  · rw [if_pos h1] at h
    dsimp only at h
    obtain ⟨xn, hxn, h⟩ := Res.bind_eq_ok.1 h
    injection h with h
    subst h
    exact ⟨⟨rfl, rfl, rfl, rfl, rfl, rfl, rfl⟩, Or.inr ⟨h1, rfl, hxn, rfl⟩⟩
  · rw [if_neg h1] at h
    injection h with h
    subst h
    exact ⟨⟨rfl, rfl, rfl, rfl, rfl, rfl, rfl⟩, Or.inl ⟨h1, rfl⟩⟩

omit [IsStrictOrderedRing K] in
/-- what the beginning of an iteration does -/
theorem top_ok {A : Alg K} {o : Opts K} {dev : List K → List (Option K)} {s s' : St K} {stop : Option (Bool × Reason)}
    (h : top A o dev s = .ok (s', stop)) :
    (s'.xall = s.xall ∧ s'.x = s.x ∧ s'.fvec = s.fvec ∧ s'.fnorm = s.fnorm ∧ s'.fnorm1 = s.fnorm1 ∧ s'.iter = s.iter) ∧
      (∀ e ∈ s'.evals, e ∈ s.evals ∨ Near o s.xall e) ∧ 0 < (ifree o).length ∧ (ifree o).length ≤ s.fvec.length ∧
      (stop = some (false, .overflow) ∨ stop = some (true, .gtol) ∨
        (stop = none ∧ s'.ratio = 0 ∧ o.gtol ≤ gradNorm (ifree o).length s'.q s.fnorm ∧
          ∃ q jac, A.qr (ifree o).length jac s.fvec = some q ∧ ∃ s1, firstScale A { s with evals := s'.evals } q = .ok s1 ∧ s'.xnorm = s1.xnorm ∧
            s'.delta = s1.delta ∧ s'.diag = fun p => max (s1.diag p) (q.acnorm p))) := by
  unfold top at h
  dsimp only at h
  obtain ⟨⟨jac, evals⟩, hj, h⟩ := Res.bind_eq_ok.1 h
  have hje := jacobian_ok hj
  dsimp only at h hje
  obtain ⟨u, hc, h⟩ := Res.bind_eq_ok.1 h
  have hn : 0 < (ifree o).length ∧ (ifree o).length ≤ s.fvec.length := by
    by_contra hh
    rw [Res.check_neg hh] at hc
    cases hc
  cases hq : A.qr (ifree o).length jac s.fvec with
  | none =>
    rw [hq] at h
    injection h with h
    injection h with h1 h2
    subst h1 h2
    exact ⟨⟨rfl, rfl, rfl, rfl, rfl, rfl⟩, hje, hn.1, hn.2, Or.inl rfl⟩
  | some q =>
    rw [hq] at h
    dsimp only at h
    obtain ⟨s1, hs1, h⟩ := Res.bind_eq_ok.1 h
    obtain ⟨⟨k1, k2, k3, k4, k5, k6, k7⟩, _⟩ := firstScale_ok hs1
    dsimp only at k1 k2 k3 k4 k5 k6 k7
    split at h
    · injection h with h
      injection h with h1 h2
      subst h1 h2
      exact ⟨⟨k1, k2, k3, k4, k5, k6⟩, by dsimp only; rw [k7]; exact hje, hn.1, hn.2, Or.inr (Or.inl rfl)⟩
    · rename_i hg
      injection h with h
      injection h with h1 h2
      subst h1 h2
      refine ⟨⟨k1, k2, k3, k4, k5, k6⟩, by dsimp only; rw [k7]; exact hje, hn.1, hn.2, Or.inr (Or.inr ⟨rfl, rfl, ?_, q, jac, hq, s1, ?_, rfl, rfl, rfl⟩)⟩
      · dsimp only
        rw [← k4]
        exact not_lt.1 hg
      · dsimp only
        rw [k7]
        exact hs1

omit [IsStrictOrderedRing K] in
theorem jacobian_evals {A : Alg K} {o : Opts K} {dev : List K → List (Option K)} {s : St K} {r : List (List (Option K)) × List (List K)}
    (h : jacobian A o dev s = .ok r) : ∀ e ∈ s.evals, e ∈ r.2 := by
  unfold jacobian at h
  have key : ∀ (l : List (Nat × K)) (acc r : List (List (Option K)) × List (List K)),
      l.foldlM (fun (acc : List (List (Option K)) × List (List K)) p => (do
        let r ← jacRow A o dev s.xall s.fvec p.1 p.2
        .ok (acc.1 ++ [zeroRow o s.fvec p.1 r.1], r.2 ++ acc.2) : Res _)) acc = .ok r → ∀ e ∈ acc.2, e ∈ r.2 := by
    intro l
    induction l with
    | nil =>
      intro acc r h e he
      injection h with h
      subst h
      exact he
    | cons p l ih =>
      intro acc r h e he
      rw [List.foldlM_cons] at h
      obtain ⟨a, ha, h⟩ := Res.bind_eq_ok.1 h
      obtain ⟨b, hb, ha⟩ := Res.bind_eq_ok.1 ha
      injection ha with ha
      subst ha
      exact ih _ r h e (List.mem_append_right _ he)
  exact key _ _ _ h

omit [IsStrictOrderedRing K] in
theorem top_evals {A : Alg K} {o : Opts K} {dev : List K → List (Option K)} {s s' : St K} {stop : Option (Bool × Reason)}
    (h : top A o dev s = .ok (s', stop)) {e : List K} (he : e ∈ s.evals) : e ∈ s'.evals := by
  unfold top at h
  dsimp only at h
  obtain ⟨⟨jac, evals⟩, hj, h⟩ := Res.bind_eq_ok.1 h
  have hje := jacobian_evals hj e he
  dsimp only at h hje
  obtain ⟨u, hc, h⟩ := Res.bind_eq_ok.1 h
  cases hq : A.qr (ifree o).length jac s.fvec with
  | none =>
    rw [hq] at h
    injection h with h
    injection h with h1 h2
    subst h1
    exact hje
  | some q =>
    rw [hq] at h
    dsimp only at h
    obtain ⟨s1, hs1, h⟩ := Res.bind_eq_ok.1 h
    obtain ⟨⟨_, _, _, _, _, _, k7⟩, _⟩ := firstScale_ok hs1
    dsimp only at k7
    split at h
    · injection h with h
      injection h with h1 h2
      subst h1
      dsimp only; rw [k7]; exact hje
    · injection h with h
      injection h with h1 h2
      subst h1
      dsimp only; rw [k7]; exact hje

/-! ### The loops -/

/-- a property of the fitted parameters which the steps keep -/
def Kept (A : Alg K) (o : Opts K) (P : Nat → K → Prop) : Prop :=
  ∀ ip ∈ ifree o, ∀ x w a : K, P ip x → 0 < a → P ip (peg A o ip (x + clipStep o ip w * a))

/-- the invariant through the beginning of an iteration -/
theorem Inv.top {A : Alg K} {o : Opts K} {dev : List K → List (Option K)} {x0 : List K} {f0 : Option K} {P : Nat → K → Prop} {s s' : St K}
    {stop : Option (Bool × Reason)} (hs : Inv A o dev x0 f0 P s) (h : top A o dev s = .ok (s', stop)) : Inv A o dev x0 f0 P s' := by
  obtain ⟨⟨e1, e2, e3, e4, e5, e6⟩, he, _⟩ := top_ok h
  refine ⟨by rw [e1]; exact hs.len, by rw [e2]; exact hs.xlen, by rw [e1]; exact hs.fix, ?_, by rw [e2]; exact hs.par, by rw [e2, e3]; exact hs.fv,
    by rw [e3, e4]; exact hs.fn, by rw [e2, e4, e6]; exact hs.prog⟩
  intro e hm
  rcases he e hm with h1 | h1
  · exact hs.ev e h1
  · exact ⟨h1.1.trans hs.len, fun i hi => (h1.2 i hi).trans (hs.fix i hi)⟩

/-- the invariant through a trial -/
theorem Inv.trial {A : Alg K} (heps : 0 ≤ A.eps) (hn : ∀ l, 0 ≤ A.norm l) {o : Opts K} {dev : List K → List (Option K)} {x0 : List K} {f0 : Option K}
    {P : Nat → K → Prop} (hP : Kept A o P) {s s' : St K} {nx : Next} (hs : Inv A o dev x0 f0 P s) (hr : s.ratio < 1 / 10000)
    (h : trial A o dev s = .ok (s', nx)) : Inv A o dev x0 f0 P s' := by
  obtain ⟨step, fnorm, hf, h0, e1, e2, e3, _, _, _, _, _, h'⟩ := trial_ok h hn hr
  obtain ⟨a, ha, m1, _, m2⟩ := move_spec heps o s.x step hs.xlen
  have hlen : s'.xall.length = x0.length := by rw [e1, scatter_length]; exact hs.len
  have hfix : ∀ i, i ∉ ifree o → s'.xall[i]? = x0[i]? := fun i hi => by rw [e1, scatter_not _ _ _ hi]; exact hs.fix i hi
  have hev : ∀ e ∈ s'.evals, e.length = x0.length ∧ ∀ i, i ∉ ifree o → e[i]? = x0[i]? := by
    intro e he
    rw [e2] at he
    rcases List.mem_cons.1 he with he | he
    · subst he; exact ⟨hlen, hfix⟩
    · exact hs.ev e he
  rcases h' with ⟨k1, k2, k3, k4, _⟩ | ⟨k1, k2, k3, k4, _, _, k5⟩
  · exact ⟨hlen, by rw [k1]; exact hs.xlen, hfix, hev, by rw [k1]; exact hs.par, by rw [k1, k2]; exact hs.fv, by rw [k2, k3]; exact hs.fn,
      by rw [k1, k3, k4]; exact hs.prog⟩
  · have hxl : s'.x.length = (ifree o).length := by rw [k1, m1]; exact hs.xlen
    have hsc : scatter x0 (ifree o) s'.x = s'.xall := by
      rw [e1, k1]
      exact scatter_congr (ifree_nodup o) hs.len.symm (by rw [m1]; exact hs.xlen) fun i hi => (hs.fix i hi).symm
    have hn0 : 0 < fnorm := lt_of_le_of_ne (enorm_nonneg hn (hf ▸ hs.fn)) (Ne.symm h0)
    obtain ⟨b, hb, hlt⟩ := actualRed_pos hn0 k5 (fun a' ha' => enorm_nonneg hn (ha' ▸ e3))
    refine ⟨hlen, hxl, hfix, hev, ?_, by rw [hsc, k2], by rw [k2, k3]; exact e3, Or.inr ?_⟩
    · intro p ip v hp hv
      have hpl : p < s.x.length := by
        have := (List.getElem?_eq_some_iff.1 hv).1
        rw [k1, m1] at this
        exact this
      have := m2 p ip s.x[p] hp (List.getElem?_eq_getElem hpl)
      rw [← k1, hv] at this
      injection this with this
      rw [this]
      exact hP ip (List.mem_of_getElem? hp) _ _ _ (hs.par p ip _ hp (List.getElem?_eq_getElem hpl)) ha
    · rcases hs.prog with ⟨h1, _, h2⟩ | ⟨h1, a', b', h2, h3, h4⟩
      · exact ⟨by omega, fnorm, b, by rw [← h2, hf], by rw [k3, hb], hlt⟩
      · rw [hf] at h3
        injection h3 with h3
        subst h3
        exact ⟨by omega, a', b, h2, by rw [k3, hb], lt_trans hlt h4⟩

/-- the result of the loops -/
theorem loop_ok {A : Alg K} (heps : 0 ≤ A.eps) (hn : ∀ l, 0 ≤ A.norm l) {o : Opts K} {dev : List K → List (Option K)} {x0 : List K} {f0 : Option K}
    {P : Nat → K → Prop} (hP : Kept A o P) : ∀ {fuel : Nat} {new : Bool} {s s' : St K} {c : Bool} {r : Reason},
    Inv A o dev x0 f0 P s → (new = true ∨ s.ratio < 1 / 10000) → (s.iter ≤ 1 ∨ s.iter < o.maxIter) → enorm A (dev s.xall) = .ok s.fnorm1 →
    loop A o dev fuel new s = .ok (s', c, r) →
    Inv A o dev x0 f0 P s' ∧ s'.iter ≤ max 2 o.maxIter ∧ (c = true → r = .gtol ∨ r = .ftol ∨ r = .xtol ∨ r = .ftolXtol) ∧
      (r = .maxIter → o.maxIter ≤ s'.iter ∧ c = false) ∧ (new = true → 0 < (ifree o).length ∧ (ifree o).length ≤ s.fvec.length) ∧
      enorm A (dev s'.xall) = .ok s'.fnorm1 := by
  intro fuel
  induction fuel with
  | zero => intro new s s' c r _ _ _ _ h; cases h
  | succ fuel ih =>
    intro new s s' c r hs hnew hit hf1 h
    rw [loop] at h
    obtain ⟨⟨s1, stop⟩, h1, h⟩ := Res.bind_eq_ok.1 h
    dsimp only at h
    -- the beginning
    have key : Inv A o dev x0 f0 P s1 ∧ s1.iter = s.iter ∧ (stop = none → s1.ratio < 1 / 10000) ∧ enorm A (dev s1.xall) = .ok s1.fnorm1 ∧
        (∀ c r, stop = some (c, r) → (c = false ∧ r = .overflow) ∨ (c = true ∧ r = .gtol)) ∧
        (new = true → 0 < (ifree o).length ∧ (ifree o).length ≤ s.fvec.length) := by
      cases new with
      | false =>
        rw [if_neg (by simp)] at h1
        injection h1 with h1
        injection h1 with h1 h2
        subst h1 h2
        exact ⟨hs, rfl, fun _ => hnew.resolve_left (by simp), hf1, by simp, by simp⟩
      | true =>
        rw [if_pos rfl] at h1
        obtain ⟨⟨e1, e2, e3, e4, e5, e6⟩, _, e7, e8, e9⟩ := top_ok h1
        refine ⟨hs.top h1, e6, ?_, by rw [e1, e5]; exact hf1, ?_, fun _ => ⟨e7, e8⟩⟩
        · intro hst
          rcases e9 with e9 | e9 | e9
          · rw [hst] at e9; cases e9
          · rw [hst] at e9; cases e9
          · rw [e9.2.1]; norm_num
        · intro c r hcr
          rcases e9 with e9 | e9 | e9
          · rw [hcr] at e9; injection e9 with e9; injection e9 with e9 e9'; exact Or.inl ⟨e9, e9'⟩
          · rw [hcr] at e9; injection e9 with e9; injection e9 with e9 e9'; exact Or.inr ⟨e9, e9'⟩
          · rw [hcr] at e9; cases e9.1
    obtain ⟨i1, i2, i3, i4, i5, i6⟩ := key
    cases stop with
    | some st =>
      obtain ⟨b, rs⟩ := st
      injection h with h
      injection h with h2 h
      injection h with h3 h4
      subst h2 h3 h4
      rcases i5 _ _ rfl with ⟨j1, j2⟩ | ⟨j1, j2⟩
      · subst j1 j2
        exact ⟨i1, by omega, by simp, by simp, i6, i4⟩
      · subst j1 j2
        exact ⟨i1, by omega, by simp, by simp, i6, i4⟩
    | none =>
      dsimp only at h
      obtain ⟨⟨s2, nx⟩, h2, h⟩ := Res.bind_eq_ok.1 h
      dsimp only at h
      have hs2 := i1.trial heps hn hP (i3 rfl) h2
      obtain ⟨step, fnorm, hf, h0, t1, t2, t3, _, _, t4, t5, _, t6⟩ := trial_ok h2 hn (i3 rfl)
      have hit2 : s2.iter ≤ max 2 o.maxIter := by
        rcases t6 with ⟨_, _, _, k4, _⟩ | ⟨_, _, _, k4, _⟩ <;> omega
      cases nx with
      | stop b rs =>
        injection h with h
        injection h with h3 h
        injection h with h4 h5
        subst h3 h4 h5
        obtain ⟨u1, u2⟩ := t5 _ _ rfl
        exact ⟨hs2, hit2, fun hb => Or.inr (u1 hb), u2, i6, t3⟩
      | outer =>
        obtain ⟨v1, v2, v3, v4, _, v6⟩ := ih hs2 (Or.inl rfl) (Or.inr (t4 (Or.inl rfl)).1) t3 h
        exact ⟨v1, v2, v3, v4, i6, v6⟩
      | inner =>
        have hr2 : s2.ratio < 1 / 10000 := by
          rcases t6 with ⟨_, _, _, _, _, _, k7, _⟩ | ⟨_, _, _, _, k5, _⟩
          · exact k7
          · exact absurd rfl k5
        obtain ⟨v1, v2, v3, v4, _, v6⟩ := ih hs2 (Or.inr hr2) (Or.inr (t4 (Or.inr rfl)).1) t3 h
        exact ⟨v1, v2, v3, v4, i6, v6⟩

end Verif.Mpfit
