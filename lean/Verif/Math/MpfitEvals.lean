import Verif.Math.MpfitProps
/-!
# C144: where `mpfit` evaluates the function
-/
namespace Verif.Mpfit
open Verif

variable {K : Type} [Field K] [LinearOrder K] [IsStrictOrderedRing K]

/-- the current point, the fitted parameters and the points of evaluation; `P` holds for the parameters, `Q` for the evaluations -/
structure EvInv (o : Opts K) (P Q : Nat → K → Prop) (n : Nat) (s : St K) : Prop where
  len : s.xall.length = n
  xlen : s.x.length = (ifree o).length
  par : ∀ (p ip : Nat) (v : K), (ifree o)[p]? = some ip → s.x[p]? = some v → P ip v
  all : ∀ (i : Nat) (v : K), s.xall[i]? = some v → P i v
  ev : ∀ e ∈ s.evals, ∀ (i : Nat) (v : K), e[i]? = some v → Q i v

/-- the fitted parameters are those of the current point -/
def Sync (o : Opts K) (s : St K) : Prop :=
  ∀ (p ip : Nat) (v : K), (ifree o)[p]? = some ip → s.x[p]? = some v → s.xall[ip]? = some v

/-- derivatives on one side -/
def OneSided (o : Opts K) : Prop := ∀ ip ∈ ifree o, o.deriv.getD ip 0 = -1 ∨ o.deriv.getD ip 0 = 1 ∨ o.deriv.getD ip 0 = 0

omit [IsStrictOrderedRing K] in
theorem jacobian_points {A : Alg K} {o : Opts K} {dev : List K → List (Option K)} {s : St K} {r : List (List (Option K)) × List (List K)}
    (ho : OneSided o) (h : jacobian A o dev s = .ok r) :
    ∀ e ∈ r.2, e ∈ s.evals ∨ ∃ (p ip : Nat) (x : K), (ifree o)[p]? = some ip ∧ s.x[p]? = some x ∧
      e = s.xall.set ip (s.xall.getD ip 0 + derivH A o ip x) := by
  unfold jacobian at h
  have key : ∀ (l : List (Nat × K)) (acc r : List (List (Option K)) × List (List K)), (∀ p ∈ l, p ∈ (ifree o).zip s.x) →
      l.foldlM (fun (acc : List (List (Option K)) × List (List K)) p => (do
        let r ← jacRow A o dev s.xall s.fvec p.1 p.2
        .ok (acc.1 ++ [zeroRow o s.fvec p.1 r.1], r.2 ++ acc.2) : Res _)) acc = .ok r →
      ∀ e ∈ r.2, e ∈ acc.2 ∨ ∃ (p ip : Nat) (x : K), (ifree o)[p]? = some ip ∧ s.x[p]? = some x ∧
        e = s.xall.set ip (s.xall.getD ip 0 + derivH A o ip x) := by
    intro l
    induction l with
    | nil =>
      intro acc r _ h e he
      injection h with h
      subst h
      exact Or.inl he
    | cons p l ih =>
      intro acc r hl h e he
      rw [List.foldlM_cons] at h
      obtain ⟨a, ha, h⟩ := Res.bind_eq_ok.1 h
      obtain ⟨b, hb, ha⟩ := Res.bind_eq_ok.1 ha
      injection ha with ha
      subst ha
      rcases ih _ r (fun p hp => hl p (by simp [hp])) h e he with h1 | h1
      · rcases List.mem_append.1 h1 with h1 | h1
        · right
          have hm := hl p (by simp)
          obtain ⟨k, hk, hk2⟩ := List.getElem_of_mem hm
          have hkl : k < (ifree o).length ∧ k < s.x.length := by
            rw [List.length_zip] at hk; omega
          rw [List.getElem_zip] at hk2
          unfold jacRow at hb
          dsimp only at hb
          rw [if_pos (ho p.1 (List.of_mem_zip hm).1)] at hb
          obtain ⟨_, _, hb⟩ := Res.bind_eq_ok.1 hb
          injection hb with hb
          subst hb
          rw [List.mem_singleton] at h1
          refine ⟨k, p.1, p.2, ?_, ?_, h1⟩
          · rw [List.getElem?_eq_getElem hkl.1, ← hk2]
          · rw [List.getElem?_eq_getElem hkl.2, ← hk2]
        · exact Or.inl h1
      · exact Or.inr h1
  exact key _ _ _ (fun p hp => hp) h

omit [IsStrictOrderedRing K] in
theorem top_points {A : Alg K} {o : Opts K} {dev : List K → List (Option K)} {s s' : St K} {stop : Option (Bool × Reason)}
    (ho : OneSided o) (h : top A o dev s = .ok (s', stop)) :
    ∀ e ∈ s'.evals, e ∈ s.evals ∨ ∃ (p ip : Nat) (x : K), (ifree o)[p]? = some ip ∧ s.x[p]? = some x ∧
      e = s.xall.set ip (s.xall.getD ip 0 + derivH A o ip x) := by
  unfold top at h
  dsimp only at h
  obtain ⟨⟨jac, evals⟩, hj, h⟩ := Res.bind_eq_ok.1 h
  have hje := jacobian_points ho hj
  dsimp only at h hje
  obtain ⟨u, hc, h⟩ := Res.bind_eq_ok.1 h
  cases hq : A.qr (ifree o).length jac s.fvec with
  | none =>
    rw [hq] at h
    injection h with h
    injection h with h1 h2
    subst h1
    exact hje
  | some q =>
    rw [hq] at h
    dsimp only at h
    obtain ⟨s1, hs1, h⟩ := Res.bind_eq_ok.1 h
    obtain ⟨⟨k1, k2, k3, k4, k5, k6, k7⟩, _⟩ := firstScale_ok hs1
    dsimp only at k7
    split at h
    · injection h with h
      injection h with h1 h2
      subst h1
      dsimp only; rw [k7]; exact hje
    · injection h with h
      injection h with h1 h2
      subst h1
      dsimp only; rw [k7]; exact hje

theorem loop_points {A : Alg K} (heps : 0 ≤ A.eps) (hn : ∀ l, 0 ≤ A.norm l) {o : Opts K} {dev : List K → List (Option K)} {n : Nat}
    {P Q : Nat → K → Prop} (ho : OneSided o) (hPQ : ∀ i v, P i v → Q i v) (hpeg : ∀ i y, P i (peg A o i y))
    (hder : ∀ i ∈ ifree o, ∀ x, P i x → Q i (x + derivH A o i x)) (hfree : ∀ i ∈ ifree o, i < n) :
    ∀ (fuel : Nat) (new : Bool) (s s' : St K) (c : Bool) (r : Reason), EvInv o P Q n s → (new = true → Sync o s) →
      loop A o dev fuel new s = .ok (s', c, r) → (new = true ∨ s.ratio < 1 / 10000) → EvInv o P Q n s' := by
  intro fuel
  induction fuel with
  | zero => intro new s s' c r _ _ h; cases h
  | succ fuel ih =>
    intro new s s' c r hs hsy h hnew
    rw [loop] at h
    obtain ⟨⟨s1, stop⟩, h1, h⟩ := Res.bind_eq_ok.1 h
    dsimp only at h
    have key : EvInv o P Q n s1 ∧ (stop = none → s1.ratio < 1 / 10000) := by
      cases new with
      | false =>
        rw [if_neg (by simp)] at h1
        injection h1 with h1
        injection h1 with h1 h2
        subst h1
        exact ⟨hs, fun _ => hnew.resolve_left (by simp)⟩
      | true =>
        rw [if_pos rfl] at h1
        obtain ⟨⟨e1, e2, _⟩, _, _, _, e9⟩ := top_ok h1
        refine ⟨⟨by rw [e1]; exact hs.len, by rw [e2]; exact hs.xlen, by rw [e2]; exact hs.par, by rw [e1]; exact hs.all, ?_⟩, ?_⟩
        · intro e he i v hv
          rcases top_points ho h1 e he with he | ⟨p, ip, x, hp, hx, he⟩
          · exact hs.ev e he i v hv
          · have hsync := hsy rfl p ip x hp hx
            rw [he] at hv
            by_cases hi : i = ip
            · subst hi
              have hl : i < s.xall.length := (List.getElem?_eq_some_iff.1 hsync).1
              rw [List.getElem?_set_self hl] at hv
              injection hv with hv
              rw [List.getD_eq_getElem?_getD, hsync] at hv
              rw [← hv]
              exact hder i (List.mem_of_getElem? hp) x (hs.par p i x hp hx)
            · rw [List.getElem?_set_ne (Ne.symm hi)] at hv
              exact hPQ i v (hs.all i v hv)
        · intro hst
          rcases e9 with e9 | e9 | e9
          · rw [hst] at e9; cases e9
          · rw [hst] at e9; cases e9
          · rw [e9.2.1]; norm_num
    cases stop with
    | some st =>
      obtain ⟨b, r'⟩ := st
      injection h with h
      injection h with h2 h
      subst h2
      exact key.1
    | none =>
      dsimp only at h
      obtain ⟨⟨s2, nx⟩, h2, h⟩ := Res.bind_eq_ok.1 h
      dsimp only at h
      obtain ⟨k1, kr⟩ := key
      obtain ⟨step, fnorm, _, _, t1, t2, _, _, _, _, _, _, t6⟩ := trial_ok h2 hn (kr rfl)
      obtain ⟨a, ha, m1, m2, m3⟩ := move_spec heps o s1.x step k1.xlen
      have mlen : (move A o s1.x step).2.2.length = (ifree o).length := by rw [m1, k1.xlen]
      have mP : ∀ (p ip : Nat) (v : K), (ifree o)[p]? = some ip → (move A o s1.x step).2.2[p]? = some v → P ip v := by
        intro p ip v hp hv
        have hpl : p < s1.x.length := by rw [k1.xlen]; exact (List.getElem?_eq_some_iff.1 hp).1
        have := m3 p ip _ hp (List.getElem?_eq_getElem hpl)
        rw [hv] at this
        injection this with this
        rw [this]
        exact hpeg ip _
      have aP : ∀ (i : Nat) (v : K), s2.xall[i]? = some v → P i v := by
        intro i v hv
        rw [t1] at hv
        by_cases hi : i ∈ ifree o
        · obtain ⟨p, hp, hx⟩ := scatter_value mlen hi hv
          exact mP p i v hp hx
        · rw [scatter_not _ _ _ hi] at hv
          exact k1.all i v hv
      have xl : s2.x.length = (ifree o).length ∧ ∀ (p ip : Nat) (v : K), (ifree o)[p]? = some ip → s2.x[p]? = some v → P ip v := by
        rcases t6 with ⟨k, _⟩ | ⟨k, _⟩
        · rw [k]; exact ⟨k1.xlen, k1.par⟩
        · rw [k]; exact ⟨mlen, mP⟩
      have h3 : EvInv o P Q n s2 := by
        refine ⟨by rw [t1, scatter_length]; exact k1.len, xl.1, xl.2, aP, ?_⟩
        intro e he i v hv
        rw [t2] at he
        rcases List.mem_cons.1 he with he | he
        · subst he; exact hPQ i v (aP i v hv)
        · exact k1.ev e he i v hv
      cases nx with
      | stop b r' =>
        injection h with h
        injection h with h2 h
        subst h2
        exact h3
      | outer =>
        refine ih _ _ _ _ _ h3 (fun _ => ?_) h (Or.inl rfl)
        rcases t6 with ⟨_, _, _, _, _, k, _⟩ | ⟨k, _⟩
        · exact absurd rfl k
        · intro p ip v hp hv
          rw [k] at hv
          have hip : ip < s1.xall.length := by
            rw [k1.len]; exact hfree ip (List.mem_of_getElem? hp)
          rw [t1]
          exact scatter_get _ _ (ifree_nodup o) hp hv hip
      | inner =>
        refine ih _ _ _ _ _ h3 (fun hh => by cases hh) h (Or.inr ?_)
        rcases t6 with ⟨_, _, _, _, _, _, k7, _⟩ | ⟨_, _, _, _, k5, _⟩
        · exact k7
        · exact absurd rfl k5

/-- a derivative on one side is evaluated below the upper limit -/
theorem derivH_upper {A : Alg K} (hs : 0 ≤ A.sqrtEps) {o : Opts K} {i : Nat} (hd : 0 ≤ o.derivStep.getD i 0) {x u : K}
    (hu : o.upper.getD i none = some u) (hx : x ≤ u) : x + derivH A o i x ≤ u := by
  unfold derivH
  dsimp only
  set h0 := (if o.derivRstep.getD i 0 ≠ 0 then |o.derivRstep.getD i 0 * x| else if o.derivStep.getD i 0 ≠ 0 then o.derivStep.getD i 0
    else A.sqrtEps * |x|) with hh0
  have p0 : 0 ≤ h0 := by
    rw [hh0]; split
    · exact abs_nonneg _
    · split
      · exact hd
      · exact mul_nonneg hs (abs_nonneg _)
  set h := (if h0 = 0 then A.sqrtEps else h0)
  have p1 : 0 ≤ h := by
    simp only [h]; split
    · exact hs
    · exact p0
  rw [hu]
  simp only [Option.any_some, decide_eq_true_eq]
  split
  · linarith
  · rename_i hc
    rw [not_or, not_lt] at hc
    linarith [hc.2]

/-- a derivative to the right, without an upper limit, is evaluated above the lower limit -/
theorem derivH_lower {A : Alg K} (hs : 0 ≤ A.sqrtEps) {o : Opts K} {i : Nat} (hd : 0 ≤ o.derivStep.getD i 0) {x : K}
    (hu : o.upper.getD i none = none) (h1 : o.deriv.getD i 0 ≠ -1) : x ≤ x + derivH A o i x := by
  unfold derivH
  dsimp only
  set h0 := (if o.derivRstep.getD i 0 ≠ 0 then |o.derivRstep.getD i 0 * x| else if o.derivStep.getD i 0 ≠ 0 then o.derivStep.getD i 0
    else A.sqrtEps * |x|) with hh0
  have p0 : 0 ≤ h0 := by
    rw [hh0]; split
    · exact abs_nonneg _
    · split
      · exact hd
      · exact mul_nonneg hs (abs_nonneg _)
  have p1 : 0 ≤ (if h0 = 0 then A.sqrtEps else h0) := by
    split
    · exact hs
    · exact p0
  rw [hu, if_neg (by simp only [Option.any_none]; simpa using h1)]
  linarith

/-- **C144 (evaluations).** With derivatives on one side and steps that are not negative, the function is never evaluated above an upper limit,
nor below the lower limit of a parameter that has no upper limit and whose derivative is not asked to the left, when the start is within the limits.
The evaluations of `C144_evals_refuted` are those of two-sided derivatives. -/
theorem C144_evals_partial {A : Alg K} (heps : 0 ≤ A.eps) (hsq : 0 ≤ A.sqrtEps) (hn : ∀ l, 0 ≤ A.norm l) {fuel : Nat} {dev : List K → List (Option K)}
    {x0 : List K} {o : Opts K} {r : Result K} (hnp : o.nparam ≠ 0) (h : mpfit A fuel dev x0 o = .ok r)
    (hlu : ∀ i l u, o.lower.getD i none = some l → o.upper.getD i none = some u → l ≤ u) (h0 : ∀ i v, x0[i]? = some v → Within o i v)
    (ho : OneSided o) (hst : ∀ i, 0 ≤ o.derivStep.getD i 0) :
    ∀ e ∈ r.evals, ∀ (i : Nat) (v : K), e[i]? = some v →
      (∀ u, o.upper.getD i none = some u → v ≤ u) ∧
      (∀ l, o.lower.getD i none = some l → o.upper.getD i none = none → o.deriv.getD i 0 ≠ -1 → l ≤ v) := by
  have hlim := C144_limits heps hn hnp h hlu h0
  have hq := fun (i : Nat) (v : K) (hw : Within o i v) => (show (∀ u, o.upper.getD i none = some u → v ≤ u) ∧
      (∀ l, o.lower.getD i none = some l → o.upper.getD i none = none → o.deriv.getD i 0 ≠ -1 → l ≤ v) from ⟨hw.2, fun l hl _ _ => hw.1 l hl⟩)
  unfold mpfit at h
  obtain ⟨o', ho', h⟩ := Res.bind_eq_ok.1 h
  obtain ⟨hoo, hl⟩ := useOpts_ok ho' hnp
  rw [hoo] at h
  obtain ⟨s0, hs0, h⟩ := Res.bind_eq_ok.1 h
  dsimp only at h
  obtain ⟨⟨s, c, rs⟩, hloop, h⟩ := Res.bind_eq_ok.1 h
  dsimp only at h
  obtain ⟨f, hf, h⟩ := Res.bind_eq_ok.1 h
  obtain ⟨i1, i2, i3, i4, i5, i6, i7⟩ := start_inv hs0 hl (P := fun i v => Within o i v) (fun i v _ hv => h0 i v hv)
  have hfree : ∀ i ∈ ifree o, i < x0.length := fun i hi => hl ▸ (mem_ifree.1 hi).1
  have hev0 : ∀ e ∈ s0.evals, e = x0 := by
    unfold start at hs0
    obtain ⟨f, hf, hh⟩ := Res.bind_eq_ok.1 hs0
    injection hh with hh
    subst hh
    simp
  have hs : EvInv o (fun i v => Within o i v) (fun i v => (∀ u, o.upper.getD i none = some u → v ≤ u) ∧
      (∀ l, o.lower.getD i none = some l → o.upper.getD i none = none → o.deriv.getD i 0 ≠ -1 → l ≤ v)) x0.length s := by
    refine loop_points heps hn ho hq (fun i y => peg_within heps (hlu i) y) ?_ hfree fuel true s0 s c rs
      ⟨i1.len, i1.xlen, i1.par, by rw [i6]; exact h0, ?_⟩ ?_ hloop (Or.inl rfl)
    · intro i hi x hx
      refine ⟨fun u hu => derivH_upper hsq (hst i) hu (hx.2 u hu), fun l hl1 hu hd => ?_⟩
      exact (hx.1 l hl1).trans (derivH_lower hsq (hst i) hu hd)
    · intro e he i v hv
      rw [hev0 e he] at hv
      exact hq i v (h0 i v hv)
    · intro _ p ip v hp hv
      rw [i7, List.getElem?_map, hp] at hv
      injection hv with hv
      have hi := hfree ip (List.mem_of_getElem? hp)
      rw [i6, ← hv, List.getElem?_eq_getElem hi]
      simp [hi]
  injection h with h
  intro e he i v hv
  rw [← h] at he
  dsimp only at he
  rcases List.mem_cons.1 he with he | he
  · refine hq i v (hlim i v ?_)
    rw [← h, ← he]; exact hv
  · exact hs.ev e he i v hv

/-- a fit that starts at its upper limit: the derivative is taken to the left -/
example : (match mpfit (realAlg numQ) 10 (fun x => [some (x.getD 0 0 - 3)]) [5]
      { (Opts.default 1 : Opts ℚ) with upper := [some 5], derivStep := [1 / 2] } with
      | .ok r => decide (r.params = [3] ∧ [9 / 2] ∈ r.evals)
      | _ => false) = true := by decide +kernel

end Verif.Mpfit
