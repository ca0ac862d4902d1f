import Verif.Math.MpfitProps
import Verif.Math.MpfitQR
import Mathlib.Analysis.Real.Sqrt
/-!
# C144: `mpfit` ends

Each rejected trial divides the bound on the steps by at least two, so that the test on `xtol` stops the loop; the number of accepted
trials is bounded by `max_iter`.
-/
namespace Verif.Mpfit
open Verif

variable {K : Type} [Field K] [LinearOrder K] [IsStrictOrderedRing K]

omit [IsStrictOrderedRing K] in
theorem enorm_ne_diverge (A : Alg K) (v : List (Option K)) : enorm A v ≠ .diverge := by
  unfold enorm
  split
  · simp
  · split
    · simp
    · split
      · simp
      · split <;> simp

omit [IsStrictOrderedRing K] in
theorem normK_ne_diverge (A : Alg K) (v : List K) : normK A v ≠ .diverge := by
  unfold normK
  cases v with
  | nil => simp [enorm]
  | cons a v =>
    unfold enorm
    rw [if_neg (by simp), if_neg (by simp)]
    split
    · intro h; cases h
    · rw [if_neg (by simp)]
      intro h; cases h

theorem bind_ne_diverge {α β : Type} {x : Res α} {f : α → Res β} (hx : x ≠ .diverge) (hf : ∀ a, x = .ok a → f a ≠ .diverge) : (x >>= f) ≠ .diverge := by
  cases x with
  | ok a => exact hf a rfl
  | abort => intro h; cases h
  | ub => intro h; cases h
  | diverge => exact absurd rfl hx

theorem check_ne_diverge (p : Prop) [Decidable p] : Res.check p ≠ .diverge := by
  by_cases h : p
  · rw [Res.check_pos h]; intro h; cases h
  · rw [Res.check_neg h]; intro h; cases h

omit [IsStrictOrderedRing K] in
theorem top_ne_diverge (A : Alg K) (o : Opts K) (dev : List K → List (Option K)) (s : St K) : top A o dev s ≠ .diverge := by
  unfold top
  refine bind_ne_diverge ?_ ?_
  · unfold jacobian
    generalize (([], s.evals) : List (List (Option K)) × List (List K)) = acc
    induction (ifree o).zip s.x generalizing acc with
    | nil => intro h; cases h
    | cons p l ih =>
      rw [List.foldlM_cons]
      refine bind_ne_diverge (bind_ne_diverge ?_ fun _ _ h => by cases h) fun a _ => ih a
      unfold jacRow
      dsimp only
      split
      · exact bind_ne_diverge (check_ne_diverge _) fun _ _ h => by cases h
      · exact bind_ne_diverge (check_ne_diverge _) fun _ _ => bind_ne_diverge (check_ne_diverge _) fun _ _ h => by cases h
  · intro a _
    dsimp only
    refine bind_ne_diverge (check_ne_diverge _) fun _ _ => ?_
    split
    · intro h; cases h
    · refine bind_ne_diverge ?_ ?_
      · unfold firstScale
        split
        · exact bind_ne_diverge (normK_ne_diverge _ _) fun _ _ h => by cases h
        · intro h; cases h
      · intro b _
        split <;> (intro h; cases h)

omit [IsStrictOrderedRing K] in
theorem judge_ne_diverge (A : Alg K) (o : Opts K) (s : St K) (y : List K) (wa4 : List (Option K)) (fnorm actred prered dirder pnorm : K) :
    judge A o s y wa4 fnorm actred prered dirder pnorm ≠ .diverge := by
  unfold judge
  dsimp only
  by_cases h : 1 / 10000 ≤ (if prered ≠ 0 then actred / prered else s.ratio)
  · rw [if_pos h]
    exact bind_ne_diverge (normK_ne_diverge _ _) fun _ _ h => by cases h
  · rw [if_neg h]
    intro h; cases h

omit [IsStrictOrderedRing K] in
theorem trial_ne_diverge (A : Alg K) (o : Opts K) (dev : List K → List (Option K)) (s : St K) {f : K} (hf : s.fnorm = some f) (h0 : f ≠ 0) :
    trial A o dev s ≠ .diverge := by
  unfold trial
  rw [hf]
  dsimp only
  rw [if_neg h0]
  unfold trialAt
  dsimp only
  refine bind_ne_diverge (normK_ne_diverge _ _) fun pn _ => bind_ne_diverge (enorm_ne_diverge _ _) fun f1 _ =>
    bind_ne_diverge (normK_ne_diverge _ _) fun wn _ => ?_
  exact judge_ne_diverge A o _ _ _ _ _ _ _ _

/-- the numerical part knows norms -/
structure Sound (A : Alg K) : Prop where
  eps : 0 ≤ A.eps
  nonneg : ∀ l, 0 ≤ A.norm l
  pos : ∀ l, (∃ a ∈ l, a ≠ 0) → 0 < A.norm l
  acnorm : ∀ n jac f q, A.qr n jac f = some q → ∀ p, 0 ≤ q.acnorm p

theorem normK_pos {A : Alg K} (hA : Sound A) {v : List K} {a : K} (h : normK A v = .ok a) (hv : ∃ b ∈ v, b ≠ 0) : 0 < a := by
  unfold normK at h
  obtain ⟨e, he, h⟩ := Res.bind_eq_ok.1 h
  obtain ⟨b, hb, hb0⟩ := hv
  unfold enorm at he
  rw [if_neg (by intro h; rw [List.map_eq_nil_iff] at h; subst h; simp at hb),
    if_neg (by intro h; exact absurd (h (some b) (List.mem_map_of_mem hb)) (by simp)),
    if_neg (by intro h; have := h (some b) (List.mem_map_of_mem hb); simp [hb0] at this), if_neg (by simp)] at he
  injection he with he
  subst he
  injection h with h
  subst h
  apply hA.pos
  exact ⟨b, by simp [hb], hb0⟩

omit [LinearOrder K] [IsStrictOrderedRing K] in
theorem scaled_ne {d : Nat → K} {x : List K} {p : Nat} {v : K} (hx : x[p]? = some v) (hv : v ≠ 0) (hd : d p ≠ 0) : ∃ b ∈ scaled d x, b ≠ 0 := by
  refine ⟨d p * v, ?_, mul_ne_zero hd hv⟩
  unfold scaled
  rw [List.mem_map]
  refine ⟨(v, p), ?_, rfl⟩
  rw [List.mem_zipIdx_iff_getElem?]
  exact hx

/-- what holds at each trial, for the end of the loop -/
structure TInv (s : St K) : Prop where
  delta : 0 ≤ s.delta
  xnorm : 0 < s.xnorm
  fin : ∃ f, s.fnorm = some f ∧ f ≠ 0
  diag : ∀ p, 0 < s.diag p

/-- what is needed at the beginning of an iteration -/
structure OInv (s : St K) : Prop where
  fin : ∃ f, s.fnorm = some f
  later : s.iter ≠ 1 → 0 ≤ s.delta ∧ 0 < s.xnorm ∧ ∀ p, 0 < s.diag p

/-- a trial is followed by the end, or by an iteration, or by a trial with a smaller bound -/
theorem one_ends {A : Alg K} (hA : Sound A) {o : Opts K} {dev : List K → List (Option K)} {x0 : List K} {f0 : Option K}
    {P : Nat → K → Prop} (hP : Kept A o P) {i0 p0 : Nat} (hp0 : (ifree o)[p0]? = some i0) (hne : ∀ v, P i0 v → v ≠ 0) {s : St K}
    (hs : Inv A o dev x0 f0 P s) (ht : TInv s) (hr : s.ratio < 1 / 10000)
    (hout : ∀ s', Inv A o dev x0 f0 P s' → OInv s' → s'.iter = s.iter + 1 → s'.iter < o.maxIter → ∃ N, ∀ fuel ≥ N, loop A o dev fuel true s' ≠ .diverge)
    (hin : ∀ s', Inv A o dev x0 f0 P s' → TInv s' → s'.ratio < 1 / 10000 → s'.iter = s.iter → s'.xnorm = s.xnorm → s'.delta ≤ s.delta / 2 →
      o.xtol * s.xnorm < s'.delta → ∃ N, ∀ fuel ≥ N, loop A o dev fuel false s' ≠ .diverge) :
    ∃ N, ∀ fuel ≥ N, loop A o dev fuel false s ≠ .diverge := by
  obtain ⟨f, hf, hf0⟩ := ht.fin
  have htr := trial_ne_diverge A o dev s hf hf0
  have hstep : ∀ fuel, loop A o dev (fuel + 1) false s = (trial A o dev s >>= fun t =>
      match t.2 with
      | .stop b r => .ok (t.1, b, r)
      | .outer => loop A o dev fuel true t.1
      | .inner => loop A o dev fuel false t.1) := fun fuel => rfl
  have hone : ∀ M : Nat, (∀ fuel ≥ M, loop A o dev (fuel + 1) false s ≠ .diverge) → ∃ N, ∀ fuel ≥ N, loop A o dev fuel false s ≠ .diverge := by
    intro M hM
    refine ⟨M + 1, fun fuel hfuel => ?_⟩
    obtain ⟨fuel, rfl⟩ := Nat.exists_eq_succ_of_ne_zero (show fuel ≠ 0 by omega)
    exact hM fuel (by omega)
  cases htv : trial A o dev s with
  | diverge => exact absurd htv htr
  | abort => exact hone 0 fun fuel _ => by rw [hstep, htv]; intro h; cases h
  | ub => exact hone 0 fun fuel _ => by rw [hstep, htv]; intro h; cases h
  | ok t =>
    obtain ⟨s', nx⟩ := t
    have hs' := hs.trial hA.eps hA.nonneg hP hr htv
    obtain ⟨step, fnorm, g1, g2, _, _, g3, _, g4, g5, _, g6, g7⟩ := trial_ok htv hA.nonneg hr
    rw [hf] at g1
    injection g1 with g1
    subst g1
    cases nx with
    | stop b r => exact hone 0 fun fuel _ => by rw [hstep, htv]; intro h; cases h
    | outer =>
      rcases g7 with ⟨_, _, _, _, _, k, _⟩ | ⟨k1, k2, k3, k4, _, k6, k7⟩
      · exact absurd rfl k
      · have hdiag : ∀ p, 0 < s'.diag p := by rw [g4]; exact ht.diag
        have hpl : p0 < s'.x.length := by rw [hs'.xlen]; exact (List.getElem?_eq_some_iff.1 hp0).1
        have hxn : 0 < s'.xnorm := by
          refine normK_pos hA k6 (scaled_ne (p := p0) (v := s'.x[p0]) (List.getElem?_eq_getElem hpl) ?_ (ht.diag p0).ne')
          exact hne _ (hs'.par p0 i0 _ hp0 (List.getElem?_eq_getElem hpl))
        have hn0 : 0 < f := lt_of_le_of_ne (enorm_nonneg hA.nonneg (hf ▸ hs.fn)) (Ne.symm hf0)
        obtain ⟨b, hb, _⟩ := actualRed_pos hn0 k7 (fun a' ha' => enorm_nonneg hA.nonneg (ha' ▸ g3))
        obtain ⟨N, hN⟩ := hout s' hs' ⟨⟨b, by rw [k3, hb]⟩, fun _ => ⟨g6 ht.delta, hxn, hdiag⟩⟩ k4 (g5 (Or.inl rfl)).1
        exact hone N fun fuel hfuel => by rw [hstep, htv]; exact hN fuel hfuel
    | inner =>
      rcases g7 with ⟨k1, k2, k3, k4, k5, _, k7, k8⟩ | ⟨_, _, _, _, k, _⟩
      · obtain ⟨N, hN⟩ := hin s' hs' ⟨g6 ht.delta, by rw [k5]; exact ht.xnorm, ⟨f, by rw [k3, hf], hf0⟩, by rw [g4]; exact ht.diag⟩ k7 k4 k5
          (k8 ht.delta) (by have := (g5 (Or.inr rfl)).2; rwa [k5] at this)
        exact hone N fun fuel hfuel => by rw [hstep, htv]; exact hN fuel hfuel
      · exact absurd rfl k

/-- a loop of trials ends, if the iterations that follow do -/
theorem inner_ends {A : Alg K} (hA : Sound A) {o : Opts K} {dev : List K → List (Option K)} {x0 : List K} {f0 : Option K}
    {P : Nat → K → Prop} (hP : Kept A o P) {i0 p0 : Nat} (hp0 : (ifree o)[p0]? = some i0) (hne : ∀ v, P i0 v → v ≠ 0) (hx : 0 < o.xtol) (it : Nat)
    (hout : ∀ s, Inv A o dev x0 f0 P s → OInv s → s.iter = it + 1 → s.iter < o.maxIter → ∃ N, ∀ fuel ≥ N, loop A o dev fuel true s ≠ .diverge)
    (c : K) :
    ∀ (j : Nat) (s : St K), Inv A o dev x0 f0 P s → TInv s → s.ratio < 1 / 10000 → s.iter = it → s.xnorm = c → s.delta < o.xtol * c * 2 ^ j →
      ∃ N, ∀ fuel ≥ N, loop A o dev fuel false s ≠ .diverge := by
  intro j
  induction j with
  | zero =>
    intro s hs ht hr hit hxc hd
    refine one_ends hA hP hp0 hne hs ht hr (by rw [hit]; exact hout) ?_
    intro s' _ ht' _ _ _ h1 h2
    exfalso
    have := ht'.delta
    rw [hxc] at h2
    rw [pow_zero, mul_one] at hd
    linarith
  | succ j ih =>
    intro s hs ht hr hit hxc hd
    refine one_ends hA hP hp0 hne hs ht hr (by rw [hit]; exact hout) ?_
    intro s' hs' ht' hr' hi' hx' h1 h2
    refine ih s' hs' ht' hr' (hi'.trans hit) (hx'.trans hxc) ?_
    rw [pow_succ] at hd
    linarith

/-- the loops end -/
theorem loop_ends [Archimedean K] {A : Alg K} (hA : Sound A) {o : Opts K} {dev : List K → List (Option K)} {x0 : List K} {f0 : Option K}
    {P : Nat → K → Prop} (hP : Kept A o P) {i0 p0 : Nat} (hp0 : (ifree o)[p0]? = some i0) (hne : ∀ v, P i0 v → v ≠ 0) (hx : 0 < o.xtol) (hg : 0 < o.gtol) :
    ∀ (k : Nat) (s : St K), o.maxIter ≤ s.iter + k → Inv A o dev x0 f0 P s → OInv s →
      ∃ N, ∀ fuel ≥ N, loop A o dev fuel true s ≠ .diverge := by
  have key : ∀ s : St K, Inv A o dev x0 f0 P s → OInv s →
      (∀ s', Inv A o dev x0 f0 P s' → OInv s' → s'.iter = s.iter + 1 → s'.iter < o.maxIter → ∃ N, ∀ fuel ≥ N, loop A o dev fuel true s' ≠ .diverge) →
      ∃ N, ∀ fuel ≥ N, loop A o dev fuel true s ≠ .diverge := by
    intro s hs ho hout
    have hstep : ∀ fuel, loop A o dev (fuel + 1) true s = (top A o dev s >>= fun t =>
        match t.2 with
        | some (b, r) => .ok (t.1, b, r)
        | none => loop A o dev (fuel + 1) false t.1) := by
      intro fuel
      rw [loop, if_pos rfl]
      refine congrArg _ (funext fun t => ?_)
      cases t.2 with
      | some st => rfl
      | none => rw [loop, if_neg (by simp)]; rfl
    cases htv : top A o dev s with
    | diverge => exact absurd htv (top_ne_diverge A o dev s)
    | abort => exact ⟨1, fun fuel hfuel => by
        obtain ⟨fuel, rfl⟩ := Nat.exists_eq_succ_of_ne_zero (show fuel ≠ 0 by omega); rw [Nat.succ_eq_add_one, hstep, htv]; intro h; cases h⟩
    | ub => exact ⟨1, fun fuel hfuel => by
        obtain ⟨fuel, rfl⟩ := Nat.exists_eq_succ_of_ne_zero (show fuel ≠ 0 by omega); rw [Nat.succ_eq_add_one, hstep, htv]; intro h; cases h⟩
    | ok t =>
      obtain ⟨s1, stop⟩ := t
      have hs1 := hs.top htv
      obtain ⟨⟨e1, e2, e3, e4, e5, e6⟩, _, _, _, e9⟩ := top_ok htv
      cases stop with
      | some st => exact ⟨1, fun fuel hfuel => by
          obtain ⟨fuel, rfl⟩ := Nat.exists_eq_succ_of_ne_zero (show fuel ≠ 0 by omega); rw [Nat.succ_eq_add_one, hstep, htv]; intro h; cases h⟩
      | none =>
        rcases e9 with e9 | e9 | ⟨_, hr, hgn, q, jac, hq, s2, hs2, x1, x2, x3⟩
        · cases e9
        · cases e9
        obtain ⟨f, hf⟩ := ho.fin
        have hf0 : f ≠ 0 := by
          intro h0
          rw [hf, h0] at hgn
          unfold gradNorm at hgn
          rw [if_pos rfl] at hgn
          linarith
        have hac := hA.acnorm _ _ _ _ hq
        have hpl : p0 < s.x.length := by rw [hs.xlen]; exact (List.getElem?_eq_some_iff.1 hp0).1
        obtain ⟨_, hfs⟩ := firstScale_ok hs2
        have ht : 0 ≤ s1.delta ∧ 0 < s1.xnorm ∧ ∀ p, 0 < s1.diag p := by
          rcases hfs with ⟨k1, k2⟩ | ⟨k1, k2, k3, k4⟩
          · obtain ⟨l1, l2, l3⟩ := ho.later k1
            rw [x1, x2, x3, k2]
            exact ⟨l1, l2, fun p => lt_of_lt_of_le (l3 p) (le_max_left _ _)⟩
          · have hd : ∀ p, 0 < s2.diag p := by
              intro p
              rw [k2]
              dsimp only
              split
              · exact zero_lt_one
              · rename_i hh
                exact lt_of_le_of_ne (hac p) (Ne.symm hh)
            have hxn : 0 < s2.xnorm :=
              normK_pos hA k3 (scaled_ne (p := p0) (v := s.x[p0]) (List.getElem?_eq_getElem hpl) (hne _ (hs.par p0 i0 _ hp0 (List.getElem?_eq_getElem hpl)))
                (hd p0).ne')
            rw [x1, x2, x3]
            refine ⟨?_, hxn, fun p => lt_of_lt_of_le (hd p) (le_max_left _ _)⟩
            rw [k4]
            split
            · norm_num
            · positivity
        obtain ⟨t1, t2, t3⟩ := ht
        have hxc : 0 < o.xtol * s1.xnorm := mul_pos hx t2
        obtain ⟨j, hj⟩ := pow_unbounded_of_one_lt (s1.delta / (o.xtol * s1.xnorm)) (one_lt_two : (1 : K) < 2)
        rw [div_lt_iff₀ hxc, mul_comm] at hj
        obtain ⟨N, hN⟩ := inner_ends hA hP hp0 hne hx s1.iter (by rw [e6]; exact hout) s1.xnorm j s1 hs1 ⟨t1, t2, ⟨f, by rw [e4, hf], hf0⟩, t3⟩
          (by rw [hr]; norm_num) rfl rfl hj
        refine ⟨N + 1, fun fuel hfuel => ?_⟩
        obtain ⟨fuel, rfl⟩ := Nat.exists_eq_succ_of_ne_zero (show fuel ≠ 0 by omega)
        rw [Nat.succ_eq_add_one, hstep, htv]
        exact hN (fuel + 1) (by omega)
  intro k
  induction k with
  | zero =>
    intro s hk hs ho
    exact key s hs ho fun s' _ _ h1 h2 => by omega
  | succ k ih =>
    intro s hk hs ho
    exact key s hs ho fun s' hs' ho' h1 h2 => ih s' (by omega) hs' ho'

/-- **C144** `mpfit` ends: for positive tolerances, deviates that are not NaN at the start, and a fitted parameter that is not zero because it has a
positive lower limit or a negative upper limit, the number of trials is bounded -/
theorem C144_ends_partial [Archimedean K] {A : Alg K} (hA : Sound A) (dev : List K → List (Option K)) (x0 : List K) {o : Opts K} (ho : o.nparam ≠ 0)
    (hx : 0 < o.xtol) (hg : 0 < o.gtol) (hf : enorm A (dev x0) ≠ .ok none)
    (hlu : ∀ i l u, o.lower.getD i none = some l → o.upper.getD i none = some u → l ≤ u) (h0 : ∀ i v, x0[i]? = some v → Within o i v) {i0 : Nat}
    (hi : i0 < o.nparam) (hheld : ¬ Held o i0) (hz : ¬ Within o i0 0) :
    ∃ N, ∀ fuel ≥ N, mpfit A fuel dev x0 o ≠ .diverge := by
  unfold mpfit
  have hi0 := free_of_not_held hi hheld
  obtain ⟨p0, hp0, hp0'⟩ := List.getElem_of_mem hi0
  have hp0' : (ifree o)[p0]? = some i0 := by rw [List.getElem?_eq_getElem hp0, hp0']
  cases hu : useOpts o x0.length with
  | diverge =>
    unfold useOpts at hu
    rw [if_neg ho] at hu
    exact absurd hu (bind_ne_diverge (check_ne_diverge _) fun _ _ h => by cases h)
  | abort => exact ⟨0, fun _ _ h => by cases h⟩
  | ub => exact ⟨0, fun _ _ h => by cases h⟩
  | ok o' =>
    obtain ⟨rfl, hl⟩ := useOpts_ok hu ho
    simp only [Res.ok_bind]
    cases hs : start A o' dev x0 with
    | diverge =>
      unfold start at hs
      exact absurd hs (bind_ne_diverge (enorm_ne_diverge _ _) fun _ _ h => by cases h)
    | abort => exact ⟨0, fun _ _ h => by cases h⟩
    | ub => exact ⟨0, fun _ _ h => by cases h⟩
    | ok s =>
      obtain ⟨i1, i2, i3, i4, _⟩ := start_inv hs hl (P := fun i v => Within o' i v) (fun i v _ hv => h0 i v hv)
      have hfin : ∃ f, s.fnorm = some f := by
        cases hh : s.fnorm with
        | none => rw [hh] at i4; exact absurd i4 hf
        | some f => exact ⟨f, rfl⟩
      obtain ⟨N, hN⟩ := loop_ends hA (fun ip _ x w a _ _ => peg_within hA.eps (hlu ip) _) hp0'
        (fun v hv he => hz (he ▸ hv)) hx hg o'.maxIter s (by omega) i1 ⟨hfin, fun h => absurd i2 h⟩
      refine ⟨N, fun fuel hfuel => ?_⟩
      simp only [Res.ok_bind]
      refine bind_ne_diverge (hN fuel hfuel) fun _ _ => bind_ne_diverge (enorm_ne_diverge _ _) fun _ _ h => by cases h

/-- the linear algebra of the code meets the hypotheses -/
theorem sound_real {N : Num K} (hN : IsRoot N.sq) (he : 0 ≤ N.eps) : Sound (realAlg N) := by
  refine ⟨he, fun l => (vnorm_spec hN l).1, ?_, ?_⟩
  · rintro l ⟨a, ha, hne⟩
    obtain ⟨h1, h2⟩ := vnorm_spec hN l
    refine lt_of_le_of_ne h1 fun h => ?_
    change 0 = vnorm N l at h
    rw [← h] at h2
    have h3 := List.single_le_sum (l := l.map fun x => x ^ 2) (by
      intro x hx
      obtain ⟨y, _, rfl⟩ := List.mem_map.1 hx
      positivity) (a ^ 2) (List.mem_map.2 ⟨a, ha, rfl⟩)
    rw [← h2] at h3
    have : 0 < a ^ 2 := by positivity
    nlinarith
  · intro n jac f q h p
    change (if (∀ row ∈ jac, none ∉ row) ∧ none ∉ f then
      some (factor N n f.length (fun p c => ((jac.getD p []).getD c none).getD 0) (fun c => (f.getD c none).getD 0)) else none) = some q at h
    split at h
    · cases h
      exact (vnorm_spec hN _).1
    · cases h

/-- the square root of the reals is one -/
theorem isRoot_real : IsRoot Real.sqrt := fun s hs => ⟨Real.sqrt_nonneg s, Real.mul_self_sqrt hs⟩

/-- the hypotheses of `C144_ends_partial` hold for real numbers and a parameter that is not less than 1 -/
example : ∃ (A : Alg ℝ) (o : Opts ℝ), Sound A ∧ o.nparam ≠ 0 ∧ 0 < o.xtol ∧ 0 < o.gtol ∧ ¬ Held o 0 ∧ ¬ Within o 0 0 ∧ Within o 0 5 ∧
    enorm A ((fun x => [some (x.getD 0 0 - 3)]) [5]) ≠ .ok none := by
  refine ⟨realAlg ⟨Real.sqrt, 1 / 2 ^ 52, 1 / 2 ^ 26, 1 / 2 ^ 1022, 2 ^ 1023⟩, { (Opts.default 1 : Opts ℝ) with lower := [some 1] }, sound_real isRoot_real (by norm_num), by decide,
    by simp [Opts.default], by simp [Opts.default], ?_, ?_, ?_, ?_⟩
  · rintro (h | ⟨v, _, h⟩)
    · exact absurd h (by decide)
    · cases h
  · intro h
    have := h.1 1 rfl
    norm_num at this
  · refine ⟨fun l hl => ?_, fun u hu => by cases hu⟩
    cases hl
    norm_num
  · have : ∀ a : ℝ, a ≠ 0 → enorm (realAlg ⟨Real.sqrt, 1 / 2 ^ 52, 1 / 2 ^ 26, 1 / 2 ^ 1022, 2 ^ 1023⟩) [some a] ≠ .ok none := by
      intro a ha
      simp [enorm, ha]
    exact this _ (by norm_num)

end Verif.Mpfit
