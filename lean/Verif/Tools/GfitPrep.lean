import Verif.Tools.PhotInfo
/-!
# The adjustments before the fits of `pixfit-gfit` (C239)

A number that is not finite is `none`. The limits on the signal to noise ratio are `none` when they are infinite. A group of measurements is given by its
index, `none` is `npos`. An infinite flux is taken as one that is not a number: its error is kept, where the code makes it infinite.
-/
namespace Verif.GfitPrep
open Verif Verif.PhotInfo

variable {K : Type} [Field K] [LinearOrder K]

/-! ### Model -/

/-- a source of the catalogue (`pixfit-gfit.cpp:275-284`), one value for each band -/
structure Gal (K : Type) where
  z : Option K
  flux : List (Option K)
  err : List (Option K)
  grp : List (Option Nat)
  cov : List (Option K)
deriving DecidableEq

/-- `lam/(1.0 + z)` -/
def rest (lam : K) (z : Option K) : Option K := z.map fun z => lam / (1 + z)

/-- `x < a`, false for a number that is not finite -/
def ltO (x : Option K) (a : K) : Bool := match x with
  | some x => decide (x < a)
  | none => false

/-- `x >= a` -/
def geO (x : Option K) (a : K) : Bool := match x with
  | some x => decide (a ≤ x)
  | none => false

/-- the groups without the bands that are not used (`pixfit-gfit.cpp:288-292`) -/
def keepGroups (minLam : K) (lam : List K) (g : Gal K) : List (Option Nat) :=
  List.zipWith (fun p c => if p.1.isSome && (ltO (rest p.2 g.z) minLam || c == some 0) then none else p.1) (g.grp.zip lam) g.cov

/-- `flux/flux_err > snr_max && flux_err > 0`, then `flux_err = flux/snr_max` (`pixfit-gfit.cpp:296-297`) -/
def capErr (s : K) : Option K → Option K → Option K
  | some f, some e => if s < f / e ∧ 0 < e then some (f / s) else some e
  | _, e => e

/-- `group_flux/group_err > snr_max_group`; the quotient by zero is infinite -/
def overGroup (s : K) : Option K → Option K → Bool
  | some f, some e => if e = 0 then decide (0 < f) else decide (s < f / e)
  | _, _ => false

/-- the errors of the groups of a source (`pixfit-gfit.cpp:299-301`); the indices are checked -/
def capGroups (s : K) (gf ge : List (Option K)) (ids : List Nat) : Res (List (Option K)) := do
  Res.check (∀ k ∈ ids, k < gf.length ∧ k < ge.length)
  .ok ((ids.filter fun k => overGroup s (gf.getD k none) (ge.getD k none)).foldl (fun l k => l.set k ((gf.getD k none).map (· / s))) ge)

/-- the errors of a source (`pixfit-gfit.cpp:295-297`) -/
def newErr (smax : Option K) (flux err : List (Option K)) : List (Option K) := match smax with
  | none => err
  | some s => List.zipWith (capErr s) flux err

/-- the errors of the groups, only if the limit of the sources is finite (`pixfit-gfit.cpp:295-302`) -/
def newGroups (smax sgroup : Option K) (gf ge : List (Option K)) (ids : List Nat) : Res (List (Option K)) := match smax, sgroup with
  | some _, some sg => capGroups sg gf ge ids
  | _, _ => .ok ge

/-- the loop on the sources (`pixfit-gfit.cpp:286-307`) -/
def prep (minLam : K) (lam : List K) (smax sgroup : Option K) (gf : List (Option K)) : List (Option K) → List (Gal K) → Res (List (Gal K) × List (Option K))
  | ge, [] => .ok ([], ge)
  | ge, g :: gs => do
    let ge ← newGroups smax sgroup gf ge ((keepGroups minLam lam g).filterMap id)
    let r ← prep minLam lam smax sgroup gf ge gs
    .ok ({ g with err := newErr smax g.flux g.err, grp := keepGroups minLam lam g, cov := g.cov.map fun c => if c = some 0 ∨ c = none then some 1 else c } :: r.1, r.2)

/-- `snr_max_group` as it is used (`pixfit-gfit.cpp:102-104`) -/
def groupLimit (smax sgroup : Option K) : Option K := if sgroup = none then smax else sgroup

/-- the sources that are fitted (`pixfit-gfit.cpp:310-321`) -/
def selected (minLam : K) (lam : List K) (noNeg : Bool) (gs : List (Gal K)) : List Nat :=
  (List.range gs.length).filter fun i => match gs[i]? with
    | none => false
    | some g => decide (0 < ((g.flux.zip (g.err.zip lam)).countP fun p => p.1.isSome && (match p.2.1 with | some e => decide (0 < e) | none => false) &&
        (!noNeg || (match p.1 with | some f => decide (0 < f) | none => false)) && geO (rest p.2.2 g.z) minLam))

/-- the preparation, with the default of `snr_max_group` -/
def gfitPrep (minLam : K) (lam : List K) (smax sgroup : Option K) (gf ge : List (Option K)) (gs : List (Gal K)) : Res (List (Gal K) × List (Option K)) :=
  prep minLam lam smax (groupLimit smax sgroup) gf ge gs

/-! ### Specification -/

/-- each value has a band -/
def Wf (lam : List K) (g : Gal K) : Prop := g.flux.length = lam.length ∧ g.err.length = lam.length ∧ g.grp.length = lam.length ∧ g.cov.length = lam.length

/-- band `b` of a source counts for its group `k`: its wavelength in the frame of the source is not known to be too small, its coverage is not zero -/
def Counts (minLam : K) (lam : List K) (g : Gal K) (b k : Nat) : Prop :=
  g.grp[b]? = some (some k) ∧ g.cov[b]? ≠ some (some 0) ∧ ∀ l z, lam[b]? = some l → g.z = some z → minLam ≤ l / (1 + z)

/-- what the adjustment does to the source `g`, with the limit `smax` -/
structure Adjusted (minLam : K) (lam : List K) (smax : Option K) (g g' : Gal K) : Prop where
  z : g'.z = g.z
  flux : g'.flux = g.flux
  size : Wf lam g'
  grp : ∀ b k : Nat, g'.grp[b]? = some (some k) ↔ Counts minLam lam g b k
  cov : ∀ (b : Nat) (c : K), g'.cov[b]? = some (some c) ↔ (g.cov[b]? = some (some c) ∧ c ≠ 0) ∨ ((g.cov[b]? = some (some 0) ∨ g.cov[b]? = some none) ∧ c = 1)
  limit : ∀ (b : Nat) (s f e : K), smax = some s → g'.flux[b]? = some (some f) → g'.err[b]? = some (some e) → 0 < e → f / e ≤ s
  err : ∀ (b : Nat) (f e : Option K), g.flux[b]? = some f → g.err[b]? = some e →
    (∀ s f' e', smax = some s → f = some f' → e = some e' → 0 < e' → f' / e' ≤ s) → g'.err[b]? = some e
  scaled : ∀ (b : Nat) (s f e : K), smax = some s → g.flux[b]? = some (some f) → g.err[b]? = some (some e) → 0 < e → s < f / e → g'.err[b]? = some (some (f / s))

/-! ### Lemmas -/

theorem zipWith_at {A B C : Type} (f : A → B → C) (l : List A) (m : List B) (b : Nat) : (List.zipWith f l m)[b]? =
    (match l[b]?, m[b]? with | some x, some y => some (f x y) | _, _ => none) := by
  rw [List.getElem?_zipWith]
  cases l[b]? <;> cases m[b]? <;> rfl

theorem keep_at (minLam : K) (lam : List K) (g : Gal K) (hw : Wf lam g) (b k : Nat) :
    (keepGroups minLam lam g)[b]? = some (some k) ↔ Counts minLam lam g b k := by
  unfold keepGroups Counts
  rw [zipWith_at]
  unfold List.zip
  rw [zipWith_at]
  obtain ⟨_, _, h3, h4⟩ := hw
  by_cases hb : b < lam.length
  · rw [List.getElem?_eq_getElem (show b < g.grp.length by omega), List.getElem?_eq_getElem hb, List.getElem?_eq_getElem (show b < g.cov.length by omega)]
    simp only [Option.some.injEq]
    rcases hg : g.grp[b] with _ | j
    · simp
    · rcases hz : g.z with _ | z
      · by_cases hc : g.cov[b] = some 0
        · simp [rest, ltO, hc]
        · simp [rest, ltO, hc]
      · by_cases hc : g.cov[b] = some 0
        · simp [rest, ltO, hc]
        · by_cases hl : lam[b] / (1 + z) < minLam
          · simp [rest, ltO, hc, hl]
          · simp [rest, ltO, hc, hl, not_lt.1 hl]
  · rw [List.getElem?_eq_none (show g.grp.length ≤ b by omega)]
    simp

theorem keep_length (minLam : K) (lam : List K) (g : Gal K) (hw : Wf lam g) : (keepGroups minLam lam g).length = lam.length := by
  unfold keepGroups
  obtain ⟨_, _, h3, h4⟩ := hw
  simp [h3, h4]

variable [IsStrictOrderedRing K]

theorem capErr_limit (s f : K) (e e' : Option K) (hs : 0 < s) (h : capErr s (some f) e = e') (x : K) (hx : e' = some x) (h0 : 0 < x) : f / x ≤ s := by
  subst hx
  cases e with
  | none => simp [capErr] at h
  | some e =>
    have h : (if s < f / e ∧ 0 < e then some (f / s) else some e) = some x := h
    by_cases hc : s < f / e ∧ 0 < e
    · rw [if_pos hc] at h
      cases h
      have hf : f ≠ 0 := by rintro rfl; simp at h0
      rw [div_div_cancel₀ hf]
    · rw [if_neg hc] at h
      cases h
      by_contra hn
      exact hc ⟨not_le.1 hn, h0⟩

theorem adjusted (minLam : K) (lam : List K) (smax : Option K) (hs : ∀ s, smax = some s → 0 < s) (g : Gal K) (hw : Wf lam g) :
    Adjusted minLam lam smax g { g with err := newErr smax g.flux g.err, grp := keepGroups minLam lam g, cov := g.cov.map fun c => if c = some 0 ∨ c = none then some 1 else c } := by
  have hlen : (newErr smax g.flux g.err).length = lam.length := by
    obtain ⟨h1, h2, _, _⟩ := hw
    cases smax <;> simp [newErr, h1, h2]
  refine ⟨rfl, rfl, ⟨hw.1, hlen, keep_length minLam lam g hw, by simpa using hw.2.2.2⟩, keep_at minLam lam g hw, ?_, ?_, ?_, ?_⟩
  · intro b c
    simp only [List.getElem?_map]
    rcases hc : g.cov[b]? with _ | _ | x
    · simp
    · simp [eq_comm]
    · by_cases hx : x = 0
      · subst hx; simp [eq_comm]
      · simp only [Option.map_some, Option.some.injEq, hx, reduceCtorEq, or_self, if_false, false_and, or_false]
        constructor
        · rintro rfl; exact ⟨rfl, hx⟩
        · exact fun h => h.1
  · intro b s f e hsm hf hee h0
    subst hsm
    simp only [newErr] at hf hee
    rw [zipWith_at, hf] at hee
    rcases hg : g.err[b]? with _ | e0
    · rw [hg] at hee; simp at hee
    · rw [hg] at hee
      simp only [Option.some.injEq] at hee
      exact capErr_limit s f e0 _ (hs s rfl) hee e rfl h0
  · intro b f e hf hee hlim
    simp only
    cases smax with
    | none => exact hee
    | some s =>
      simp only [newErr]
      rw [zipWith_at, hf, hee]
      simp only [Option.some.injEq]
      rcases f with _ | f <;> rcases e with _ | e <;> try rfl
      show (if s < f / e ∧ 0 < e then some (f / s) else some e) = some e
      rw [if_neg]
      rintro ⟨a1, a2⟩
      exact absurd (hlim s f e rfl rfl rfl a2) (not_le.2 a1)
  · intro b s f e hsm hf hee h0 hlt
    subst hsm
    simp only [newErr]
    rw [zipWith_at, hf, hee]
    simp [capErr, h0, hlt]

omit [IsStrictOrderedRing K] in
theorem foldl_set {A : Type} (f : Nat → A) (ids : List Nat) (l : List A) (hl : ∀ k ∈ ids, k < l.length) (j : Nat) :
    (ids.foldl (fun l k => l.set k (f k)) l)[j]? = if j ∈ ids then some (f j) else l[j]? := by
  induction ids generalizing l with
  | nil => simp
  | cons k ids ih =>
    rw [List.foldl_cons, ih _ (fun i hi => by rw [List.length_set]; exact hl i (by simp [hi]))]
    by_cases hj : j ∈ ids
    · simp [hj]
    · rw [if_neg hj]
      by_cases hk : j = k
      · subst hk; simp [List.getElem?_set, hl j (by simp)]
      · rw [if_neg (by simp [hj, hk]), List.getElem?_set_ne (Ne.symm hk)]

/-- the error of a group after the limit -/
def capG (s : K) (f e : Option K) : Option K := if overGroup s f e then f.map (· / s) else e

omit [IsStrictOrderedRing K] in
theorem capGroups_spec (s : K) (gf ge ge' : List (Option K)) (ids : List Nat) (h : capGroups s gf ge ids = .ok ge') :
    ge'.length = ge.length ∧ (∀ k ∈ ids, k < ge.length ∧ k < gf.length) ∧
    ∀ k, ge'.getD k none = if k ∈ ids then capG s (gf.getD k none) (ge.getD k none) else ge.getD k none := by
  unfold capGroups at h
  by_cases hc : ∀ k ∈ ids, k < gf.length ∧ k < ge.length
  swap
  · rw [Res.check_neg hc] at h; cases h
  rw [Res.check_pos hc, Res.ok_bind] at h
  cases h
  refine ⟨?_, fun k hk => ⟨(hc k hk).2, (hc k hk).1⟩, fun k => ?_⟩
  · generalize (ids.filter fun k => overGroup s (gf.getD k none) (ge.getD k none)) = l
    induction l generalizing ge with
    | nil => rfl
    | cons a l ih =>
      rw [List.foldl_cons]
      have : ∀ (l : List Nat) (x : List (Option K)), (l.foldl (fun l k => l.set k ((gf.getD k none).map (· / s))) x).length = x.length := by
        intro l
        induction l with
        | nil => intro x; rfl
        | cons a l ih => intro x; rw [List.foldl_cons, ih, List.length_set]
      rw [this, List.length_set]
  · rw [List.getD_eq_getElem?_getD, foldl_set (fun k => (gf.getD k none).map (· / s)) _ _
      (fun k hk => (hc k (List.mem_of_mem_filter hk)).2)]
    simp only [List.mem_filter]
    unfold capG
    by_cases hk : k ∈ ids
    · by_cases ho : overGroup s (gf.getD k none) (ge.getD k none) = true
      · rw [if_pos ⟨hk, ho⟩, if_pos hk, if_pos ho]; rfl
      · rw [if_neg (fun h => ho h.2), if_pos hk, if_neg ho, List.getD_eq_getElem?_getD]
    · simp [hk, List.getD_eq_getElem?_getD]

theorem capG_idem (s : K) (hs : 0 < s) (f e : Option K) : capG s f (capG s f e) = capG s f e := by
  unfold capG
  by_cases h : overGroup s f e = true
  · rw [if_pos h]
    rw [if_neg]
    rcases f with _ | f
    · simp [overGroup] at h
    rcases e with _ | e
    · simp [overGroup] at h
    have hf : f ≠ 0 := by
      rintro rfl
      have h : (if e = 0 then decide ((0 : K) < 0) else decide (s < 0 / e)) = true := h
      by_cases he : e = 0
      · simp [he] at h
      · rw [if_neg he] at h
        simp only [zero_div, decide_eq_true_eq] at h
        exact absurd (lt_trans hs h) (lt_irrefl _)
    simp only [Option.map_some, overGroup]
    rw [if_neg (div_ne_zero hf hs.ne'), div_div_cancel₀ hf]
    simp
  · rw [if_neg h, if_neg h]

/-! ### C239 -/

omit [LinearOrder K] [IsStrictOrderedRing K] in
theorem mem_filterMap_id {A : Type} (l : List (Option A)) (a : A) : a ∈ l.filterMap id ↔ ∃ b : Nat, l[b]? = some (some a) := by
  rw [List.mem_filterMap]
  simp only [id_eq, exists_eq_right]
  rw [List.mem_iff_getElem?]

/-- the error of a group after the loop, `P` when a source contributes to it -/
noncomputable def after (smax sgroup : Option K) (P : Prop) (f e : Option K) : Option K := match smax, sgroup with
  | some _, some sg => open Classical in if P then capG sg f e else e
  | _, _ => e

theorem after_trans (smax sgroup : Option K) (hg : ∀ s, sgroup = some s → 0 < s) (P Q R : Prop) (hR : R ↔ P ∨ Q) (f e : Option K) :
    after smax sgroup Q f (after smax sgroup P f e) = after smax sgroup R f e := by
  unfold after
  rcases smax with _ | s <;> rcases sgroup with _ | sg <;> try rfl
  by_cases hP : P <;> by_cases hQ : Q <;> simp [hR, hP, hQ, capG_idem sg (hg sg rfl)]

omit [IsStrictOrderedRing K] in
theorem newGroups_spec (smax sgroup : Option K) (gf ge ge' : List (Option K)) (ids : List Nat) (h : newGroups smax sgroup gf ge ids = .ok ge') :
    ge'.length = ge.length ∧ ∀ k, ge'.getD k none = after smax sgroup (k ∈ ids) (gf.getD k none) (ge.getD k none) := by
  rcases smax with _ | s <;> rcases sgroup with _ | sg <;> try (cases h; exact ⟨rfl, fun k => rfl⟩)
  obtain ⟨c1, _, c3⟩ := capGroups_spec sg gf ge ge' ids h
  refine ⟨c1, fun k => ?_⟩
  rw [c3 k]
  by_cases hk : k ∈ ids <;> simp [after, hk]

theorem prep_spec (minLam : K) (lam : List K) (smax sgroup : Option K) (hs : ∀ s, smax = some s → 0 < s) (hg : ∀ s, sgroup = some s → 0 < s)
    (gf ge ge' : List (Option K)) (gs gs' : List (Gal K)) (hw : ∀ g ∈ gs, Wf lam g) (h : prep minLam lam smax sgroup gf ge gs = .ok (gs', ge')) :
    List.Forall₂ (Adjusted minLam lam smax) gs gs' ∧ ge'.length = ge.length ∧
    ∀ k, ge'.getD k none = after smax sgroup (∃ g ∈ gs, ∃ b, Counts minLam lam g b k) (gf.getD k none) (ge.getD k none) := by
  induction gs generalizing ge gs' with
  | nil =>
    cases h
    refine ⟨.nil, rfl, fun k => ?_⟩
    cases smax <;> cases sgroup <;> simp [after]
  | cons g gs ih =>
    have hwg := hw g (by simp)
    rw [prep] at h
    simp only [Res.bind_eq_ok] at h
    obtain ⟨ge1, h1, r, hr, hres⟩ := h
    cases hres
    obtain ⟨i1, i2, i3⟩ := ih ge1 r.1 (fun g hg => hw g (by simp [hg])) hr
    obtain ⟨c1, c2⟩ := newGroups_spec smax sgroup gf ge ge1 _ h1
    refine ⟨.cons (adjusted minLam lam smax hs g hwg) i1, i2.trans c1, fun k => ?_⟩
    rw [i3 k, c2 k]
    apply after_trans smax sgroup hg
    have : (k ∈ (keepGroups minLam lam g).filterMap id) ↔ ∃ b, Counts minLam lam g b k := by
      rw [mem_filterMap_id]
      exact exists_congr fun b => keep_at minLam lam g hwg b k
    rw [this]
    simp

omit [IsStrictOrderedRing K] in
theorem groupLimit_pos (smax sgroup : Option K) (hs : ∀ s, smax = some s → 0 < s) (hg : ∀ s, sgroup = some s → 0 < s) :
    ∀ s, groupLimit smax sgroup = some s → 0 < s := by
  intro s h
  unfold groupLimit at h
  split at h
  · exact hs s h
  · exact hg s h

/-- **C239 (in part)**: whatever the catalogue, the adjustment keeps the fluxes, removes from the groups exactly the bands that do not contribute, gives a coverage of 1
where there is none, and enlarges exactly the errors of the measurements over the limit, down to the limit. -/
theorem C239_sources_partial (minLam : K) (lam : List K) (smax sgroup : Option K) (hs : ∀ s, smax = some s → 0 < s) (hg : ∀ s, sgroup = some s → 0 < s)
    (gf ge ge' : List (Option K)) (gs gs' : List (Gal K)) (hw : ∀ g ∈ gs, Wf lam g) (h : gfitPrep minLam lam smax sgroup gf ge gs = .ok (gs', ge')) :
    List.Forall₂ (Adjusted minLam lam smax) gs gs' :=
  (prep_spec minLam lam smax _ hs (groupLimit_pos smax sgroup hs hg) gf ge ge' gs gs' hw h).1

/-- **C239 (in part)**: with a limit for the sources, the errors of the groups to which a source contributes are enlarged down to the limit of the groups, those of the other groups are kept. -/
theorem C239_groups_partial (minLam : K) (lam : List K) (s : K) (sgroup : Option K) (hs : 0 < s) (hg : ∀ s, sgroup = some s → 0 < s)
    (gf ge ge' : List (Option K)) (gs gs' : List (Gal K)) (hw : ∀ g ∈ gs, Wf lam g) (h : gfitPrep minLam lam (some s) sgroup gf ge gs = .ok (gs', ge')) (k : Nat) :
    ((∀ g ∈ gs, ∀ b, ¬ Counts minLam lam g b k) → ge'.getD k none = ge.getD k none) ∧
    ((∃ g ∈ gs, ∃ b, Counts minLam lam g b k) → ∀ f e : K, gf.getD k none = some f → ge.getD k none = some e → 0 < e →
      (f / e ≤ sgroup.getD s → ge'.getD k none = some e) ∧ (sgroup.getD s < f / e → ge'.getD k none = some (f / sgroup.getD s))) := by
  classical
  have hgl : groupLimit (some s) sgroup = some (sgroup.getD s) := by cases sgroup <;> simp [groupLimit]
  have h3 := (prep_spec minLam lam (some s) _ (fun x hx => by cases hx; exact hs) (groupLimit_pos (some s) sgroup (fun x hx => by cases hx; exact hs) hg) gf ge ge' gs gs' hw h).2.2 k
  rw [hgl] at h3
  simp only [after] at h3
  constructor
  · intro hn
    rw [h3, if_neg]
    rintro ⟨g, hg', b, hb⟩
    exact hn g hg' b hb
  · intro hex f e hf he h0
    rw [h3, if_pos hex, hf, he]
    have ho : overGroup (sgroup.getD s) (some f) (some e) = decide (sgroup.getD s < f / e) := if_neg h0.ne'
    unfold capG
    rw [ho]
    constructor
    · intro hle; rw [if_neg (by simpa using hle)]
    · intro hlt; rw [if_pos (by simpa using hlt)]; rfl

/-- the catalogue of the examples: two sources, two bands, one group in the second band; the second source is too far for the second band -/
def exGals : List (Gal ℚ) :=
  [⟨some 1, [some 40, some 3], [some 1, some 1], [none, some 0], [some 1, some (1/2)]⟩, ⟨some 9, [some 2, none], [some 1, some 1], [none, some 0], [none, some 0]⟩]

example : gfitPrep 20 [1000, 100] (some 10) none [some 50] [some 1] exGals =
    .ok ([⟨some 1, [some 40, some 3], [some 4, some 1], [none, some 0], [some 1, some (1/2)]⟩, ⟨some 9, [some 2, none], [some 1, some 1], [none, none], [some 1, some 1]⟩], [some 5]) ∧
    ∀ g ∈ exGals, Wf ([1000, 100] : List ℚ) g := by
  refine ⟨by decide +kernel, ?_⟩
  intro g hg
  simp only [exGals, List.mem_cons, List.not_mem_nil, or_false] at hg
  rcases hg with rfl | rfl <;> exact ⟨rfl, rfl, rfl, rfl⟩

/-- **C239 is false**: the limit of the groups is not applied when there is no limit for the sources. -/
theorem C239_option_refuted : ∃ r, gfitPrep (20 : ℚ) [1000, 100] none (some 10) [some 50] [some 1] exGals = .ok (r, [some 1]) ∧ (10 : ℚ) < 50 / 1 :=
  ⟨[⟨some 1, [some 40, some 3], [some 1, some 1], [none, some 0], [some 1, some (1/2)]⟩, ⟨some 9, [some 2, none], [some 1, some 1], [none, none], [some 1, some 1]⟩],
    by decide +kernel, by norm_num⟩

/-- **C239 is false**: a group without a valid error (zero) gets one; a source with such an error does not, and is not fitted. -/
theorem C239_zero_refuted : (∃ r, gfitPrep (20 : ℚ) [1000, 100] (some 10) none [some 50] [some 0] exGals = .ok (r, [some 5])) ∧
    ∃ r e, gfitPrep (20 : ℚ) [100] (some 10) none [] [] [⟨some 0, [some 50], [some 0], [none], [some 1]⟩] = .ok ([r], e) ∧ r.err = [some 0] ∧ selected (20 : ℚ) [100] false [r] = [] :=
  ⟨⟨[⟨some 1, [some 40, some 3], [some 4, some 1], [none, some 0], [some 1, some (1/2)]⟩, ⟨some 9, [some 2, none], [some 1, some 1], [none, none], [some 1, some 1]⟩],
      by decide +kernel⟩, ⟨some 0, [some 50], [some 0], [none], [some 1]⟩, [], by decide +kernel, rfl, by decide +kernel⟩

omit [IsStrictOrderedRing K] in
/-- **C239**: the sources that are fitted are those with a valid measurement in a band that is not too short, positive if this is asked, in order. -/
theorem C239_selected (minLam : K) (lam : List K) (noNeg : Bool) (gs : List (Gal K)) (hw : ∀ g ∈ gs, Wf lam g) :
    (selected minLam lam noNeg gs).Pairwise (· < ·) ∧ ∀ i, i ∈ selected minLam lam noNeg gs ↔
      ∃ g, gs[i]? = some g ∧ ∃ (b : Nat) (f e l z : K), g.flux[b]? = some (some f) ∧ g.err[b]? = some (some e) ∧ lam[b]? = some l ∧ g.z = some z ∧ 0 < e ∧
        (noNeg = true → 0 < f) ∧ minLam ≤ l / (1 + z) := by
  refine ⟨List.pairwise_lt_range.filter _, fun i => ?_⟩
  unfold selected
  rw [List.mem_filter, List.mem_range]
  rcases hi : gs[i]? with _ | g
  · simp
  have hil : i < gs.length := (List.getElem?_eq_some_iff.1 hi).1
  have hwg := hw g (List.mem_of_getElem? hi)
  simp only [hil, true_and, decide_eq_true_eq, Option.some.injEq, exists_eq_left', List.countP_pos_iff]
  constructor
  · rintro ⟨⟨f, e, l⟩, hm, hp⟩
    obtain ⟨b, hb⟩ := List.mem_iff_getElem?.1 hm
    rw [List.getElem?_zip_eq_some, List.getElem?_zip_eq_some] at hb
    rcases f with _ | f
    · simp at hp
    rcases e with _ | e
    · simp at hp
    rcases hz : g.z with _ | z
    · simp [hz, rest, geO] at hp
    simp only [hz, rest, geO, Option.map_some, Option.isSome_some, Bool.true_and, Bool.and_eq_true, decide_eq_true_eq, Bool.or_eq_true, Bool.not_eq_true'] at hp
    refine ⟨b, f, e, l, z, hb.1, hb.2.1, hb.2.2, rfl, hp.1.1, ?_, hp.2⟩
    intro hn
    rcases hp.1.2 with h | h
    · rw [hn] at h; cases h
    · exact h
  · rintro ⟨b, f, e, l, z, h1, h2, h3, h4, h5, h6, h7⟩
    refine ⟨(some f, some e, l), List.mem_iff_getElem?.2 ⟨b, by rw [List.getElem?_zip_eq_some, List.getElem?_zip_eq_some]; exact ⟨h1, h2, h3⟩⟩, ?_⟩
    simp only [h4, rest, geO, Option.map_some, Option.isSome_some, Bool.true_and, Bool.and_eq_true, decide_eq_true_eq, Bool.or_eq_true, Bool.not_eq_true']
    refine ⟨⟨h5, ?_⟩, h7⟩
    cases noNeg
    · exact .inl rfl
    · exact .inr (h6 rfl)

example : selected (20 : ℚ) [1000, 100] false exGals = [0, 1] ∧ selected (150 : ℚ) [1000, 100] false exGals = [0] := by decide +kernel

end Verif.GfitPrep
