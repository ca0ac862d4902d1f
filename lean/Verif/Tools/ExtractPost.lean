import Verif.Basic
import Mathlib.Algebra.Order.Field.Basic
import Mathlib.Algebra.BigOperators.Fin
import Mathlib.Data.List.FinRange
import Mathlib.Algebra.Order.Ring.Rat
import Mathlib.Tactic.Common
/-!
# The bad fits of `pixfit-extract` (C201)

`m` sources are fitted; each of them stands for one source of the catalogue or for a fitted group of them (C199). The sources of a fitted group always have the same aperture group (C199), so
that `old_cat.group_aper_id` is a function of the fitted source. `covar(i,j)/sqrt(covar(i,i)*covar(j,j))` is given, and `none` if it is not finite. `covar` is the normal matrix of the fit
(`pixfit-extract.cpp:697`), before it is inverted; it is positive definite if the fit succeeds (C200), so that these numbers are 1 if `i = j` and else less than 1.
-/
namespace Verif.ExtractPost
open Verif

variable {K : Type} [LinearOrder K] {m nobs : Nat}

/-! ### Model -/

/-- a line of `group_cat`: its number, the number of sources, the sources (their indices in the catalogue) the mean position of which is that of the group, and `fit` -/
structure Line where
  id : Nat
  nsrc : Nat
  pos : List Nat
  fit : Bool
deriving DecidableEq

/-- a fitted source: the sources of the catalogue that it stands for, and whether it is a fitted group (`group_fit_id[j] != npos`) -/
structure Src where
  members : List Nat
  fit : Bool
deriving DecidableEq

/-- `is_grouped`, `old_cat.group_aper_id` and `group_cat` -/
structure St (m : Nat) where
  grp : Fin m → Bool
  label : Fin m → Nat
  cat : List Line

/-- the group of the grouped source with the highest covariance (`pixfit-extract.cpp:843-862`). The arrays of the fitted sources are indexed with the positions in the list of the sources on
the map. -/
def best (hle : nobs ≤ m) (cv : Fin nobs → Option K) (thr : K) (s : St m) : Option Nat :=
  ((List.finRange nobs).foldl (fun (b : K × Option Nat) j => match cv j with
    | some t => if b.1 < t ∧ s.grp (j.castLE hle) then (t, some (s.label (j.castLE hle))) else b
    | none => b) (thr, none)).2

/-- the sources that get the group `gid` (`pixfit-extract.cpp:870-884`), and `nidg`: the position `j` instead of that in the catalogue -/
def join (hle : nobs ≤ m) (src : Fin m → Src) (cv : Fin nobs → Option K) (thr : K) (gid : Nat) : List (Fin nobs) → St m → List Nat → St m × List Nat
  | [], s, nidg => (s, nidg)
  | j :: js, s, nidg =>
    if (∃ t ∈ cv j, thr < t) ∧ s.grp (j.castLE hle) = false then
      let s' : St m := ⟨Function.update s.grp (j.castLE hle) true, Function.update s.label (j.castLE hle) gid, s.cat⟩
      join hle src cv thr gid js s' (nidg ++ if (src (j.castLE hle)).fit then (src (j.castLE hle)).members else [j.val])
    else join hle src cv thr gid js s nidg

/-- one bad source (`pixfit-extract.cpp:838-901`): `max` aborts if there is no group at all, and `[0]` if none has the number -/
def step (hle : nobs ≤ m) (src : Fin m → Src) (cv : Fin nobs → Option K) (thr : K) (s : St m) : Res (St m) :=
  match best hle cv thr s with
  | none =>
    match s.cat.map (·.id) with
    | [] => .abort
    | a :: l =>
      let gid := l.foldl max a + 1
      let r := join hle src cv thr gid (List.finRange nobs) s []
      .ok { r.1 with cat := r.1.cat ++ [⟨gid, r.2.length, r.2, false⟩] }
  | some gid =>
    let r := join hle src cv thr gid (List.finRange nobs) s []
    match s.cat.findIdx? (fun l => l.id = gid) with
    | none => .abort
    | some k => .ok { r.1 with cat := r.1.cat.modify k fun l => { l with nsrc := l.nsrc + r.2.length } }

/-- the loop on the bad sources `idb` (`pixfit-extract.cpp:834-902`); `has_groups` (line 382) is that a source has a group before -/
def post (hle : nobs ≤ m) (src : Fin m → Src) (cv : Fin nobs → Fin nobs → Option K) (thr : K) (idb : List (Fin nobs)) (s : St m) : Res (St m) :=
  if ∃ j, s.label j ≠ 0 then idb.foldlM (fun s i => step hle src (cv i) thr s) s else .ok s

/-! ### Specification -/

/-- the number of sources of the catalogue in a group -/
def size (src : Fin m → Src) (label : Fin m → Nat) (id : Nat) : Nat := ∑ j, if label j = id then (src j).members.length else 0

/-- the catalogue of groups describes the groups: its lines are numbered from 1, each source has no group or one of those that are not fitted as one source, and the lines of these have their
numbers of sources -/
structure Good (src : Fin m → Src) (s : St m) : Prop where
  grp : ∀ j, s.grp j = true ↔ s.label j ≠ 0
  ids : s.cat.map (·.id) = List.range' 1 s.cat.length
  line : ∀ j, s.label j ≠ 0 → ∃ l ∈ s.cat, l.id = s.label j ∧ l.fit = false
  nsrc : ∀ l ∈ s.cat, l.fit = false → l.nsrc = size src s.label l.id
  some : s.cat ≠ []

/-- the covariance of two sources is above the threshold -/
def Near (cv : Fin m → Fin m → Option K) (thr : K) (i j : Fin m) : Prop := ∃ t ∈ cv i j, thr < t

/-! ### Helpers -/

/-- what the search finds -/
theorem best_spec (cv : Fin m → Option K) (thr : K) (s : St m) :
    (best (le_refl m) cv thr s = none ∧ ∀ j, s.grp j = true → ∀ t ∈ cv j, t ≤ thr) ∨
    ∃ j t, best (le_refl m) cv thr s = some (s.label j) ∧ s.grp j = true ∧ cv j = some t ∧ thr < t ∧ ∀ k, s.grp k = true → ∀ u ∈ cv k, u ≤ t := by
  unfold best
  have : ∀ (l : List (Fin m)) (P : Fin m → Prop) (b : K × Option Nat),
      ((b = (thr, none) ∧ ∀ j, P j → s.grp j = true → ∀ t ∈ cv j, t ≤ thr) ∨
        ∃ j t, b = (t, some (s.label j)) ∧ s.grp j = true ∧ cv j = some t ∧ thr < t ∧ ∀ k, P k → s.grp k = true → ∀ u ∈ cv k, u ≤ t) →
      let r := l.foldl (fun (b : K × Option Nat) j => match cv j with
        | some t => if b.1 < t ∧ s.grp (j.castLE (le_refl m)) then (t, some (s.label (j.castLE (le_refl m)))) else b
        | none => b) b
      (r = (thr, none) ∧ ∀ j, (P j ∨ j ∈ l) → s.grp j = true → ∀ t ∈ cv j, t ≤ thr) ∨
        ∃ j t, r = (t, some (s.label j)) ∧ s.grp j = true ∧ cv j = some t ∧ thr < t ∧ ∀ k, (P k ∨ k ∈ l) → s.grp k = true → ∀ u ∈ cv k, u ≤ t := by
    intro l
    induction l with
    | nil => intro P b h; simpa using h
    | cons x l ih =>
      intro P b h
      have hP : ∀ j, (P j ∨ j ∈ x :: l) ↔ ((P j ∨ j = x) ∨ j ∈ l) := by intro j; simp [or_assoc]
      simp only [hP, List.foldl_cons]
      apply ih (fun j => P j ∨ j = x)
      simp only [Fin.castLE_rfl, id]
      cases hx : cv x with
      | none =>
        dsimp only
        rcases h with ⟨rfl, h⟩ | ⟨j, t, rfl, h1, h2, h3, h4⟩
        · left
          refine ⟨rfl, fun j hj hg t ht => ?_⟩
          rcases hj with hj | rfl
          · exact h j hj hg t ht
          · rw [hx] at ht; cases ht
        · right
          refine ⟨j, t, rfl, h1, h2, h3, fun k hk hg u hu => ?_⟩
          rcases hk with hk | rfl
          · exact h4 k hk hg u hu
          · rw [hx] at hu; cases hu
      | some v =>
        dsimp only
        rcases h with ⟨rfl, h⟩ | ⟨j, t, rfl, h1, h2, h3, h4⟩
        · by_cases hc : thr < v ∧ s.grp x = true
          · right
            rw [if_pos hc]
            refine ⟨x, v, rfl, hc.2, hx, hc.1, fun k hk hg u hu => ?_⟩
            rcases hk with hk | rfl
            · exact (h k hk hg u hu).trans hc.1.le
            · rw [hx] at hu; cases hu; exact le_rfl
          · left
            rw [if_neg hc]
            refine ⟨rfl, fun j hj hg t ht => ?_⟩
            rcases hj with hj | rfl
            · exact h j hj hg t ht
            · rw [hx] at ht; cases ht
              exact not_lt.1 fun hlt => hc ⟨hlt, hg⟩
        · right
          by_cases hc : t < v ∧ s.grp x = true
          · rw [if_pos hc]
            refine ⟨x, v, rfl, hc.2, hx, h3.trans hc.1, fun k hk hg u hu => ?_⟩
            rcases hk with hk | rfl
            · exact (h4 k hk hg u hu).trans hc.1.le
            · rw [hx] at hu; cases hu; exact le_rfl
          · rw [if_neg hc]
            refine ⟨j, t, rfl, h1, h2, h3, fun k hk hg u hu => ?_⟩
            rcases hk with hk | rfl
            · exact h4 k hk hg u hu
            · rw [hx] at hu; cases hu
              exact not_lt.1 fun hlt => hc ⟨hlt, hg⟩
  rcases this (List.finRange m) (fun _ => False) (thr, none) (Or.inl ⟨rfl, by simp⟩) with ⟨h1, h2⟩ | ⟨j, t, h1, h2, h3, h4, h5⟩
  · left
    exact ⟨by rw [h1], fun j => h2 j (Or.inr (List.mem_finRange j))⟩
  · right
    exact ⟨j, t, by rw [h1], h2, h3, h4, fun k => h5 k (Or.inr (List.mem_finRange k))⟩

/-- what the loop on the neighbours does -/
theorem join_spec (src : Fin m → Src) (hsrc : ∀ j, (src j).fit = false → (src j).members.length = 1) (cv : Fin m → Option K) (thr : K) (gid : Nat) (hgid : gid ≠ 0) :
    ∀ (js : List (Fin m)) (s : St m) (nidg : List Nat), js.Nodup → (∀ j, s.grp j = true ↔ s.label j ≠ 0) →
      let r := join (le_refl m) src cv thr gid js s nidg
      r.1.cat = s.cat ∧ (∀ j, r.1.grp j = true ↔ r.1.label j ≠ 0) ∧
      (∀ j, r.1.label j = if (∃ t ∈ cv j, thr < t) ∧ s.label j = 0 ∧ j ∈ js then gid else s.label j) ∧
      (∀ id, id ≠ 0 → size src r.1.label id + (if id = gid then nidg.length else 0) = size src s.label id + (if id = gid then r.2.length else 0)) := by
  intro js
  induction js with
  | nil => intro s nidg _ hg; simp [join, hg]
  | cons j js ih =>
    intro s nidg hnd hg
    rw [List.nodup_cons] at hnd
    dsimp only
    unfold join
    simp only [Fin.castLE_rfl, id]
    have h0 : s.grp j = false ↔ s.label j = 0 := by
      have := hg j
      rcases hb : s.grp j with _ | _ <;> simp_all
    by_cases hc : (∃ t ∈ cv j, thr < t) ∧ s.grp j = false
    · rw [if_pos hc]
      obtain ⟨r1, r2, r3, r4⟩ := ih ⟨Function.update s.grp j true, Function.update s.label j gid, s.cat⟩
        (nidg ++ if (src j).fit then (src j).members else [j.val]) hnd.2 (by
          intro k
          by_cases hk : k = j
          · subst hk; simp [hgid]
          · simp [Function.update_of_ne hk, hg])
      refine ⟨r1, r2, fun k => ?_, fun id hid => ?_⟩
      · rw [r3]
        by_cases hk : k = j
        · subst hk
          rw [if_neg (fun h => hgid (by simpa using h.2.1)), if_pos ⟨hc.1, h0.1 hc.2, by simp⟩]
          simp
        · simp [Function.update_of_ne hk, hk]
      · have hlen : (nidg ++ if (src j).fit then (src j).members else [j.val]).length = nidg.length + (src j).members.length := by
          rw [List.length_append]
          congr 1
          by_cases hf : (src j).fit = true
          · rw [if_pos hf]
          · rw [if_neg hf, hsrc j (by simpa using hf)]; rfl
        have hsz : size src (Function.update s.label j gid) id = size src s.label id + (if id = gid then (src j).members.length else 0) := by
          unfold size
          rw [← Finset.add_sum_erase _ _ (Finset.mem_univ j), ← Finset.add_sum_erase (a := j) _ (fun j => if s.label j = id then (src j).members.length else 0) (Finset.mem_univ j)]
          rw [Finset.sum_congr rfl (g := fun j => if s.label j = id then (src j).members.length else 0) (fun k hk => by
            rw [Function.update_of_ne (Finset.ne_of_mem_erase hk)])]
          rw [Function.update_self, h0.1 hc.2, if_neg (Ne.symm hid)]
          by_cases hi : id = gid
          · rw [if_pos hi.symm, if_pos hi]; omega
          · rw [if_neg (Ne.symm hi), if_neg hi]; omega
        have := r4 id hid
        dsimp only at this
        rw [hlen, hsz] at this
        by_cases hi : id = gid
        · simp only [if_pos hi] at this ⊢; omega
        · simp only [if_neg hi] at this ⊢; omega
    · rw [if_neg hc]
      obtain ⟨r1, r2, r3, r4⟩ := ih s nidg hnd.2 hg
      refine ⟨r1, r2, fun k => ?_, r4⟩
      rw [r3]
      by_cases hk : k = j
      · subst hk
        rw [if_neg (fun h => hnd.1 h.2.2), if_neg (fun h => hc ⟨h.1, h0.2 h.2.1⟩)]
      · simp [hk]

theorem foldl_max (l : List Nat) (a : Nat) : a ≤ l.foldl max a ∧ (∀ b ∈ l, b ≤ l.foldl max a) ∧ (l.foldl max a = a ∨ l.foldl max a ∈ l) := by
  induction l generalizing a with
  | nil => simp
  | cons b l ih =>
    obtain ⟨h1, h2, h3⟩ := ih (max a b)
    simp only [List.foldl_cons]
    refine ⟨(le_max_left a b).trans h1, fun c hc => ?_, ?_⟩
    · rcases List.mem_cons.1 hc with rfl | hc
      · exact (le_max_right a c).trans h1
      · exact h2 c hc
    · rcases h3 with h | h
      · rcases max_choice a b with e | e
        · left; rw [h, e]
        · right; rw [h, e]; simp
      · right; exact List.mem_cons_of_mem _ h

theorem max_range' (n a : Nat) (l : List Nat) (h : a :: l = List.range' 1 n) : l.foldl max a = n := by
  obtain ⟨h1, h2, h3⟩ := foldl_max l a
  have hm : ∀ x, x ∈ a :: l ↔ 1 ≤ x ∧ x < 1 + n := by intro x; rw [h, List.mem_range'_1]
  have hn : 0 < n := by
    have := congrArg List.length h
    simp at this; omega
  have h4 : l.foldl max a ∈ a :: l := by
    rcases h3 with h | h
    · rw [h]; simp
    · exact List.mem_cons_of_mem _ h
  have h5 := (hm _).1 h4
  have h6 := (hm n).2 ⟨hn, by omega⟩
  rcases List.mem_cons.1 h6 with h | h
  · omega
  · have := h2 n h; omega

/-- one bad source -/
theorem step_spec (src : Fin m → Src) (hsrc : ∀ j, (src j).fit = false → (src j).members.length = 1) (cv : Fin m → Option K) (thr : K) (s : St m) (hg : Good src s) :
    ∃ s' gid, step (le_refl m) src cv thr s = .ok s' ∧ Good src s' ∧ gid ≠ 0 ∧ (∀ j, s'.label j = if (∃ t ∈ cv j, thr < t) ∧ s.label j = 0 then gid else s.label j) ∧
      ((gid = s.cat.length + 1 ∧ ∀ j, s.label j ≠ 0 → ∀ t ∈ cv j, t ≤ thr) ∨
        ∃ j t, gid = s.label j ∧ cv j = some t ∧ thr < t ∧ s.label j ≠ 0 ∧ ∀ k, s.label k ≠ 0 → ∀ u ∈ cv k, u ≤ t) := by
  have hid : ∀ l ∈ s.cat, 1 ≤ l.id ∧ l.id ≤ s.cat.length := by
    intro l hl
    have : l.id ∈ s.cat.map (·.id) := List.mem_map_of_mem hl
    rw [hg.ids, List.mem_range'_1] at this
    omega
  have hz : ∀ j, s.label j ≤ s.cat.length := by
    intro j
    by_cases h : s.label j = 0
    · omega
    · obtain ⟨l, hl, e, -⟩ := hg.line j h
      rw [← e]; exact (hid l hl).2
  rcases best_spec cv thr s with ⟨h1, h2⟩ | ⟨j, t, h1, h2, h3, h4, h5⟩
  · -- a new group
    unfold step
    rw [h1]
    dsimp only
    cases hc : s.cat.map (·.id) with
    | nil => exact absurd (List.map_eq_nil_iff.1 hc) hg.some
    | cons a l =>
      dsimp only
      have hmax : l.foldl max a = s.cat.length := max_range' _ _ _ (hc ▸ hg.ids)
      rw [hmax]
      obtain ⟨r1, r2, r3, r4⟩ := join_spec src hsrc cv thr (s.cat.length + 1) (by omega) (List.finRange m) s [] (List.nodup_finRange m) hg.grp
      have r3' : ∀ j, (join (le_refl m) src cv thr (s.cat.length + 1) (List.finRange m) s []).1.label j =
          if (∃ t ∈ cv j, thr < t) ∧ s.label j = 0 then s.cat.length + 1 else s.label j := by
        intro j
        rw [r3]
        simp [List.mem_finRange]
      refine ⟨_, s.cat.length + 1, rfl, ⟨r2, ?_, ?_, ?_, ?_⟩, by omega, r3', Or.inl ⟨rfl, fun j hj => h2 j ((hg.grp j).2 hj)⟩⟩
      · dsimp only
        rw [r1, List.map_append, hg.ids, List.length_append, List.length_singleton, List.range'_concat]
        simp [Nat.add_comm]
      · intro j hj
        dsimp only at hj ⊢
        rw [r3'] at hj ⊢
        rw [r1]
        split at hj
        · next hs =>
          rw [if_pos hs]
          exact ⟨_, List.mem_append_right _ (List.mem_singleton.2 rfl), rfl, rfl⟩
        · next hs =>
          rw [if_neg hs]
          obtain ⟨l, hl, e⟩ := hg.line j hj
          exact ⟨l, List.mem_append_left _ hl, e⟩
      · intro l hl hf
        dsimp only at hl ⊢
        rw [r1] at hl
        rcases List.mem_append.1 hl with hl | hl
        · have hb := hid l hl
          have := r4 l.id (by omega)
          rw [if_neg (by omega), if_neg (by omega)] at this
          rw [hg.nsrc l hl hf]
          omega
        · rw [List.mem_singleton] at hl
          subst hl
          have := r4 (s.cat.length + 1) (by omega)
          simp only [if_true, List.length_nil, Nat.add_zero] at this
          have h0 : size src s.label (s.cat.length + 1) = 0 := by
            unfold size
            apply Finset.sum_eq_zero
            intro j _
            rw [if_neg]
            have := hz j
            omega
          rw [h0] at this
          dsimp only
          omega
      · simp
  · -- the group of a neighbour
    have hj0 := (hg.grp j).1 h2
    unfold step
    rw [h1]
    dsimp only
    obtain ⟨l0, hl0, e0, hf0⟩ := hg.line j hj0
    obtain ⟨k, hk⟩ : ∃ k, s.cat.findIdx? (fun l => decide (l.id = s.label j)) = some k := by
      cases hc : s.cat.findIdx? (fun l => decide (l.id = s.label j)) with
      | some k => exact ⟨k, rfl⟩
      | none =>
        rw [List.findIdx?_eq_none_iff] at hc
        have := hc l0 hl0
        simp [e0] at this
    rw [hk]
    dsimp only
    obtain ⟨hklt, hkid, -⟩ := List.findIdx?_eq_some_iff_getElem.1 hk
    have hkid : (s.cat[k]).id = s.label j := by simpa using hkid
    have hall : ∀ q (hq : q < s.cat.length), (s.cat[q]).id = 1 + q := by
      intro q hq
      have : (s.cat.map (·.id))[q]'(by simpa using hq) = (List.range' 1 s.cat.length)[q]'(by simpa using hq) := by simp only [hg.ids]
      simpa using this
    obtain ⟨r1, r2, r3, r4⟩ := join_spec src hsrc cv thr (s.label j) hj0 (List.finRange m) s [] (List.nodup_finRange m) hg.grp
    have r3' : ∀ i, (join (le_refl m) src cv thr (s.label j) (List.finRange m) s []).1.label i =
        if (∃ t ∈ cv i, thr < t) ∧ s.label i = 0 then s.label j else s.label i := by
      intro i
      rw [r3]
      simp [List.mem_finRange]
    have hmod : ∀ l, l ∈ s.cat.modify k (fun l => { l with nsrc := l.nsrc + (join (le_refl m) src cv thr (s.label j) (List.finRange m) s []).2.length }) ↔
        ∃ q, ∃ hq : q < s.cat.length, l = if q = k then { s.cat[q] with nsrc := (s.cat[q]).nsrc + (join (le_refl m) src cv thr (s.label j) (List.finRange m) s []).2.length } else s.cat[q] := by
      intro l
      rw [List.mem_iff_getElem]
      constructor
      · rintro ⟨q, hq, rfl⟩
        rw [List.length_modify] at hq
        refine ⟨q, hq, ?_⟩
        rw [List.getElem_modify]
        by_cases hqk : q = k
        · rw [if_pos hqk.symm, if_pos hqk]
        · rw [if_neg (Ne.symm hqk), if_neg hqk]
      · rintro ⟨q, hq, rfl⟩
        refine ⟨q, by rw [List.length_modify]; exact hq, ?_⟩
        rw [List.getElem_modify]
        by_cases hqk : q = k
        · rw [if_pos hqk.symm, if_pos hqk]
        · rw [if_neg (Ne.symm hqk), if_neg hqk]
    refine ⟨_, s.label j, rfl, ⟨r2, ?_, ?_, ?_, ?_⟩, hj0, r3', Or.inr ⟨j, t, rfl, h3, h4, hj0, fun k hk => h5 k ((hg.grp k).2 hk)⟩⟩
    · dsimp only
      rw [r1, List.length_modify, ← hg.ids]
      apply List.ext_getElem
      · simp
      · intro q h1 h2
        simp only [List.getElem_map, List.getElem_modify]
        split <;> rfl
    · intro i hi
      dsimp only at hi ⊢
      rw [r1]
      have hx : ∃ l ∈ s.cat, l.id = (join (le_refl m) src cv thr (s.label j) (List.finRange m) s []).1.label i ∧ l.fit = false := by
        rw [r3'] at hi ⊢
        split at hi
        · next hs => rw [if_pos hs]; exact ⟨l0, hl0, e0, hf0⟩
        · next hs => rw [if_neg hs]; exact hg.line i hi
      obtain ⟨l, hl, e, hf⟩ := hx
      obtain ⟨q, hq, rfl⟩ := List.mem_iff_getElem.1 hl
      refine ⟨_, (hmod _).2 ⟨q, hq, rfl⟩, ?_, ?_⟩
      · split <;> exact e
      · split <;> exact hf
    · intro l hl hf
      dsimp only at hl ⊢
      rw [r1, hmod] at hl
      obtain ⟨q, hq, rfl⟩ := hl
      have hgq := hall q hq
      have hgk := hall k hklt
      by_cases hqk : q = k
      · rw [if_pos hqk] at hf ⊢
        dsimp only at hf ⊢
        have hn := hg.nsrc _ (List.getElem_mem hq) hf
        have := r4 (s.cat[q]).id (by omega)
        rw [if_pos (by omega), if_pos (by omega)] at this
        simp only [List.length_nil] at this
        omega
      · rw [if_neg hqk] at hf ⊢
        have hn := hg.nsrc _ (List.getElem_mem hq) hf
        have := r4 (s.cat[q]).id (by omega)
        rw [if_neg (by omega), if_neg (by omega)] at this
        omega
    · rw [r1]
      intro h
      exact hg.some (by simpa using congrArg List.length h)

/-! ### C201 -/

open Classical in
/-- A bad source gives its neighbours without group (and itself, if it has none) the group of the grouped source with the highest covariance above the threshold, or a new one if there is no such
source; the other sources keep their groups. -/
theorem C201_choice (src : Fin m → Src) (hsrc : ∀ j, (src j).fit = false → (src j).members.length = 1) (cv : Fin m → Fin m → Option K) (thr : K) (s : St m) (hg : Good src s) (hl : ∃ j, s.label j ≠ 0) (i : Fin m) :
    ∃ s' gid, post (le_refl m) src cv thr [i] s = .ok s' ∧ (∀ j, s'.label j = if Near cv thr i j ∧ s.label j = 0 then gid else s.label j) ∧
      ((gid = s.cat.length + 1 ∧ ∀ j, s.label j ≠ 0 → ¬ Near cv thr i j) ∨
        ∃ j t, gid = s.label j ∧ cv i j = some t ∧ Near cv thr i j ∧ s.label j ≠ 0 ∧ ∀ k, s.label k ≠ 0 → ∀ u ∈ cv i k, u ≤ t) := by
  obtain ⟨s', gid, h1, -, -, h4, h5⟩ := step_spec src hsrc (cv i) thr s hg
  refine ⟨s', gid, ?_, fun j => ?_, ?_⟩
  · rw [post, if_pos hl, List.foldlM_cons, h1]; rfl
  · rw [h4 j]
    by_cases h : Near cv thr i j ∧ s.label j = 0
    · rw [if_pos (show (∃ t ∈ cv i j, thr < t) ∧ s.label j = 0 from h), if_pos h]
    · rw [if_neg (show ¬ ((∃ t ∈ cv i j, thr < t) ∧ s.label j = 0) from h), if_neg h]
  · rcases h5 with ⟨e, h⟩ | ⟨j, t, e, h1, h2, h3, h⟩
    · exact Or.inl ⟨e, fun j hj ⟨t, ht, hlt⟩ => absurd (h j hj t ht) (not_le.2 hlt)⟩
    · exact Or.inr ⟨j, t, e, h1, ⟨t, h1, h2⟩, h3, h⟩

/-- After the loop on the bad sources, the catalogue of groups describes the groups, each bad source and its neighbours have a group, no group of a source has changed, and each of the
sources that have a new group is near to a bad source of this group. (Full statement: whatever the sources and the map. Here all the sources are on the map and at least one group exists before; the other
hypotheses hold for each positive definite matrix.) -/
theorem C201_post_partial (src : Fin m → Src) (hsrc : ∀ j, (src j).fit = false → (src j).members.length = 1) (cv : Fin m → Fin m → Option K) (thr one : K) (hthr : thr < one)
    (hself : ∀ i, cv i i = some one) (hcv : ∀ i j t, i ≠ j → cv i j = some t → t < one) (idb : List (Fin m)) (s : St m) (hg : Good src s) (hl : ∃ j, s.label j ≠ 0) :
    ∃ s', post (le_refl m) src cv thr idb s = .ok s' ∧ Good src s' ∧ (∀ j, s.label j ≠ 0 → s'.label j = s.label j) ∧
      (∀ i ∈ idb, s'.label i ≠ 0 ∧ ∀ j, Near cv thr i j → s'.label j ≠ 0) ∧
      ∀ j, s.label j = 0 → s'.label j ≠ 0 → ∃ i ∈ idb, Near cv thr i j ∧ s'.label i = s'.label j := by
  rw [post, if_pos hl]
  clear hl
  induction idb generalizing s with
  | nil => exact ⟨s, rfl, hg, fun _ _ => rfl, by simp, fun j h h' => absurd h h'⟩
  | cons i idb ih =>
    obtain ⟨s1, gid, h1, h2, h3, h4, h5⟩ := step_spec src hsrc (cv i) thr s hg
    obtain ⟨s', r1, r2, r3, r4, r5⟩ := ih s1 h2
    have keep : ∀ j, s.label j ≠ 0 → s1.label j = s.label j := fun j hj => by rw [h4, if_neg (fun h => hj h.2)]
    have near : ∀ j, Near cv thr i j → s1.label j ≠ 0 := by
      intro j hj
      by_cases h0 : s.label j = 0
      · rw [h4, if_pos ⟨hj, h0⟩]; exact h3
      · rw [keep j h0]; exact h0
    have self : Near cv thr i i := ⟨one, hself i, hthr⟩
    -- the bad source has the group that it gives
    have own : s1.label i = gid := by
      by_cases h0 : s.label i = 0
      · rw [h4, if_pos ⟨self, h0⟩]
      · rw [keep i h0]
        rcases h5 with ⟨-, h⟩ | ⟨j, t, e, e1, e2, e3, h⟩
        · exact absurd (h i h0 one (hself i)) (not_le.2 hthr)
        · have hle := h i h0 one (hself i)
          by_cases hij : i = j
          · rw [e, hij]
          · exact absurd (hcv i j t hij e1) (not_lt.2 hle)
    refine ⟨s', ?_, r2, fun j hj => ?_, fun k hk => ?_, fun j hj hj' => ?_⟩
    · rw [List.foldlM_cons, h1]; exact r1
    · rw [r3 j (by rw [keep j hj]; exact hj), keep j hj]
    · rcases List.mem_cons.1 hk with rfl | hk
      · exact ⟨by rw [r3 k (near k self)]; exact near k self, fun j hj => by rw [r3 j (near j hj)]; exact near j hj⟩
      · exact r4 k hk
    · by_cases hs : s1.label j = 0
      · obtain ⟨k, hk, h⟩ := r5 j hs hj'
        exact ⟨k, List.mem_cons_of_mem _ hk, h⟩
      · have h6 := h4 j
        by_cases hn : (∃ t ∈ cv i j, thr < t) ∧ s.label j = 0
        · rw [if_pos hn] at h6
          refine ⟨i, by simp, hn.1, ?_⟩
          rw [r3 i (near i self), r3 j hs, own, h6]
        · rw [if_neg hn] at h6
          exact absurd (h6.trans hj) hs

/-- three fitted sources: a fitted group of the sources 0 and 1 of the catalogue, in the group 1, and the sources 2 and 3, without group -/
def srcEx : Fin 3 → Src := ![⟨[0, 1], true⟩, ⟨[2], false⟩, ⟨[3], false⟩]
def stEx : St 3 := ⟨![true, false, false], ![1, 0, 0], [⟨1, 2, [0, 1], false⟩]⟩

theorem stEx_good : Good srcEx stEx where
  grp := by decide
  ids := by decide
  line := by decide
  nsrc := by decide
  some := by decide

/-- the covariances in percent: in the first case the bad source 1 covaries with the group, in the second only with the source 2 -/
def cvEx (a b : Int) : Fin 3 → Fin 3 → Option Int := ![![some 100, some a, some 0], ![some a, some 100, some b], ![some 0, some b, some 100]]

example : (∀ j, (srcEx j).fit = false → (srcEx j).members.length = 1) ∧ (∀ i, cvEx 90 85 i i = some 100) ∧ (∀ i j, i ≠ j → ∀ t ∈ cvEx 90 85 i j, t < 100) := by decide

/-- what is seen of the result -/
def seen : Res (St 3) → Option (List Nat × List Line)
  | .ok s => some (List.ofFn s.label, s.cat)
  | _ => none

example : seen (post (le_refl 3) srcEx (cvEx 90 85) (80 : Int) [1] stEx) = some ([1, 1, 1], [⟨1, 4, [0, 1], false⟩]) := by decide +kernel
example : seen (post (le_refl 3) srcEx (cvEx 10 20) (80 : Int) [1] stEx) = some ([1, 2, 0], [⟨1, 2, [0, 1], false⟩, ⟨2, 1, [1], false⟩]) := by decide +kernel

/-- The position of a new group is not that of its sources, if a group of sources is fitted as one: the bad source 1 is the source 2 of the catalogue, and its new group has the position of the
source 1 of the catalogue. -/
theorem C201_position_refuted : ¬ ∀ (m : Nat) (src : Fin m → Src) (cv : Fin m → Fin m → Option Int) (s s' : St m) (idb : List (Fin m)),
    (∀ j, (src j).fit = false → (src j).members.length = 1) → Good src s → (∃ j, s.label j ≠ 0) → post (le_refl m) src cv 80 idb s = .ok s' →
    ∀ l ∈ s'.cat, l ∉ s.cat → ∀ k ∈ l.pos, ∃ j, s'.label j = l.id ∧ k ∈ (src j).members := by
  intro h
  have := h 3 srcEx (cvEx 10 20) stEx ⟨![true, true, false], ![1, 2, 0], [⟨1, 2, [0, 1], false⟩, ⟨2, 1, [1], false⟩]⟩ [1] (by decide) stEx_good ⟨0, by decide⟩
    (by
      have e : ∀ r : Res (St 3), seen r = some ([1, 2, 0], [⟨1, 2, [0, 1], false⟩, ⟨2, 1, [1], false⟩]) → (∀ s, r = .ok s → List.ofFn s.grp = [true, true, false]) →
          r = .ok ⟨![true, true, false], ![1, 2, 0], [⟨1, 2, [0, 1], false⟩, ⟨2, 1, [1], false⟩]⟩ := by
        intro r hr hg
        match r, hr, hg with
        | .ok ⟨g, l, c⟩, hr, hg =>
          have hg := hg _ rfl
          simp only [seen, Option.some.injEq, Prod.mk.injEq] at hr
          obtain ⟨h1, h2⟩ := hr
          have a1 : g = ![true, true, false] := List.ofFn_injective (by rw [hg]; decide)
          have a2 : l = ![1, 2, 0] := List.ofFn_injective (by rw [h1]; decide)
          rw [a1, a2, h2]
      refine e _ (by decide +kernel) ?_
      intro s hs
      have : (match post (le_refl 3) srcEx (cvEx 10 20) (80 : Int) [1] stEx with | .ok s => List.ofFn s.grp | _ => []) = [true, true, false] := by decide +kernel
      rw [hs] at this
      exact this)
  revert this
  decide

/-- If a source is not on the map, the groups of the others are mixed up: here the source 0 is off the map and has the group 1; the source 1, the only one on the map, is bad, but gets no group. -/
theorem C201_offmap_refuted : ∃ (src : Fin 2 → Src) (s s' : St 2), (∀ j, (src j).fit = false → (src j).members.length = 1) ∧ Good src s ∧
    post (nobs := 1) (by omega) src (fun _ _ => some (100 : Int)) 80 [0] s = .ok s' ∧ s'.label 1 = 0 := by
  refine ⟨![⟨[0], false⟩, ⟨[1], false⟩], ⟨![true, false], ![1, 0], [⟨1, 1, [0], false⟩]⟩, _, by decide, ⟨by decide, by decide, by decide, by decide, by decide⟩, rfl, ?_⟩
  decide +kernel

/-- If no group was made before the fit, the bad sources get none. -/
theorem C201_alone_refuted (hle : nobs ≤ m) (src : Fin m → Src) (cv : Fin nobs → Fin nobs → Option K) (thr : K) (idb : List (Fin nobs)) (s s' : St m) (h0 : ∀ j, s.label j = 0)
    (h : post hle src cv thr idb s = .ok s') : ∀ i, s'.label i = 0 := by
  have : ¬ ∃ j, s.label j ≠ 0 := fun ⟨j, hj⟩ => hj (h0 j)
  rw [post, if_neg this] at h
  cases h
  exact h0

example : seen (post (le_refl 3) srcEx (cvEx 90 85) (80 : Int) [1] ⟨![false, false, false], ![0, 0, 0], []⟩) = some ([0, 0, 0], []) := by decide +kernel

end Verif.ExtractPost
