import Verif.Basic
import Mathlib.Data.List.Nodup
import Mathlib.Data.List.Perm.Subperm
/-!
# The groups of sources of `pixfit-gfit` (C194)

`fg i b` is the flux group of the source `i` in the band `b` (`none` for `npos`), after the selection of `pixfit-gfit.cpp:280-342`: a source has no flux group in the bands that
are below the shortest wavelength, so that `ggg(i,b)` is `fg i b ≠ npos`. `gff i b`: the source has a measurement of its own.
-/
namespace Verif.GfitGroups

/-- the test of `pixfit-gfit.cpp:411-412`, on all bands (`pixfit-gfit.cpp:410`) -/
def shares (nb : Nat) (fg : Nat → Nat → Option Nat) (i j : Nat) : Bool := (List.range nb).any fun b => fg i b = fg j b && (fg i b).isSome

/-- the loop on the other sources (`pixfit-gfit.cpp:408-418`): the sources that are done and those of the group -/
def connect (nb : Nat) (fg : Nat → Nat → Option Nat) (i : Nat) : List Nat → List Nat × List Nat → List Nat × List Nat
  | [], s => s
  | j :: js, (done, sids) => connect nb fg i js (if j ∈ done then (done, sids) else if shares nb fg i j then (done ++ [j], sids ++ [j]) else (done, sids))

/-- the group of the source `i` (`pixfit-gfit.cpp:372-418`) -/
def groupOf (n nb : Nat) (fg : Nat → Nat → Option Nat) (done : List Nat) (i : Nat) : List Nat × List Nat :=
  if (List.range nb).any fun b => (fg i b).isSome then connect nb fg i (List.range n) (done ++ [i], [i]) else (done ++ [i], [i])

/-- the loop on the sources (`pixfit-gfit.cpp:368-458`) -/
def groupLoop (n nb : Nat) (fg : Nat → Nat → Option Nat) : List Nat → List Nat → List (List Nat)
  | [], _ => []
  | i :: is, done => if i ∈ done then groupLoop n nb fg is done else (groupOf n nb fg done i).2 :: groupLoop n nb fg is (groupOf n nb fg done i).1

/-- the groups of sources that are fitted together -/
def groups (n nb : Nat) (fg : Nat → Nat → Option Nat) : List (List Nat) := groupLoop n nb fg (List.range n) []

/-- a measurement: of a source in a band, or of a flux group -/
inductive Meas where
  | single (k b : Nat)
  | group (g : Nat)
deriving DecidableEq

/-- `f.measures`, `f.measure_id` and `group_id` -/
structure St where
  meas : List Meas
  mid : Nat → Nat → Option Nat
  gid : Nat → Option Nat

/-- the single measurements of the source `k` at position `j` (`pixfit-gfit.cpp:427-434`) -/
def addSingle (nb : Nat) (gff : Nat → Nat → Bool) (s : St) (p : Nat × Nat) : St :=
  let idm := (List.range nb).filter (gff p.2)
  { s with meas := s.meas ++ idm.map (Meas.single p.2), mid := fun j b => if j = p.1 ∧ b ∈ idm then some (s.meas.length + idm.idxOf b) else s.mid j b }

/-- the flux group of one source in one band (`pixfit-gfit.cpp:440-453`) -/
def addGroup (fg : Nat → Nat → Option Nat) (p : Nat × Nat) (s : St) (b : Nat) : St :=
  match fg p.2 b with
  | none => s
  | some g => match s.gid g with
    | some m => { s with mid := fun j b' => if j = p.1 ∧ b' = b then some m else s.mid j b' }
    | none => ⟨s.meas ++ [.group g], fun j b' => if j = p.1 ∧ b' = b then some s.meas.length else s.mid j b', fun g' => if g' = g then some s.meas.length else s.gid g'⟩

/-- the flux groups of one source (`pixfit-gfit.cpp:440-454`) -/
def addGroups (nb : Nat) (fg : Nat → Nat → Option Nat) (s : St) (p : Nat × Nat) : St := (List.range nb).foldl (addGroup fg p) s

/-- the measurements of a group of sources (`pixfit-gfit.cpp:420-455`; for a source alone, 386-393 is the same without flux groups) -/
def measures (nb : Nat) (fg : Nat → Nat → Option Nat) (gff : Nat → Nat → Bool) (sids : List Nat) : St :=
  let ps := (List.range sids.length).zip sids
  ps.foldl (addGroups nb fg) (ps.foldl (addSingle nb gff) ⟨[], fun _ _ => none, fun _ => none⟩)

/-! ### Helpers -/

theorem shares_iff {nb : Nat} {fg : Nat → Nat → Option Nat} {i j : Nat} : shares nb fg i j = true ↔ ∃ b < nb, ∃ g, fg i b = some g ∧ fg j b = some g := by
  unfold shares
  simp only [List.any_eq_true, List.mem_range, Bool.and_eq_true, decide_eq_true_eq, Option.isSome_iff_exists]
  constructor
  · rintro ⟨b, hb, e, g, hg⟩; exact ⟨b, hb, g, hg, e ▸ hg⟩
  · rintro ⟨b, hb, g, h1, h2⟩; exact ⟨b, hb, h1.trans h2.symm, g, h1⟩

theorem shares_symm {nb : Nat} {fg : Nat → Nat → Option Nat} {i j : Nat} (h : shares nb fg i j = true) : shares nb fg j i = true := by
  obtain ⟨b, hb, g, h1, h2⟩ := shares_iff.1 h
  exact shares_iff.2 ⟨b, hb, g, h2, h1⟩

theorem connect_spec (nb : Nat) (fg : Nat → Nat → Option Nat) (i : Nat) (js : List Nat) (hj : js.Nodup) (done sids : List Nat) :
    connect nb fg i js (done, sids) = (done ++ js.filter (fun j => j ∉ done && shares nb fg i j), sids ++ js.filter (fun j => j ∉ done && shares nb fg i j)) := by
  induction js generalizing done sids with
  | nil => simp [connect]
  | cons j js ih =>
    unfold connect
    have hn := List.nodup_cons.1 hj
    by_cases h1 : j ∈ done
    · rw [if_pos h1, ih hn.2, List.filter_cons_of_neg (by simp [h1])]
    · rw [if_neg h1]
      by_cases h2 : shares nb fg i j = true
      · rw [if_pos h2, ih hn.2, List.filter_cons_of_pos (by simp [h1, h2])]
        have e : js.filter (fun x => x ∉ done ++ [j] && shares nb fg i x) = js.filter (fun x => x ∉ done && shares nb fg i x) := by
          apply List.filter_congr
          intro x hx
          have : x ≠ j := by rintro rfl; exact hn.1 hx
          simp [this]
        rw [e]
        simp
      · rw [if_neg h2, ih hn.2, List.filter_cons_of_neg (by simp [h2])]

/-- the group of a source -/
theorem groupOf_spec (n nb : Nat) (fg : Nat → Nat → Option Nat) (done : List Nat) (i : Nat) :
    groupOf n nb fg done i = (done ++ i :: (List.range n).filter (fun j => j ∉ done ++ [i] && shares nb fg i j), i :: (List.range n).filter (fun j => j ∉ done ++ [i] && shares nb fg i j)) := by
  unfold groupOf
  split
  · rw [connect_spec nb fg i _ List.nodup_range]
    simp
  · next h =>
    have : (List.range n).filter (fun j => j ∉ done ++ [i] && shares nb fg i j) = [] := by
      rw [List.filter_eq_nil_iff]
      intro j _
      have hs : ¬ shares nb fg i j = true := by
        intro hs
        obtain ⟨b, hb, g, h1, -⟩ := shares_iff.1 hs
        exact h (by rw [List.any_eq_true]; exact ⟨b, List.mem_range.2 hb, by rw [h1]; rfl⟩)
      simp [hs]
    rw [this]

/-- the sources that are not yet done, each once -/
theorem groupLoop_nodup (n nb : Nat) (fg : Nat → Nat → Option Nat) (is : List Nat) (done : List Nat) (his : ∀ i ∈ is, i < n) :
    (groupLoop n nb fg is done).flatten.Nodup ∧ (∀ x ∈ (groupLoop n nb fg is done).flatten, x ∉ done ∧ x < n) ∧ ∀ i ∈ is, i ∈ done ∨ i ∈ (groupLoop n nb fg is done).flatten := by
  induction is generalizing done with
  | nil => simp [groupLoop]
  | cons i is ih =>
    unfold groupLoop
    split
    · next h =>
      obtain ⟨h1, h2, h3⟩ := ih done (fun x hx => his x (by simp [hx]))
      refine ⟨h1, h2, fun x hx => ?_⟩
      rcases List.mem_cons.1 hx with rfl | hx
      exacts [Or.inl h, h3 x hx]
    · next h =>
      rw [groupOf_spec]
      set G := (List.range n).filter (fun j => j ∉ done ++ [i] && shares nb fg i j) with hG
      obtain ⟨h1, h2, h3⟩ := ih (done ++ i :: G) (fun x hx => his x (by simp [hx]))
      have hGm : ∀ x ∈ G, x ∉ done ∧ x ≠ i ∧ x < n := by
        intro x hx
        rw [hG, List.mem_filter] at hx
        simp at hx
        exact ⟨hx.2.1.1, hx.2.1.2, hx.1⟩
      rw [List.flatten_cons]
      refine ⟨?_, ?_, ?_⟩
      · rw [List.nodup_append]
        refine ⟨List.nodup_cons.2 ⟨fun hi => (hGm i hi).2.1 rfl, List.nodup_range.filter _⟩, h1, ?_⟩
        rintro a ha b hb rfl
        exact (h2 a hb).1 (List.mem_append_right _ ha)
      · intro x hx
        rcases List.mem_append.1 hx with hx | hx
        · rcases List.mem_cons.1 hx with rfl | hx
          · exact ⟨h, his x (by simp)⟩
          · exact ⟨(hGm x hx).1, (hGm x hx).2.2⟩
        · exact ⟨fun hd => (h2 x hx).1 (List.mem_append_left _ hd), (h2 x hx).2⟩
      · intro x hx
        rcases List.mem_cons.1 hx with rfl | hx
        · exact Or.inr (by simp)
        · rcases h3 x hx with h | h
          · rcases List.mem_append.1 h with h | h
            · exact Or.inl h
            · exact Or.inr (List.mem_append_left _ h)
          · exact Or.inr (List.mem_append_right _ h)

/-- a group: a source and those that share a flux group with it, except those of previous groups -/
theorem groupLoop_mem (n nb : Nat) (fg : Nat → Nat → Option Nat) (is : List Nat) (done : List Nat) (g : List Nat) (hg : g ∈ groupLoop n nb fg is done) :
    ∃ i d, g = i :: (List.range n).filter (fun j => j ∉ d ++ [i] && shares nb fg i j) := by
  induction is generalizing done with
  | nil => simp [groupLoop] at hg
  | cons i is ih =>
    unfold groupLoop at hg
    split at hg
    · exact ih _ hg
    · rcases List.mem_cons.1 hg with rfl | hg
      · exact ⟨i, done, by rw [groupOf_spec]⟩
      · exact ih _ hg

/-- with a transitive relation no source is separated from another that shares a flux group with it -/
theorem groupLoop_closed (n nb : Nat) (fg : Nat → Nat → Option Nat)
    (ht : ∀ i j k, i < n → j < n → k < n → shares nb fg i j = true → shares nb fg j k = true → shares nb fg i k = true)
    (is : List Nat) (his : ∀ i ∈ is, i < n) (done : List Nat) (hd : ∀ x ∈ done, ∀ y < n, shares nb fg x y = true → y ∈ done) (hdn : ∀ x ∈ done, x < n)
    (g : List Nat) (hg : g ∈ groupLoop n nb fg is done) (x y : Nat) (hx : x ∈ g) (hy : y < n) (hs : shares nb fg x y = true) : y ∈ g := by
  induction is generalizing done with
  | nil => simp [groupLoop] at hg
  | cons i is ih =>
    unfold groupLoop at hg
    split at hg
    · exact ih (fun x hx => his x (by simp [hx])) done hd hdn hg
    · next hi =>
      have hin := his i (by simp)
      rw [groupOf_spec] at hg
      set G := (List.range n).filter (fun j => j ∉ done ++ [i] && shares nb fg i j) with hG
      have hGm : ∀ x, x ∈ G ↔ x < n ∧ x ∉ done ∧ x ≠ i ∧ shares nb fg i x = true := by
        intro x
        rw [hG, List.mem_filter]
        simp
        tauto
      have closed : ∀ x ∈ i :: G, ∀ y < n, shares nb fg x y = true → y ∈ i :: G := by
        intro x hx y hy hs
        have hxn : x < n := by
          rcases List.mem_cons.1 hx with rfl | hx
          exacts [hin, ((hGm x).1 hx).1]
        by_cases hyi : y = i
        · rw [hyi]; simp
        · have hsy : shares nb fg i y = true := by
            rcases List.mem_cons.1 hx with rfl | hx
            · exact hs
            · exact ht i x y hin hxn hy ((hGm x).1 hx).2.2.2 hs
          have hyd : y ∉ done := fun h => hi (hd y h i hin (shares_symm hsy))
          exact List.mem_cons_of_mem _ ((hGm y).2 ⟨hy, hyd, hyi, hsy⟩)
      rcases List.mem_cons.1 hg with rfl | hg
      · exact closed x hx y hy hs
      · refine ih (fun x hx => his x (by simp [hx])) (done ++ i :: G) ?_ ?_ hg
        · intro a ha b hb hab
          rcases List.mem_append.1 ha with ha | ha
          · exact List.mem_append_left _ (hd a ha b hb hab)
          · exact List.mem_append_right _ (closed a ha b hb hab)
        · intro a ha
          rcases List.mem_append.1 ha with ha | ha
          · exact hdn a ha
          · rcases List.mem_cons.1 ha with rfl | ha
            exacts [hin, ((hGm a).1 ha).1]

/-! ### C194: the groups -/

/-- Each source is fitted exactly once. -/
theorem C194_partition (n nb : Nat) (fg : Nat → Nat → Option Nat) : (groups n nb fg).flatten.Perm (List.range n) := by
  obtain ⟨h1, h2, h3⟩ := groupLoop_nodup n nb fg (List.range n) [] (fun i hi => List.mem_range.1 hi)
  unfold groups
  rw [List.perm_ext_iff_of_nodup h1 List.nodup_range]
  intro x
  constructor
  · intro hx; exact List.mem_range.2 (h2 x hx).2
  · intro hx
    rcases h3 x hx with h | h
    · simp at h
    · exact h

/-- All the sources of a group share a flux group with the first one. -/
theorem C194_leader (n nb : Nat) (fg : Nat → Nat → Option Nat) (g : List Nat) (hg : g ∈ groups n nb fg) :
    ∃ i r, g = i :: r ∧ ∀ j ∈ r, ∃ b < nb, ∃ k, fg i b = some k ∧ fg j b = some k := by
  obtain ⟨i, d, rfl⟩ := groupLoop_mem n nb fg _ _ g hg
  refine ⟨i, _, rfl, fun j hj => ?_⟩
  rw [List.mem_filter] at hj
  simp only [Bool.and_eq_true] at hj
  exact shares_iff.1 hj.2.2

/-- If sharing a flux group is transitive, two different sources are fitted together exactly if they share a flux group. -/
theorem C194_together_partial (n nb : Nat) (fg : Nat → Nat → Option Nat)
    (ht : ∀ i j k, i < n → j < n → k < n → shares nb fg i j = true → shares nb fg j k = true → shares nb fg i k = true)
    (g : List Nat) (hg : g ∈ groups n nb fg) (x y : Nat) (hx : x ∈ g) (hy : y < n) (hxy : x ≠ y) : y ∈ g ↔ ∃ b < nb, ∃ k, fg x b = some k ∧ fg y b = some k := by
  constructor
  · intro hyg
    have hn : ∀ z ∈ g, z < n := fun z hz => List.mem_range.1 ((C194_partition n nb fg).mem_iff.1 (List.mem_flatten.2 ⟨g, hg, hz⟩))
    obtain ⟨i, r, rfl, hr⟩ := C194_leader n nb fg g hg
    have hr' : ∀ j ∈ r, shares nb fg i j = true := fun j hj => shares_iff.2 (hr j hj)
    apply shares_iff.1
    rcases List.mem_cons.1 hx with rfl | hx'
    · rcases List.mem_cons.1 hyg with rfl | hyg
      · exact absurd rfl hxy
      · exact hr' y hyg
    · rcases List.mem_cons.1 hyg with rfl | hyg
      · exact shares_symm (hr' x hx')
      · exact ht x i y (hn x hx) (hn i (by simp)) hy (shares_symm (hr' x hx')) (hr' y hyg)
  · intro h
    exact groupLoop_closed n nb fg ht _ (fun i hi => List.mem_range.1 hi) [] (by simp) (by simp) g hg x y hx hy (shares_iff.2 h)

/-- the flux groups of three sources: 0 and 1 in the first band, 1 and 2 in the second -/
def chain (i b : Nat) : Option Nat := if b = 0 then (if i ≤ 1 then some 0 else none) else if b = 1 then (if i = 1 ∨ i = 2 then some 1 else none) else none

/-- Connections through another source are not followed: 1 and 2 share a flux group and are not fitted together. -/
theorem C194_chain_refuted : groups 3 2 chain = [[0, 1], [2]] ∧ chain 1 1 = some 1 ∧ chain 2 1 = some 1 := by decide

example : groups 4 2 (fun i b => if b = 0 ∧ (i = 0 ∨ i = 2) then some 5 else none) = [[0, 2], [1], [3]] := by decide

/-! ### C194: the measurements of a group -/

/-- the measurements of the sources: the first loop -/
theorem singles_spec (nb : Nat) (gff : Nat → Nat → Bool) (ps : List (Nat × Nat)) (hps : (ps.map Prod.fst).Nodup) (s0 : St) (h0 : ∀ p ∈ ps, ∀ b, s0.mid p.1 b = none) :
    let s := ps.foldl (addSingle nb gff) s0
    s.meas = s0.meas ++ ps.flatMap (fun p => ((List.range nb).filter (gff p.2)).map (Meas.single p.2)) ∧ s.gid = s0.gid ∧
    (∀ p ∈ ps, ∀ b < nb, if gff p.2 b then ∃ m, s.mid p.1 b = some m ∧ s.meas[m]? = some (.single p.2 b) else s.mid p.1 b = none) ∧
    (∀ j b, j ∉ ps.map Prod.fst → s.mid j b = s0.mid j b) := by
  induction ps generalizing s0 with
  | nil => simp
  | cons p ps ih =>
    simp only [List.map_cons, List.nodup_cons] at hps
    have h1 : ∀ q ∈ ps, ∀ b, (addSingle nb gff s0 p).mid q.1 b = none := by
      intro q hq b
      have : q.1 ≠ p.1 := fun e => hps.1 (e ▸ List.mem_map_of_mem hq)
      show (if q.1 = p.1 ∧ _ then _ else _) = none
      rw [if_neg (fun h => this h.1)]
      exact h0 q (by simp [hq]) b
    obtain ⟨a1, a2, a3, a4⟩ := ih hps.2 (addSingle nb gff s0 p) h1
    rw [List.foldl_cons]
    refine ⟨?_, a2, ?_, ?_⟩
    · rw [a1]
      show (s0.meas ++ _) ++ _ = _
      simp [List.append_assoc]
    · intro q hq b hb
      rcases List.mem_cons.1 hq with rfl | hq
      · have e := a4 q.1 b hps.1
        by_cases hg : gff q.2 b = true
        · rw [if_pos hg]
          have hm : b ∈ (List.range nb).filter (gff q.2) := List.mem_filter.2 ⟨List.mem_range.2 hb, hg⟩
          refine ⟨s0.meas.length + ((List.range nb).filter (gff q.2)).idxOf b, ?_, ?_⟩
          · rw [e]
            show (if q.1 = q.1 ∧ b ∈ _ then _ else _) = _
            rw [if_pos ⟨rfl, hm⟩]
          · rw [a1]
            show ((s0.meas ++ ((List.range nb).filter (gff q.2)).map (Meas.single q.2)) ++ _)[_]? = _
            have hlt := List.idxOf_lt_length_of_mem hm
            rw [List.append_assoc, List.getElem?_append_right (by omega), Nat.add_sub_cancel_left, List.getElem?_append_left (by simpa using hlt), List.getElem?_map,
              List.getElem?_eq_getElem hlt, List.getElem_idxOf]
            rfl
        · rw [if_neg hg, e]
          show (if q.1 = q.1 ∧ b ∈ _ then _ else _) = _
          rw [if_neg (fun h => hg (List.mem_filter.1 h.2).2)]
          exact h0 q (by simp) b
      · exact a3 q hq b hb
    · intro j b hj
      simp only [List.map_cons, List.mem_cons, not_or] at hj
      rw [a4 j b hj.2]
      show (if j = p.1 ∧ _ then _ else _) = _
      rw [if_neg (fun h => hj.1 h.1)]

/-- the flux groups: the second loop, on pairs of a source and a band -/
structure GroupInv (fg : Nat → Nat → Option Nat) (s0 : St) (Q : List ((Nat × Nat) × Nat)) (s : St) : Prop where
  set : ∀ q ∈ Q, ∀ g, fg q.1.2 q.2 = some g → ∃ m, s.mid q.1.1 q.2 = some m ∧ s.meas[m]? = some (.group g)
  keep : ∀ j b, (∀ q ∈ Q, q.1.1 = j → q.2 = b → fg q.1.2 q.2 = none) → s.mid j b = s0.mid j b
  meas : ∃ r : List Nat, s.meas = s0.meas ++ r.map .group ∧ r.Nodup ∧ (∀ g, g ∈ r ↔ ∃ q ∈ Q, fg q.1.2 q.2 = some g) ∧ ∀ g, s.gid g = none ↔ g ∉ r
  gid : ∀ g m, s.gid g = some m → s.meas[m]? = some (.group g)

theorem group_step (fg : Nat → Nat → Option Nat) (s0 : St) (Q : List ((Nat × Nat) × Nat)) (s : St) (h : GroupInv fg s0 Q s) (q : (Nat × Nat) × Nat)
    (hq : ∀ q' ∈ Q, q'.1.1 = q.1.1 → q'.2 = q.2 → False) : GroupInv fg s0 (Q ++ [q]) (addGroup fg q.1 s q.2) := by
  obtain ⟨r, hr1, hr2, hr3, hr4⟩ := h.meas
  unfold addGroup
  cases hg : fg q.1.2 q.2 with
  | none =>
    refine ⟨?_, ?_, ⟨r, hr1, hr2, fun g => ?_, hr4⟩, h.gid⟩
    · intro q' hq' g hg'
      rcases List.mem_append.1 hq' with hq' | hq'
      · exact h.set q' hq' g hg'
      · rw [List.mem_singleton.1 hq', hg] at hg'; cases hg'
    · intro j b hk
      exact h.keep j b fun q' hq' => hk q' (List.mem_append_left _ hq')
    · rw [hr3]
      constructor
      · rintro ⟨q', h1, h2⟩; exact ⟨q', List.mem_append_left _ h1, h2⟩
      · rintro ⟨q', h1, h2⟩
        rcases List.mem_append.1 h1 with h1 | h1
        · exact ⟨q', h1, h2⟩
        · rw [List.mem_singleton.1 h1, hg] at h2; cases h2
  | some g =>
    cases hi : s.gid g with
    | some m =>
      simp only [hi]
      have hm := h.gid g m hi
      refine ⟨?_, ?_, ⟨r, hr1, hr2, fun g' => ?_, hr4⟩, h.gid⟩
      · intro q' hq' g' hg'
        rcases List.mem_append.1 hq' with hq' | hq'
        · obtain ⟨m', e1, e2⟩ := h.set q' hq' g' hg'
          refine ⟨m', ?_, e2⟩
          show (if q'.1.1 = q.1.1 ∧ q'.2 = q.2 then _ else _) = _
          rw [if_neg (fun e => hq q' hq' e.1 e.2), e1]
        · obtain rfl := List.mem_singleton.1 hq'
          rw [hg] at hg'
          obtain rfl := Option.some.inj hg'
          exact ⟨m, if_pos ⟨rfl, rfl⟩, hm⟩
      · intro j b hk
        show (if j = q.1.1 ∧ b = q.2 then _ else _) = _
        rw [if_neg]
        · exact h.keep j b fun q' hq' => hk q' (List.mem_append_left _ hq')
        · rintro ⟨rfl, rfl⟩
          have := hk q (by simp) rfl rfl
          rw [hg] at this; cases this
      · rw [hr3]
        constructor
        · rintro ⟨q', h1, h2⟩; exact ⟨q', List.mem_append_left _ h1, h2⟩
        · rintro ⟨q', h1, h2⟩
          rcases List.mem_append.1 h1 with h1 | h1
          · exact ⟨q', h1, h2⟩
          · rw [List.mem_singleton.1 h1, hg] at h2
            obtain rfl := Option.some.inj h2
            have : g ∈ r := by
              by_contra hn
              rw [(hr4 g).2 hn] at hi
              cases hi
            exact (hr3 g).1 this
    | none =>
      simp only [hi]
      have hgr := (hr4 g).1 hi
      refine ⟨?_, ?_, ⟨r ++ [g], ?_, ?_, fun g' => ?_, ?_⟩, ?_⟩
      · intro q' hq' g' hg'
        rcases List.mem_append.1 hq' with hq' | hq'
        · obtain ⟨m', e1, e2⟩ := h.set q' hq' g' hg'
          refine ⟨m', ?_, ?_⟩
          · show (if q'.1.1 = q.1.1 ∧ q'.2 = q.2 then _ else _) = _
            rw [if_neg (fun e => hq q' hq' e.1 e.2), e1]
          · show (s.meas ++ _)[m']? = _
            rw [List.getElem?_append_left (List.getElem?_eq_some_iff.1 e2).1, e2]
        · obtain rfl := List.mem_singleton.1 hq'
          rw [hg] at hg'
          obtain rfl := Option.some.inj hg'
          refine ⟨s.meas.length, if_pos ⟨rfl, rfl⟩, ?_⟩
          show (s.meas ++ _)[_]? = _
          simp
      · intro j b hk
        show (if j = q.1.1 ∧ b = q.2 then _ else _) = _
        rw [if_neg]
        · exact h.keep j b fun q' hq' => hk q' (List.mem_append_left _ hq')
        · rintro ⟨rfl, rfl⟩
          have := hk q (by simp) rfl rfl
          rw [hg] at this; cases this
      · show s.meas ++ [.group g] = _
        rw [hr1]; simp
      · exact List.Nodup.append hr2 (by simp) (by simpa using hgr)
      · rw [List.mem_append, List.mem_singleton, hr3]
        constructor
        · rintro (⟨q', h1, h2⟩ | rfl)
          · exact ⟨q', List.mem_append_left _ h1, h2⟩
          · exact ⟨q, by simp, hg⟩
        · rintro ⟨q', h1, h2⟩
          rcases List.mem_append.1 h1 with h1 | h1
          · exact Or.inl ⟨q', h1, h2⟩
          · rw [List.mem_singleton.1 h1, hg] at h2
            exact Or.inr (Option.some.inj h2).symm
      · intro g'
        show (if g' = g then _ else _) = none ↔ _
        rw [List.mem_append, List.mem_singleton, not_or]
        split
        · next he => simp [he]
        · next hne => rw [hr4 g']; simp [hne]
      · intro g' m' hg'
        change (if g' = g then _ else _) = some m' at hg'
        show (s.meas ++ _)[m']? = _
        split at hg'
        · next he =>
          obtain rfl := Option.some.inj hg'
          rw [he]; simp
        · have := h.gid g' m' hg'
          rw [List.getElem?_append_left (List.getElem?_eq_some_iff.1 this).1, this]

/-- the second loop -/
theorem group_fold (fg : Nat → Nat → Option Nat) (s0 : St) (R : List ((Nat × Nat) × Nat)) (Q : List ((Nat × Nat) × Nat)) (s : St) (h : GroupInv fg s0 Q s)
    (hR : ((Q ++ R).map fun q => (q.1.1, q.2)).Nodup) : GroupInv fg s0 (Q ++ R) (R.foldl (fun s q => addGroup fg q.1 s q.2) s) := by
  induction R generalizing Q s with
  | nil => simpa using h
  | cons q R ih =>
    have hq : ∀ q' ∈ Q, q'.1.1 = q.1.1 → q'.2 = q.2 → False := by
      intro q' hq' e1 e2
      rw [List.map_append, List.nodup_append] at hR
      exact hR.2.2 _ (List.mem_map_of_mem hq') _ (List.mem_map_of_mem (List.mem_cons_self)) (by rw [e1, e2])
    have := ih (Q ++ [q]) (addGroup fg q.1 s q.2) (group_step fg s0 Q s h q hq) (by simpa using hR)
    simpa using this

/-- The measurements of a group of sources: each source has in each band the flux of its flux group, or else its own measurement if it has one, or else none. No measurement
appears twice: a flux group counts once for all its sources. -/
theorem C194_measures (nb : Nat) (fg : Nat → Nat → Option Nat) (gff : Nat → Nat → Bool) (sids : List Nat) (hn : sids.Nodup) :
    (∀ (j k b : Nat), sids[j]? = some k → b < nb →
      (∀ g, fg k b = some g → ∃ m, (measures nb fg gff sids).mid j b = some m ∧ (measures nb fg gff sids).meas[m]? = some (.group g)) ∧
      (fg k b = none → gff k b = true → ∃ m, (measures nb fg gff sids).mid j b = some m ∧ (measures nb fg gff sids).meas[m]? = some (.single k b)) ∧
      (fg k b = none → gff k b = false → (measures nb fg gff sids).mid j b = none)) ∧
    (measures nb fg gff sids).meas.Nodup ∧ (∀ g, Meas.group g ∈ (measures nb fg gff sids).meas ↔ ∃ k ∈ sids, ∃ b < nb, fg k b = some g) ∧
    ∀ k b, Meas.single k b ∈ (measures nb fg gff sids).meas ↔ k ∈ sids ∧ b < nb ∧ gff k b = true := by
  set ps := (List.range sids.length).zip sids with hps
  have hfst : ps.map Prod.fst = List.range sids.length := List.map_fst_zip (by simp)
  have hsnd : ps.map Prod.snd = sids := List.map_snd_zip (by simp)
  have hmem : ∀ (j k : Nat), sids[j]? = some k → (j, k) ∈ ps := by
    intro j k h
    obtain ⟨hj, e⟩ := List.getElem?_eq_some_iff.1 h
    have : ps[j]? = some (j, k) := by
      rw [hps, List.getElem?_zip_eq_some]
      exact ⟨by simp [hj], h⟩
    exact List.mem_of_getElem? this
  have hback : ∀ p ∈ ps, sids[p.1]? = some p.2 := by
    intro p hp
    obtain ⟨i, hi⟩ := List.mem_iff_getElem?.1 hp
    rw [hps, List.getElem?_zip_eq_some] at hi
    obtain ⟨h1, h2⟩ := hi
    obtain ⟨h3, h4⟩ := List.getElem?_eq_some_iff.1 h1
    rw [List.getElem_range] at h4
    rw [← h4]; exact h2
  obtain ⟨a1, a2, a3, a4⟩ := singles_spec nb gff ps (by rw [hfst]; exact List.nodup_range) ⟨[], fun _ _ => none, fun _ => none⟩ (by simp)
  set s1 := ps.foldl (addSingle nb gff) ⟨[], fun _ _ => none, fun _ => none⟩ with hs1
  set R : List ((Nat × Nat) × Nat) := ps.flatMap fun p => (List.range nb).map fun b => (p, b) with hR
  have hfold : measures nb fg gff sids = R.foldl (fun s q => addGroup fg q.1 s q.2) s1 := by
    unfold measures
    rw [hR]
    show ps.foldl (addGroups nb fg) s1 = _
    generalize s1 = s
    clear_value ps
    clear hps hfst hsnd hmem hback a1 a2 a3 a4 hs1 hR
    induction ps generalizing s with
    | nil => rfl
    | cons p ps ih =>
      rw [List.foldl_cons, List.flatMap_cons, List.foldl_append, List.foldl_map]
      exact ih _
  have hRm : ∀ q, q ∈ R ↔ q.1 ∈ ps ∧ q.2 < nb := by
    intro q
    rw [hR, List.mem_flatMap]
    constructor
    · rintro ⟨p, hp, hq⟩
      obtain ⟨b, hb, rfl⟩ := List.mem_map.1 hq
      exact ⟨hp, List.mem_range.1 hb⟩
    · rintro ⟨h1, h2⟩
      exact ⟨q.1, h1, List.mem_map.2 ⟨q.2, List.mem_range.2 h2, rfl⟩⟩
  have hRn : (R.map fun q => (q.1.1, q.2)).Nodup := by
    have e : R.map (fun q => (q.1.1, q.2)) = (List.range sids.length).flatMap fun j => (List.range nb).map fun b => (j, b) := by
      rw [hR, ← hfst, List.map_flatMap, List.flatMap_map]
      congr 1
      funext p
      rw [List.map_map]
      rfl
    rw [e]
    exact List.nodup_range.product List.nodup_range
  have hinit : GroupInv fg s1 [] s1 := ⟨by simp, fun _ _ _ => rfl, ⟨[], by simp, by simp, by simp, fun g => by rw [a2]; simp⟩, fun g m h => by rw [a2] at h; cases h⟩
  have inv := group_fold fg s1 R [] s1 hinit (by simpa using hRn)
  rw [List.nil_append, ← hfold] at inv
  obtain ⟨r, r1, r2, r3, -⟩ := inv.meas
  have hs1m : ∀ k b, Meas.single k b ∈ s1.meas ↔ k ∈ sids ∧ b < nb ∧ gff k b = true := by
    intro k b
    rw [a1, List.nil_append, List.mem_flatMap]
    constructor
    · rintro ⟨p, hp, hx⟩
      obtain ⟨b', hb', e⟩ := List.mem_map.1 hx
      cases e
      obtain ⟨h1, h2⟩ := List.mem_filter.1 hb'
      exact ⟨by rw [← hsnd]; exact List.mem_map_of_mem hp, List.mem_range.1 h1, h2⟩
    · rintro ⟨h1, h2, h3⟩
      rw [← hsnd] at h1
      obtain ⟨p, hp, rfl⟩ := List.mem_map.1 h1
      exact ⟨p, hp, List.mem_map.2 ⟨b, List.mem_filter.2 ⟨List.mem_range.2 h2, h3⟩, rfl⟩⟩
  have hs1g : ∀ g, Meas.group g ∉ s1.meas := by
    intro g hg
    rw [a1, List.nil_append, List.mem_flatMap] at hg
    obtain ⟨p, -, hx⟩ := hg
    obtain ⟨b, -, e⟩ := List.mem_map.1 hx
    cases e
  have hs1n : s1.meas.Nodup := by
    rw [a1, List.nil_append, List.nodup_flatMap]
    refine ⟨fun p _ => (List.nodup_range.filter _).map (fun a b h => by cases h; rfl), ?_⟩
    have : (ps.map Prod.snd).Pairwise (· ≠ ·) := by rw [hsnd]; exact hn
    rw [List.pairwise_map] at this
    refine this.imp ?_
    intro p q hpq x hx hy
    obtain ⟨b, -, rfl⟩ := List.mem_map.1 hx
    obtain ⟨b', -, e⟩ := List.mem_map.1 hy
    exact hpq (Meas.single.inj e).1.symm
  have hpre : ∀ (m : Nat) x, s1.meas[m]? = some x → (measures nb fg gff sids).meas[m]? = some x := by
    intro m x h
    rw [r1, List.getElem?_append_left (List.getElem?_eq_some_iff.1 h).1, h]
  refine ⟨fun j k b hj hb => ⟨fun g hg => ?_, fun hg hf => ?_, fun hg hf => ?_⟩, ?_, fun g => ?_, fun k b => ?_⟩
  · exact inv.set ((j, k), b) ((hRm _).2 ⟨hmem j k hj, hb⟩) g hg
  · have hk : (measures nb fg gff sids).mid j b = s1.mid j b := inv.keep j b (by
      intro q hq e1 e2
      have h := hback q.1 ((hRm q).1 hq).1
      rw [e1, hj] at h
      rw [e2, ← Option.some.inj h]
      exact hg)
    have := a3 (j, k) (hmem j k hj) b hb
    rw [if_pos hf] at this
    obtain ⟨m, m1, m2⟩ := this
    exact ⟨m, by rw [hk, m1], hpre m _ m2⟩
  · have hk : (measures nb fg gff sids).mid j b = s1.mid j b := inv.keep j b (by
      intro q hq e1 e2
      have h := hback q.1 ((hRm q).1 hq).1
      rw [e1, hj] at h
      rw [e2, ← Option.some.inj h]
      exact hg)
    have := a3 (j, k) (hmem j k hj) b hb
    rw [if_neg (by simp [hf])] at this
    rw [hk, this]
  · rw [r1, List.nodup_append]
    refine ⟨hs1n, r2.map (fun a b h => by cases h; rfl), ?_⟩
    rintro a ha b hb rfl
    obtain ⟨g, -, rfl⟩ := List.mem_map.1 hb
    exact hs1g g ha
  · rw [r1, List.mem_append]
    constructor
    · rintro (h | h)
      · exact absurd h (hs1g g)
      · obtain ⟨g', hg', e⟩ := List.mem_map.1 h
        cases e
        obtain ⟨q, hq, e⟩ := (r3 g).1 hg'
        obtain ⟨h1, h2⟩ := (hRm q).1 hq
        exact ⟨q.1.2, by rw [← hsnd]; exact List.mem_map_of_mem h1, q.2, h2, e⟩
    · rintro ⟨k, hk, b, hb, e⟩
      right
      rw [← hsnd] at hk
      obtain ⟨p, hp, rfl⟩ := List.mem_map.1 hk
      exact List.mem_map.2 ⟨g, (r3 g).2 ⟨(p, b), (hRm _).2 ⟨hp, hb⟩, e⟩, rfl⟩
  · rw [r1, List.mem_append, hs1m]
    constructor
    · rintro (h | h)
      · exact h
      · obtain ⟨g', -, e⟩ := List.mem_map.1 h
        cases e
    · exact Or.inl

/-- A source with a measurement of its own and a flux group in the same band: the measurement is kept, and no source accounts for it. -/
theorem C194_orphan_refuted : (measures 1 (fun _ _ => some 7) (fun _ _ => true) [0]).meas = [.single 0 0, .group 7] ∧ (measures 1 (fun _ _ => some 7) (fun _ _ => true) [0]).mid 0 0 = some 1 := by
  constructor <;> decide

example : (measures 2 chain (fun k _ => k = 0) [0, 1]).meas = [.single 0 0, .single 0 1, .group 0, .group 1] := by decide

end Verif.GfitGroups
