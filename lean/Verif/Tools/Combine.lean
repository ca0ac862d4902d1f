import Verif.Basic
import Mathlib.Data.List.FinRange
import Mathlib.Data.Fin.VecNotation
import Mathlib.Data.List.Induction
import Mathlib.Algebra.Order.Ring.Nat
import Mathlib.Data.Fintype.Basic
import Mathlib.Tactic.FinCases
import Mathlib.Tactic.Common
/-!
# Merging the groups of all maps: `pixfit-combine` (C204)

`n` sources; `none` is `npos`. The additions on `uint_t` do not go below zero, so that they are those of natural numbers. The fluxes of the sources are just put side by side (`append<1>`), and not modelled.
-/
namespace Verif.Combine
open Verif

variable {K : Type} {n : Nat}

/-! ### Model -/

/-- what is read from the fit of one map: the columns of the groups (none, if the fit was made without `make_groups`), and the lines of its groups: `group_fit`, `group_flux`. `pos` is
`group_cov > 0` and `aper` is `group_aper_id`. -/
structure Fit (K : Type) (n : Nat) where
  cols : Option ((Fin n → Bool) × (Fin n → Option Nat))
  lines : List (Bool × K)

/-- `flux_group`, a column for each map, and `group_flux` -/
structure St (K : Type) (n : Nat) where
  cols : List (Fin n → Option Nat)
  flux : List K

/-- the smallest identifier of the sources `idg`; `npos` is the largest number -/
def minId (ids : List (Option Nat)) : Option Nat :=
  match ids.filterMap id with
  | [] => none
  | a :: l => some (l.foldl min a)

/-- one map (`pixfit-combine.cpp:47-98`): the sources with `group_cov > 0` get an index in the merged list, the others `npos`; but if there are none, nothing is changed -/
def add (s : St K n) (f : Fit K n) : St K n :=
  let (pos, aper) : (Fin n → Bool) × (Fin n → Option Nat) := match f.cols with
    | some c => c
    | none => (fun _ => false, fun _ => some 0)
  let idg := (List.finRange n).filter fun i => pos i
  let col : Fin n → Option Nat :=
    if idg = [] then aper
    else
      let i0 := minId (idg.map aper)
      fun i => if pos i then (match aper i, i0 with
        | some a, some m => some (a - m + s.flux.length)
        | _, _ => none) else none
  ⟨s.cols ++ [col], s.flux ++ (f.lines.filter fun l => !l.1).map Prod.snd⟩

/-- all the maps -/
def run (fs : List (Fit K n)) : St K n := fs.foldl add ⟨[], []⟩

/-! ### Specification -/

/-- what `pixfit-extract` writes (C199, C201, C202): `nf` groups that are fitted as one source, then `na` groups with an aperture, numbered from 1; a source with a positive coverage has the number
of an aperture group -/
structure Valid (f : Fit K n) (pos : Fin n → Bool) (aper : Fin n → Option Nat) (nf na : Nat) : Prop where
  cols : f.cols = some (pos, aper)
  lines : f.lines.map Prod.fst = List.replicate nf true ++ List.replicate na false
  grp : ∀ i, pos i = true → ∃ a, aper i = some a ∧ nf < a ∧ a ≤ nf + na
  nogrp : na = 0 → ∀ i, aper i = Option.none

/-- the first aperture group has a source with a positive coverage -/
def FirstSeen (pos : Fin n → Bool) (aper : Fin n → Option Nat) (nf na : Nat) : Prop := 0 < na → ∃ i, pos i = true ∧ aper i = some (nf + 1)

/-! ### Helpers -/

theorem foldl_min_le (l : List Nat) (a : Nat) : l.foldl min a ≤ a ∧ (∀ b ∈ l, l.foldl min a ≤ b) ∧ (l.foldl min a = a ∨ l.foldl min a ∈ l) := by
  induction l generalizing a with
  | nil => simp
  | cons b l ih =>
    obtain ⟨h1, h2, h3⟩ := ih (min a b)
    simp only [List.foldl_cons]
    refine ⟨by omega, fun c hc => ?_, ?_⟩
    · rcases List.mem_cons.1 hc with rfl | hc
      · omega
      · exact h2 c hc
    · rcases h3 with h | h
      · rcases min_choice a b with e | e
        · left; rw [h, e]
        · right; rw [h, e]; simp
      · right; exact List.mem_cons_of_mem _ h

theorem minId_eq (ids : List (Option Nat)) (k : Nat) (h1 : some k ∈ ids) (h2 : ∀ a, some a ∈ ids → k ≤ a) : minId ids = some k := by
  unfold minId
  have hm : ∀ a, a ∈ ids.filterMap id ↔ some a ∈ ids := by intro a; simp
  cases h : ids.filterMap id with
  | nil => have := (hm k).2 h1; rw [h] at this; cases this
  | cons a l =>
    dsimp only
    congr 1
    obtain ⟨g1, g2, g3⟩ := foldl_min_le l a
    have a1 : l.foldl min a ≤ k := by
      have := (hm k).2 h1
      rw [h] at this
      rcases List.mem_cons.1 this with e | e
      · omega
      · exact g2 k e
    have a2 : k ≤ l.foldl min a := by
      apply h2
      rw [← hm, h]
      rcases g3 with e | e
      · rw [e]; simp
      · exact List.mem_cons_of_mem _ e
    omega

/-- the fluxes of the aperture groups -/
theorem aper_lines (l : List (Bool × K)) (nf na : Nat) (h : l.map Prod.fst = List.replicate nf true ++ List.replicate na false) :
    (l.filter fun x => !x.1).map Prod.snd = (l.drop nf).map Prod.snd ∧ l.length = nf + na := by
  constructor
  · induction nf generalizing l with
    | zero =>
      simp only [List.replicate_zero, List.nil_append] at h
      rw [List.drop_zero, List.filter_eq_self.2]
      intro x hx
      have : x.1 ∈ List.replicate na false := h ▸ List.mem_map_of_mem hx
      rw [List.eq_of_mem_replicate this]; rfl
    | succ nf ih =>
      cases l with
      | nil => simp [List.replicate_succ] at h
      | cons x l =>
        simp only [List.map_cons, List.replicate_succ, List.cons_append, List.cons.injEq] at h
        rw [List.drop_succ_cons, ← ih l h.2, List.filter_cons, if_neg (by simp [h.1])]
  · have := congrArg List.length h
    simpa using this

/-! ### C204 -/

/-- In the merged table, a source has a group of a map exactly if its coverage there is positive; and the merged flux of this group is that of the line of its group in the fit of this map. (Full
statement: for all fits, with or without groups. Here all fits were made with `make_groups`, and the first group of each of them has a source with a positive coverage.) -/
theorem C204_groups_partial (fs : List (Fit K n)) (pos : Nat → Fin n → Bool) (aper : Nat → Fin n → Option Nat) (nf na : Nat → Nat)
    (h : ∀ k (hk : k < fs.length), Valid fs[k] (pos k) (aper k) (nf k) (na k) ∧ FirstSeen (pos k) (aper k) (nf k) (na k)) :
    (run fs).cols.length = fs.length ∧ ∀ k (hk : k < fs.length), ∃ col, (run fs).cols[k]? = some col ∧ ∀ i,
      (pos k i = false → col i = none) ∧
      (pos k i = true → ∃ q a, col i = some q ∧ aper k i = some a ∧ (run fs).flux[q]? = (fs[k].lines[a - 1]?).map Prod.snd ∧ q < (run fs).flux.length) := by
  induction fs using List.reverseRecOn with
  | nil => simp [run]
  | append_singleton fs f ih =>
    have ih := ih (fun k hk => by
      have := h k (by simp; omega)
      rwa [List.getElem_append_left hk] at this)
    obtain ⟨hv, hf⟩ := h fs.length (by simp)
    rw [List.getElem_concat_length rfl] at hv
    have hrun : run (fs ++ [f]) = add (run fs) f := by simp [run, List.foldl_append]
    rw [hrun]
    obtain ⟨g1, g2⟩ := aper_lines f.lines _ _ hv.lines
    refine ⟨by simp [add, ih.1], fun k hk => ?_⟩
    by_cases hkl : k < fs.length
    · obtain ⟨col, e, hc⟩ := ih.2 k hkl
      refine ⟨col, ?_, fun i => ⟨(hc i).1, fun hp => ?_⟩⟩
      · simp only [add]
        rw [List.getElem?_append_left (by rw [ih.1]; exact hkl), e]
      · obtain ⟨q, a, h1, h2, h3, h4⟩ := (hc i).2 hp
        refine ⟨q, a, h1, h2, ?_, by simp only [add, List.length_append]; omega⟩
        rw [List.getElem_append_left hkl, ← h3]
        simp only [add]
        rw [List.getElem?_append_left h4]
    · have hke : k = fs.length := by simp at hk; omega
      subst hke
      rw [List.getElem_concat_length rfl]
      simp only [add, hv.cols]
      refine ⟨_, by rw [List.getElem?_append_right (by omega), ih.1, Nat.sub_self]; rfl, fun i => ?_⟩
      by_cases hna : na fs.length = 0
      · -- no group with an aperture
        have hp : ∀ i, pos fs.length i = false := by
          intro i
          by_contra hne
          obtain ⟨a, -, h1, h2⟩ := hv.grp i (by simpa using hne)
          omega
        rw [if_pos (by rw [List.filter_eq_nil_iff]; intro x _; rw [hp x]; simp)]
        exact ⟨fun _ => hv.nogrp hna i, fun h => absurd h (by simp [hp i])⟩
      · obtain ⟨i1, p1, a1⟩ := hf (by omega)
        have hm1 : i1 ∈ (List.finRange n).filter fun i => pos fs.length i := List.mem_filter.2 ⟨List.mem_finRange _, p1⟩
        rw [if_neg (fun e => by rw [e] at hm1; cases hm1)]
        have hmin : minId (((List.finRange n).filter fun i => pos fs.length i).map (aper fs.length)) = some (nf fs.length + 1) := by
          apply minId_eq
          · exact List.mem_map.2 ⟨i1, hm1, a1⟩
          · intro a ha
            obtain ⟨j, hj, e⟩ := List.mem_map.1 ha
            obtain ⟨b, e', h1, -⟩ := hv.grp j (List.mem_filter.1 hj).2
            rw [e] at e'
            cases e'
            omega
        rw [hmin]
        refine ⟨fun hp => by rw [if_neg (by simp [hp])], fun hp => ?_⟩
        obtain ⟨a, e, h1, h2⟩ := hv.grp i hp
        rw [if_pos hp, e]
        refine ⟨_, a, rfl, rfl, ?_, ?_⟩
        · rw [List.getElem?_append_right (by omega), g1, List.getElem?_map, List.getElem?_drop]
          congr 2
          omega
        · rw [g1]
          simp only [List.length_append, List.length_map, List.length_drop]
          omega

/-- two maps: in the first one the sources 0 and 1 are an aperture group, and a fitted group before; in the second one the sources 1 and 2 are a group -/
def fitA : Fit Int 3 := ⟨some (![true, true, false], ![some 2, some 2, some 0]), [(true, 5), (false, 7)]⟩
def fitB : Fit Int 3 := ⟨some (![false, true, true], ![some 0, some 1, some 1]), [(false, 9)]⟩

example : Valid fitA ![true, true, false] ![some 2, some 2, some 0] 1 1 ∧ FirstSeen ![true, true, false] ![some 2, some 2, some 0] 1 1 ∧
    Valid fitB ![false, true, true] ![some 0, some 1, some 1] 0 1 ∧ FirstSeen ![false, true, true] ![some 0, some 1, some 1] 0 1 := by
  refine ⟨⟨rfl, by decide, ?_, by decide⟩, fun _ => ⟨0, by decide⟩, ⟨rfl, by decide, ?_, by decide⟩, fun _ => ⟨1, by decide⟩⟩ <;> intro i <;> fin_cases i <;> simp
example : (run [fitA, fitB]).cols.map List.ofFn = [[some 0, some 0, none], [none, some 1, some 1]] ∧ (run [fitA, fitB]).flux = [7, 9] := by decide

/-- Without the columns of the groups (a fit without `make_groups`) all the sources get the group 0 of the merged list, which is one of another map. -/
theorem C204_missing_refuted : ∃ fs : List (Fit Int 3), (fs.map fun f => f.cols.isNone) = [true, false] ∧
    (run fs).cols.map List.ofFn = [[some 0, some 0, some 0], [none, some 0, some 0]] ∧ (run fs).flux = [9] :=
  ⟨[⟨none, []⟩, fitB], by decide, by decide, by decide⟩

/-- If the first group of a map has no source with a positive coverage (its mask is empty, because another group covers it), the sources of the other groups get the flux of another group: here that
of the source 2 in the group 2 is 7, the flux of the group 1, instead of 8. -/
theorem C204_empty_refuted : ∃ f : Fit Int 4, Valid f ![false, false, true, true] ![some 1, some 1, some 2, some 2] 0 2 ∧
    (run [f]).cols.map List.ofFn = [[none, none, some 0, some 0]] ∧ (run [f]).flux = [7, 8] := by
  refine ⟨⟨some (![false, false, true, true], ![some 1, some 1, some 2, some 2]), [(false, 7), (false, 8)]⟩, ⟨rfl, by decide, ?_, by decide⟩, by decide, by decide⟩
  intro i
  fin_cases i <;> simp

end Verif.Combine
