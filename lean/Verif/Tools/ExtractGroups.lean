import Verif.Basic
import Mathlib.Logic.Relation
import Mathlib.Data.List.FinRange
import Mathlib.Data.List.Sort
import Mathlib.Tactic.Common
/-!
# The groups of sources of `pixfit-extract` (C199)

The sources are numbered from 0 to `n-1`. Whether the overlap of two sources is above the threshold (`tc >= ...`, from their distance and the PSF) is a parameter; it is false if
the overlap is not finite. A vector of `n` labels is a function on `Fin n`: all indices are in range.
-/
namespace Verif.ExtractGroups

variable {n : Nat}

/-- `group_pair` (`pixfit-extract.cpp:329-358`). The value that is assigned to a view is taken by reference, but it is not one of those that are changed. -/
def groupPair (g : Fin n → Nat) (last : Nat) (i j : Fin n) : (Fin n → Nat) × Nat :=
  if g i ≠ 0 then
    if g j ≠ 0 then
      if g i < g j then (fun k => if g k = g j then g i else g k, last)
      else (fun k => if g k = g i then g j else g k, last)
    else (fun k => if k = j then g i else g k, last)
  else if g j ≠ 0 then (fun k => if k = i then g j else g k, last)
  else (fun k => if k = i ∨ k = j then last + 1 else g k, last + 1)

/-- the pairs in the order of the two loops (`pixfit-extract.cpp:360-361`) -/
def pairs (n : Nat) : List (Fin n × Fin n) :=
  (List.finRange n).flatMap fun i => ((List.finRange n).filter fun j => i < j).map fun j => (i, j)

/-- the labels of both kinds of groups (`pixfit-extract.cpp:360-380`): `aper i j` and `fit i j` are the two tests; the second one is only made if the first one holds -/
def label (aper fit : Fin n → Fin n → Bool) : List (Fin n × Fin n) → ((Fin n → Nat) × Nat) × ((Fin n → Nat) × Nat) → ((Fin n → Nat) × Nat) × ((Fin n → Nat) × Nat)
  | [], s => s
  | (i, j) :: ps, (a, f) =>
    if aper i j then label aper fit ps (groupPair a.1 a.2 i j, if fit i j then groupPair f.1 f.2 i j else f)
    else label aper fit ps (a, f)

/-- `group_aper_id`, `last_group_aper_id`, `group_fit_id` and `last_group_fit_id` before they are renumbered -/
def labels (aper fit : Fin n → Fin n → Bool) : ((Fin n → Nat) × Nat) × ((Fin n → Nat) × Nat) :=
  label aper fit (pairs n) ((fun _ => 0, 0), (fun _ => 0, 0))

/-- a line of `group_cat`: its identifier and its sources, from which `ra`, `dec` and `nsrc` are computed, and `fit` -/
structure Group (n : Nat) where
  id : Nat
  members : List (Fin n)
  fit : Bool
deriving DecidableEq

/-- the loop on the sources that saves the `group_aper` groups (`pixfit-extract.cpp:456-482`): `ga` is `gaid` (`none` for `npos`), `lab` is `old_cat.group_aper_id` -/
def saveAper : List (Fin n) → (Fin n → Option Nat) → (Fin n → Nat) → List (Group n) → (Fin n → Nat) × List (Group n)
  | [], _, lab, cat => (lab, cat)
  | i :: is, ga, lab, cat =>
    if ga i = some 0 ∨ ga i = none then saveAper is ga lab cat
    else
      let id := (List.finRange n).filter fun k => ga k = some (lab i)
      saveAper is (fun k => if k ∈ id then none else ga k) (fun k => if k ∈ id then cat.length + 1 else lab k) (cat ++ [⟨cat.length + 1, id, false⟩])

/-- the state of the loop that makes the list of fitted sources: `gfid`, `old_cat.group_fit_id`, `group_cat`, `id_new`, and the fitted sources with the sources they stand for
(their position is the mean of them) and `group_fit_id` -/
structure FitSt (n : Nat) where
  gf : Fin n → Option Nat
  lab : Fin n → Nat
  cat : List (Group n)
  idNew : Fin n → Nat
  srcs : List (List (Fin n) × Option Nat)

/-- the loop on the sources for the `group_fit` groups (`pixfit-extract.cpp:393-439`) -/
def fitLoop : List (Fin n) → FitSt n → FitSt n
  | [], s => s
  | i :: is, s =>
    if s.gf i = some 0 then fitLoop is { s with idNew := fun k => if k = i then s.srcs.length else s.idNew k, srcs := s.srcs ++ [([i], none)] }
    else if s.gf i = none then fitLoop is s
    else
      let id := (List.finRange n).filter fun k => s.gf k = some (s.lab i)
      fitLoop is ⟨fun k => if k ∈ id then none else s.gf k, fun k => if k ∈ id then s.cat.length + 1 else s.lab k, s.cat ++ [⟨s.cat.length + 1, id, true⟩],
        fun k => if k ∈ id then s.srcs.length else s.idNew k, s.srcs ++ [(id, some (s.cat.length + 1))]⟩

/-- the list of fitted sources (`pixfit-extract.cpp:384-452`): as they are if there is no `group_fit` group -/
def fitted (f : (Fin n → Nat) × Nat) : FitSt n :=
  if f.2 ≠ 0 then fitLoop (List.finRange n) ⟨fun k => some (f.1 k), f.1, [], fun _ => 0, []⟩
  else ⟨fun k => some (f.1 k), f.1, [], fun k => k.1, (List.finRange n).map fun k => ([k], none)⟩

/-- all of `pixfit-extract.cpp:323-487` -/
def run (aper fit : Fin n → Fin n → Bool) : FitSt n × (Fin n → Nat) × List (Group n) :=
  let l := labels aper fit
  let s := fitted l.2
  if l.1.2 ≠ 0 then (s, saveAper (List.finRange n) (fun k => some (l.1.1 k)) l.1.1 s.cat) else (s, l.1.1, s.cat)

/-! ### Specification -/

/-- a pair of different sources that pass a test, in the order of the catalogue -/
def Link (test : Fin n → Fin n → Bool) (i j : Fin n) : Prop := i < j ∧ test i j = true

/-- the same source, or two sources with a chain of pairs between them -/
def Linked (test : Fin n → Fin n → Bool) : Fin n → Fin n → Prop := Relation.EqvGen (Link test)

/-- both tests -/
def both (aper fit : Fin n → Fin n → Bool) (i j : Fin n) : Bool := aper i j && fit i j

/-- this source is in a pair -/
def Paired (test : Fin n → Fin n → Bool) (i : Fin n) : Prop := ∃ j, Link test i j ∨ Link test j i

/-! ### Helpers -/

/-- same label, or same source -/
def Same (g : Fin n → Nat) (k l : Fin n) : Prop := k = l ∨ (g k ≠ 0 ∧ g k = g l)

theorem eqv_insert {α : Type} (R : α → α → Prop) (i j k l : α) :
    Relation.EqvGen (fun a b => R a b ∨ (a = i ∧ b = j)) k l ↔
      (Relation.EqvGen R k l ∨ (Relation.EqvGen R k i ∧ Relation.EqvGen R j l) ∨ (Relation.EqvGen R k j ∧ Relation.EqvGen R i l)) := by
  constructor
  · intro h
    induction h with
    | rel a b h =>
      rcases h with h | ⟨rfl, rfl⟩
      · exact Or.inl (.rel _ _ h)
      · exact Or.inr (Or.inl ⟨.refl _, .refl _⟩)
    | refl a => exact Or.inl (.refl _)
    | symm a b _ ih =>
      rcases ih with h | ⟨h1, h2⟩ | ⟨h1, h2⟩
      · exact Or.inl h.symm
      · exact Or.inr (Or.inr ⟨h2.symm, h1.symm⟩)
      · exact Or.inr (Or.inl ⟨h2.symm, h1.symm⟩)
    | trans a b c _ _ ih1 ih2 =>
      rcases ih1 with h | ⟨h1, h2⟩ | ⟨h1, h2⟩ <;> rcases ih2 with h' | ⟨h1', h2'⟩ | ⟨h1', h2'⟩
      · exact Or.inl (h.trans _ _ _ h')
      · exact Or.inr (Or.inl ⟨h.trans _ _ _ h1', h2'⟩)
      · exact Or.inr (Or.inr ⟨h.trans _ _ _ h1', h2'⟩)
      · exact Or.inr (Or.inl ⟨h1, h2.trans _ _ _ h'⟩)
      · exact Or.inr (Or.inl ⟨h1, h2'⟩)
      · exact Or.inl (h1.trans _ _ _ h2')
      · exact Or.inr (Or.inr ⟨h1, h2.trans _ _ _ h'⟩)
      · exact Or.inl (h1.trans _ _ _ h2')
      · exact Or.inr (Or.inr ⟨h1, h2'⟩)
  · have mono : ∀ a b, Relation.EqvGen R a b → Relation.EqvGen (fun a b => R a b ∨ (a = i ∧ b = j)) a b := fun a b h =>
      Relation.EqvGen.mono (fun _ _ h => Or.inl h) _ _ h
    have e : Relation.EqvGen (fun a b => R a b ∨ (a = i ∧ b = j)) i j := .rel _ _ (Or.inr ⟨rfl, rfl⟩)
    rintro (h | ⟨h1, h2⟩ | ⟨h1, h2⟩)
    · exact mono _ _ h
    · exact ((mono _ _ h1).trans _ _ _ e).trans _ _ _ (mono _ _ h2)
    · exact ((mono _ _ h1).trans _ _ _ e.symm).trans _ _ _ (mono _ _ h2)

theorem pair_le (g : Fin n → Nat) (last : Nat) (i j : Fin n) (h : ∀ k, g k ≤ last) : ∀ k, (groupPair g last i j).1 k ≤ (groupPair g last i j).2 := by
  intro k
  have := h i; have := h j; have := h k
  unfold groupPair
  split_ifs <;> dsimp only <;> split_ifs <;> omega

theorem pair_zero (g : Fin n → Nat) (last : Nat) (i j : Fin n) (k : Fin n) : (groupPair g last i j).1 k = 0 ↔ g k = 0 ∧ k ≠ i ∧ k ≠ j := by
  unfold groupPair
  by_cases h1 : k = i <;> by_cases h2 : k = j <;> split_ifs <;> dsimp only <;> split_ifs <;> subst_vars <;> simp_all

theorem pair_last (g : Fin n → Nat) (last : Nat) (i j : Fin n) : (groupPair g last i j).2 ≠ 0 ↔ last ≠ 0 ∨ (g i = 0 ∧ g j = 0) := by
  unfold groupPair
  split_ifs <;> simp_all

theorem pair_same (g : Fin n → Nat) (last : Nat) (i j : Fin n) (h : ∀ k, g k ≤ last) (k l : Fin n) :
    Same (groupPair g last i j).1 k l ↔ (Same g k l ∨ (Same g k i ∧ Same g j l) ∨ (Same g k j ∧ Same g i l)) := by
  have hk := h k; have hl := h l; have hi := h i; have hj := h j
  unfold Same groupPair
  grind

theorem mem_pairs (i j : Fin n) : (i, j) ∈ pairs n ↔ i < j := by
  simp [pairs]

/-- the labels `g` are those of the components of `R` -/
structure Inv (g : Fin n → Nat) (last : Nat) (R : Fin n → Fin n → Prop) : Prop where
  le : ∀ k, g k ≤ last
  same : ∀ k l, Same g k l ↔ Relation.EqvGen R k l
  zero : ∀ k, g k = 0 ↔ ∀ m, ¬ R k m ∧ ¬ R m k
  last : last ≠ 0 ↔ ∃ a b, R a b

theorem inv_start : Inv (n := n) (fun _ => 0) 0 (fun _ _ => False) where
  le := fun _ => Nat.le_refl _
  same := fun k l => by
    unfold Same
    constructor
    · rintro (rfl | ⟨h, -⟩)
      · exact .refl _
      · exact absurd rfl h
    · intro h
      left
      induction h with
      | rel _ _ h => exact h.elim
      | refl => rfl
      | symm _ _ _ ih => exact ih.symm
      | trans _ _ _ _ _ h1 h2 => exact h1.trans h2
  zero := fun _ => by simp
  last := by simp

theorem Inv.step {g : Fin n → Nat} {last : Nat} {R : Fin n → Fin n → Prop} (h : Inv g last R) (i j : Fin n) :
    Inv (groupPair g last i j).1 (groupPair g last i j).2 (fun a b => R a b ∨ (a = i ∧ b = j)) where
  le := pair_le g last i j h.le
  same := fun k l => by
    rw [pair_same g last i j h.le, eqv_insert, h.same, h.same, h.same, h.same, h.same]
  zero := fun k => by
    rw [pair_zero, h.zero]
    constructor
    · rintro ⟨h1, h2, h3⟩ m
      exact ⟨fun h => h.elim (h1 m).1 fun h => h2 h.1, fun h => h.elim (h1 m).2 fun h => h3 h.2⟩
    · intro h'
      refine ⟨fun m => ⟨fun hr => (h' m).1 (Or.inl hr), fun hr => (h' m).2 (Or.inl hr)⟩, fun e => (h' j).1 (Or.inr ⟨e, rfl⟩), fun e => (h' i).2 (Or.inr ⟨rfl, e⟩)⟩
  last := by
    refine ⟨fun _ => ⟨i, j, Or.inr ⟨rfl, rfl⟩⟩, fun _ => (pair_last g last i j).2 ?_⟩
    by_cases hl : last = 0
    · right
      have := h.le i; have := h.le j
      omega
    · exact Or.inl hl

theorem Inv.congr {g : Fin n → Nat} {last : Nat} {R R' : Fin n → Fin n → Prop} (h : Inv g last R) (e : ∀ a b, R a b ↔ R' a b) : Inv g last R' := by
  have : R = R' := funext fun a => funext fun b => propext (e a b)
  rwa [← this]

theorem label_inv (aper fit : Fin n → Fin n → Bool) (ps : List (Fin n × Fin n)) (a f : (Fin n → Nat) × Nat) (R S : Fin n → Fin n → Prop) (ha : Inv a.1 a.2 R) (hf : Inv f.1 f.2 S) :
    Inv (label aper fit ps (a, f)).1.1 (label aper fit ps (a, f)).1.2 (fun i j => R i j ∨ ((i, j) ∈ ps ∧ aper i j)) ∧
    Inv (label aper fit ps (a, f)).2.1 (label aper fit ps (a, f)).2.2 (fun i j => S i j ∨ ((i, j) ∈ ps ∧ aper i j ∧ fit i j)) := by
  induction ps generalizing a f R S with
  | nil => exact ⟨ha.congr (by simp [label]), hf.congr (by simp [label])⟩
  | cons p ps ih =>
    obtain ⟨i, j⟩ := p
    unfold label
    by_cases h : aper i j
    · rw [if_pos h]
      have hf' : Inv (if fit i j then groupPair f.1 f.2 i j else f).1 (if fit i j then groupPair f.1 f.2 i j else f).2 (fun a b => S a b ∨ (fit i j ∧ a = i ∧ b = j)) := by
        by_cases h2 : fit i j
        · rw [if_pos h2]; exact (hf.step i j).congr (by simp [h2])
        · rw [if_neg h2]; exact hf.congr (by simp [h2])
      obtain ⟨h1, h2⟩ := ih (groupPair a.1 a.2 i j) _ _ _ (ha.step i j) hf'
      refine ⟨h1.congr fun k l => ?_, h2.congr fun k l => ?_⟩
      · simp only [List.mem_cons, Prod.mk.injEq]
        constructor
        · rintro ((h | ⟨rfl, rfl⟩) | h) <;> tauto
        · rintro (h | ⟨⟨rfl, rfl⟩ | h, h'⟩) <;> tauto
      · simp only [List.mem_cons, Prod.mk.injEq]
        constructor
        · rintro ((h | ⟨h', rfl, rfl⟩) | h) <;> tauto
        · rintro (h | ⟨⟨rfl, rfl⟩ | h, h', h''⟩) <;> tauto
    · rw [if_neg h]
      obtain ⟨h1, h2⟩ := ih a f _ _ ha hf
      refine ⟨h1.congr fun k l => ?_, h2.congr fun k l => ?_⟩
      · simp only [List.mem_cons, Prod.mk.injEq]
        constructor
        · tauto
        · rintro (h | ⟨⟨rfl, rfl⟩ | h, h'⟩) <;> tauto
      · simp only [List.mem_cons, Prod.mk.injEq]
        constructor
        · tauto
        · rintro (h | ⟨⟨rfl, rfl⟩ | h, h', h''⟩) <;> tauto

theorem labels_inv (aper fit : Fin n → Fin n → Bool) :
    Inv (labels aper fit).1.1 (labels aper fit).1.2 (Link aper) ∧ Inv (labels aper fit).2.1 (labels aper fit).2.2 (Link (both aper fit)) := by
  obtain ⟨h1, h2⟩ := label_inv aper fit (pairs n) (fun _ => 0, 0) (fun _ => 0, 0) _ _ inv_start inv_start
  refine ⟨h1.congr fun a b => ?_, h2.congr fun a b => ?_⟩
  · simp [mem_pairs, Link]
  · simp [mem_pairs, Link, both]

/-- the sources with the same label -/
def members (g : Fin n → Nat) (k : Fin n) : List (Fin n) := (List.finRange n).filter fun l => g l = g k

/-- the state of `saveAper` for the labels `g` -/
structure AInv (g : Fin n → Nat) (cat0 : List (Group n)) (ga : Fin n → Option Nat) (lab : Fin n → Nat) (cat : List (Group n)) : Prop where
  cases : ∀ k, ga k = none ∨ (ga k = some (g k) ∧ lab k = g k)
  cls : ∀ k l, g k = g l → ga k = none → ga l = none
  zero : ∀ k, g k = 0 → ga k = some 0
  done : ∀ k, ga k = none → cat0.length < lab k ∧ cat[lab k - 1]? = some ⟨lab k, members g k, false⟩
  ent : ∀ m, cat0.length ≤ m → m < cat.length → ∃ k, ga k = none ∧ lab k = m + 1
  pre : cat0 <+: cat
  uni : ∀ k l, g k = g l → lab k = lab l

theorem saveAper_inv (g : Fin n → Nat) (cat0 : List (Group n)) (is : List (Fin n)) (ga : Fin n → Option Nat) (lab : Fin n → Nat) (cat : List (Group n)) (h : AInv g cat0 ga lab cat) :
    ∃ ga', AInv g cat0 ga' (saveAper is ga lab cat).1 (saveAper is ga lab cat).2 ∧ (∀ k, ga k = none → ga' k = none) ∧ ∀ i ∈ is, g i ≠ 0 → ga' i = none := by
  induction is generalizing ga lab cat with
  | nil => exact ⟨ga, h, fun _ h => h, by simp⟩
  | cons i is ih =>
    unfold saveAper
    by_cases hi : ga i = some 0 ∨ ga i = none
    · rw [if_pos hi]
      obtain ⟨ga', h1, h2, h3⟩ := ih ga lab cat h
      refine ⟨ga', h1, h2, fun k hk hz => ?_⟩
      rcases List.mem_cons.1 hk with rfl | hk
      · rcases hi with hi | hi
        · rcases h.cases k with h' | ⟨h', -⟩
          · exact h2 _ h'
          · rw [hi] at h'; exact absurd (Option.some.inj h').symm hz
        · exact h2 _ hi
      · exact h3 k hk hz
    · rw [if_neg hi]
      have hgi : ga i = some (g i) ∧ lab i = g i := (h.cases i).resolve_left fun e => hi (Or.inr e)
      have hgz : g i ≠ 0 := fun e => hi (Or.inl (by rw [hgi.1, e]))
      have hid : ∀ k, k ∈ (List.finRange n).filter (fun k => ga k = some (lab i)) ↔ g k = g i := by
        intro k
        rw [List.mem_filter, decide_eq_true_eq, hgi.2]
        constructor
        · rintro ⟨-, e⟩
          rcases h.cases k with h' | ⟨h', -⟩
          · rw [h'] at e; cases e
          · rw [h'] at e; exact Option.some.inj e
        · intro e
          refine ⟨List.mem_finRange k, ?_⟩
          rcases h.cases k with h' | ⟨h', -⟩
          · have := h.cls k i e h'; rw [hgi.1] at this; cases this
          · rw [h', e]
      have hmem : (List.finRange n).filter (fun k => ga k = some (lab i)) = members g i := by
        apply List.filter_congr
        intro k _
        have := hid k
        rw [List.mem_filter] at this
        simp only [List.mem_finRange, true_and, decide_eq_true_eq] at this
        simp only [this]
      dsimp only
      simp only [hmem]
      rw [hmem] at hid
      simp only [hid]
      have hnew : AInv g cat0 (fun k => if g k = g i then none else ga k) (fun k => if g k = g i then cat.length + 1 else lab k) (cat ++ [⟨cat.length + 1, members g i, false⟩]) := by
        have hl := h.pre.length_le
        refine ⟨fun k => ?_, fun k l e => ?_, fun k e => ?_, fun k e => ?_, fun m h1 h2 => ?_, ?_, fun k l e => ?_⟩
        · by_cases hk : g k = g i
          · simp [hk]
          · simpa only [if_neg hk] using h.cases k
        · rw [e]
          by_cases hk : g l = g i
          · simp [hk]
          · simpa only [if_neg hk] using h.cls k l e
        · rw [if_neg (by rw [e]; exact fun e => hgz e.symm)]
          exact h.zero k e
        · by_cases hk : g k = g i
          · rw [if_pos hk]
            refine ⟨by omega, ?_⟩
            rw [show members g k = members g i by unfold members; rw [hk]]
            simp
          · rw [if_neg hk] at e ⊢
            obtain ⟨h1, h2⟩ := h.done k e
            refine ⟨h1, ?_⟩
            rw [List.getElem?_append_left]
            · exact h2
            · exact (List.getElem?_eq_some_iff.1 h2).1
        · rw [List.length_append, List.length_singleton] at h2
          by_cases hm : m = cat.length
          · exact ⟨i, by simp [hm]⟩
          · obtain ⟨k, h3, h4⟩ := h.ent m h1 (by omega)
            refine ⟨k, ?_⟩
            have hk : g k ≠ g i := fun e => by
              have := h.cls k i e h3; rw [hgi.1] at this; cases this
            simp only [if_neg hk]
            exact ⟨h3, h4⟩
        · exact h.pre.trans (List.prefix_append _ _)
        · simp only [e, h.uni k l e]
      obtain ⟨ga', h1, h2, h3⟩ := ih _ _ _ hnew
      refine ⟨ga', h1, fun k hk => h2 k (by simp only [hk, ite_self]), fun k hk hz => ?_⟩
      rcases List.mem_cons.1 hk with rfl | hk
      · exact h2 k (by simp)
      · exact h3 k hk hz

/-- the state of `fitLoop` for the labels `g`, after the sources of `pre` -/
structure FInv (g : Fin n → Nat) (pre : List (Fin n)) (s : FitSt n) : Prop where
  cases : ∀ k, s.gf k = none ∨ (s.gf k = some (g k) ∧ s.lab k = g k)
  cls : ∀ k l, g k = g l → s.gf k = none → s.gf l = none
  zero : ∀ k, g k = 0 → s.gf k = some 0
  done : ∀ k, s.gf k = none → 0 < s.lab k ∧ s.cat[s.lab k - 1]? = some ⟨s.lab k, members g k, true⟩ ∧ s.srcs[s.idNew k]? = some (members g k, some (s.lab k))
  alone : ∀ k, g k = 0 → k ∈ pre → s.srcs[s.idNew k]? = some ([k], none)
  ent : ∀ m, m < s.cat.length → ∃ k, s.gf k = none ∧ s.lab k = m + 1
  src : ∀ m, m < s.srcs.length → ∃ k, (s.gf k = none ∨ (g k = 0 ∧ k ∈ pre)) ∧ s.idNew k = m
  uni : ∀ k l, g k = g l → s.lab k = s.lab l
  uniNew : ∀ k l, g k = g l → g k ≠ 0 → s.idNew k = s.idNew l

theorem fitLoop_inv (g : Fin n → Nat) (is : List (Fin n)) (pre : List (Fin n)) (hn : (pre ++ is).Nodup) (s : FitSt n) (h : FInv g pre s) :
    FInv g (pre ++ is) (fitLoop is s) ∧ (∀ k, s.gf k = none → (fitLoop is s).gf k = none) ∧ ∀ i ∈ is, g i ≠ 0 → (fitLoop is s).gf i = none := by
  induction is generalizing pre s with
  | nil => exact ⟨by simpa [fitLoop] using h, fun _ h => h, by simp⟩
  | cons i is ih =>
    have hn' : ((pre ++ [i]) ++ is).Nodup := by simpa using hn
    have hip : i ∉ pre := fun hm => (List.nodup_append.1 hn).2.2 i hm i (by simp) rfl
    have eapp : pre ++ i :: is = (pre ++ [i]) ++ is := by simp
    unfold fitLoop
    rw [eapp]
    by_cases h0 : s.gf i = some 0
    · rw [if_pos h0]
      have hz : g i = 0 := by
        rcases h.cases i with h' | ⟨h', -⟩
        · rw [h'] at h0; cases h0
        · rw [h'] at h0; exact Option.some.inj h0
      have hnew : FInv g (pre ++ [i]) { s with idNew := fun k => if k = i then s.srcs.length else s.idNew k, srcs := s.srcs ++ [([i], none)] } := by
        have old : ∀ k v, k ≠ i → s.srcs[s.idNew k]? = some v → (s.srcs ++ [([i], none)])[if k = i then s.srcs.length else s.idNew k]? = some v := by
          intro k v hk hv
          rw [if_neg hk, List.getElem?_append_left (List.getElem?_eq_some_iff.1 hv).1]
          exact hv
        refine ⟨h.cases, h.cls, h.zero, fun k e => ?_, fun k e hk => ?_, h.ent, fun m hm => ?_, h.uni, fun k l e hk => ?_⟩
        · have hki : k ≠ i := fun e' => by
            rw [e'] at e
            have e : s.gf i = none := e
            rw [h0] at e; cases e
          obtain ⟨h1, h2, h3⟩ := h.done k e
          exact ⟨h1, h2, old k _ hki h3⟩
        · by_cases hki : k = i
          · subst hki; simp
          · refine old k _ hki (h.alone k e ?_)
            simpa [hki] using hk
        · have hm : m < s.srcs.length + 1 := by simpa using hm
          by_cases hm' : m = s.srcs.length
          · exact ⟨i, Or.inr ⟨hz, by simp⟩, by simp [hm']⟩
          · obtain ⟨k, h1, h2⟩ := h.src m (by omega)
            have hki : k ≠ i := by
              rintro rfl
              rcases h1 with h1 | ⟨-, h1⟩
              · rw [h0] at h1; cases h1
              · exact hip h1
            refine ⟨k, h1.imp id fun ⟨h3, h4⟩ => ⟨h3, List.mem_append_left _ h4⟩, ?_⟩
            simp only [if_neg hki]
            exact h2
        · have h1 : k ≠ i := by rintro rfl; exact hk hz
          have h2 : l ≠ i := by rintro rfl; exact hk (e.trans hz)
          simp only [if_neg h1, if_neg h2]
          exact h.uniNew k l e hk
      obtain ⟨h1, h2, h3⟩ := ih (pre ++ [i]) hn' _ hnew
      refine ⟨h1, h2, fun k hk hkz => ?_⟩
      rcases List.mem_cons.1 hk with rfl | hk
      · exact absurd hz hkz
      · exact h3 k hk hkz
    · rw [if_neg h0]
      by_cases h1 : s.gf i = none
      · rw [if_pos h1]
        have hz : g i ≠ 0 := fun e => by have := h.zero i e; rw [h1] at this; cases this
        have hnew : FInv g (pre ++ [i]) s := ⟨h.cases, h.cls, h.zero, h.done, fun k e hk => h.alone k e (by
            have : k ≠ i := by rintro rfl; exact hz e
            simpa [this] using hk), h.ent, fun m hm => by
            obtain ⟨k, h3, h4⟩ := h.src m hm
            exact ⟨k, h3.imp id fun ⟨h5, h6⟩ => ⟨h5, List.mem_append_left _ h6⟩, h4⟩, h.uni, h.uniNew⟩
        obtain ⟨h3, h4, h5⟩ := ih (pre ++ [i]) hn' s hnew
        refine ⟨h3, h4, fun k hk hkz => ?_⟩
        rcases List.mem_cons.1 hk with rfl | hk
        · exact h4 k h1
        · exact h5 k hk hkz
      · rw [if_neg h1]
        have hgi : s.gf i = some (g i) ∧ s.lab i = g i := (h.cases i).resolve_left h1
        have hgz : g i ≠ 0 := fun e => h0 (by rw [hgi.1, e])
        have hid : ∀ k, k ∈ (List.finRange n).filter (fun k => s.gf k = some (s.lab i)) ↔ g k = g i := by
          intro k
          rw [List.mem_filter, decide_eq_true_eq, hgi.2]
          constructor
          · rintro ⟨-, e⟩
            rcases h.cases k with h' | ⟨h', -⟩
            · rw [h'] at e; cases e
            · rw [h'] at e; exact Option.some.inj e
          · intro e
            refine ⟨List.mem_finRange k, ?_⟩
            rcases h.cases k with h' | ⟨h', -⟩
            · have := h.cls k i e h'; rw [hgi.1] at this; cases this
            · rw [h', e]
        have hmem : (List.finRange n).filter (fun k => s.gf k = some (s.lab i)) = members g i := by
          apply List.filter_congr
          intro k _
          have := hid k
          rw [List.mem_filter] at this
          simp only [List.mem_finRange, true_and, decide_eq_true_eq] at this
          simp only [this]
        simp only [hmem]
        rw [hmem] at hid
        simp only [hid]
        have notnone : ∀ k, s.gf k = none → g k ≠ g i := fun k hk e => by
          have := h.cls k i e hk; rw [hgi.1] at this; cases this
        have hnew : FInv g (pre ++ [i]) ⟨fun k => if g k = g i then none else s.gf k, fun k => if g k = g i then s.cat.length + 1 else s.lab k,
            s.cat ++ [⟨s.cat.length + 1, members g i, true⟩], fun k => if g k = g i then s.srcs.length else s.idNew k, s.srcs ++ [(members g i, some (s.cat.length + 1))]⟩ := by
          refine ⟨fun k => ?_, fun k l e => ?_, fun k e => ?_, fun k e => ?_, fun k e hk => ?_, fun m hm => ?_, fun m hm => ?_, fun k l e => ?_, fun k l e hk => ?_⟩
          · by_cases hk : g k = g i
            · simp [hk]
            · simpa only [if_neg hk] using h.cases k
          · dsimp only
            rw [e]
            by_cases hk : g l = g i
            · simp [hk]
            · simpa only [if_neg hk] using h.cls k l e
          · dsimp only
            rw [if_neg (by rw [e]; exact fun e => hgz e.symm)]
            exact h.zero k e
          · dsimp only at e ⊢
            by_cases hk : g k = g i
            · have em : members g k = members g i := by unfold members; rw [hk]
              simp [hk, em]
            · rw [if_neg hk] at e
              simp only [if_neg hk]
              obtain ⟨h1, h2, h3⟩ := h.done k e
              refine ⟨h1, ?_, ?_⟩
              · rw [List.getElem?_append_left (List.getElem?_eq_some_iff.1 h2).1]; exact h2
              · rw [List.getElem?_append_left (List.getElem?_eq_some_iff.1 h3).1]; exact h3
          · have hki : g k ≠ g i := by rw [e]; exact fun e => hgz e.symm
            have hk' : k ∈ pre := by
              have : k ≠ i := by rintro rfl; exact hgz e
              simpa [this] using hk
            have h3 := h.alone k e hk'
            simp only [if_neg hki]
            rw [List.getElem?_append_left (List.getElem?_eq_some_iff.1 h3).1]; exact h3
          · have hm : m < s.cat.length + 1 := by simpa using hm
            by_cases hm' : m = s.cat.length
            · exact ⟨i, by simp [hm']⟩
            · obtain ⟨k, h3, h4⟩ := h.ent m (by omega)
              refine ⟨k, ?_⟩
              simp only [if_neg (notnone k h3)]
              exact ⟨h3, h4⟩
          · have hm : m < s.srcs.length + 1 := by simpa using hm
            by_cases hm' : m = s.srcs.length
            · exact ⟨i, by simp [hm']⟩
            · obtain ⟨k, h3, h4⟩ := h.src m (by omega)
              refine ⟨k, ?_⟩
              have hk : g k ≠ g i := by
                rcases h3 with h3 | ⟨h3, -⟩
                · exact notnone k h3
                · rw [h3]; exact fun e => hgz e.symm
              simp only [if_neg hk]
              exact ⟨h3.imp id fun ⟨h5, h6⟩ => ⟨h5, List.mem_append_left _ h6⟩, h4⟩
          · simp only [e, h.uni k l e]
          · simp only [e, h.uniNew k l e hk]
        obtain ⟨h3, h4, h5⟩ := ih (pre ++ [i]) hn' _ hnew
        refine ⟨h3, fun k hk => h4 k (by simp only [hk, ite_self]), fun k hk hkz => ?_⟩
        rcases List.mem_cons.1 hk with rfl | hk
        · exact h4 k (by simp)
        · exact h5 k hk hkz

/-- what `fitted` does with the labels `g` -/
structure FitSpec (g : Fin n → Nat) (s : FitSt n) : Prop where
  alone : ∀ k, g k = 0 → s.lab k = 0 ∧ s.srcs[s.idNew k]? = some ([k], none)
  group : ∀ k, g k ≠ 0 → 0 < s.lab k ∧ s.cat[s.lab k - 1]? = some ⟨s.lab k, members g k, true⟩ ∧ s.srcs[s.idNew k]? = some (members g k, some (s.lab k))
  ent : ∀ m, m < s.cat.length → ∃ k, g k ≠ 0 ∧ s.lab k = m + 1
  src : ∀ m, m < s.srcs.length → ∃ k, s.idNew k = m
  uni : ∀ k l, g k = g l → s.lab k = s.lab l
  uniNew : ∀ k l, g k = g l → g k ≠ 0 → s.idNew k = s.idNew l

theorem fitted_spec (f : (Fin n → Nat) × Nat) (h : ∀ k, f.1 k ≤ f.2) : FitSpec f.1 (fitted f) := by
  unfold fitted
  by_cases hl : f.2 ≠ 0
  · rw [if_pos hl]
    obtain ⟨hi, -, hd⟩ := fitLoop_inv f.1 (List.finRange n) [] (by simpa using List.nodup_finRange n) ⟨fun k => some (f.1 k), f.1, [], fun _ => 0, []⟩
      ⟨fun k => Or.inr ⟨rfl, rfl⟩, fun k l _ e => (by cases e), fun k e => (by simp [e]), fun k e => (by cases e), fun k _ hk => (by cases hk), fun m hm => absurd hm (Nat.not_lt_zero m),
        fun m hm => absurd hm (Nat.not_lt_zero m), fun k l e => e, fun _ _ _ _ => rfl⟩
    refine ⟨fun k hk => ⟨?_, hi.alone k hk (by simp)⟩, fun k hk => hi.done k (hd k (by simp) hk), fun m hm => ?_, fun m hm => ?_, hi.uni, hi.uniNew⟩
    · rcases hi.cases k with h' | ⟨-, h'⟩
      · have := hi.zero k hk; rw [h'] at this; cases this
      · rw [h', hk]
    · obtain ⟨k, h1, h2⟩ := hi.ent m hm
      exact ⟨k, fun e => (by have := hi.zero k e; rw [h1] at this; cases this), h2⟩
    · obtain ⟨k, -, h2⟩ := hi.src m hm
      exact ⟨k, h2⟩
  · rw [if_neg hl]
    have hz : ∀ k, f.1 k = 0 := fun k => by have := h k; omega
    refine ⟨fun k hk => ⟨hk, by simp⟩, fun k hk => absurd (hz k) hk, fun m hm => absurd hm (Nat.not_lt_zero m), fun m hm => ?_, fun k l e => e, fun k _ _ hk => absurd (hz k) hk⟩
    have hm : m < n := by simpa using hm
    exact ⟨⟨m, hm⟩, rfl⟩

theorem mem_members (g : Fin n → Nat) (k l : Fin n) : l ∈ members g k ↔ g l = g k := by simp [members]

/-- the labels made by `saveAper` -/
structure AperSpec (g : Fin n → Nat) (cat0 : List (Group n)) (lab : Fin n → Nat) (cat : List (Group n)) : Prop where
  zero : ∀ k, lab k = 0 ↔ g k = 0
  group : ∀ k, g k ≠ 0 → cat[lab k - 1]? = some ⟨lab k, members g k, false⟩
  ent : ∀ m, cat0.length ≤ m → m < cat.length → ∃ k, g k ≠ 0 ∧ lab k = m + 1
  pre : cat0 <+: cat
  uni : ∀ k l, g k = g l → lab k = lab l

theorem run_aper (aper fit : Fin n → Fin n → Bool) : AperSpec (labels aper fit).1.1 (run aper fit).1.cat (run aper fit).2.1 (run aper fit).2.2 := by
  have h := (labels_inv aper fit).1.le
  have e1 : (run aper fit).1 = fitted (labels aper fit).2 := by unfold run; dsimp only; split <;> rfl
  rw [e1]
  unfold run
  dsimp only
  by_cases hl : (labels aper fit).1.2 ≠ 0
  · rw [if_pos hl]
    obtain ⟨ga', hi, -, hd⟩ := saveAper_inv (labels aper fit).1.1 (fitted (labels aper fit).2).cat (List.finRange n) (fun k => some ((labels aper fit).1.1 k)) (labels aper fit).1.1
      (fitted (labels aper fit).2).cat ⟨fun k => Or.inr ⟨rfl, rfl⟩, fun k l _ e => (by cases e), fun k e => (by simp [e]), fun k e => (by cases e), fun m h1 h2 => (by omega), List.prefix_rfl, fun k l e => e⟩
    refine ⟨fun k => ⟨fun e => ?_, fun e => ?_⟩, fun k hk => (hi.done k (hd k (by simp) hk)).2, fun m h1 h2 => ?_, hi.pre, hi.uni⟩
    · by_contra hk
      have := (hi.done k (hd k (by simp) hk)).1
      dsimp only at e this
      omega
    · rcases hi.cases k with h' | ⟨-, h'⟩
      · have := hi.zero k e; rw [h'] at this; cases this
      · exact h'.trans e
    · obtain ⟨k, h3, h4⟩ := hi.ent m h1 h2
      exact ⟨k, fun e => (by have := hi.zero k e; rw [h3] at this; cases this), h4⟩
  · rw [if_neg hl]
    have hz : ∀ k, (labels aper fit).1.1 k = 0 := fun k => by have := h k; omega
    exact ⟨fun k => Iff.rfl, fun k hk => absurd (hz k) hk, fun m h1 h2 => absurd h2 (by simpa using h1), List.prefix_rfl, fun k l e => e⟩

theorem label_inj (g lab : Fin n → Nat) (cat : List (Group n)) (b : Bool) (k l : Fin n) (hk : cat[lab k - 1]? = some ⟨lab k, members g k, b⟩)
    (hl : cat[lab l - 1]? = some ⟨lab l, members g l, b⟩) (e : lab k = lab l) : g k = g l := by
  rw [e, hl] at hk
  have e2 : members g l = members g k := congrArg Group.members (Option.some.inj hk)
  have : l ∈ members g k := by rw [← e2, mem_members]
  exact ((mem_members g k l).1 this).symm

theorem same_linked {g : Fin n → Nat} {last : Nat} {R : Fin n → Fin n → Prop} (h : Inv g last R) (k l : Fin n) (hk : g k ≠ 0) : g k = g l ↔ Relation.EqvGen R k l := by
  rw [← h.same]
  unfold Same
  constructor
  · exact fun e => Or.inr ⟨hk, e⟩
  · rintro (rfl | ⟨-, e⟩)
    · rfl
    · exact e

theorem zero_paired {g : Fin n → Nat} {last : Nat} (test : Fin n → Fin n → Bool) (h : Inv g last (Link test)) (k : Fin n) : g k = 0 ↔ ¬ Paired test k := by
  rw [h.zero]
  unfold Paired
  push Not
  rfl

theorem filter_single (k : Fin n) : ((List.finRange n).filter fun l => decide (l = k)) = [k] := by
  have h1 : ((List.finRange n).filter fun l => decide (l = k)) = ((List.finRange n).filter fun l => l == k) := by
    apply List.filter_congr
    intro l _
    rw [Bool.eq_iff_iff]
    simp
  rw [h1, List.filter_beq, List.count_eq_one_of_mem (List.nodup_finRange n) (List.mem_finRange k)]
  rfl

/-! ### C199 -/

/-- The aperture groups are the sets of sources linked by chains of pairs above the threshold: the sources without such a pair have no group (0), two sources have the same group exactly if they
are linked, and the line of the group in the catalogue of groups has its number and its sources. There is no other line but those of the fitted groups. -/
theorem C199_apertures (aper fit : Fin n → Fin n → Bool) (lab : Fin n → Nat) (cat : List (Group n)) (hr : (run aper fit).2 = (lab, cat)) :
    (∀ k, lab k = 0 ↔ ¬ Paired aper k) ∧
    (∀ k l, lab k ≠ 0 → (lab k = lab l ↔ Linked aper k l)) ∧
    (∀ k, lab k ≠ 0 → cat[lab k - 1]? = some ⟨lab k, (List.finRange n).filter fun l => lab l = lab k, false⟩) ∧
    (run aper fit).1.cat <+: cat ∧ ∀ m, (run aper fit).1.cat.length ≤ m → m < cat.length → ∃ k, lab k = m + 1 := by
  have hi := (labels_inv aper fit).1
  have h := run_aper aper fit
  rw [hr] at h
  have hz : ∀ k, lab k = 0 ↔ (labels aper fit).1.1 k = 0 := h.zero
  have heq : ∀ k l, lab k ≠ 0 → (lab k = lab l ↔ (labels aper fit).1.1 k = (labels aper fit).1.1 l) := by
    intro k l hk
    refine ⟨fun e => ?_, h.uni k l⟩
    exact label_inj _ lab cat false k l (h.group k fun e => hk ((hz k).2 e)) (h.group l fun e' => hk (e.trans ((hz l).2 e'))) e
  refine ⟨fun k => (hz k).trans (zero_paired aper hi k), fun k l hk => ?_, fun k hk => ?_, h.pre, fun m h1 h2 => ?_⟩
  · rw [heq k l hk]
    exact same_linked hi k l fun e => hk ((hz k).2 e)
  · have := h.group k fun e => hk ((hz k).2 e)
    dsimp only at this
    rw [this]
    congr 2
    unfold members
    apply List.filter_congr
    intro l _
    rw [decide_eq_decide, eq_comm, ← heq k l hk, eq_comm]
  · obtain ⟨k, -, h3⟩ := h.ent m h1 h2
    exact ⟨k, h3⟩

/-- The sources that are fitted stand for all sources, each once: the sources linked by chains of pairs above both thresholds are one fitted source, with a line in the catalogue of groups, and
the others are fitted alone. -/
theorem C199_fitted (aper fit : Fin n → Fin n → Bool) (s : FitSt n) (hr : (run aper fit).1 = s) :
    (∀ k l, s.idNew k = s.idNew l ↔ Linked (both aper fit) k l) ∧
    (∀ m, m < s.srcs.length ↔ ∃ k, s.idNew k = m) ∧
    (∀ k, s.lab k = 0 ↔ ¬ Paired (both aper fit) k) ∧
    (∀ k, s.srcs[s.idNew k]? = some ((List.finRange n).filter fun l => s.idNew l = s.idNew k, if s.lab k = 0 then none else some (s.lab k))) ∧
    (∀ k, s.lab k ≠ 0 → s.cat[s.lab k - 1]? = some ⟨s.lab k, (List.finRange n).filter fun l => s.idNew l = s.idNew k, true⟩) ∧
    ∀ m, m < s.cat.length → ∃ k, s.lab k = m + 1 := by
  have hi := (labels_inv aper fit).2
  have h := fitted_spec (labels aper fit).2 hi.le
  have e1 : (run aper fit).1 = fitted (labels aper fit).2 := by unfold run; dsimp only; split <;> rfl
  rw [← e1, hr] at h
  have hz : ∀ k, s.lab k = 0 ↔ (labels aper fit).2.1 k = 0 := fun k =>
    ⟨fun e => by_contra fun hk => absurd (h.group k hk).1 (by omega), fun e => (h.alone k e).1⟩
  have hmem : ∀ k l, s.idNew k = s.idNew l ↔ Same (labels aper fit).2.1 k l := by
    intro k l
    unfold Same
    constructor
    · intro e
      by_cases hk : (labels aper fit).2.1 k = 0
      · by_cases hl : (labels aper fit).2.1 l = 0
        · have h1 := (h.alone k hk).2
          rw [e, (h.alone l hl).2] at h1
          left
          simpa using h1.symm
        · have h1 := (h.alone k hk).2
          rw [e, (h.group l hl).2.2] at h1
          simp at h1
      · by_cases hl : (labels aper fit).2.1 l = 0
        · have h1 := (h.alone l hl).2
          rw [← e, (h.group k hk).2.2] at h1
          simp at h1
        · have h1 := (h.group k hk).2.2
          rw [e, (h.group l hl).2.2] at h1
          have h1 : members _ l = members _ k := congrArg Prod.fst (Option.some.inj h1)
          have : l ∈ members (labels aper fit).2.1 k := by rw [← h1, mem_members]
          exact Or.inr ⟨hk, ((mem_members _ k l).1 this).symm⟩
    · rintro (rfl | ⟨hk, e⟩)
      · rfl
      · exact h.uniNew k l e hk
  have hlist : ∀ k, (labels aper fit).2.1 k ≠ 0 → members (labels aper fit).2.1 k = (List.finRange n).filter fun l => s.idNew l = s.idNew k := by
    intro k hk
    unfold members
    apply List.filter_congr
    intro l _
    rw [decide_eq_decide, hmem l k]
    unfold Same
    constructor
    · exact fun e => Or.inr ⟨by rw [e]; exact hk, e⟩
    · rintro (rfl | ⟨-, e⟩)
      · rfl
      · exact e
  refine ⟨fun k l => (hmem k l).trans (hi.same k l), fun m => ⟨h.src m, ?_⟩, fun k => (hz k).trans (zero_paired _ hi k), fun k => ?_, fun k hk => ?_, fun m hm => ?_⟩
  · rintro ⟨k, rfl⟩
    by_cases hk : (labels aper fit).2.1 k = 0
    · exact (List.getElem?_eq_some_iff.1 (h.alone k hk).2).1
    · exact (List.getElem?_eq_some_iff.1 (h.group k hk).2.2).1
  · by_cases hk : (labels aper fit).2.1 k = 0
    · rw [(h.alone k hk).2, if_pos ((hz k).2 hk)]
      congr 2
      have : (fun l : Fin n => decide (s.idNew l = s.idNew k)) = fun l => decide (l = k) := by
        funext l
        rw [decide_eq_decide, hmem l k]
        unfold Same
        constructor
        · rintro (e | ⟨e, e'⟩)
          · exact e
          · exact absurd (e'.trans hk) e
        · exact Or.inl
      rw [this]
      exact (filter_single k).symm
    · rw [(h.group k hk).2.2, if_neg fun e => hk ((hz k).1 e), hlist k hk]
  · have hk' : (labels aper fit).2.1 k ≠ 0 := fun e => hk ((hz k).2 e)
    rw [(h.group k hk').2.1, hlist k hk']
  · obtain ⟨k, -, h3⟩ := h.ent m hm
    exact ⟨k, h3⟩

/-- Sources that are fitted as one are in the same aperture group. -/
theorem C199_nested (aper fit : Fin n → Fin n → Bool) (k l : Fin n) (hkl : k ≠ l) (h : (run aper fit).1.idNew k = (run aper fit).1.idNew l) :
    (run aper fit).2.1 k ≠ 0 ∧ (run aper fit).2.1 k = (run aper fit).2.1 l := by
  have h1 := ((C199_fitted aper fit _ rfl).1 k l).1 h
  have h2 : Linked aper k l := Relation.EqvGen.mono (fun a b hab => ⟨hab.1, by have := hab.2; unfold both at this; simp_all⟩) _ _ h1
  obtain ⟨hz, he, -⟩ := C199_apertures aper fit (run aper fit).2.1 (run aper fit).2.2 rfl
  have hne : (run aper fit).2.1 k ≠ 0 := by
    rw [Ne, hz, not_not]
    by_contra hp
    have : ∀ a b, Linked aper a b → (a = k ↔ b = k) := by
      intro a b hab
      induction hab with
      | rel a b hl =>
        constructor
        · rintro rfl; exact absurd ⟨b, Or.inl hl⟩ hp
        · rintro rfl; exact absurd ⟨a, Or.inr hl⟩ hp
      | refl => exact Iff.rfl
      | symm _ _ _ ih => exact ih.symm
      | trans _ _ _ _ _ h1 h2 => exact h1.trans h2
    exact hkl ((this k l h2).1 rfl).symm
  exact ⟨hne, (he k l hne).2 h2⟩

/-! six sources: 0-3 and 3-5 are close, 1-4 very close, 2 alone -/

/-- the aperture test -/
def aperEx (i j : Fin 6) : Bool := (i, j) = (0, 3) ∨ (i, j) = (3, 5) ∨ (i, j) = (1, 4)

/-- the fit test -/
def fitEx (i j : Fin 6) : Bool := (i, j) = (1, 4)

example : (List.finRange 6).map (run aperEx fitEx).2.1 = [2, 3, 0, 2, 3, 2] := by decide +kernel
example : (run aperEx fitEx).2.2 = [⟨1, [1, 4], true⟩, ⟨2, [0, 3, 5], false⟩, ⟨3, [1, 4], false⟩] := by decide +kernel
example : (run aperEx fitEx).1.srcs = [([0], none), ([1, 4], some 1), ([2], none), ([3], none), ([5], none)] := by decide +kernel
example : Paired aperEx 3 ∧ ¬ Paired aperEx 2 := ⟨⟨5, Or.inl ⟨by decide, by decide⟩⟩, by
  rintro ⟨j, ⟨-, h⟩ | ⟨-, h⟩⟩ <;> revert j <;> decide⟩

end Verif.ExtractGroups
