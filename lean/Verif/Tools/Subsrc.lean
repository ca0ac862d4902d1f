import Verif.Basic
import Mathlib.Algebra.BigOperators.Group.List.Basic
import Mathlib.Algebra.BigOperators.Ring.List
import Mathlib.Algebra.Order.Field.Rat
import Mathlib.Tactic.Ring
import Mathlib.Tactic.Linarith
/-!
# `subsrc` (C213)

The image of a source (`make_psf`, C119) and the conversion of its position into pixels are functions. The conversion factor `fconv` is not zero. Reading the files is not modelled.
-/
namespace Verif.Subsrc
open Verif

variable {K : Type} [Field K] [LinearOrder K]

/-! ### Model -/

/-- a source of the catalogue; the flux is `none` if it is not finite, and the position is that of the first pixel (1,1) of FITS images -/
structure Src (K : Type) where
  id : Nat
  x : K
  y : K
  flux : Option K
deriving DecidableEq

/-- arithmetic on values that may not be finite -/
def lift2 (f : K → K → K) : Option K → Option K → Option K
  | some a, some b => some (f a b)
  | _, _ => none

/-- the selection of the band (`subsrc.cpp:67-101`): exactly one column matches the names and the notes -/
def band (match_ : List Bool) : Option Nat :=
  match (List.range match_.length).filter (fun i => match_.getD i false) with
  | [i] => some i
  | _ => none

/-- the sources of a FITS table that are used (`subsrc.cpp:117-120`) -/
def selected (include_ exclude : List Nat) (s : Src K) : Bool :=
  (if include_.isEmpty then !exclude.contains s.id else include_.contains s.id) && (match s.flux with
    | none => false
    | some f => decide (0 < f))

/-- the catalogue (`subsrc.cpp:34-129`) -/
def catalogue (fits : Bool) (include_ exclude : List Nat) (l : List (Src K)) : List (Src K) := if fits then l.filter (selected include_ exclude) else l

/-- one source (`subsrc.cpp:139-143`): `img -= psf*flux/fconv` -/
def step (psf : K → K → Option (Nat → K)) (fconv : K) (img : List (Option K)) (s : Src K) : Res (List (Option K)) :=
  match psf (s.y - 1) (s.x - 1) with
  | none => .abort
  | some m => .ok (img.mapIdx fun i v => lift2 (· - ·) v (s.flux.map fun f => m i * f / fconv))

/-- the image that is written (`subsrc.cpp:131-150`); `abort`: the model of the PSF is not known and nothing is written -/
def run (psf : K → K → Option (Nat → K)) (fits : Bool) (include_ exclude : List Nat) (fconv : K) (cat : List (Src K)) (img : List (Option K)) : Res (List (Option K)) :=
  (catalogue fits include_ exclude cat).foldlM (step psf fconv) img

/-! ### Helpers -/

omit [LinearOrder K] in
theorem step_ok {psf : K → K → Option (Nat → K)} {m : K → K → Nat → K} (hp : ∀ y x, psf y x = some (m y x)) (fconv : K) (s : Src K) (f : K) (hf : s.flux = some f) (img : List (Option K)) :
    step psf fconv img s = .ok (img.mapIdx fun i v => v.map (· - m (s.y - 1) (s.x - 1) i * f / fconv)) := by
  unfold step
  rw [hp, hf]
  dsimp only
  congr 1
  refine List.ext_getElem (by simp) fun i h1 h2 => ?_
  simp only [List.getElem_mapIdx, Option.map_some]
  rcases img[i]'(by simpa using h1) with _ | v <;> rfl

omit [LinearOrder K] in
theorem foldl_ok {psf : K → K → Option (Nat → K)} {m : K → K → Nat → K} (hp : ∀ y x, psf y x = some (m y x)) (fconv : K) : ∀ (l : List (Src K)) (_ : ∀ s ∈ l, s.flux.isSome) (img : List (Option K)),
    l.foldlM (step psf fconv) img = .ok (img.mapIdx fun i v => v.map (· - (l.map fun s => s.flux.getD 0 / fconv * m (s.y - 1) (s.x - 1) i).sum)) := by
  intro l
  induction l with
  | nil =>
    intro _ img
    simp only [List.foldlM_nil, List.map_nil, List.sum_nil, sub_zero]
    show Res.ok img = _
    congr 1
    refine List.ext_getElem (by simp) fun i h1 h2 => ?_
    simp
  | cons s l ih =>
    intro h img
    obtain ⟨f, hf⟩ := Option.isSome_iff_exists.1 (h s (by simp))
    rw [List.foldlM_cons, step_ok hp fconv s f hf, Res.ok_bind, ih fun t ht => h t (by simp [ht])]
    congr 1
    refine List.ext_getElem (by simp) fun i h1 h2 => ?_
    simp only [List.getElem_mapIdx, Option.map_map, List.map_cons, List.sum_cons, hf, Option.getD_some]
    congr 1
    funext v
    simp only [Function.comp_apply]
    ring

/-! ### C213 -/

/-- The sources that shall be removed: those with a positive flux that were not excluded, or that were included if any was. -/
def Wanted (include_ exclude : List Nat) (s : Src K) : Prop := (∃ f, s.flux = some f ∧ 0 < f) ∧ ((include_ = [] ∧ s.id ∉ exclude) ∨ s.id ∈ include_)

open Classical in
/-- The pixels that are not finite remain so, and from each other pixel one subtracts the sum of the images of the wanted sources with their fluxes in the units of the image, the first pixel of the
image being at the position (1,1). (Full statement: for all catalogues. Here the catalogue is a FITS table, or all its sources are wanted.) -/
theorem C213_subtract_partial {psf : K → K → Option (Nat → K)} {m : K → K → Nat → K} (hp : ∀ y x, psf y x = some (m y x)) (fits : Bool) (include_ exclude : List Nat) (fconv : K) (_ : fconv ≠ 0) (cat : List (Src K))
    (img : List (Option K)) (hf : fits = true ∨ ∀ s ∈ cat, Wanted include_ exclude s) : ∃ out, run psf fits include_ exclude fconv cat img = .ok out ∧ out.length = img.length ∧
      ∀ i (v : Option K), img[i]? = some v → out[i]? = some (v.map fun v => v - (cat.map fun s => if Wanted include_ exclude s then s.flux.getD 0 / fconv * m (s.y - 1) (s.x - 1) i else 0).sum) := by
  have hsel : ∀ s : Src K, selected include_ exclude s = true ↔ Wanted include_ exclude s := by
    intro s
    unfold selected Wanted
    rw [Bool.and_eq_true, and_comm]
    refine and_congr ?_ ?_
    · cases s.flux <;> simp
    · cases include_ with
      | nil => simp
      | cons a l => simp
  have hc : catalogue fits include_ exclude cat = cat.filter (selected include_ exclude) := by
    unfold catalogue
    rcases hf with rfl | hf
    · rfl
    · rw [List.filter_eq_self.2 fun s hs => (hsel s).2 (hf s hs)]
      simp
  have hr := foldl_ok hp fconv (cat.filter (selected include_ exclude)) (fun s hs => by
      obtain ⟨⟨f, h, -⟩, -⟩ := (hsel s).1 (List.mem_filter.1 hs).2
      rw [h]; rfl) img
  rw [← hc] at hr
  refine ⟨_, hr, ?_, ?_⟩
  · simp
  · intro i v hv
    rw [List.getElem?_mapIdx, hv]
    rw [hc]
    simp only [Option.map_some]
    congr 2
    funext v
    congr 1
    clear hc hf hr
    induction cat with
    | nil => rfl
    | cons s l ih =>
      by_cases h : Wanted include_ exclude s
      · rw [List.filter_cons_of_pos ((hsel s).2 h), List.map_cons, List.map_cons, List.sum_cons, List.sum_cons, ih, if_pos h]
      · rw [List.filter_cons_of_neg (by rw [hsel]; exact h), List.map_cons, List.sum_cons, ih, if_neg h, zero_add]

example : run (K := Rat) (fun y x => some fun i => if i = 0 then y else x) true [] [7] 2 [⟨3, 2, 3, some 4⟩, ⟨7, 2, 3, some 4⟩, ⟨8, 2, 3, some (-1)⟩, ⟨9, 2, 3, none⟩] [some 10, some 10, none] =
    .ok [some 6, some 8, none] := by decide +kernel

omit [LinearOrder K] in
theorem foldl_none {psf : K → K → Option (Nat → K)} {m : K → K → Nat → K} (hp : ∀ y x, psf y x = some (m y x)) (fconv : K) : ∀ (l : List (Src K)) (img : List (Option K)) (_ : (∃ s ∈ l, s.flux = none) ∨ ∀ v ∈ img, v = none),
    l.foldlM (step psf fconv) img = .ok (List.replicate img.length none) := by
  intro l
  induction l with
  | nil =>
    intro img h
    have h := h.resolve_left (by simp)
    show Res.ok img = _
    rw [List.eq_replicate_iff.2 ⟨rfl, h⟩]
    simp
  | cons s l ih =>
    intro img h
    have hs : step psf fconv img s = .ok (img.mapIdx fun i v => lift2 (· - ·) v (s.flux.map fun f => m (s.y - 1) (s.x - 1) i * f / fconv)) := by
      unfold step; rw [hp]
    rw [List.foldlM_cons, hs, Res.ok_bind, ih, List.length_mapIdx]
    rcases h with ⟨t, ht, hn⟩ | h
    · rcases List.mem_cons.1 ht with rfl | ht
      · right
        intro v hv
        obtain ⟨i, hi, rfl⟩ := List.getElem_of_mem hv
        have hl : ∀ v : Option K, lift2 (· - ·) v none = none := fun v => by cases v <;> rfl
        simp only [List.getElem_mapIdx, hn, Option.map_none, hl]
      · exact Or.inl ⟨t, ht, hn⟩
    · right
      intro v hv
      obtain ⟨i, hi, rfl⟩ := List.getElem_of_mem hv
      rw [List.getElem_mapIdx, h _ (List.getElem_mem _)]
      rfl

/-- A catalogue in a text file is used as it is: one source whose flux is not finite is enough for all the pixels to be lost, excluded or not. -/
theorem C213_text_refuted {psf : K → K → Option (Nat → K)} {m : K → K → Nat → K} (hp : ∀ y x, psf y x = some (m y x)) (include_ exclude : List Nat) (fconv : K) (cat : List (Src K)) (img : List (Option K))
    (h : ∃ s ∈ cat, s.flux = none) : run psf false include_ exclude fconv cat img = .ok (List.replicate img.length none) := by
  unfold run catalogue
  rw [if_neg (by simp)]
  exact foldl_none hp fconv cat img (Or.inl h)

/-- The lists of included and excluded sources are not used with a text file, and the sources of negative flux are added. -/
theorem C213_ignored_refuted : run (K := Rat) (fun _ _ => some fun _ => 1) false [5] [1] 1 [⟨1, 1, 1, some 2⟩, ⟨2, 1, 1, some (-5)⟩] [some 0] = .ok [some 3] := by decide +kernel

/-- The band: it is the one that matches, if there is exactly one. -/
theorem C213_band (l : List Bool) (i : Nat) : band l = some i ↔ (l[i]? = some true ∧ ∀ j, l[j]? = some true → j = i) := by
  have hmem : ∀ j, j ∈ (List.range l.length).filter (fun i => l.getD i false) ↔ l[j]? = some true := by
    intro j
    rw [List.mem_filter, List.mem_range, List.getD_eq_getElem?_getD]
    constructor
    · rintro ⟨h, h2⟩
      rw [List.getElem?_eq_getElem h] at h2 ⊢
      simpa using h2
    · intro h
      obtain ⟨h1, h2⟩ := List.getElem?_eq_some_iff.1 h
      exact ⟨h1, by rw [h]; rfl⟩
  have hnd : ((List.range l.length).filter (fun i => l.getD i false)).Nodup := List.nodup_range.filter _
  unfold band
  constructor
  · intro h
    split at h
    next k he =>
      simp only [Option.some.injEq] at h
      subst h
      rw [he] at hmem
      exact ⟨(hmem _).1 (by simp), fun j hj => by simpa using (hmem j).2 hj⟩
    next => simp at h
  · rintro ⟨h1, h2⟩
    have he : (List.range l.length).filter (fun i => l.getD i false) = [i] := by
      have hp : ((List.range l.length).filter (fun i => l.getD i false)).Perm [i] := (List.perm_ext_iff_of_nodup hnd (by simp)).2 fun j => by
        rw [hmem, List.mem_singleton]
        exact ⟨h2 j, fun h => h ▸ h1⟩
      exact List.perm_singleton.1 hp
    rw [he]

example : band [false, true, false] = some 1 ∧ band [true, true] = none ∧ band [false] = none := by decide

end Verif.Subsrc
