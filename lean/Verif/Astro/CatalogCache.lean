import Verif.Astro.Catalog
import Mathlib.Tactic.Common

/-!
# Saved cross-matches (`astro/catalog_merge.hpp:170-206`)

The name of the file is a function `file` of the name of the catalogue, the numbers of sources and the lists of sources and files: nothing is assumed about it (two values may give
the same name). A file that cannot be read or written is not modelled, nor are other programs that write these files.
-/

namespace Verif.Catalog
open Verif

variable {P : Type}

/-- what the name of the file depends on (`catalog_merge.hpp:170-171`) -/
structure Key where
  name : String
  n : Nat
  nsel : Nat
  ngal : Nat
  sources : List String
  files : List String
deriving DecidableEq

/-- the content of a file: `sel`, `ngal` and the match (`catalog_merge.hpp:193-195`) -/
structure Saved where
  sel : List Nat
  ngal : Nat
  xm : Xm

/-- the files, by name -/
abbrev Store := String → Option Saved

/-- the match that is used and the files after (`catalog_merge.hpp:173-200`); `force` is `xmatch` of the pool -/
def savedMatch (xmatch : List P → List P → Xm) (force : Bool) (store : Store) (k : String) (sel : List Nat) (ngal : Nat) (csel pos : List P) : Xm × Store :=
  match if force then none else store k with
  | some s =>
    if s.sel.length ≠ sel.length ∨ s.ngal ≠ ngal then (xmatch csel pos, fun k' => if k' = k then some ⟨sel, ngal, xmatch csel pos⟩ else store k')
    else (s.xm, store)
  | none => (xmatch csel pos, fun k' => if k' = k then some ⟨sel, ngal, xmatch csel pos⟩ else store k')

/-- one call, in this program or an earlier one -/
structure Call (P : Type) where
  force : Bool
  name : String
  sources : List String
  files : List String
  noNew : Bool
  cat : List P
  sel : List Nat
  pool : Pool P

/-- the selection, all sources if it is empty (`catalog_merge.hpp:153-155`) -/
def Call.ids (c : Call P) : List Nat := if c.sel = [] then List.range c.cat.length else c.sel

/-- `hash(name, cra.size(), sel.size(), ngal, sources, files)` (`catalog_merge.hpp:170`) -/
def Call.key (c : Call P) : Key := ⟨c.name, c.cat.length, c.ids.length, c.pool.ngal, c.sources, c.files⟩

/-- `add_catalog_` with the files (`catalog_merge.hpp:147-244`): the match of `savedMatch` is used in place of a new one. The second value is the files after: they are written before the
loop on the sources. -/
def Call.run (xmatch : List P → List P → Xm) (file : Key → String) (c : Call P) (store : Store) : Res (Pool P) × Store :=
  if c.pool.cats = [] then (addCatalog xmatch c.noNew c.cat c.sel c.pool, store)
  else match gather c.cat c.ids with
  | .ok csel =>
    let r := savedMatch xmatch c.force store (file c.key) c.ids c.pool.ngal csel c.pool.pos
    (addCatalog (fun _ _ => r.1) c.noNew c.cat c.sel c.pool, r.2)
  | .abort => (.abort, store)
  | .ub => (.ub, store)
  | .diverge => (.diverge, store)

/-- the files after several calls -/
def after (xmatch : List P → List P → Xm) (file : Key → String) : List (Call P) → Store → Store
  | [], store => store
  | c :: cs, store => after xmatch file cs (c.run xmatch file store).2

/-! ### Specification -/

/-- what is matched: the positions of the selected sources and those of the pool -/
def Call.Matched (c : Call P) (a b : List P) : Prop :=
  gather c.cat (if c.sel = [] then List.range c.cat.length else c.sel) = .ok a ∧ c.pool.pos = b

/-- the match saved by `d` is taken for that of `c`: same file, same numbers of sources -/
def Call.Reused (file : Key → String) (d c : Call P) : Prop :=
  file d.key = file c.key ∧ d.ids.length = c.ids.length ∧ d.pool.ngal = c.pool.ngal

/-! ### Helpers -/

/-- each file is that of a call -/
def Known (xmatch : List P → List P → Xm) (file : Key → String) (cs : List (Call P)) (store : Store) : Prop :=
  ∀ k s, store k = some s → ∃ c ∈ cs, file c.key = k ∧ s.sel = c.ids ∧ s.ngal = c.pool.ngal ∧ ∃ a b, c.Matched a b ∧ s.xm = xmatch a b

theorem saved_cases (xmatch : List P → List P → Xm) (force : Bool) (store : Store) (k : String) (sel : List Nat) (ngal : Nat) (a b : List P) :
    (savedMatch xmatch force store k sel ngal a b = (xmatch a b, fun k' => if k' = k then some ⟨sel, ngal, xmatch a b⟩ else store k')) ∨
    (force = false ∧ ∃ s, store k = some s ∧ s.sel.length = sel.length ∧ s.ngal = ngal ∧ savedMatch xmatch force store k sel ngal a b = (s.xm, store)) := by
  unfold savedMatch
  cases force with
  | true => left; rfl
  | false =>
    simp only [Bool.false_eq_true, if_false]
    cases hs : store k with
    | none => left; rfl
    | some s =>
      simp only
      split
      · left; rfl
      · next h =>
        rw [not_or, not_not, not_not] at h
        exact Or.inr ⟨trivial, s, rfl, h.1, h.2, rfl⟩

theorem addCatalog_congr (x y : List P → List P → Xm) (noNew : Bool) (cat : List P) (sel : List Nat) (pool : Pool P)
    (h : ∀ a, gather cat (if sel = [] then List.range cat.length else sel) = .ok a → x a pool.pos = y a pool.pos) :
    addCatalog x noNew cat sel pool = addCatalog y noNew cat sel pool := by
  unfold addCatalog
  dsimp only
  split
  · rfl
  · cases hg : gather cat (if sel = [] then List.range cat.length else sel) with
    | ok a => simp only [Res.ok_bind, h a hg]
    | abort => rfl
    | ub => rfl
    | diverge => rfl

theorem Known.mono {xmatch : List P → List P → Xm} {file : Key → String} {cs ds : List (Call P)} {store : Store} (h : Known xmatch file cs store) (hs : ∀ c ∈ cs, c ∈ ds) :
    Known xmatch file ds store := fun k s e => by
  obtain ⟨d, hd, h⟩ := h k s e
  exact ⟨d, hs d hd, h⟩

theorem known_run (xmatch : List P → List P → Xm) (file : Key → String) (cs : List (Call P)) (store : Store) (h : Known xmatch file cs store) (c : Call P) :
    Known xmatch file (c :: cs) (c.run xmatch file store).2 := by
  have weak : Known xmatch file (c :: cs) store := h.mono fun d hd => List.mem_cons_of_mem _ hd
  unfold Call.run
  split
  · exact weak
  · split
    · next a hg =>
      rcases saved_cases xmatch c.force store (file c.key) c.ids c.pool.ngal a c.pool.pos with e | ⟨-, s, -, -, -, e⟩
      · simp only [e]
        intro k s hs
        dsimp only at hs
        split at hs
        · next hk =>
          cases hs
          exact ⟨c, by simp, hk.symm, rfl, rfl, a, c.pool.pos, ⟨hg, rfl⟩, rfl⟩
        · exact weak k s hs
      · simp only [e]; exact weak
    · exact weak
    · exact weak
    · exact weak

theorem known_after (xmatch : List P → List P → Xm) (file : Key → String) (cs ds : List (Call P)) (store : Store) (h : Known xmatch file ds store) :
    Known xmatch file (cs ++ ds) (after xmatch file cs store) := by
  induction cs generalizing ds store with
  | nil => exact h
  | cons c cs ih =>
    refine (ih (c :: ds) _ (known_run xmatch file ds store h c)).mono ?_
    intro d hd
    simp only [List.mem_append, List.mem_cons, List.cons_append] at hd ⊢
    tauto

/-- a call with a match that is that of its positions -/
theorem run_of (xmatch : List P → List P → Xm) (file : Key → String) (c : Call P) (store : Store)
    (h : ∀ a, gather c.cat c.ids = .ok a → (savedMatch xmatch c.force store (file c.key) c.ids c.pool.ngal a c.pool.pos).1 = xmatch a c.pool.pos) :
    (c.run xmatch file store).1 = addCatalog xmatch c.noNew c.cat c.sel c.pool := by
  unfold Call.run
  split
  · rfl
  · next hp =>
    split
    · next a hg =>
      dsimp only
      apply addCatalog_congr
      intro a' h'
      have : a = a' := by
        have h' : gather c.cat c.ids = .ok a' := h'
        rw [hg] at h'; cases h'; rfl
      subst this
      exact h a hg
    all_goals
      next hg =>
      have hg : gather c.cat (if c.sel = [] then List.range c.cat.length else c.sel) = _ := hg
      unfold addCatalog
      simp only [if_neg hp, hg]
      rfl

/-! ### C198 -/

/-- With `xmatch` the files are not read: the result is that of a new match. -/
theorem C198_forced (xmatch : List P → List P → Xm) (file : Key → String) (c : Call P) (hf : c.force = true) (store : Store) :
    (c.run xmatch file store).1 = addCatalog xmatch c.noNew c.cat c.sel c.pool := by
  refine run_of xmatch file c store fun a _ => ?_
  rcases saved_cases xmatch c.force store (file c.key) c.ids c.pool.ngal a c.pool.pos with e | ⟨hf', -⟩
  · rw [e]
  · rw [hf] at hf'; cases hf'

/-- The match of a call with `xmatch` replaces the one that was saved: the same call without `xmatch` then gives the same result. -/
theorem C198_refreshed (xmatch : List P → List P → Xm) (file : Key → String) (c : Call P) (hf : c.force = true) (store : Store) :
    ({ c with force := false }.run xmatch file (c.run xmatch file store).2).1 = addCatalog xmatch c.noNew c.cat c.sel c.pool := by
  by_cases hp : c.pool.cats = []
  · have hp' : ({ c with force := false } : Call P).pool.cats = [] := hp
    conv_lhs => unfold Call.run
    rw [if_pos hp']
  refine run_of xmatch file { c with force := false } _ fun a hg => ?_
  have hg : gather c.cat c.ids = .ok a := hg
  change (savedMatch xmatch false _ (file c.key) c.ids c.pool.ngal a c.pool.pos).1 = xmatch a c.pool.pos
  rcases saved_cases xmatch false (c.run xmatch file store).2 (file c.key) c.ids c.pool.ngal a c.pool.pos with e | ⟨-, s, hs, -, -, e⟩
  · rw [e]
  · rw [e]
    unfold Call.run at hs
    rw [if_neg hp, hg] at hs
    rcases saved_cases xmatch c.force store (file c.key) c.ids c.pool.ngal a c.pool.pos with e' | ⟨hf', -⟩
    · simp only [e', if_true] at hs
      cases hs
      rfl
    · rw [hf] at hf'; cases hf'

/-- After any calls from no file, a call gives the same result as without files, if the earlier calls whose match it takes had the same positions. -/
theorem C198_saved_partial (xmatch : List P → List P → Xm) (file : Key → String) (cs : List (Call P)) (c : Call P)
    (hs : ∀ d ∈ cs, d.Reused file c → ∀ a b a' b', d.Matched a b → c.Matched a' b' → a = a' ∧ b = b') :
    (c.run xmatch file (after xmatch file cs fun _ => none)).1 = addCatalog xmatch c.noNew c.cat c.sel c.pool := by
  have known := known_after xmatch file cs [] (fun _ => none) (fun _ _ h => by cases h)
  refine run_of xmatch file c _ fun a hg => ?_
  rcases saved_cases xmatch c.force (after xmatch file cs fun _ => none) (file c.key) c.ids c.pool.ngal a c.pool.pos with e | ⟨-, s, hst, hl, hn, e⟩
  · rw [e]
  · obtain ⟨d, hd, hk, h1, h2, a', b', hm, hx⟩ := known _ s hst
    rw [List.append_nil] at hd
    obtain ⟨rfl, rfl⟩ := hs d hd ⟨hk, by rw [← h1, hl], by rw [← h2, hn]⟩ a' b' a c.pool.pos hm ⟨hg, rfl⟩
    rw [e, hx]

/-! two runs of the same program on the same catalogues: the second one takes the saved match and has the same result -/

/-- the closest position of the other list, on a line -/
def nearestOn (p : Int) (l : List Int) : Nat :=
  ((List.range l.length).foldl (fun best i => match best with
    | none => some i
    | some j => if (p - l.getD i 0).natAbs < (p - l.getD j 0).natAbs then some i else some j) none).getD 0

/-- `qxmatch` on a line -/
def closestMatch (a b : List Int) : Xm := ⟨a.map (nearestOn · b), b.map (nearestOn · a)⟩

/-- a pool of two sources at 0 and 100 -/
def poolTwo : Pool Int := ⟨2, [0, 100], [1, 1], [⟨[0, 1], [0, 1]⟩]⟩

/-- a catalogue of two sources, at 1 and 99 -/
def callTwo : Call Int := ⟨false, "b", ["b"], ["b.fits"], false, [1, 99], [], poolTwo⟩

/-- the name of the file in the examples: all that the real name is made of -/
def fileName (k : Key) : String :=
  k.name ++ "/" ++ toString k.n ++ "/" ++ toString k.nsel ++ "/" ++ toString k.ngal ++ "/" ++ toString k.sources ++ "/" ++ toString k.files

example : (callTwo.run closestMatch fileName (after closestMatch fileName [callTwo, callTwo] fun _ => none)).1 = addCatalog closestMatch false [1, 99] [] poolTwo :=
  C198_saved_partial closestMatch fileName [callTwo, callTwo] callTwo (fun d hd _ a b a' b' h h' => by
    have : d = callTwo := by simpa using hd
    subst this
    have e : Res.ok a = Res.ok a' := h.1.symm.trans h'.1
    exact ⟨by cases e; rfl, h.2.symm.trans h'.2⟩)

/-- a call after another one with the same key: the match of the other one -/
theorem run_second (xmatch : List P → List P → Xm) (file : Key → String) (d c : Call P) (hk : d.key = c.key) (hf : c.force = false)
    (hd : d.pool.cats ≠ []) (hc : c.pool.cats ≠ []) (a a' : List P) (ha : gather d.cat d.ids = .ok a) (ha' : gather c.cat c.ids = .ok a') :
    (c.run xmatch file (after xmatch file [d] fun _ => none)).1 = addCatalog (fun _ _ => xmatch a d.pool.pos) c.noNew c.cat c.sel c.pool := by
  have e1 : (d.run xmatch file fun _ => none).2 (file c.key) = some ⟨d.ids, d.pool.ngal, xmatch a d.pool.pos⟩ := by
    unfold Call.run
    rw [if_neg hd, ha]
    dsimp only
    unfold savedMatch
    rw [hk]
    simp
  have h1 : d.ids.length = c.ids.length := congrArg Key.nsel hk
  have h2 : d.pool.ngal = c.pool.ngal := congrArg Key.ngal hk
  unfold after after
  generalize (d.run xmatch file fun _ => none).2 = store at e1
  unfold Call.run
  rw [if_neg hc, ha']
  dsimp only
  unfold savedMatch
  rw [hf, e1]
  simp [h1, h2]

/-- The positions of the catalogue are changed (the two sources are exchanged): the number of sources is the same and the saved match is used, so that the source at 99 is
identified with the one at 0 and the source at 1 with the one at 100. -/
theorem C198_positions_refuted (file : Key → String) :
    ¬ ∀ (cs : List (Call Int)) (c : Call Int), (∀ d ∈ cs, d.pool = c.pool ∧ d.sel = c.sel) →
      (c.run closestMatch file (after closestMatch file cs fun _ => none)).1 = addCatalog closestMatch c.noNew c.cat c.sel c.pool := by
  intro h
  have h := h [callTwo] { callTwo with cat := [99, 1] } (by
    intro d hd
    have : d = callTwo := by simpa using hd
    subst this; exact ⟨rfl, rfl⟩)
  rw [run_second closestMatch file callTwo { callTwo with cat := [99, 1] } rfl rfl (by decide) (by decide) [1, 99] [99, 1] rfl rfl] at h
  revert h
  decide +kernel

/-- Another selection of the same number of sources in the same catalogue: same effect. -/
theorem C198_selection_refuted (file : Key → String) :
    ¬ ∀ (cs : List (Call Int)) (c : Call Int), (∀ d ∈ cs, d.cat = c.cat ∧ d.pool = c.pool) →
      (c.run closestMatch file (after closestMatch file cs fun _ => none)).1 = addCatalog closestMatch c.noNew c.cat c.sel c.pool := by
  intro h
  have h := h [{ callTwo with sel := [0] }] { callTwo with sel := [1] } (by
    intro d hd
    have : d = { callTwo with sel := [0] } := by simpa using hd
    subst this; exact ⟨rfl, rfl⟩)
  rw [run_second closestMatch file { callTwo with sel := [0] } { callTwo with sel := [1] } rfl rfl (by decide) (by decide) [1] [99] rfl rfl] at h
  revert h
  decide +kernel

end Verif.Catalog
