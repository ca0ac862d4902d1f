import Verif.Io.ArgvListProps
import Verif.Tools.PixfitMaps
/-!
# Model of `pixfit-prep` (`tools/pixfit/pixfit-prep.cpp`) and property C242

`pixfit-prep` writes a script that runs `pixfit-extract` on each map and then `pixfit-combine`. `num` is `to_string` and `fin` is `is_finite`.
-/
namespace Verif.Pixfit
open Verif Verif.Str Verif.Io

variable {V : Type}

/-- one line of the script (`pixfit-prep.cpp:14-27`), without the end of line -/
def extractLine (num : V → Str) (fin : V → Bool) (cat : Str) (m : MapInfo V) : Str :=
  "pixfit-extract".toList ++ [' '] ++ "cat=".toList ++ ['"'] ++ cat ++ ['"', ' '] ++ "img=".toList ++ ['"'] ++ m.band ++ "-sci.fits".toList ++ ['"', ' '] ++
  "err=".toList ++ ['"'] ++ m.band ++ "-err.fits".toList ++ ['"', ' '] ++ "psf=".toList ++ ['"'] ++ m.psf ++ ['"', ' '] ++
  "fconv=".toList ++ num m.fconv ++ [' '] ++
  "beam_flux=".toList ++ num m.beamFlux ++ [' '] ++
  "out=fit-".toList ++ m.band ++ ".fits".toList ++ [' '] ++
  "out_res=".toList ++ m.band ++ "-res.fits".toList ++ [' '] ++
  "out_model=".toList ++ m.band ++ "-mod.fits".toList ++ [' '] ++ "make_groups".toList ++ [' '] ++
  "out_gmap=".toList ++ m.band ++ "-grp.fits".toList ++ [' '] ++
  "group_fit_threshold=".toList ++ num m.gfit ++ [' '] ++
  "group_aper_threshold=".toList ++ num m.gaper ++ [' '] ++
  (if fin m.beamSmear then [' '] ++ "beam_smeared".toList ++ [' '] ++ "beam_size=".toList ++ num m.beamSmear else [])

/-- the loop over the maps (`pixfit-prep.cpp:13-31`): the script and the list of catalogues -/
def prepLoop (num : V → Str) (fin : V → Bool) (cat : Str) : List (MapInfo V) → Str × Str → Str × Str
  | [], s => s
  | m :: ms, s => prepLoop num fin cat ms (s.1 ++ extractLine num fin cat m ++ ['\n'],
      s.2 ++ ([' '] ++ m.band ++ ":fit-".toList ++ m.band ++ ".fits".toList))

/-- the script (`pixfit-prep.cpp:10-34`) -/
def prepScript (num : V → Str) (fin : V → Bool) (cat cmb : Str) (maps : List (MapInfo V)) : Str :=
  let s := prepLoop num fin cat maps ("#!/bin/bash\n\n".toList, ['"'] ++ cmb ++ ['"', ' ', '"'] ++ cat ++ ['"'])
  s.1 ++ ['\n'] ++ "pixfit-combine ".toList ++ s.2 ++ ['\n']

/-- `vif_main` of `pixfit-prep` (`pixfit-prep.cpp:3-38`): the file that is written and its content, `none` if the list of maps cannot be read (`maps` is `read_maps`).
The arguments are not counted: a missing one is a null pointer, of which a string is made. -/
def pixfitPrep (num : V → Str) (fin : V → Bool) (maps : Str → Res (Option (List (MapInfo V)))) (argv : List Str) : Res (Option (Str × Str)) := do
  let mf ← Res.rd argv 2
  match ← maps mf with
  | none => .ok none
  | some ms => do
    let cat ← Res.rd argv 3
    let cmb ← Res.rd argv 4
    let o ← Res.rd argv 1
    .ok (some (o, prepScript num fin cat cmb ms))

/-- `read_args_impl_` for a `std::string`, of which any text is a value -/
def strConv : Conv Str := ⟨['1'], fun v _ => (true, v)⟩

/-- a variable of type `std::string`, empty at first -/
def strSlot (label : Option Str) : Slot Str := ⟨label, [], readScalar strConv, id⟩

/-- the arguments of `pixfit-combine` (`pixfit-combine.cpp:4-24`): the list of maps, the input and the output catalogue; `none` if the program stops because one of them is missing -/
def combineArgs (argv : List Str) : Res (Option (List Str)) := do
  let es ← programArgs argv
  let r ← readArgs [strSlot (some "maps".toList), strSlot none, strSlot none] ("name(map_file, \"maps\"".toList ++ [')'] ++ ',' :: ' ' :: ("incat".toList ++ ',' :: ' ' :: "outcat".toList)) es
  .ok (if ∃ v ∈ r.2, v = [] then none else some r.2)

/-! ## Specification -/

/-- Spec: an option as it is written on a command line -/
def optWord (o : Str × Option Str) : Str :=
  match o.2 with
  | none => o.1
  | some v => o.1 ++ '=' :: v

/-- Spec: the options of `pixfit-extract` for a map -/
def mapOptions (num : V → Str) (fin : V → Bool) (cat : Str) (m : MapInfo V) : List (Str × Option Str) :=
  [("cat".toList, some cat), ("img".toList, some (m.band ++ "-sci.fits".toList)), ("err".toList, some (m.band ++ "-err.fits".toList)), ("psf".toList, some m.psf),
    ("fconv".toList, some (num m.fconv)), ("beam_flux".toList, some (num m.beamFlux)), ("out".toList, some ("fit-".toList ++ m.band ++ ".fits".toList)),
    ("out_res".toList, some (m.band ++ "-res.fits".toList)), ("out_model".toList, some (m.band ++ "-mod.fits".toList)), ("make_groups".toList, none),
    ("out_gmap".toList, some (m.band ++ "-grp.fits".toList)), ("group_fit_threshold".toList, some (num m.gfit)), ("group_aper_threshold".toList, some (num m.gaper))] ++
  if fin m.beamSmear then [("beam_smeared".toList, none), ("beam_size".toList, some (num m.beamSmear))] else []

/-- Spec: the options that `pixfit-extract` has (`pixfit-extract.cpp:52-60`) -/
def extractNames : List Str := ["cat", "img", "psf", "err", "out", "out_res", "out_model", "out_gmap", "maps", "help", "fconv", "verbose", "fixed_bg", "save_covariance", "cell_approx",
  "flux_prior", "make_groups", "group_fit_threshold", "group_aper_threshold", "group_aper_size", "group_cov_threshold", "group_post_process", "threads", "beam_smeared", "beam_size",
  "trim_image", "beam_flux"].map String.toList

/-- Spec: the names and numbers of a map are left as they are by a shell -/
structure Plain (num : V → Str) (m : MapInfo V) : Prop where
  band : Bare m.band
  psf : Quotable m.psf
  num : ∀ v, Bare (num v)

/-! ### helpers -/

theorem bare_append {a b : Str} (ha : Bare a) (hb : Bare b) : Bare (a ++ b) := by
  intro c hc
  rcases List.mem_append.1 hc with h | h
  · exact ha c h
  · exact hb c h

theorem bare_quotable {a : Str} (h : Bare a) : Quotable a := fun c hc => ⟨(h c hc).1, fun hs => (h c hc).2.2.2 (by unfold shellOutside; exact List.mem_append_left _ hs)⟩

theorem quotable_append {a b : Str} (ha : Quotable a) (hb : Quotable b) : Quotable (a ++ b) := by
  intro c hc
  rcases List.mem_append.1 hc with h | h
  · exact ha c h
  · exact hb c h

instance (s : Str) : Decidable (Bare s) := inferInstanceAs (Decidable (∀ c ∈ s, _))

/-- a word without quotes -/
theorem word_bare (a s : Str) (ha : Bare a) (hne : a ≠ []) : shellGo false none (a ++ ' ' :: s) = (shellGo false none s).map (a :: ·) := by
  rw [shellGo_bare a _ ha none (.inl hne), shellGo_out, if_neg (by decide), if_pos (.inl rfl)]
  rfl

theorem word_bare2 (a b s : Str) (ha : Bare a) (hb : Bare b) (hne : a ≠ []) : shellGo false none (a ++ (b ++ ' ' :: s)) = (shellGo false none s).map ((a ++ b) :: ·) := by
  rw [← List.append_assoc, word_bare _ _ (bare_append ha hb) (by simp [hne])]

theorem word_bare3 (a b c s : Str) (ha : Bare a) (hb : Bare b) (hc : Bare c) (hne : a ≠ []) :
    shellGo false none (a ++ (b ++ (c ++ ' ' :: s))) = (shellGo false none s).map ((a ++ (b ++ c)) :: ·) := by
  rw [← List.append_assoc b, word_bare2 _ _ _ ha (bare_append hb hc) hne]

/-- a word with quotes -/
theorem word_quoted (a b s : Str) (ha : Bare a) (hb : Quotable b) (hne : a ≠ []) :
    shellGo false none (a ++ '"' :: (b ++ '"' :: ' ' :: s)) = (shellGo false none s).map ((a ++ b) :: ·) := by
  rw [shellGo_bare a _ ha none (.inl hne), shellGo_out, if_pos rfl, Option.getD_some, shellGo_quoted _ _ hb, shellGo_out, if_neg (by decide), if_pos (.inl rfl)]
  rfl

theorem word_quoted2 (a b c s : Str) (ha : Bare a) (hb : Quotable b) (hc : Quotable c) (hne : a ≠ []) :
    shellGo false none (a ++ '"' :: (b ++ (c ++ '"' :: ' ' :: s))) = (shellGo false none s).map ((a ++ (b ++ c)) :: ·) := by
  rw [← List.append_assoc b, word_quoted _ _ _ ha (quotable_append hb hc) hne]

theorem word_end (a b : Str) (ha : Bare a) (hb : Bare b) (hne : a ≠ []) : shellGo false none (a ++ b) = some [a ++ b] := by
  have := shellGo_bare (a ++ b) [] (bare_append ha hb) none (.inl (by simp [hne]))
  rw [List.append_nil] at this
  rw [this]
  simp [shellGo]

theorem word_blank (s : Str) : shellGo false none (' ' :: s) = shellGo false none s := by
  rw [shellGo_out, if_neg (by decide), if_pos (.inl rfl)]

theorem line_words (num : V → Str) (fin : V → Bool) (cat : Str) (m : MapInfo V) (hm : Plain num m) (hc : Quotable cat) :
    shellWords (extractLine num fin cat m) = some ("pixfit-extract".toList :: (mapOptions num fin cat m).map optWord) := by
  have hb := hm.band
  have hn := hm.num
  have hq := bare_quotable hb
  unfold shellWords extractLine
  simp only [List.append_assoc, List.cons_append, List.nil_append]
  rw [word_bare _ _ (by decide +kernel) (by decide +kernel), word_quoted _ _ _ (by decide +kernel) hc (by decide +kernel), word_quoted2 _ _ _ _ (by decide +kernel) hq (bare_quotable (by decide +kernel)) (by decide +kernel),
    word_quoted2 _ _ _ _ (by decide +kernel) hq (bare_quotable (by decide +kernel)) (by decide +kernel), word_quoted _ _ _ (by decide +kernel) hm.psf (by decide +kernel),
    word_bare2 _ _ _ (by decide +kernel) (hn _) (by decide +kernel), word_bare2 _ _ _ (by decide +kernel) (hn _) (by decide +kernel),
    word_bare3 _ _ _ _ (by decide +kernel) hb (by decide +kernel) (by decide +kernel), word_bare3 _ _ _ _ (by decide +kernel) hb (by decide +kernel) (by decide +kernel), word_bare3 _ _ _ _ (by decide +kernel) hb (by decide +kernel) (by decide +kernel),
    word_bare _ _ (by decide +kernel) (by decide +kernel), word_bare3 _ _ _ _ (by decide +kernel) hb (by decide +kernel) (by decide +kernel),
    word_bare2 _ _ _ (by decide +kernel) (hn _) (by decide +kernel), word_bare2 _ _ _ (by decide +kernel) (hn _) (by decide +kernel)]
  have hend : shellGo false none (if fin m.beamSmear then ' ' :: ("beam_smeared".toList ++ ' ' :: ("beam_size=".toList ++ num m.beamSmear)) else []) =
      some ((if fin m.beamSmear then [("beam_smeared".toList, none), ("beam_size".toList, some (num m.beamSmear))] else []).map optWord) := by
    split
    · rw [word_blank, word_bare _ _ (by decide +kernel) (by decide +kernel), word_end _ _ (by decide +kernel) (hn _) (by decide +kernel)]
      simp [optWord]
    · simp [shellGo]
  rw [hend]
  simp only [mapOptions, Option.map_some, List.map_append, List.map_cons, List.map_nil, List.cons_append, List.nil_append]
  have e1 : "cat=".toList = "cat".toList ++ ['='] := by decide +kernel
  have e2 : "img=".toList = "img".toList ++ ['='] := by decide +kernel
  have e3 : "err=".toList = "err".toList ++ ['='] := by decide +kernel
  have e4 : "psf=".toList = "psf".toList ++ ['='] := by decide +kernel
  have e5 : "fconv=".toList = "fconv".toList ++ ['='] := by decide +kernel
  have e6 : "beam_flux=".toList = "beam_flux".toList ++ ['='] := by decide +kernel
  have e7 : "out=fit-".toList = "out".toList ++ '=' :: "fit-".toList := by decide +kernel
  have e8 : "out_res=".toList = "out_res".toList ++ ['='] := by decide +kernel
  have e9 : "out_model=".toList = "out_model".toList ++ ['='] := by decide +kernel
  have e10 : "out_gmap=".toList = "out_gmap".toList ++ ['='] := by decide +kernel
  have e11 : "group_fit_threshold=".toList = "group_fit_threshold".toList ++ ['='] := by decide +kernel
  have e12 : "group_aper_threshold=".toList = "group_aper_threshold".toList ++ ['='] := by decide +kernel
  rw [e1, e2, e3, e4, e5, e6, e7, e8, e9, e10, e11, e12]
  simp only [optWord, List.append_assoc, List.cons_append, List.nil_append]

theorem prepLoop_eq (num : V → Str) (fin : V → Bool) (cat : Str) (maps : List (MapInfo V)) : ∀ s : Str × Str,
    prepLoop num fin cat maps s = (s.1 ++ (maps.map (extractLine num fin cat)).flatMap (· ++ ['\n']),
      s.2 ++ maps.flatMap fun m => ' ' :: (m.band ++ ":fit-".toList ++ m.band ++ ".fits".toList)) := by
  induction maps with
  | nil => intro s; simp [prepLoop]
  | cons m ms ih => intro s; rw [prepLoop, ih]; simp [List.append_assoc]

theorem trim_bare (a : Str) (h : Bare a) (hr : '\r' ∉ a) : trim a blanks = .ok a := by
  obtain ⟨m, h1, h2⟩ := C36_trim a blanks
  have hb : ∀ c ∈ a, c ∉ blanks := by
    intro c hc
    have := h c hc
    simp only [blanks, List.mem_cons, List.not_mem_nil, or_false, not_or]
    have hs := this.2.2.2
    refine ⟨this.2.1, this.2.2.1, ?_, ?_⟩
    · rintro rfl; exact hs (by decide +kernel)
    · rintro rfl; exact hr hc
  rw [h1, isTrim_unique h2 ⟨[], [], by simp, by simp, by simp, fun c hc => hb _ (List.mem_of_mem_head? hc), fun c hc => hb _ (List.mem_of_getLast? hc)⟩]

theorem combine_words (ms : List (MapInfo V)) (h : ∀ m ∈ ms, Bare m.band) (w : Str) :
    shellGo false (some w) (ms.flatMap fun m => ' ' :: (m.band ++ ":fit-".toList ++ m.band ++ ".fits".toList)) =
      some (w :: ms.map fun m => m.band ++ ":fit-".toList ++ m.band ++ ".fits".toList) := by
  induction ms generalizing w with
  | nil => simp [shellGo]
  | cons m ms ih =>
    have hb := h m (by simp)
    have h1 : Bare (m.band ++ ":fit-".toList ++ m.band ++ ".fits".toList) := bare_append (bare_append (bare_append hb (by decide +kernel)) hb) (by decide +kernel)
    rw [List.flatMap_cons, List.cons_append, shellGo_out, if_neg (by decide), if_pos (.inl rfl)]
    simp only
    rw [shellGo_bare _ _ h1 none (.inl (by simp)), Option.getD_none, List.nil_append, ih fun x hx => h x (by simp [hx])]
    simp

/-- the value of a text read by `read_args` for a `std::string` -/
def strVal (o : Option Str) : Str :=
  match o with
  | none => ['1']
  | some v => match unquote v with
    | .ok m => m
    | _ => []

theorem str_reads (n : Str) (args : List Str) : Reads (readScalar strConv) n args strVal where
  other e t hn := by
    obtain ⟨o, h1, h2⟩ := matchArg_spec e.arg n
    cases o with
    | none => simp [readScalar, h1]
    | some v => exact absurd ((h2 v).1 rfl) (hn v)
  hit e t o he ho := by
    obtain ⟨o', h1, h2⟩ := matchArg_spec e.arg n
    have := (h2 o).2 ho
    subst this
    cases o with
    | none => simp [readScalar, h1, strConv, strVal]
    | some v =>
      obtain ⟨m, h3, h4⟩ := unquote_spec v
      simp [readScalar, h1, h3, strConv, strVal]

theorem combine_text : ArgsText [strSlot (some "maps".toList), strSlot none, strSlot none]
    ("name(map_file, \"maps\"".toList ++ [')'] ++ ',' :: ' ' :: ("incat".toList ++ ',' :: ' ' :: "outcat".toList)) ["maps".toList, "incat".toList, "outcat".toList] :=
  .cons _ _ _ _ _ _ (.label _ _ rfl (by decide +kernel)) (.cons _ _ _ _ _ _ (.plain _ _ rfl (by decide +kernel) (isName_plain _ (by decide +kernel)))
    (.one _ _ _ (.plain _ _ rfl (by decide +kernel) (isName_plain _ (by decide +kernel)))))

/-- Spec: the options of `pixfit-combine` -/
def combineNames : List Str := ["maps".toList, "incat".toList, "outcat".toList]

/-- `pixfit-combine` stops if none of its options is given -/
theorem combine_none (prog : Str) (ws : List Str) (hb : ∀ w ∈ ws, Bare w ∧ '\r' ∉ w) (hn : ∀ w ∈ ws, ∀ n ∈ combineNames, ∀ o, ¬ Names w n o) :
    combineArgs (prog :: ws) = .ok none := by
  have he : programArgs (prog :: ws) = .ok (ws.map fun w => ⟨w, false, true⟩) := by
    unfold programArgs
    split
    · rename_i h
      have : ws = [] := by
        cases ws with
        | nil => rfl
        | cons _ _ => simp at h
      subst this; rfl
    · rw [List.tail_cons]
      apply Res.mapM_ok
      intro w hw
      rw [trim_bare w (hb w hw).1 (hb w hw).2, Res.ok_bind]
  unfold combineArgs
  rw [he, Res.ok_bind]
  obtain ⟨vs, h1, h2⟩ := C160_read_partial _ _ _ (ws.map fun w => (⟨w, false, true⟩ : ArgVar)) (fun _ => strVal) combine_text (by decide +kernel)
    (by intro n hn'; simp only [List.mem_cons, List.not_mem_nil, or_false] at hn'; rcases hn' with rfl | rfl | rfl <;> exact goodName_of _ (by decide +kernel))
    (by simp) (by
      intro p hp
      simp only [List.zip_cons_cons, List.zip_nil_left, List.mem_cons, List.not_mem_nil, or_false] at hp
      rcases hp with rfl | rfl | rfl <;> exact str_reads _ _)
  rw [h1, Res.ok_bind]
  have hv : ∃ v ∈ vs, v = [] := by
    simp only [List.zip_cons_cons, List.zip_nil_left] at h2
    cases h2 with
    | cons h _ =>
      rename_i v _ _
      refine ⟨v, by simp, ?_⟩
      generalize hws : (ws.map fun w => (⟨w, false, true⟩ : ArgVar)) = es at h
      simp only at h
      cases h with
      | last a b e o _ ho _ =>
        have : e ∈ ws.map fun w => (⟨w, false, true⟩ : ArgVar) := by rw [hws]; simp
        obtain ⟨w, hw, rfl⟩ := List.mem_map.1 this
        exact absurd ho (hn w hw _ (by simp [combineNames]) o)
      | none _ _ _ => rfl
  rw [if_pos hv]

/-! ### C242 -/

/-- **C242 (in part)**: the lines of the script are, for each map in order, a call of `pixfit-extract` with the options of the map, all of which it has, and then a call of `pixfit-combine` with the
two catalogues and the results. The names of the bands and the numbers contain nothing that a shell would change. -/
theorem C242_script_partial (num : V → Str) (fin : V → Bool) (cat cmb : Str) (maps : List (MapInfo V)) (hm : ∀ m ∈ maps, Plain num m) (hc : Quotable cat) (hcm : Quotable cmb) :
    ∃ (lines : List Str) (last : Str), prepScript num fin cat cmb maps = "#!/bin/bash\n\n".toList ++ lines.flatMap (· ++ ['\n']) ++ '\n' :: last ++ ['\n'] ∧
      List.Forall₂ (fun m l => shellWords l = some ("pixfit-extract".toList :: (mapOptions num fin cat m).map optWord)) maps lines ∧
      shellWords last = some ("pixfit-combine".toList :: cmb :: cat :: maps.map fun m => m.band ++ ":fit-".toList ++ m.band ++ ".fits".toList) ∧
      ∀ m ∈ maps, ∀ o ∈ mapOptions num fin cat m, o.1 ∈ extractNames ∧ Names (optWord o) o.1 o.2 := by
  refine ⟨maps.map (extractLine num fin cat), "pixfit-combine ".toList ++ (['"'] ++ cmb ++ ['"', ' ', '"'] ++ cat ++ ['"'] ++
    maps.flatMap fun m => ' ' :: (m.band ++ ":fit-".toList ++ m.band ++ ".fits".toList)), ?_, ?_, ?_, ?_⟩
  · unfold prepScript
    rw [prepLoop_eq]
    simp only [List.append_assoc, List.cons_append, List.nil_append]
  · rw [List.forall₂_map_right_iff, List.forall₂_same]
    exact fun m h => line_words num fin cat m (hm m h) hc
  · have e : "pixfit-combine ".toList = "pixfit-combine".toList ++ [' '] := by decide +kernel
    unfold shellWords
    rw [e]
    simp only [List.append_assoc, List.cons_append, List.nil_append]
    rw [word_bare _ _ (by decide +kernel) (by decide +kernel), shellGo_out, if_pos rfl, Option.getD_none, shellGo_quoted _ _ hcm, shellGo_out, if_neg (by decide), if_pos (.inl rfl)]
    simp only
    rw [shellGo_out, if_pos rfl, Option.getD_none, shellGo_quoted _ _ hc]
    have := combine_words maps (fun m h => (hm m h).band) ([] ++ cat)
    simp only [List.append_assoc] at this ⊢
    rw [this]
    simp
  · intro m _ o ho
    have hn : o.1 ∈ extractNames ∧ (∀ c ∈ o.1, c ≠ '=' ∧ c ≠ '-' ∧ c ∉ blanks) := by
      unfold mapOptions at ho
      rcases List.mem_append.1 ho with h | h
      · simp only [List.mem_cons, List.not_mem_nil, or_false] at h
        rcases h with rfl | rfl | rfl | rfl | rfl | rfl | rfl | rfl | rfl | rfl | rfl | rfl | rfl <;> exact ⟨by dsimp only; decide +kernel, by dsimp only; decide +kernel⟩
      · split at h
        · simp only [List.mem_cons, List.not_mem_nil, or_false] at h
          rcases h with rfl | rfl <;> exact ⟨by dsimp only; decide +kernel, by dsimp only; decide +kernel⟩
        · cases h
    refine ⟨hn.1, ?_⟩
    obtain ⟨n, v⟩ := o
    have hu : undash n = n := by
      rw [undash_eq, if_neg]
      intro h
      exact (hn.2 _ (List.mem_of_mem_head? h)).2.1 rfl
    cases v with
    | none => exact .bare (fun h => (hn.2 _ h).1 rfl) hu
    | some v =>
      refine .value n v rfl (fun h => (hn.2 _ h).1 rfl) ?_
      rw [hu]
      exact (goodName_of n hn.2).2.2

/-- a map in the band `k` -/
def mapEx : MapInfo Nat := ⟨"k".toList, "k.fits".toList, "e.fits".toList, "my psf.fits".toList, 1, 2, 3, 4, 5, 6⟩

theorem mapEx_plain : Plain (fun _ => "1".toList) mapEx := ⟨by decide +kernel, by show ∀ c ∈ mapEx.psf, _; decide +kernel, fun _ => by decide +kernel⟩

example : ∃ (lines : List Str) (last : Str), prepScript (fun _ => "1".toList) (fun _ => true) "my cat.fits".toList "cmb.fits".toList [mapEx] = "#!/bin/bash\n\n".toList ++ lines.flatMap (· ++ ['\n']) ++ '\n' :: last ++ ['\n'] ∧
    shellWords last = some ["pixfit-combine".toList, "cmb.fits".toList, "my cat.fits".toList, "k:fit-k.fits".toList] := by
  obtain ⟨lines, last, h1, -, h2, -⟩ := C242_script_partial (fun _ => "1".toList) (fun _ => true) "my cat.fits".toList "cmb.fits".toList [mapEx]
    (by intro m hm; simp only [List.mem_singleton] at hm; subst hm; exact mapEx_plain) (by show ∀ c ∈ _, _; decide +kernel) (by show ∀ c ∈ _, _; decide +kernel)
  exact ⟨lines, last, h1, h2.trans (by decide +kernel)⟩

/-- **C242 is false**: whatever the maps, `pixfit-combine` stops when it is called by the script, because it reads none of its arguments (as long as the names contain no `=` and nothing that a shell would change, and the catalogues are
not called `maps`, `incat` or `outcat`). -/
theorem C242_combine_refuted (cat cmb : Str) (maps : List (MapInfo V)) (hm : ∀ m ∈ maps, Bare m.band ∧ '=' ∉ m.band ∧ '\r' ∉ m.band) (hc : Bare cat ∧ '=' ∉ cat ∧ '\r' ∉ cat) (hcm : Bare cmb ∧ '=' ∉ cmb ∧ '\r' ∉ cmb)
    (hn : ∀ n ∈ combineNames, undash cat ≠ n ∧ undash cmb ≠ n) :
    combineArgs ("pixfit-combine".toList :: cmb :: cat :: maps.map fun m => m.band ++ ":fit-".toList ++ m.band ++ ".fits".toList) = .ok none := by
  have hword : ∀ w : Str, '=' ∉ w → (∀ n ∈ combineNames, undash w ≠ n) → ∀ n ∈ combineNames, ∀ o, ¬ Names w n o := by
    intro w hw h n hn o ho
    cases ho with
    | bare _ hu => exact h n hn hu
    | value pre v e _ _ => exact hw (by rw [e]; simp)
  have hcol : ∀ n ∈ combineNames, ':' ∉ n := by decide +kernel
  apply combine_none
  · intro w hw
    simp only [List.mem_cons, List.mem_map] at hw
    rcases hw with rfl | rfl | ⟨m, h, rfl⟩
    · exact ⟨hcm.1, hcm.2.2⟩
    · exact ⟨hc.1, hc.2.2⟩
    · have h1 : '\r' ∉ ":fit-".toList := by decide +kernel
      have h2 : '\r' ∉ ".fits".toList := by decide +kernel
      exact ⟨bare_append (bare_append (bare_append (hm m h).1 (by decide +kernel)) (hm m h).1) (by decide +kernel),
        by simp only [List.mem_append, not_or]; exact ⟨⟨⟨(hm m h).2.2, h1⟩, (hm m h).2.2⟩, h2⟩⟩
  · intro w hw
    simp only [List.mem_cons, List.mem_map] at hw
    rcases hw with rfl | rfl | ⟨m, h, rfl⟩
    · exact hword _ hcm.2.1 fun n h => (hn n h).2
    · exact hword _ hc.2.1 fun n h => (hn n h).1
    · have h1 : '=' ∉ ":fit-".toList := by decide +kernel
      have h2 : '=' ∉ ".fits".toList := by decide +kernel
      refine hword _ (by simp only [List.mem_append, not_or]; exact ⟨⟨⟨(hm m h).2.1, h1⟩, (hm m h).2.1⟩, h2⟩) ?_
      intro n hn' he
      apply hcol n hn'
      rw [← he, undash_eq]
      have h3 : ":fit-".toList = ':' :: "fit-".toList := by decide +kernel
      rw [h3]
      cases hb : m.band with
      | nil => simp
      | cons c t =>
        split <;> simp

example : combineArgs ["pixfit-combine".toList, "cmb.fits".toList, "cat.fits".toList, "k:fit-k.fits".toList] = .ok none ∧
    combineArgs ["pixfit-combine".toList, "maps=maps.txt".toList, "outcat=cmb.fits".toList, "incat=cat.fits".toList] = .ok (some ["maps.txt".toList, "cat.fits".toList, "cmb.fits".toList]) := by
  decide +kernel

/-- **C242 is false**: the size of the aperture of the groups, which can be given for each map and is an option of `pixfit-extract`, is not in the script. -/
theorem C242_aperture_refuted (num : V → Str) (fin : V → Bool) (cat : Str) (m : MapInfo V) (v : V) :
    extractLine num fin cat { m with gaperSize := v } = extractLine num fin cat m ∧ "group_aper_size".toList ∈ extractNames ∧
      ∀ o ∈ mapOptions num fin cat m, o.1 ≠ "group_aper_size".toList := by
  refine ⟨rfl, by decide +kernel, ?_⟩
  intro o ho
  unfold mapOptions at ho
  rcases List.mem_append.1 ho with h | h
  · simp only [List.mem_cons, List.not_mem_nil, or_false] at h
    rcases h with rfl | rfl | rfl | rfl | rfl | rfl | rfl | rfl | rfl | rfl | rfl | rfl | rfl <;> dsimp only <;> decide +kernel
  · split at h
    · simp only [List.mem_cons, List.not_mem_nil, or_false] at h
      rcases h with rfl | rfl <;> dsimp only <;> decide +kernel
    · cases h

/-- **C242 is false**: with fewer than four arguments, a string is made of a null pointer. -/
theorem C242_arguments_refuted (num : V → Str) (fin : V → Bool) (maps : Str → Res (Option (List (MapInfo V)))) (argv : List Str) (hl : argv.length < 5)
    (h : ∀ f, ∃ ms, maps f = .ok (some ms)) : pixfitPrep num fin maps argv = .ub := by
  unfold pixfitPrep
  rcases argv with _ | ⟨a, _ | ⟨b, _ | ⟨c, _ | ⟨d, _ | ⟨e, l⟩⟩⟩⟩⟩
  · rfl
  · rfl
  · rfl
  · obtain ⟨ms, hms⟩ := h c
    show (maps c >>= _) = _
    rw [hms]; rfl
  · obtain ⟨ms, hms⟩ := h c
    show (maps c >>= _) = _
    rw [hms]; rfl
  · exfalso; simp only [List.length_cons] at hl; omega

end Verif.Pixfit
