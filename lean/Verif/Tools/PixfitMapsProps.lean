import Verif.Tools.PixfitMaps
import Verif.Tools.PixfitAddProps
import Verif.Str.TrimProps
import Verif.Io.PathProps
/-!
# The list of maps of pixfit (C190)
-/
namespace Verif.Pixfit
open Verif Verif.Str

variable {V : Type}

/-! ### Specification -/

/-- what a line says -/
inductive MapLine where
  | skip
  | band (name : Str)
  | set (key val : Str)
  deriving DecidableEq

/-- the meaning of a line: blanks at both ends do not matter; `#` starts a comment; `none` for an error -/
inductive Means : Str → Option MapLine → Prop
  | empty {l} : IsTrim blanks l [] → Means l (some .skip)
  | comment {l t} : IsTrim blanks l t → t.head? = some '#' → Means l (some .skip)
  | band {l n} : IsTrim blanks l n → n ≠ [] → n.head? ≠ some '#' → '=' ∉ n → Means l (some (.band n))
  | set {l a b k v} : IsTrim blanks l (a ++ '=' :: b) → (a ++ '=' :: b).head? ≠ some '#' → '=' ∉ a → '=' ∉ b → IsTrim blanks a k → IsTrim blanks b v →
      Means l (some (.set k v))
  | bad {l a b c} : IsTrim blanks l (a ++ '=' :: b ++ '=' :: c) → (a ++ '=' :: b ++ '=' :: c).head? ≠ some '#' → Means l none

/-- the settings before the first band, and the bands with their settings -/
def parts : List MapLine → List (Str × Str) × List (Str × List (Str × Str))
  | [] => ([], [])
  | .skip :: l => parts l
  | .set k v :: l => ((k, v) :: (parts l).1, (parts l).2)
  | .band n :: l => ([], (n, (parts l).1) :: (parts l).2)

/-- the last value of a key -/
def lastVal (key : Str) (s : List (Str × Str)) : Option Str := ((s.filter fun e => decide (e.1 = key)).getLast?).map Prod.snd

/-- a path relative to the directory of the file -/
def inDir (dir path : Str) : Str := if path = [] ∨ path.head? = some '/' then path else dir ++ path

/-- the map of a band -/
def infoOf (dir : Str) (d : Defaults V) (rd : Str → Option V) (s : Str × List (Str × Str)) : MapInfo V :=
  { band := s.1
    img := ((lastVal "sci".toList s.2).map (inDir dir)).getD []
    err := ((lastVal "err".toList s.2).map (inDir dir)).getD []
    psf := ((lastVal "psf".toList s.2).map (inDir dir)).getD []
    fconv := ((lastVal "fconv".toList s.2).bind rd).getD d.one
    gfit := ((lastVal "gfit_threshold".toList s.2).bind rd).getD d.fit
    gaper := ((lastVal "gaper_threshold".toList s.2).bind rd).getD d.aper
    gaperSize := ((lastVal "gaper_size".toList s.2).bind rd).getD d.nan
    beamFlux := ((lastVal "beam_flux".toList s.2).bind rd).getD d.one
    beamSmear := ((lastVal "smooth_radius".toList s.2).bind rd).getD d.nan }

/-- the keys with a number -/
def numKeys : List Str := ["fconv".toList, "smooth_radius".toList, "beam_flux".toList, "gfit_threshold".toList, "gaper_threshold".toList, "gaper_size".toList]

/-- all numbers can be read -/
def Readable (rd : Str → Option V) (s : List (Str × Str)) : Prop := ∀ e ∈ s, e.1 ∈ numKeys → (rd e.2).isSome

/-- the three images are given -/
def Complete (s : List (Str × Str)) : Prop := ∀ k ∈ ["sci".toList, "err".toList, "psf".toList], ∃ v, lastVal k s = some v ∧ v ≠ []

/-- the directory of a file -/
inductive DirOf : Str → Str → Prop
  | here {f} : '/' ∉ f → DirOf f "./".toList
  | inside {d b} : '/' ∉ b → (∃ c ∈ b, c ≠ ' ') → DirOf (d ++ '/' :: b) (d ++ ['/'])

/-! ### Helpers -/

theorem trim_eq {s m : Str} (h : IsTrim blanks s m) : trim s blanks = .ok m := by
  obtain ⟨m', h1, h2⟩ := C36_trim s blanks
  rw [h1, isTrim_unique h2 h]

theorem lastVal_snoc (key : Str) (s : List (Str × Str)) (k v : Str) : lastVal key (s ++ [(k, v)]) = if k = key then some v else lastVal key s := by
  unfold lastVal
  by_cases h : k = key
  · rw [if_pos h, List.filter_append, List.filter_cons_of_pos (by simpa using h), List.filter_nil, List.getLast?_append]
    rfl
  · rw [if_neg h, List.filter_append, List.filter_cons_of_neg (by simpa using h), List.filter_nil, List.append_nil]

theorem dirOf_eq {f dir : Str} (h : DirOf f dir) : Io.getDirectory f = .ok dir := by
  cases h with
  | here h => exact (Io.C44_name _ h).1
  | inside h h' => exact (Io.C44_file _ _ h h').1

theorem fixPath_eq {f dir : Str} (h : DirOf f dir) (p : Str) : fixPath f p = .ok (inDir dir p) := by
  unfold fixPath inDir
  by_cases h1 : p ≠ [] ∧ p.head? ≠ some '/'
  · rw [if_pos h1, dirOf_eq h, Res.ok_bind, if_neg (by rintro (h2 | h2); exacts [h1.1 h2, h1.2 h2])]
  · rw [if_neg h1, if_pos]
    by_contra h2
    exact h1 (by rwa [not_or] at h2)

theorem inDir_nil (dir p : Str) : inDir dir p = [] ↔ p = [] := by
  unfold inDir
  split
  · rfl
  · next h =>
    have : p ≠ [] := fun e => h (Or.inl e)
    simp [this]

theorem got_nil (dir : Str) (o : Option Str) : (o.map (inDir dir)).getD [] ≠ [] ↔ ∃ v, o = some v ∧ v ≠ [] := by
  cases o with
  | none => simp
  | some v => simp [inDir_nil]

/-- the map is added if it is complete -/
theorem pushMap_eq (dir : Str) (d : Defaults V) (rd : Str → Option V) (b : Str) (s : List (Str × Str)) (maps : List (MapInfo V)) [Decidable (b ≠ [] → Complete s)] :
    pushMap (infoOf dir d rd (b, s)) maps = if b ≠ [] → Complete s then some (maps ++ if b = [] then [] else [infoOf dir d rd (b, s)]) else none := by
  unfold pushMap
  have hb : (infoOf dir d rd (b, s)).band = b := rfl
  rw [hb]
  by_cases h : b = []
  · rw [if_neg (by simpa using h), if_pos (fun hn => absurd h hn), if_pos h, List.append_nil]
  · rw [if_pos h, if_neg h]
    have e1 := got_nil dir (lastVal "sci".toList s)
    have e2 := got_nil dir (lastVal "err".toList s)
    have e3 := got_nil dir (lastVal "psf".toList s)
    have hc : Complete s ↔ (infoOf dir d rd (b, s)).img ≠ [] ∧ (infoOf dir d rd (b, s)).err ≠ [] ∧ (infoOf dir d rd (b, s)).psf ≠ [] := by
      unfold Complete
      rw [show (infoOf dir d rd (b, s)).img ≠ [] ↔ _ from e1, show (infoOf dir d rd (b, s)).err ≠ [] ↔ _ from e2, show (infoOf dir d rd (b, s)).psf ≠ [] ↔ _ from e3]
      constructor
      · intro hh
        exact ⟨hh _ (by simp), hh _ (by simp), hh _ (by simp)⟩
      · rintro ⟨h1, h2, h3⟩ k hk
        simp only [List.mem_cons, List.not_mem_nil, or_false] at hk
        rcases hk with rfl | rfl | rfl
        exacts [h1, h2, h3]
    by_cases hcc : Complete s
    · rw [if_pos (fun _ => hcc)]
      obtain ⟨h1, h2, h3⟩ := hc.1 hcc
      rw [if_neg h1, if_neg h2, if_neg h3]
    · rw [if_neg (show ¬ (b ≠ [] → Complete s) from fun hh => hcc (hh h))]
      by_cases h1 : (infoOf dir d rd (b, s)).img = []
      · rw [if_pos h1]
      · rw [if_neg h1]
        by_cases h2 : (infoOf dir d rd (b, s)).err = []
        · rw [if_pos h2]
        · rw [if_neg h2]
          by_cases h3 : (infoOf dir d rd (b, s)).psf = []
          · rw [if_pos h3]
          · exact absurd (hc.2 ⟨h1, h2, h3⟩) hcc

/-- one setting -/
theorem setKey_eq {file dir : Str} (hd : DirOf file dir) (d : Defaults V) (rd : Str → Option V) (b : Str) (s : List (Str × Str)) (k v : Str) :
    setKey file rd (infoOf dir d rd (b, s)) k v = .ok (if k ∈ numKeys ∧ (rd v).isNone then none else some (infoOf dir d rd (b, s ++ [(k, v)]))) := by
  have hnum : ∀ (k : Str), k ∈ numKeys → ∀ (g : V → MapInfo V), (∀ x, rd v = some x → g x = infoOf dir d rd (b, s ++ [(k, v)])) →
      (Res.ok ((rd v).map g)) = .ok (if k ∈ numKeys ∧ (rd v).isNone then none else some (infoOf dir d rd (b, s ++ [(k, v)]))) := by
    intro k hk g hg
    cases hr : rd v with
    | none => simp [hk]
    | some x => simp [hg x hr]
  unfold setKey
  split
  · next h =>
    subst h
    rw [fixPath_eq hd, Res.ok_bind, if_neg (fun e => absurd e.1 (by decide))]
    simp (decide := true) only [infoOf, lastVal_snoc, if_true, if_false, Option.map_some, Option.getD_some]
  split
  · next h =>
    subst h
    rw [fixPath_eq hd, Res.ok_bind, if_neg (fun e => absurd e.1 (by decide))]
    simp (decide := true) only [infoOf, lastVal_snoc, if_true, if_false, Option.map_some, Option.getD_some]
  split
  · next h =>
    subst h
    rw [fixPath_eq hd, Res.ok_bind, if_neg (fun e => absurd e.1 (by decide))]
    simp (decide := true) only [infoOf, lastVal_snoc, if_true, if_false, Option.map_some, Option.getD_some]
  iterate 6
    split
    · next h =>
      subst h
      refine hnum _ (by decide) _ fun x hx => ?_
      simp (decide := true) only [infoOf, lastVal_snoc, if_true, if_false, Option.bind_some, hx, Option.getD_some]
  next h1 h2 h3 h4 h5 h6 h7 h8 h9 =>
  have hk : k ∉ numKeys := by
    unfold numKeys
    intro h
    simp only [List.mem_cons, List.not_mem_nil, or_false] at h
    rcases h with h | h | h | h | h | h
    exacts [h4 h, h5 h, h6 h, h7 h, h8 h, h9 h]
  rw [if_neg (fun h => hk h.1)]
  simp only [infoOf, lastVal_snoc, if_neg h1, if_neg h2, if_neg h3, if_neg h4, if_neg h5, if_neg h6, if_neg h7, if_neg h8, if_neg h9]

theorem trim_one {a k : Str} (h : IsTrim blanks a k) : ([a].mapM fun p => trim p blanks) = .ok [k] := by
  rw [List.mapM_cons, trim_eq h, Res.ok_bind, List.mapM_nil]
  rfl

/-- one line -/
theorem mapLine_eq {file dir : Str} (hd : DirOf file dir) (d : Defaults V) (rd : Str → Option V) (b : Str) (s : List (Str × Str)) (maps : List (MapInfo V)) (l : Str) (o : Option MapLine)
    (h : Means l o) : mapLine file d rd (infoOf dir d rd (b, s), maps) l = .ok (match o with
      | none => none
      | some .skip => some (infoOf dir d rd (b, s), maps)
      | some (.band n) => (pushMap (infoOf dir d rd (b, s)) maps).map fun m => (infoOf dir d rd (n, []), m)
      | some (.set k v) => if k ∈ numKeys ∧ (rd v).isNone then none else some (infoOf dir d rd (b, s ++ [(k, v)]), maps)) := by
  unfold mapLine
  cases h with
  | empty h => rw [trim_eq h, Res.ok_bind, if_pos (Or.inl rfl)]
  | comment h h' => rw [trim_eq h, Res.ok_bind, if_pos (Or.inr h')]
  | @band n h h1 h2 h3 =>
    rw [trim_eq h, Res.ok_bind, if_neg (by rintro (e | e); exacts [h1 e, h2 e]), split_one h3, Res.ok_bind]
    have : IsTrim blanks n n := by
      obtain ⟨a, c, -, -, -, q1, q2⟩ := h
      exact ⟨[], [], by simp, by simp, by simp, q1, q2⟩
    rw [trim_one this, Res.ok_bind]
    rfl
  | @set a c k v h h1 h2 h3 h4 h5 =>
    rw [trim_eq h, Res.ok_bind, if_neg (by rintro (e | e); exacts [by simp at e, h1 e]), split_two h2 h3, Res.ok_bind]
    rw [List.mapM_cons, trim_eq h4, Res.ok_bind, trim_one h5, Res.ok_bind]
    rw [Res.pure_def, Res.ok_bind]
    dsimp only
    rw [setKey_eq hd, Res.ok_bind]
    by_cases hk : k ∈ numKeys ∧ (rd v).isNone
    · rw [if_pos hk, if_pos hk]
    · rw [if_neg hk, if_neg hk]
  | @bad a c e h h1 =>
    rw [trim_eq h, Res.ok_bind, if_neg (by rintro (q | q); exacts [by simp at q, h1 q])]
    obtain ⟨p, hp, hsplit⟩ := C34_split (a ++ '=' :: c ++ '=' :: e) ['='] (by simp)
    obtain ⟨j1, j2, j3⟩ := C34_collapse_split _ _ _ (by simp) hp
    rw [hp, Res.ok_bind]
    have hm : ∃ q, (p.mapM fun p => trim p blanks) = .ok q ∧ q.length = p.length := by
      clear hp hsplit j1 j2 j3
      induction p with
      | nil => exact ⟨[], rfl, rfl⟩
      | cons x p ih =>
        obtain ⟨q, hq, hl⟩ := ih
        obtain ⟨m, hm, _⟩ := C36_trim x blanks
        exact ⟨m :: q, by rw [List.mapM_cons, hm, Res.ok_bind, hq, Res.ok_bind]; rfl, by simp [hl]⟩
    obtain ⟨q, hq, hl⟩ := hm
    rw [hq, Res.ok_bind]
    have hcount : ∀ x ∈ p, '=' ∉ x := by
      intro x hx hc
      refine j2 x hx ?_
      obtain ⟨u, w, rfl⟩ := List.append_of_mem hc
      exact ⟨u, w, by simp⟩
    rw [collapseSep_eq] at j1
    match p, j3, hl with
    | [x], _, _ =>
      rw [List.intercalate_singleton] at j1
      exact absurd (by rw [j1]; simp) (hcount x (by simp))
    | [x, y], _, _ =>
      have hc : ((['='] : Str).intercalate [x, y]).count '=' = 1 := by
        rw [show (['='] : Str).intercalate [x, y] = x ++ '=' :: y by simp [List.intercalate]]
        rw [List.count_append, List.count_cons_self, List.count_eq_zero.2 (hcount x (by simp)), List.count_eq_zero.2 (hcount y (by simp))]
      rw [j1] at hc
      simp only [List.count_append, List.count_cons_self] at hc
      omega
    | x :: y :: z :: p, _, hl =>
      match q, hl with
      | u :: v :: w :: q, _ => rfl

open Classical in
/-- the loop; `s` are the settings already read for the band `b` -/
theorem mapLoop_eq {file dir : Str} (hd : DirOf file dir) (d : Defaults V) (rd : Str → Option V) (lines : List Str) (items : List MapLine)
    (h : List.Forall₂ (fun l i => Means l (some i)) lines items) (b : Str) (s : List (Str × Str)) (maps : List (MapInfo V)) :
    mapLoop file d rd (infoOf dir d rd (b, s), maps) lines =
      .ok (if Readable rd (parts items).1 ∧ (b ≠ [] → Complete (s ++ (parts items).1)) ∧ ∀ p ∈ (parts items).2, Readable rd p.2 ∧ Complete p.2 then
        some (maps ++ (if b = [] then [] else [infoOf dir d rd (b, s ++ (parts items).1)]) ++ (parts items).2.map (infoOf dir d rd)) else none) := by
  have hne : ∀ (n : Str) (l : Str), Means l (some (.band n)) → n ≠ [] := by
    rintro n l h; cases h with | band _ h _ _ => exact h
  induction h generalizing b s maps with
  | nil =>
    unfold mapLoop
    dsimp only
    rw [pushMap_eq]
    simp [parts, Readable]
  | @cons l i lines items hl _ ih =>
    unfold mapLoop
    rw [mapLine_eq hd d rd b s maps l _ hl, Res.ok_bind]
    cases i with
    | skip => exact ih b s maps
    | band n =>
      have hn := hne n l hl
      dsimp only
      rw [pushMap_eq]
      by_cases hc : b ≠ [] → Complete s
      · rw [if_pos hc]
        dsimp only [Option.map_some]
        rw [ih]
        congr 1
        simp only [parts, List.append_nil, List.nil_append]
        have hiff : (Readable rd (parts items).1 ∧ (n ≠ [] → Complete (parts items).1) ∧ ∀ p ∈ (parts items).2, Readable rd p.2 ∧ Complete p.2) ↔
            (Readable rd ([] : List (Str × Str)) ∧ (b ≠ [] → Complete s) ∧ ∀ p ∈ (n, (parts items).1) :: (parts items).2, Readable rd p.2 ∧ Complete p.2) := by
          simp only [List.forall_mem_cons]
          constructor
          · rintro ⟨h1, h2, h3⟩
            exact ⟨by simp [Readable], hc, ⟨h1, h2 hn⟩, h3⟩
          · rintro ⟨-, -, ⟨h1, h2⟩, h3⟩
            exact ⟨h1, fun _ => h2, h3⟩
        by_cases hg : Readable rd (parts items).1 ∧ (n ≠ [] → Complete (parts items).1) ∧ ∀ p ∈ (parts items).2, Readable rd p.2 ∧ Complete p.2
        · rw [if_pos hg, if_pos (hiff.1 hg), if_neg hn]
          simp
        · rw [if_neg hg, if_neg (fun e => hg (hiff.2 e))]
      · rw [if_neg hc]
        dsimp only [Option.map_none]
        rw [if_neg]
        rintro ⟨-, h2, -⟩
        simp only [parts, List.append_nil] at h2
        exact hc h2
    | set k v =>
      dsimp only
      by_cases hk : k ∈ numKeys ∧ (rd v).isNone
      · rw [if_pos hk, if_neg]
        rintro ⟨h1, -⟩
        have := h1 (k, v) (by simp [parts]) hk.1
        have h2 := hk.2
        dsimp only at this
        rw [Option.isNone_iff_eq_none] at h2
        rw [h2] at this
        cases this
      · rw [if_neg hk]
        dsimp only
        rw [ih]
        congr 1
        simp only [parts, List.append_assoc, List.singleton_append]
        have hiff : Readable rd (parts items).1 ↔ Readable rd ((k, v) :: (parts items).1) := by
          unfold Readable
          simp only [List.forall_mem_cons]
          constructor
          · intro h
            refine ⟨fun hkk => ?_, h⟩
            by_contra hn
            exact hk ⟨hkk, by simpa using hn⟩
          · exact fun h => h.2
        simp only [hiff]

/-! ### C190 -/

open Classical in
/-- `read_maps` on lines without errors: it succeeds exactly when all numbers can be read and all bands have their three images, and it then gives one map per band, in order,
each with the last value of each setting of its part of the file, and the default without one. Paths are relative to the directory of the file. -/
theorem C190_maps {file dir : Str} (hd : DirOf file dir) (d : Defaults V) (rd : Str → Option V) (lines : List Str) (items : List MapLine)
    (h : List.Forall₂ (fun l i => Means l (some i)) lines items) :
    readMaps file d rd lines =
      .ok (if Readable rd (parts items).1 ∧ ∀ p ∈ (parts items).2, Readable rd p.2 ∧ Complete p.2 then some ((parts items).2.map (infoOf dir d rd)) else none) := by
  unfold readMaps
  rw [show (MapInfo.empty d : MapInfo V) = infoOf dir d rd ([], []) from rfl, mapLoop_eq hd d rd lines items h]
  simp

/-- A line with two equal signs anywhere is an error. -/
theorem C190_bad {file dir : Str} (hd : DirOf file dir) (d : Defaults V) (rd : Str → Option V) (lines : List Str) (items : List (Option MapLine))
    (h : List.Forall₂ Means lines items) (hn : none ∈ items) : readMaps file d rd lines = .ok none := by
  unfold readMaps
  rw [show (MapInfo.empty d : MapInfo V) = infoOf dir d rd ([], []) from rfl]
  generalize ([] : List (MapInfo V)) = maps
  generalize ([] : Str) = b
  generalize ([] : List (Str × Str)) = s
  induction h generalizing b s maps with
  | nil => simp at hn
  | @cons l o lines items hl _ ih =>
    unfold mapLoop
    rw [mapLine_eq hd d rd b s maps l _ hl, Res.ok_bind]
    cases o with
    | none => rfl
    | some i =>
      have hn' : none ∈ items := by simpa using hn
      cases i with
      | skip => exact ih hn' maps b s
      | band n =>
        dsimp only
        cases hp : pushMap (infoOf dir d rd (b, s)) maps with
        | none => rfl
        | some m => exact ih hn' m n []
      | set k v =>
        dsimp only
        by_cases hk : k ∈ numKeys ∧ (rd v).isNone
        · rw [if_pos hk]
        · rw [if_neg hk]; exact ih hn' maps b _

/-- Every line has a meaning. -/
theorem C190_total (l : Str) : ∃ o, Means l o := by
  obtain ⟨t, -, h⟩ := C36_trim l blanks
  by_cases h0 : t = []
  · exact ⟨_, .empty (h0 ▸ h)⟩
  by_cases h1 : t.head? = some '#'
  · exact ⟨_, .comment h h1⟩
  by_cases h2 : '=' ∈ t
  · obtain ⟨a, b, hab, ha⟩ := List.eq_append_cons_of_mem h2
    subst hab
    by_cases h3 : '=' ∈ b
    · obtain ⟨b', c, rfl⟩ := List.append_of_mem h3
      have : a ++ '=' :: (b' ++ '=' :: c) = a ++ '=' :: b' ++ '=' :: c := by simp
      rw [this] at h h1
      exact ⟨_, .bad h h1⟩
    · obtain ⟨k, -, hk⟩ := C36_trim a blanks
      obtain ⟨v, -, hv⟩ := C36_trim b blanks
      exact ⟨_, .set h h1 ha h3 hk hv⟩
  · exact ⟨_, .band h h0 h1 h2⟩

theorem isTrim_self {s : Str} (h1 : ∀ c, s.head? = some c → c ∉ blanks) (h2 : ∀ c, s.getLast? = some c → c ∉ blanks) : IsTrim blanks s s :=
  ⟨[], [], by simp, by simp, by simp, h1, h2⟩

/-- the lines of a small file -/
def exMaps : List Str := ["# maps".toList, "K".toList, "sci = /k.fits".toList, "err=e.fits".toList, "psf=p".toList, "fconv=3".toList]

/-- what they say -/
def exItems : List MapLine := [.skip, .band "K".toList, .set "sci".toList "/k.fits".toList, .set "err".toList "e.fits".toList, .set "psf".toList "p".toList,
  .set "fconv".toList "3".toList]

theorem exMaps_means : List.Forall₂ (fun l i => Means l (some i)) exMaps exItems := by
  have T : ∀ s : Str, (match s.head? with | some c => decide (c ∉ blanks) | none => true) = true → (match s.getLast? with | some c => decide (c ∉ blanks) | none => true) = true →
      IsTrim blanks s s := by
    intro s h1 h2
    refine isTrim_self (fun c hc => ?_) fun c hc => ?_
    · rw [hc] at h1; simpa using h1
    · rw [hc] at h2; simpa using h2
  have T' : ∀ s m : Str, trim s blanks = .ok m → IsTrim blanks s m := by
    intro s m h
    obtain ⟨m', h1, h2⟩ := C36_trim s blanks
    rw [h1] at h
    exact Res.ok.inj h ▸ h2
  refine .cons (.comment (T _ (by decide) (by decide)) (by decide)) (.cons (.band (T _ (by decide) (by decide)) (by decide) (by decide) (by decide)) (.cons ?_ (.cons ?_ (.cons ?_ (.cons ?_ .nil)))))
  · exact .set (a := "sci ".toList) (b := " /k.fits".toList) (T _ (by decide) (by decide)) (by decide) (by decide) (by decide) (T' _ _ (by decide)) (T' _ _ (by decide))
  · exact .set (a := "err".toList) (b := "e.fits".toList) (T _ (by decide) (by decide)) (by decide) (by decide) (by decide) (T' _ _ (by decide)) (T' _ _ (by decide))
  · exact .set (a := "psf".toList) (b := "p".toList) (T _ (by decide) (by decide)) (by decide) (by decide) (by decide) (T' _ _ (by decide)) (T' _ _ (by decide))
  · exact .set (a := "fconv".toList) (b := "3".toList) (T _ (by decide) (by decide)) (by decide) (by decide) (by decide) (T' _ _ (by decide)) (T' _ _ (by decide))

example : readMaps "d/maps".toList ⟨1, 2, 3, 0⟩ digitOf exMaps = .ok (some [⟨"K".toList, "/k.fits".toList, "d/e.fits".toList, "d/p".toList, 3, 2, 3, 0, 1, 0⟩]) := by
  have hd : DirOf "d/maps".toList "d/".toList := .inside (d := "d".toList) (b := "maps".toList) (by decide) ⟨'m', by decide, by decide⟩
  rw [C190_maps hd _ _ _ _ exMaps_means, if_pos]
  · decide +kernel
  · unfold Readable Complete
    refine ⟨by decide, ?_⟩
    intro p hp
    have : p = ("K".toList, [("sci".toList, "/k.fits".toList), ("err".toList, "e.fits".toList), ("psf".toList, "p".toList), ("fconv".toList, "3".toList)]) := by
      have : (parts exItems).2 = [("K".toList, [("sci".toList, "/k.fits".toList), ("err".toList, "e.fits".toList), ("psf".toList, "p".toList), ("fconv".toList, "3".toList)])] := by decide
      rw [this] at hp
      simpa using hp
    subst this
    refine ⟨by decide, ?_⟩
    intro k hk
    simp only [List.mem_cons, List.not_mem_nil, or_false] at hk
    rcases hk with rfl | rfl | rfl
    exacts [⟨"/k.fits".toList, by decide, by decide⟩, ⟨"e.fits".toList, by decide, by decide⟩, ⟨"p".toList, by decide, by decide⟩]

/-- Settings before the first band are lost without an error. -/
theorem C190_lost {file dir : Str} (hd : DirOf file dir) (d : Defaults V) (rd : Str → Option V) (lines : List Str) (items : List MapLine)
    (h : List.Forall₂ (fun l i => Means l (some i)) lines items) (k v : Str) (hk : k ∈ numKeys → (rd v).isSome) (l : Str) (hl : Means l (some (.set k v))) :
    readMaps file d rd (l :: lines) = readMaps file d rd lines := by
  rw [C190_maps hd d rd lines items h, C190_maps hd d rd (l :: lines) (.set k v :: items) (.cons hl h)]
  have : Readable rd ((k, v) :: (parts items).1) ↔ Readable rd (parts items).1 := by
    unfold Readable
    rw [List.forall_mem_cons]
    exact ⟨fun h => h.2, fun h => ⟨hk, h⟩⟩
  congr 1
  by_cases hg : Readable rd (parts items).1 ∧ ∀ p ∈ (parts items).2, Readable rd p.2 ∧ Complete p.2
  · rw [if_pos hg, if_pos ⟨this.2 hg.1, hg.2⟩]
    rfl
  · rw [if_neg hg, if_neg (fun e => hg ⟨this.1 e.1, e.2⟩)]

end Verif.Pixfit
