import Verif.Io.PathProps
/-!
# The operation `extract` of `fitstool` (C248)

`extract` copies one extension of a FITS file to a new file. Files are lists of HDUs; what CFITSIO and the system can do is a parameter. Names of files with the brackets of CFITSIO are left out.
-/
namespace Verif.FitsExtract
open Verif Verif.Str Verif.Io

/-! ### Model -/

/-- an HDU: image or table, and its content -/
structure Hdu where
  image : Bool
  content : Nat
deriving DecidableEq

abbrev Files := Str → Option (List Hdu)

/-- what the system and CFITSIO can do: `makeDir` makes a directory, `readable` and `creatable` files, `copyOk` whether the HDU can be written, `junk` what is in the file if not, `broken` what is left under the name if it cannot be created -/
structure Env where
  makeDir : Str → Bool
  readable : Str → Bool
  creatable : Str → Bool
  copyOk : Bool
  junk : List Hdu
  broken : Option (List Hdu)

/-- the result: the files, the directories asked for, and the value returned -/
structure Out where
  files : Files
  dirs : List Str
  ret : Bool

/-- conversion of `uint_t` to `int` in the argument of `fits_movabs_hdu` (`fitstool.cpp:1313`) -/
def toInt (n : Nat) : Int :=
  if n % 2 ^ 32 < 2 ^ 31 then ((n % 2 ^ 32 : Nat) : Int) else ((n % 2 ^ 32 : Nat) : Int) - 2 ^ 32

/-- `fits_movabs_hdu`: HDUs count from 1, an error if there is no such HDU -/
def moveTo (l : List Hdu) (n : Int) : Option Hdu := if n < 1 then none else l[n.toNat - 1]?

/-- `fits_copy_hdu` to an empty file: a table comes after an empty primary array, an image becomes the primary array -/
def copyHdu (empty h : Hdu) : List Hdu := if h.image then [h] else [empty, h]

/-- the name without the `!` that allows CFITSIO to overwrite -/
def bare : Str → Str
  | '!' :: s => s
  | s => s

def put (fs : Files) (p : Str) (v : Option (List Hdu)) : Files := fun q => if q = p then v else fs q

/-- `extract_extension` after its arguments are read (`fitstool.cpp:1293-1332`). The status after the copy is not checked. The input stays readable when the output overwrites it, for it is open. -/
def extract (e : Env) (empty : Hdu) (fs : Files) (file out : Str) (hdu : Nat) : Res Out :=
  if out = [] then .ok ⟨fs, [], false⟩
  else do
    let dir ← getDirectory out
    let (dirs, _) ← mkdir e.makeDir dir
    let out := if beginsWith out ['!'] then out else '!' :: out
    match (if e.readable file then fs file else none) with
    | none => .ok ⟨fs, dirs, false⟩
    | some l =>
      match moveTo l (toInt ((hdu + 1) % 2 ^ 64)) with
      | none => .ok ⟨fs, dirs, false⟩
      | some h =>
        if e.creatable (bare out) then
          .ok ⟨put fs (bare out) (some (if e.copyOk then copyHdu empty h else e.junk)), dirs, true⟩
        else .ok ⟨put fs (bare out) e.broken, dirs, false⟩

/-! ### Specification -/

/-- the name of the output file without an optional `!` -/
def Names (out p : Str) : Prop := out = '!' :: p ∨ (out = p ∧ p.head? ≠ some '!')

/-- the file holds this HDU and no other data: alone, or behind an empty primary array if it is a table -/
def Holds (empty h : Hdu) (l : List Hdu) : Prop := (h.image = true ∧ l = [h]) ∨ (h.image = false ∧ l = [empty, h])

/-! ### Helpers -/

theorem dir_ok (out : Str) : ∃ d, getDirectory out = .ok d ∧ d ≠ [] := by
  obtain ⟨s⟩ := C44_shapes out
  cases s with
  | name _ h => exact ⟨_, (C44_name _ h).1, by simp⟩
  | file d b h hv => exact ⟨_, (C44_file d b h hv).1, by simp⟩
  | dir d b sp h hs => exact ⟨_, (C44_dir d b sp h hs).1, by simp⟩
  | root sp hs => exact ⟨_, (C44_root sp hs).1, by simp⟩
  | dir1 b sp hb h hs => exact ⟨_, (C44_dir1_refuted b sp hb h hs).1, by simp⟩

theorem toInt_small {n : Nat} (h : n + 1 < 2 ^ 31) : toInt ((n + 1) % 2 ^ 64) = (n : Int) + 1 := by
  unfold toInt
  rw [Nat.mod_eq_of_lt (by omega : n + 1 < 2 ^ 64), Nat.mod_eq_of_lt (by omega : n + 1 < 2 ^ 32)]
  simp only [h, if_true]
  omega

theorem move_small (l : List Hdu) (n : Nat) : moveTo l ((n : Int) + 1) = l[n]? := by
  unfold moveTo
  rw [if_neg (by omega), show ((n : Int) + 1).toNat - 1 = n by omega]

theorem bare_names {out p : Str} (h : Names out p) : bare (if beginsWith out ['!'] then out else '!' :: out) = p := by
  rcases h with rfl | ⟨rfl, h⟩
  · rw [if_pos (by rw [C36_begins_with]; exact ⟨p, rfl⟩)]
    rfl
  · rw [if_neg]
    · rfl
    · rw [C36_begins_with]
      rintro ⟨t, rfl⟩
      exact h rfl

/-- all steps without the first ones -/
theorem extract_eq (e : Env) (empty : Hdu) (fs : Files) (file out : Str) (hdu : Nat) (h : out ≠ []) : ∃ dirs,
    extract e empty fs file out hdu =
      match (if e.readable file then fs file else none) with
      | none => .ok ⟨fs, dirs, false⟩
      | some l =>
        match moveTo l (toInt ((hdu + 1) % 2 ^ 64)) with
        | none => .ok ⟨fs, dirs, false⟩
        | some h =>
          if e.creatable (bare (if beginsWith out ['!'] then out else '!' :: out)) then
            .ok ⟨put fs (bare (if beginsWith out ['!'] then out else '!' :: out)) (some (if e.copyOk then copyHdu empty h else e.junk)), dirs, true⟩
          else .ok ⟨put fs (bare (if beginsWith out ['!'] then out else '!' :: out)) e.broken, dirs, false⟩ := by
  obtain ⟨d, h1, h2⟩ := dir_ok out
  obtain ⟨log, h3, -⟩ := C79_mkdir e.makeDir d h2
  refine ⟨log, ?_⟩
  unfold extract
  rw [if_neg h, h1, Res.ok_bind, h3, Res.ok_bind]

theorem names_ne {out p : Str} (h : Names out p) (hp : p ≠ []) : out ≠ [] := by
  rcases h with rfl | ⟨rfl, -⟩
  · simp
  · exact hp

/-! ### C248 -/

/-- C248 (partial): if the input can be read and has the HDU, and the output can be created and written, then the operation succeeds, the output file holds exactly this HDU, whatever was in it before, and no other file changes. For numbers of HDUs that fit an `int`. -/
theorem C248_copies_partial (e : Env) (empty : Hdu) (fs : Files) (file out p : Str) (hdu : Nat) (l : List Hdu) (h : Hdu)
    (hn : Names out p) (hp : p ≠ []) (hr : e.readable file = true) (hf : fs file = some l) (hl : l[hdu]? = some h)
    (hs : hdu + 1 < 2 ^ 31) (hc : e.creatable p = true) (hw : e.copyOk = true) :
    ∃ o, extract e empty fs file out hdu = .ok o ∧ o.ret = true ∧ (∃ r, o.files p = some r ∧ Holds empty h r) ∧ ∀ q, q ≠ p → o.files q = fs q := by
  obtain ⟨dirs, h1⟩ := extract_eq e empty fs file out hdu (names_ne hn hp)
  rw [if_pos hr, hf] at h1
  simp only [toInt_small hs, move_small, hl, bare_names hn, hc, hw, if_true] at h1
  refine ⟨_, h1, rfl, ⟨copyHdu empty h, by simp [put], ?_⟩, fun q hq => by simp [put, hq]⟩
  unfold copyHdu Holds
  cases h.image <;> simp

/-- C248: if the input cannot be read, or has no such HDU (a number that fits an `int`), the operation fails and no file changes, not even an output file that exists. -/
theorem C248_fails (e : Env) (empty : Hdu) (fs : Files) (file out : Str) (hdu : Nat) (hs : hdu + 1 < 2 ^ 31)
    (h : e.readable file = false ∨ fs file = none ∨ ∃ l, fs file = some l ∧ l.length ≤ hdu) :
    ∃ o, extract e empty fs file out hdu = .ok o ∧ o.ret = false ∧ o.files = fs := by
  by_cases ho : out = []
  · exact ⟨⟨fs, [], false⟩, by simp [extract, ho], rfl, rfl⟩
  obtain ⟨dirs, h1⟩ := extract_eq e empty fs file out hdu ho
  refine ⟨⟨fs, dirs, false⟩, ?_, rfl, rfl⟩
  rw [h1]
  rcases h with h | h | ⟨l, h, hl⟩
  · simp [h]
  · simp [h]
  · cases e.readable file with
    | false => simp
    | true => simp only [if_true, h, toInt_small hs, move_small, List.getElem?_eq_none hl]

/-- C248: whatever happens, only the output file changes. -/
theorem C248_others (e : Env) (empty : Hdu) (fs : Files) (file out p : Str) (hdu : Nat) (hn : Names out p) (hp : p ≠ []) :
    ∃ o, extract e empty fs file out hdu = .ok o ∧ ∀ q, q ≠ p → o.files q = fs q := by
  obtain ⟨dirs, h1⟩ := extract_eq e empty fs file out hdu (names_ne hn hp)
  rw [bare_names hn] at h1
  rw [h1]
  split
  · exact ⟨_, rfl, fun _ _ => rfl⟩
  · split
    · exact ⟨_, rfl, fun _ _ => rfl⟩
    · split
      · exact ⟨_, rfl, fun q hq => by simp [put, hq]⟩
      · exact ⟨_, rfl, fun q hq => by simp [put, hq]⟩

/-- C248 fails: if the HDU cannot be written (the disk is full), success is reported, and the output file, also one that was there before, is whatever CFITSIO left. -/
theorem C248_copy_refuted (e : Env) (empty : Hdu) (fs : Files) (file out p : Str) (hdu : Nat) (l : List Hdu) (h : Hdu)
    (hn : Names out p) (hp : p ≠ []) (hr : e.readable file = true) (hf : fs file = some l) (hl : l[hdu]? = some h)
    (hs : hdu + 1 < 2 ^ 31) (hc : e.creatable p = true) (hw : e.copyOk = false) :
    ∃ o, extract e empty fs file out hdu = .ok o ∧ o.ret = true ∧ o.files p = some e.junk := by
  obtain ⟨dirs, h1⟩ := extract_eq e empty fs file out hdu (names_ne hn hp)
  rw [if_pos hr, hf] at h1
  simp only [toInt_small hs, move_small, hl, bare_names hn, hc, hw, if_true, Bool.false_eq_true, if_false] at h1
  exact ⟨_, h1, rfl, by simp [put]⟩

/-- C248 fails: `hdu=4294967296` copies the primary HDU of a file that has no such extension, and reports success. -/
theorem C248_wrap_refuted (e : Env) (empty h : Hdu) (fs : Files) (file out p : Str)
    (hn : Names out p) (hp : p ≠ []) (hr : e.readable file = true) (hf : fs file = some [h])
    (hc : e.creatable p = true) (hw : e.copyOk = true) :
    ∃ o, extract e empty fs file out 4294967296 = .ok o ∧ o.ret = true ∧ ∃ r, o.files p = some r ∧ Holds empty h r := by
  obtain ⟨dirs, h1⟩ := extract_eq e empty fs file out 4294967296 (names_ne hn hp)
  have ht : toInt ((4294967296 + 1) % 2 ^ 64) = 1 := by decide +kernel
  have hm : moveTo [h] 1 = some h := rfl
  rw [if_pos hr, hf] at h1
  simp only [ht, hm, bare_names hn, hc, hw, if_true] at h1
  refine ⟨_, h1, rfl, copyHdu empty h, by simp [put], ?_⟩
  unfold copyHdu Holds
  cases h.image <;> simp

/-- C248 (partial): for an output file `d/b` without `!`, the directories asked for are `d` and those above it, from the top, up to the first that cannot be made. -/
theorem C248_dirs_partial (e : Env) (empty : Hdu) (fs : Files) (file d b : Str) (hdu : Nat) (hb : '/' ∉ b) (hv : ∃ c ∈ b, c ≠ ' ') :
    ∃ o, extract e empty fs file (d ++ '/' :: b) hdu = .ok o ∧
      o.dirs = untilFail e.makeDir (ancestors (if (d ++ ['/']).head? = some '/' then ['/'] else []) (words ['/'] (d ++ ['/']))) := by
  obtain ⟨log, h3, h4⟩ := C79_mkdir e.makeDir (d ++ ['/']) (by simp)
  unfold extract
  rw [if_neg (by simp), (C44_file d b hb hv).1, Res.ok_bind, h3, Res.ok_bind, ← h4]
  simp only
  generalize (if beginsWith (d ++ '/' :: b) ['!'] = true then d ++ '/' :: b else '!' :: (d ++ '/' :: b)) = nm
  split
  · exact ⟨_, rfl, rfl⟩
  · split
    · exact ⟨_, rfl, rfl⟩
    · split
      · exact ⟨_, rfl, rfl⟩
      · exact ⟨_, rfl, rfl⟩

/-- C248 fails: for `out=!d/a` the file is `d/a`, but the only directory that is made is `!d`. -/
theorem C248_dirs_refuted (e : Env) (empty : Hdu) (fs : Files) (file : Str) (hdu : Nat) :
    ∃ o, extract e empty fs file ['!', 'd', '/', 'a'] hdu = .ok o ∧ o.dirs = [['!', 'd']] ∧ Names ['!', 'd', '/', 'a'] ['d', '/', 'a'] := by
  obtain ⟨o, h1, h2⟩ := C248_dirs_partial e empty fs file ['!', 'd'] ['a'] hdu (by decide) ⟨'a', by decide⟩
  refine ⟨o, h1, ?_, .inl rfl⟩
  rw [h2]
  have : ancestors (if (['!', 'd'] ++ ['/'] : Str).head? = some '/' then ['/'] else []) (words ['/'] (['!', 'd'] ++ ['/'])) = [['!', 'd']] := by decide
  rw [this]
  unfold untilFail
  cases e.makeDir ['!', 'd'] <;> rfl

/-- a table in the second HDU of a file, copied over the file itself -/
example : ∃ (e : Env) (fs : Files), Names "a".toList "a".toList ∧ e.readable "a".toList = true ∧
    fs "a".toList = some [⟨true, 0⟩, ⟨false, 1⟩] ∧ e.creatable "a".toList = true ∧ e.copyOk = true :=
  ⟨⟨fun _ => true, fun _ => true, fun _ => true, true, [], none⟩, fun _ => some [⟨true, 0⟩, ⟨false, 1⟩],
    .inr ⟨rfl, by decide⟩, rfl, rfl, rfl, rfl⟩

/-- a disk that is full: the output was there before -/
example : ∃ (e : Env) (fs : Files), Names "!b".toList "b".toList ∧ fs "b".toList = some [⟨true, 5⟩] ∧
    fs "a".toList = some [⟨true, 0⟩] ∧ e.copyOk = false ∧ e.junk = [] :=
  ⟨⟨fun _ => true, fun _ => true, fun _ => true, false, [], none⟩, fun q => if q = ['b'] then some [⟨true, 5⟩] else some [⟨true, 0⟩],
    .inl rfl, rfl, rfl, rfl, rfl⟩

end Verif.FitsExtract
