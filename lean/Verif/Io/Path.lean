import Verif.Str.Model
/-!
# Model of the path functions and the directory explorer of `io/filesystem.hpp`
-/
namespace Verif.Io
open Verif Verif.Str

/-- `is_absolute_path` (filesystem.hpp:36-39) -/
def isAbsolutePath (path : Str) : Bool :=
  match firstNotOf path [' ', '\t'] 0 with
  | none => false
  | some p => path[p]? == some '/'

/-- `directorize` (filesystem.hpp:197-204); `trim` with its default characters -/
def directorize (path : Str) : Res Str := do
  let dir ← trim path blanks
  if dir ≠ [] ∧ dir.getLast? ≠ some '/' then pure (dir ++ ['/']) else pure dir

/-- `get_basename` (filesystem.hpp:207-228).  `lpos` is not `npos` where it is used, as it equals `pos`. -/
def getBasename (path : Str) : Res Str :=
  match lastOf path ['/'] none with
  | none => .ok path
  | some pos =>
    if some pos = lastNotOf path [' '] none then
      if pos = 0 then .ok ['/']
      else match lastOf path ['/'] (some (pos - 1)) with
        | none => substrFrom path pos
        | some q => substr path (q + 1) (pos - q - 1)
    else substrFrom path (pos + 1)

/-- `remove_extension` (filesystem.hpp:230-234) -/
def removeExtension (s : Str) : Res Str :=
  match lastOf s ['.'] none with
  | none => .ok s
  | some p => substr s 0 p

/-- `get_extension` (filesystem.hpp:236-240) -/
def getExtension (s : Str) : Res Str :=
  match lastOf s ['.'] none with
  | none => .ok []
  | some p => substrFrom s p

/-- `split_extension` (filesystem.hpp:242-246) -/
def splitExtension (s : Str) : Res (Str × Str) :=
  match lastOf s ['.'] none with
  | none => .ok (s, [])
  | some p => do
    let a ← substr s 0 p
    let b ← substrFrom s p
    pure (a, b)

/-- `get_directory` (filesystem.hpp:249-267) -/
def getDirectory (path : Str) : Res Str :=
  match lastOf path ['/'] none with
  | none => .ok ['.', '/']
  | some pos =>
    if some pos = lastNotOf path [' '] none then
      if pos = 0 then .ok ['/']
      else match lastOf path ['/'] (some (pos - 1)) with
        | none => .ok ['.', '/']
        | some q => substr path 0 (q + 1)
    else substr path 0 (pos + 1)

/-! ### mkdir -/

/-- the loop of `mkdir` (filesystem.hpp:273-279).  `sys tmp` is whether the system call on `tmp` succeeds or
fails with `EEXIST`.  Returns the paths passed to the system call, in order, and the result. -/
def mkdirLoop (abs : Bool) (sys : Str → Bool) : List Str → Str → List Str → List Str × Bool
  | [], _, log => (log, true)
  | d :: ds, tmp, log =>
    if d = [] then mkdirLoop abs sys ds tmp log
    else
      let tmp := if tmp ≠ [] ∨ abs then tmp ++ ['/'] else tmp
      let tmp := tmp ++ d
      if sys tmp then mkdirLoop abs sys ds tmp (log ++ [tmp]) else (log ++ [tmp], false)

/-- `mkdir` (filesystem.hpp:269-281) -/
def mkdir (sys : Str → Bool) (path : Str) : Res (List Str × Bool) := do
  if path = [] then pure ([], true)
  else
    let dirs ← split path ['/']
    pure (mkdirLoop (beginsWith path ['/']) sys dirs [] [])

/-! ### explorer -/

/-- a directory entry as the system describes it: the name, and what `stat` says on the full path -/
structure Entry where
  name : Str
  stat : Option (Bool × Nat)
  deriving DecidableEq

/-- `explorer::file_data` (filesystem.hpp:77-83) without the full path -/
structure FileData where
  name : Str
  size : Nat
  isHidden : Bool
  isDir : Bool
  deriving DecidableEq

/-- `explorer` (filesystem.hpp:70-75): `dirfd` is the handle, by its number; with it, what the operating system
knows: the handles open, and the number of the next handle -/
structure Explorer where
  dirfd : Option Nat := none
  opened : List Nat := []
  next : Nat := 0
  deriving DecidableEq

/-- `close` (filesystem.hpp:101-108).  `closedir` on a handle that is not open is undefined. -/
def Explorer.close (e : Explorer) : Res Explorer :=
  match e.dirfd with
  | none => .ok e
  | some h => if h ∈ e.opened then .ok { e with opened := e.opened.erase h } else .ub

/-- `open` (filesystem.hpp:110-123); `found` is whether `opendir` succeeds -/
def Explorer.open (e : Explorer) (found : Bool) : Res (Explorer × Bool) := do
  let e ← e.close
  if found then pure ({ dirfd := some e.next, opened := e.next :: e.opened, next := e.next + 1 }, true)
  else pure ({ e with dirfd := none }, false)

/-- the fields set by `find_next` (filesystem.hpp:142-155) -/
def fileData (en : Entry) : FileData :=
  { name := en.name
    isDir := match en.stat with | none => false | some (d, _) => d
    size := match en.stat with | none => 0 | some (_, n) => n
    isHidden := decide (en.name.length > 1 ∧ en.name.head? = some '.') }

/-- `find_next` (filesystem.hpp:125-158): `entries` is what `readdir` still has to return, `pat` whether a name
matches the pattern (always true if there is none) -/
def findNext (pat : Str → Bool) : List Entry → Option (FileData × List Entry)
  | [] => none
  | en :: es =>
    if pat en.name then
      some (fileData en, es)
    else findNext pat es

theorem findNext_lt {pat : Str → Bool} {es es' : List Entry} {f : FileData} (h : findNext pat es = some (f, es')) :
    es'.length < es.length := by
  induction es with
  | nil => simp [findNext] at h
  | cons en es ih =>
    unfold findNext at h
    split at h
    · simp only [Option.some.injEq, Prod.mk.injEq] at h
      rw [← h.2]; simp
    · have := ih h; simp; omega

/-- the loop of `list_directories` and `list_files` (filesystem.hpp:169-175, 188-193) -/
def listLoop (keep : FileData → Bool) (pat : Str → Bool) (es : List Entry) (out : List Str) : List Str :=
  match h : findNext pat es with
  | none => out
  | some (f, es') => listLoop keep pat es' (if keep f then out ++ [f.name] else out)
termination_by es.length
decreasing_by exact findNext_lt h

/-- `list_directories` (filesystem.hpp:161-178) on a directory that can be opened -/
def listDirectories (pat : Str → Bool) (es : List Entry) : List Str :=
  listLoop (fun f => !f.isHidden && f.isDir && f.name != ['.'] && f.name != ['.', '.']) pat es []

/-- `list_files` (filesystem.hpp:180-196) -/
def listFiles (pat : Str → Bool) (es : List Entry) : List Str :=
  listLoop (fun f => !f.isHidden && !f.isDir) pat es []

end Verif.Io
