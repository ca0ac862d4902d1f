import Verif.Str.Model
/-!
# The program `qxmatch2` (C249)

The program reads the coordinates of one or two catalogues, cross-matches them and saves the result. Here: which columns of which files are matched, and when something is saved. The match itself is C56 and C57.
-/
namespace Verif.Qxmatch2
open Verif Verif.Str

/-! ### Model -/

/-- the coordinates of a catalogue -/
abbrev Cat := List Int × List Int

/-- what the rest of the program sees: the columns of the tables (reading a column that is not there stops the program), the match of two catalogues and of a catalogue with itself -/
structure Env (R : Type) where
  column : Str → Str → Res (List Int)
  two : Cat → Cat → Res R
  self : Cat → Res R

/-- the arguments that choose the columns -/
structure Args where
  cats : List Str
  output : Str
  pos : List Str := []
  radec1 : List Str := [['r', 'a'], ['d', 'e', 'c']]
  radec2 : List Str := [['r', 'a'], ['d', 'e', 'c']]

/-- what the program did: the result saved and the file, and the number of messages of errors; it returns 0 -/
structure Done (R : Type) where
  saved : Option (Str × R)
  errors : Nat

/-- element of a `vec1s`, checked -/
def at' (l : List Str) (i : Nat) : Res Str := match l[i]? with | some s => .ok s | none => .abort

/-- `pos[idne] += "."` (`qxmatch2.cpp:108-109`) -/
def dots (pos : List Str) : List Str := pos.map fun s => if s = [] then s else s ++ ['.']

/-- the prefixes for two catalogues (`qxmatch2.cpp:106-109`) -/
def prefixes (pos : List Str) : List Str :=
  dots (match pos with | [p] => [p, p] | [] => [[], []] | _ => pos)

/-- one call of `read_table` (`qxmatch2.cpp:112-113, 136`) -/
def readCat {R : Type} (e : Env R) (file : Str) (pre : Str) (radec : List Str) : Res Cat := do
  let n ← at' radec 0
  let m ← at' radec 1
  let ra ← e.column file (pre ++ n)
  let dec ← e.column file (pre ++ m)
  .ok (ra, dec)

/-- the test for an empty catalogue; only a message is printed (`qxmatch2.cpp:115-121, 138-140`) -/
def emptyMsg (c : Cat) : Nat := if c.1.length = 0 ∨ c.2.length = 0 then 1 else 0

/-- `vif_main` (`qxmatch2.cpp:74-157`) without the printing -/
def main {R : Type} (e : Env R) (a : Args) : Res (Done R) :=
  if a.output = [] then .ok ⟨none, 0⟩
  else match a.cats with
  | [f, g] => do
    let pos := prefixes a.pos
    let p ← at' pos 0
    let c ← readCat e f p a.radec1
    let q ← at' pos 1
    let d ← readCat e g q a.radec2
    let r ← e.two c d
    .ok ⟨some (a.output, r), emptyMsg c + emptyMsg d⟩
  | [f] => do
    let pos := if a.pos = [] then [[]] else a.pos
    let p ← at' pos 0
    let p := if p = [] then p else p ++ ['.']
    let c ← readCat e f p a.radec1
    let r ← e.self c
    .ok ⟨some (a.output, r), emptyMsg c⟩
  | _ => .ok ⟨none, 0⟩

/-! ### Specification -/

/-- `name` is the column `base` with the prefix `pre`: `pre.base`, or `base` for no prefix -/
def Column (pre base name : Str) : Prop := (pre = [] ∧ name = base) ∨ (pre ≠ [] ∧ name = pre ++ '.' :: base)

/-- the prefixes of the two catalogues that `pos` means: none, one for both, or one for each -/
def Pos (pos : List Str) (p q : Str) : Prop := (pos = [] ∧ p = [] ∧ q = []) ∨ (pos = [p] ∧ q = p) ∨ pos = [p, q]

/-- the program saved this result -/
def Saves {R : Type} (x : Res (Done R)) (out : Str) (r : R) : Prop := ∃ n, x = .ok ⟨some (out, r), n⟩

/-! ### Helpers -/

theorem dot_column {pre base name : Str} (h : Column pre base name) : (if pre = [] then pre else pre ++ ['.']) ++ base = name := by
  rcases h with ⟨rfl, rfl⟩ | ⟨h, rfl⟩
  · rfl
  · rw [if_neg h, List.append_assoc]
    rfl

theorem prefixes_pos {pos : List Str} {p q : Str} (h : Pos pos p q) : prefixes pos =
    [if p = [] then p else p ++ ['.'], if q = [] then q else q ++ ['.']] := by
  rcases h with ⟨rfl, rfl, rfl⟩ | ⟨rfl, rfl⟩ | rfl
  · rfl
  · rfl
  · rfl

theorem readCat_ok {R : Type} {e : Env R} {f pre r d nr nd : Str} {ra dec : List Int} (h1 : Column pre r nr) (h2 : Column pre d nd)
    (h3 : e.column f nr = .ok ra) (h4 : e.column f nd = .ok dec) :
    readCat e f (if pre = [] then pre else pre ++ ['.']) [r, d] = .ok (ra, dec) := by
  unfold readCat
  simp only [at', List.getElem?_cons_zero, List.getElem?_cons_succ, Res.ok_bind, dot_column h1, dot_column h2, h3, h4]

/-! ### C249 -/

/-- C249: with two catalogues the columns named by `radec1` and `radec2`, with the prefixes that `pos` means, are read from the first and the second file, and the match of the first catalogue with the second is saved. -/
theorem C249_two {R : Type} (e : Env R) (a : Args) (f g p q r1 d1 r2 d2 nr1 nd1 nr2 nd2 : Str) (ra1 dec1 ra2 dec2 : List Int) (r : R)
    (ho : a.output ≠ []) (hc : a.cats = [f, g]) (hp : Pos a.pos p q) (h1 : a.radec1 = [r1, d1]) (h2 : a.radec2 = [r2, d2])
    (c1 : Column p r1 nr1) (c2 : Column p d1 nd1) (c3 : Column q r2 nr2) (c4 : Column q d2 nd2)
    (e1 : e.column f nr1 = .ok ra1) (e2 : e.column f nd1 = .ok dec1) (e3 : e.column g nr2 = .ok ra2) (e4 : e.column g nd2 = .ok dec2)
    (hm : e.two (ra1, dec1) (ra2, dec2) = .ok r) : Saves (main e a) a.output r := by
  unfold main
  rw [if_neg ho, hc]
  simp only [prefixes_pos hp, h1, h2, at', List.getElem?_cons_zero, List.getElem?_cons_succ, Res.ok_bind, readCat_ok c1 c2 e1 e2, readCat_ok c3 c4 e3 e4, hm]
  exact ⟨_, rfl⟩

/-- C249: with one catalogue the columns named by `radec1`, with the first prefix of `pos` if there is one, are read, and the match of the catalogue with itself is saved. -/
theorem C249_self {R : Type} (e : Env R) (a : Args) (f p r1 d1 nr nd : Str) (ra dec : List Int) (r : R)
    (ho : a.output ≠ []) (hc : a.cats = [f]) (hp : a.pos = [] ∧ p = [] ∨ a.pos.head? = some p) (h1 : a.radec1 = [r1, d1])
    (c1 : Column p r1 nr) (c2 : Column p d1 nd) (e1 : e.column f nr = .ok ra) (e2 : e.column f nd = .ok dec)
    (hm : e.self (ra, dec) = .ok r) : Saves (main e a) a.output r := by
  have h0 : at' (if a.pos = [] then [[]] else a.pos) 0 = .ok p := by
    rcases hp with ⟨h, rfl⟩ | h
    · rw [if_pos h]; rfl
    · cases hh : a.pos with
      | nil => rw [hh] at h; cases h
      | cons x l =>
        rw [hh] at h
        cases h
        rfl
  unfold main
  rw [if_neg ho, hc]
  simp only [h0, Res.ok_bind, h1, readCat_ok c1 c2 e1 e2, hm]
  exact ⟨_, rfl⟩

/-- C249: without an output file, or with neither one nor two catalogues, nothing is read or saved. -/
theorem C249_none {R : Type} (e : Env R) (a : Args) (h : a.output = [] ∨ a.cats.length ≠ 1 ∧ a.cats.length ≠ 2) :
    main e a = .ok ⟨none, 0⟩ := by
  unfold main
  rcases h with h | ⟨h1, h2⟩
  · rw [if_pos h]
  · by_cases ho : a.output = []
    · rw [if_pos ho]
    · rw [if_neg ho]
      split
      · rename_i hc; rw [hc] at h2; exact absurd rfl h2
      · rename_i hc; rw [hc] at h1; exact absurd rfl h1
      · rfl

/-- C249: nothing is saved if a column cannot be read or the match stops, here for any reason and any arguments: what is saved is always a result of the match, under the name of the output file. -/
theorem C249_saved {R : Type} (e : Env R) (a : Args) (o : Done R) (f : Str) (r : R) (h : main e a = .ok o) (hs : o.saved = some (f, r)) :
    f = a.output ∧ ((∃ c d, e.two c d = .ok r) ∨ ∃ c, e.self c = .ok r) := by
  unfold main at h
  split at h
  · cases h; cases hs
  · split at h
    · obtain ⟨p, -, h⟩ := Res.bind_eq_ok.1 h
      obtain ⟨c, -, h⟩ := Res.bind_eq_ok.1 h
      obtain ⟨q, -, h⟩ := Res.bind_eq_ok.1 h
      obtain ⟨d, -, h⟩ := Res.bind_eq_ok.1 h
      obtain ⟨x, hx, h⟩ := Res.bind_eq_ok.1 h
      cases h
      cases hs
      exact ⟨rfl, .inl ⟨c, d, hx⟩⟩
    · obtain ⟨p, -, h⟩ := Res.bind_eq_ok.1 h
      obtain ⟨c, -, h⟩ := Res.bind_eq_ok.1 h
      obtain ⟨x, hx, h⟩ := Res.bind_eq_ok.1 h
      cases h
      cases hs
      exact ⟨rfl, .inr ⟨c, hx⟩⟩
    · cases h; cases hs

/-- C249 fails: an empty catalogue gives the message of an error, but the match is made and saved all the same, and the program returns 0. -/
theorem C249_empty_refuted {R : Type} (e : Env R) (a : Args) (f : Str) (r : R) (ho : a.output ≠ []) (hc : a.cats = [f]) (hp : a.pos = [])
    (h1 : a.radec1 = [['r', 'a'], ['d', 'e', 'c']]) (e1 : e.column f ['r', 'a'] = .ok []) (e2 : e.column f ['d', 'e', 'c'] = .ok [])
    (hm : e.self ([], []) = .ok r) : main e a = .ok ⟨some (a.output, r), 1⟩ := by
  unfold main
  rw [if_neg ho, hc]
  simp only [hp, if_true, at', List.getElem?_cons_zero, List.getElem?_cons_succ, Res.ok_bind, h1, readCat, List.nil_append, e1, e2, hm]
  rfl

/-- two catalogues, with a prefix in the second one -/
example : ∃ e : Env Nat, Saves (main e { cats := [['f'], ['g']], output := ['o'], pos := [[], ['x']] }) ['o'] 7 :=
  ⟨⟨fun f n => if f = ['f'] ∧ (n = ['r', 'a'] ∨ n = ['d', 'e', 'c']) then .ok [1] else if f = ['g'] ∧ (n = ['x', '.', 'r', 'a'] ∨ n = ['x', '.', 'd', 'e', 'c']) then .ok [2] else .abort,
    fun c d => if c = ([1], [1]) ∧ d = ([2], [2]) then .ok 7 else .ub, fun _ => .ub⟩, 0, rfl⟩

example : ∃ e : Env Nat, e.column ['f'] ['r', 'a'] = .ok [] ∧ e.self ([], []) = .ok 0 := ⟨⟨fun _ _ => .ok [], fun _ _ => .ub, fun _ => .ok 0⟩, rfl, rfl⟩

end Verif.Qxmatch2
