import Verif.Tools.RefgenMembers
/-!
# The code written by refgen (C226)

The second half of `main` of `tools/refgen/refgen.cpp`: the code of a file is copied, and the reflection data of each structure are added before its closing brace. Not modelled: the reading of the
arguments and of the file; the positions given by clang are in the file.
-/
namespace Verif.Refgen
open Verif Verif.Str

/-! ### Model -/

/-- `get_location` (`refgen.cpp:66-83`): the last line (`lend`) and column (`cend`). The columns of the start and of the end are exchanged when they are read (`:70-71`), and again if they are
on a single line. -/
def location (x : Extent) : Nat × Nat := if x.el ≤ x.sl ∧ x.sc < x.ec then (x.sl, x.ec) else (x.el, x.sc + 1)

def lend (d : Entry) : Nat := (location d.x).1
def cend (d : Entry) : Nat := (location d.x).2

/-- `if (!first) enh << ", "; enh << s; first = false` (`refgen.cpp:598-603`) -/
def list : Bool → List Str → Str
  | _, [] => []
  | first, m :: l => (if first then [] else [',', ' ']) ++ m ++ list false l

/-- The reflection data (`refgen.cpp:594-610`) -/
def refl (d : Entry) : Str :=
  if d.members = [] then "NO_MEMBER(\"".toList ++ d.name ++ "\"); ".toList
  else "MEMBERS1(".toList ++ list true d.members ++ "); MEMBERS2(\"".toList ++ d.name ++ "\"".toList ++
    (d.members.map fun m => ", MAKE_MEMBER(".toList ++ m ++ ")".toList).flatten ++ "); ".toList

/-- A line with structures that end on it (`refgen.cpp:590-617`); `cend-2 - rpos` is unsigned -/
def editLine (line : Str) : Nat → List Entry → Res Str
  | rpos, [] => substrFrom line rpos
  | rpos, d :: es => do
    let a ← if rpos ≤ cend d - 2 then substr line rpos (cend d - 2 - rpos) else substrFrom line rpos
    let b ← substr line (cend d - 2) 2
    let r ← editLine line (cend d) es
    .ok (a ++ refl d ++ b ++ r)

/-- The lines from number `l` on (`refgen.cpp:573-620`) -/
def write : Nat → List Str → List Entry → Res Str
  | _, [], _ => .ok []
  | l, a :: ls, es => do
    let t ← editLine a 0 (es.takeWhile fun d => lend d == l)
    let r ← write (l + 1) ls (es.dropWhile fun d => lend d == l)
    .ok (t ++ '\n' :: r)

/-- `while (!code.eof()) std::getline(code, line)`: the last line is what follows the last end of line, and may be empty -/
def getlines : Str → List Str
  | [] => [[]]
  | c :: t => if c = '\n' then [] :: getlines t else match getlines t with
    | l :: ls => (c :: l) :: ls
    | [] => [[c]]

/-- `refgen` (`refgen.cpp:527-620`), for the diagnostics of clang (`true` for those that are not warnings or notes): nothing if there are errors. `sort` is `std::sort` by the last line. -/
def refgen (sort : List Entry → List Entry) (diag : List Bool) (code : Str) (file : List Node) : Res (Option Str) := do
  let db := if diag = [] then structs file else []
  if true ∈ diag then .ok none else
  let t ← write 1 (getlines code) (sort db)
  .ok (some t)

/-! ### Specification -/

/-- the contract of `std::sort` -/
def IsSort (sort : List Entry → List Entry) : Prop := ∀ db, (sort db).Perm db ∧ (sort db).Pairwise fun a b => lend a ≤ lend b

/-- the place of the closing brace in its line -/
def brace (d : Entry) : Nat := d.x.ec - 2

/-- the reflection data of a structure -/
def data (d : Entry) : Str := match d.members with
  | [] => "NO_MEMBER(\"".toList ++ d.name ++ "\"); ".toList
  | ms => "MEMBERS1(".toList ++ [',', ' '].intercalate ms ++ "); MEMBERS2(\"".toList ++ d.name ++ "\"".toList ++
    ms.flatMap (fun m => ", MAKE_MEMBER(".toList ++ m ++ ")".toList) ++ "); ".toList

/-- the line has the closing brace of the structure, and something after it; the structure is on one line, or its brace is in the column of its first character -/
def Closed (d : Entry) (line : Str) : Prop := line[brace d]? = some '}' ∧ brace d + 1 < line.length ∧ 2 ≤ d.x.ec ∧ ((d.x.sl = d.x.el ∧ d.x.sc < d.x.ec) ∨ (d.x.sl < d.x.el ∧ d.x.sc + 1 = d.x.ec))

/-- what is expected of the lines of the code: each one is copied, with the data of the structure that ends there before its closing brace -/
def Edited (db : List Entry) (k : Nat) (line out : Str) : Prop :=
  (∀ d ∈ db, d.x.el = k → out = line.take (brace d) ++ data d ++ line.drop (brace d)) ∧ ((∀ d ∈ db, d.x.el ≠ k) → out = line)

/-! ### Helpers -/

theorem list_eq (ms : List Str) : list true ms = [',', ' '].intercalate ms ∧ list false ms = (ms.map fun m => [',', ' '] ++ m).flatten := by
  have h2 : ∀ ms : List Str, list false ms = (ms.map fun m => [',', ' '] ++ m).flatten := by
    intro ms
    induction ms with
    | nil => rfl
    | cons m l ih => simp [list, ih]
  refine ⟨?_, h2 ms⟩
  cases ms with
  | nil => rfl
  | cons m l =>
    simp only [list, if_true, List.nil_append, h2]
    unfold List.intercalate
    induction l generalizing m with
    | nil => simp
    | cons a l ih =>
      rw [List.map_cons, List.flatten_cons, List.intersperse_cons_cons, List.flatten_cons, List.flatten_cons, ← ih a]
      simp

theorem refl_eq (d : Entry) : refl d = data d := by
  unfold refl data
  cases h : d.members with
  | nil => simp
  | cons m l =>
    simp only
    rw [if_neg (by simp), (list_eq _).1, List.flatMap_def]

theorem closed_loc {d : Entry} {line : Str} (h : Closed d line) : lend d = d.x.el ∧ cend d = d.x.ec := by
  obtain ⟨-, -, -, h | h⟩ := h
  · unfold lend cend location
    rw [if_pos ⟨by omega, h.2⟩]
    exact ⟨h.1, rfl⟩
  · unfold lend cend location
    rw [if_neg (by omega)]
    exact ⟨rfl, h.2⟩

theorem edit_one {d : Entry} {line : Str} (h : Closed d line) : editLine line 0 [d] = .ok (line.take (brace d) ++ data d ++ line.drop (brace d)) := by
  obtain ⟨-, h2⟩ := closed_loc h
  obtain ⟨-, h3, h4, -⟩ := h
  unfold brace at h3 ⊢
  simp only [editLine, h2]
  rw [if_pos (by omega)]
  unfold substr substrFrom
  rw [if_neg (by omega), Res.ok_bind, if_neg (by omega), Res.ok_bind, if_neg (by omega), Res.ok_bind, refl_eq]
  congr 1
  simp only [List.drop_zero, Nat.sub_zero, List.append_assoc]
  congr 2
  conv_rhs => rw [← List.take_append_drop 2 (line.drop (d.x.ec - 2))]
  rw [List.drop_drop, show d.x.ec - 2 + 2 = d.x.ec by omega]

theorem edit_none (line : Str) : editLine line 0 [] = .ok line := by
  simp [editLine, substrFrom]

theorem write_spec (ls : List Str) : ∀ (l : Nat) (es : List Entry), es.Pairwise (fun a b => a.x.el < b.x.el) →
    (∀ d ∈ es, l ≤ d.x.el ∧ ∃ line, ls[d.x.el - l]? = some line ∧ Closed d line) →
    ∃ outs : List Str, write l ls es = .ok (outs.map fun o => o ++ ['\n']).flatten ∧ outs.length = ls.length ∧ ∀ k line out, ls[k]? = some line → outs[k]? = some out → Edited es (l + k) line out := by
  induction ls with
  | nil => intro l es _ _; exact ⟨[], rfl, rfl, by simp⟩
  | cons a ls ih =>
    intro l es hp hd
    have hl : ∀ d ∈ es, lend d = d.x.el := fun d h => by
      obtain ⟨-, line, -, hc⟩ := hd d h
      exact (closed_loc hc).1
    -- whether the first structure ends on this line
    by_cases hc : ∃ d t, es = d :: t ∧ d.x.el = l
    · obtain ⟨d, t, rfl, he⟩ := hc
      rw [List.pairwise_cons] at hp
      have htw : (d :: t).takeWhile (fun d => lend d == l) = [d] ∧ (d :: t).dropWhile (fun d => lend d == l) = t := by
        have h1 : (lend d == l) = true := by rw [hl d (by simp), he]; simp
        rw [List.takeWhile_cons, List.dropWhile_cons, if_pos h1, if_pos h1]
        cases t with
        | nil => exact ⟨rfl, rfl⟩
        | cons b t =>
          have h2 : ¬ (lend b == l) = true := by
            rw [hl b (by simp)]
            have := hp.1 b (by simp)
            simp; omega
          rw [List.takeWhile_cons, List.dropWhile_cons, if_neg h2, if_neg h2]
          exact ⟨rfl, rfl⟩
      obtain ⟨-, line, hline, hcl⟩ := hd d (by simp)
      rw [he, Nat.sub_self] at hline
      cases hline
      obtain ⟨outs, o1, o2, o3⟩ := ih (l + 1) t hp.2 (by
        intro e h
        obtain ⟨g1, line, g2, g3⟩ := hd e (by simp [h])
        have := hp.1 e h
        obtain ⟨j, hj⟩ : ∃ j, e.x.el - l = j + 1 := ⟨e.x.el - l - 1, by omega⟩
        refine ⟨by omega, line, ?_, g3⟩
        rw [hj, List.getElem?_cons_succ] at g2
        rw [show e.x.el - (l + 1) = j by omega, g2])
      refine ⟨(a.take (brace d) ++ data d ++ a.drop (brace d)) :: outs, ?_, by simp [o2], ?_⟩
      · rw [write, htw.1, htw.2, edit_one hcl, Res.ok_bind, o1, Res.ok_bind]
        simp
      · intro k line out h1 h2
        cases k with
        | zero =>
          cases h1
          cases h2
          refine ⟨fun e h g => ?_, fun h => absurd he (h d (by simp))⟩
          rcases List.mem_cons.1 h with rfl | h
          · rfl
          · have := hp.1 e h
            omega
        | succ k =>
          rw [List.getElem?_cons_succ] at h1 h2
          have := o3 k line out h1 h2
          rw [show l + 1 + k = l + (k + 1) by omega] at this
          refine ⟨fun e h g => ?_, fun h => this.2 fun e h' => h e (by simp [h'])⟩
          rcases List.mem_cons.1 h with rfl | h
          · omega
          · exact this.1 e h g
    · have hgt : ∀ d ∈ es, l < d.x.el := by
        intro d h
        cases es with
        | nil => simp at h
        | cons b t =>
          have hb : l < b.x.el := by
            have := (hd b (by simp)).1
            rcases Nat.eq_or_lt_of_le this with h' | h'
            · exact absurd ⟨b, t, rfl, h'.symm⟩ hc
            · exact h'
          rcases List.mem_cons.1 h with rfl | h
          · exact hb
          · exact Nat.lt_trans hb ((List.pairwise_cons.1 hp).1 d h)
      have htw : es.takeWhile (fun d => lend d == l) = [] ∧ es.dropWhile (fun d => lend d == l) = es := by
        cases es with
        | nil => exact ⟨rfl, rfl⟩
        | cons b t =>
          have h2 : ¬ (lend b == l) = true := by
            rw [hl b (by simp)]
            have := hgt b (by simp)
            simp; omega
          rw [List.takeWhile_cons, List.dropWhile_cons, if_neg h2, if_neg h2]
          exact ⟨rfl, rfl⟩
      obtain ⟨outs, o1, o2, o3⟩ := ih (l + 1) es hp (by
        intro e h
        obtain ⟨g1, line, g2, g3⟩ := hd e h
        have := hgt e h
        obtain ⟨j, hj⟩ : ∃ j, e.x.el - l = j + 1 := ⟨e.x.el - l - 1, by omega⟩
        refine ⟨by omega, line, ?_, g3⟩
        rw [hj, List.getElem?_cons_succ] at g2
        rw [show e.x.el - (l + 1) = j by omega, g2])
      refine ⟨a :: outs, ?_, by simp [o2], ?_⟩
      · rw [write, htw.1, htw.2, edit_none, Res.ok_bind, o1, Res.ok_bind]
        simp
      · intro k line out h1 h2
        cases k with
        | zero =>
          cases h1
          cases h2
          exact ⟨fun e h g => by have := hgt e h; omega, fun _ => rfl⟩
        | succ k =>
          rw [List.getElem?_cons_succ] at h1 h2
          have := o3 k line out h1 h2
          rw [show l + 1 + k = l + (k + 1) by omega] at this
          exact this

theorem getlines_flatten (s : Str) : ((getlines s).map fun o => o ++ ['\n']).flatten = s ++ ['\n'] := by
  have hne : ∀ s, getlines s ≠ [] := by
    intro s
    cases s with
    | nil => simp [getlines]
    | cons c t =>
      rw [getlines]
      split
      · simp
      · split <;> simp
  induction s with
  | nil => rfl
  | cons c t ih =>
    rw [getlines]
    split
    · rename_i h
      subst h
      simp [ih]
    · cases h : getlines t with
      | nil => exact absurd h (hne t)
      | cons l ls =>
        rw [h] at ih
        simp only [List.map_cons, List.flatten_cons] at ih ⊢
        rw [List.cons_append, List.cons_append, ih]
        rfl

/-! ### C226 -/

/-- The code is copied with the data of each structure before its closing brace, and an end of line is added, if no two structures end on the same line and if each one is written on one line or
has its closing brace below its first character, with something after it. (Full statement: for all the codes without error.) -/
theorem C226_code_partial (sort : List Entry → List Entry) (hs : IsSort sort) (code : Str) (file : List Node) (hd : (structs file).Pairwise fun a b => a.x.el ≠ b.x.el)
    (hc : ∀ d ∈ structs file, 1 ≤ d.x.el ∧ ∃ line, (getlines code)[d.x.el - 1]? = some line ∧ Closed d line) :
    ∃ outs : List Str, refgen sort [] code file = .ok (some (outs.map fun o => o ++ ['\n']).flatten) ∧ outs.length = (getlines code).length ∧
      ∀ k line out, (getlines code)[k]? = some line → outs[k]? = some out → Edited (structs file) (k + 1) line out := by
  obtain ⟨h1, h2⟩ := hs (structs file)
  have hne : (sort (structs file)).Pairwise fun a b => a.x.el ≠ b.x.el := (h1.pairwise_iff (fun h => Ne.symm h)).2 hd
  have hlt : (sort (structs file)).Pairwise fun a b => a.x.el < b.x.el := by
    have := List.Pairwise.and h2 hne
    refine List.Pairwise.imp_of_mem ?_ this
    rintro a b ha hb ⟨g1, g2⟩
    obtain ⟨-, la, -, ca⟩ := hc a (h1.mem_iff.1 ha)
    obtain ⟨-, lb, -, cb⟩ := hc b (h1.mem_iff.1 hb)
    rw [(closed_loc ca).1, (closed_loc cb).1] at g1
    omega
  obtain ⟨outs, o1, o2, o3⟩ := write_spec (getlines code) 1 (sort (structs file)) hlt (fun d h => hc d (h1.mem_iff.1 h))
  refine ⟨outs, ?_, o2, ?_⟩
  · simp only [refgen, if_true, List.not_mem_nil, if_false, o1, Res.ok_bind]
  · intro k line out g1 g2
    have := o3 k line out g1 g2
    rw [Nat.add_comm] at this
    exact ⟨fun d h => this.1 d (h1.mem_iff.2 h), fun h => this.2 fun d h' => h d (h1.mem_iff.1 h')⟩

/-- Code without structures is copied, with an end of line. -/
theorem C226_copy (sort : List Entry → List Entry) (hs : IsSort sort) (code : Str) (file : List Node) (h : structs file = []) : refgen sort [] code file = .ok (some (code ++ ['\n'])) := by
  obtain ⟨outs, o1, o2, o3⟩ := C226_code_partial sort hs code file (by simp [h]) (by simp [h])
  rw [o1]
  congr 2
  rw [← getlines_flatten code]
  congr 2
  apply List.ext_getElem o2
  intro k h1 h2
  exact (o3 k _ _ (List.getElem?_eq_getElem h2) (List.getElem?_eq_getElem h1)).2 (by simp [h])

/-- With errors nothing is written. -/
theorem C226_error (sort : List Entry → List Entry) (diag : List Bool) (code : Str) (file : List Node) (h : true ∈ diag) : refgen sort diag code file = .ok none := by
  simp [refgen, h]

/-- Finding: with a warning, but no error, the code is written without any data. -/
theorem C226_warning_refuted (sort : List Entry → List Entry) (hs : IsSort sort) (diag : List Bool) (hd : diag ≠ []) (he : true ∉ diag) (code : Str) (file : List Node) :
    refgen sort diag code file = .ok (some (code ++ ['\n'])) := by
  have := C226_copy sort hs code [] rfl
  simp only [refgen, if_true, List.not_mem_nil, if_false] at this
  simp only [refgen, if_neg hd, if_neg he]
  exact this

/-- Finding: if the closing brace is not below the first character of the structure but before, the program stops on an exception. -/
theorem C226_brace_refuted (d : Entry) (h : d.x.sl < d.x.el) (line : Str) (hl : line.length + 1 < d.x.sc) : editLine line 0 [d] = .abort := by
  have hc : cend d = d.x.sc + 1 := by
    unfold cend location
    rw [if_neg (by omega)]
  simp only [editLine, hc]
  rw [if_pos (by omega)]
  unfold substr
  rw [if_neg (by omega), Res.ok_bind, if_pos (by omega)]
  rfl

/-- Finding: the same if the closing brace is the last character of its line. -/
theorem C226_end_refuted (d : Entry) (line : Str) (hc : cend d = line.length + 1) (h1 : 0 < line.length) : editLine line 0 [d] = .abort := by
  simp only [editLine, hc]
  rw [if_pos (by omega)]
  unfold substr substrFrom
  rw [if_neg (by omega), Res.ok_bind, if_neg (by omega), Res.ok_bind, if_pos (by omega)]
  rfl

/-- Finding: a structure inside of another one, on the same line. Both orders are sorted by line; in that of the declarations the code written is not that of the file. -/
theorem C226_nested_refuted : ∃ a b : Entry, ∃ code : Str, lend a = lend b ∧ a.x.s < b.x.s ∧ write 1 [code] [b, a] = .ok
      "struct A { struct B { int x; MEMBERS1(x); MEMBERS2(\"B\", MAKE_MEMBER(x)); } b; MEMBERS1(b); MEMBERS2(\"A\", MAKE_MEMBER(b)); };\n".toList ∧
    write 1 [code] [a, b] = .ok "struct A { struct B { int x; } b; MEMBERS1(b); MEMBERS2(\"A\", MAKE_MEMBER(b)); };MEMBERS1(x); MEMBERS2(\"B\", MAKE_MEMBER(x)); } b; };\n".toList :=
  ⟨⟨"A".toList, "A".toList, ⟨1, 1, 1, 36, 0, 35⟩, ["b".toList]⟩, ⟨"B".toList, "B".toList, ⟨1, 12, 1, 31, 11, 30⟩, ["x".toList]⟩, "struct A { struct B { int x; } b; };".toList,
    by decide, by decide, by decide +kernel, by decide +kernel⟩

/-- an example that meets the hypotheses of `C226_code_partial`: two structures, one of them on one line -/
def exCode : Str := "struct A {\n  struct B { int x; };\n  B b;\n};".toList
def exNodes : List Node := [.struct "A".toList "A".toList ⟨1, 1, 4, 2, 0, 42⟩ [.struct "B".toList "B".toList ⟨2, 3, 2, 22, 13, 32⟩ [.field "x".toList ⟨2, 14, 2, 19, 24, 29⟩ []],
  .field "b".toList ⟨3, 3, 3, 6, 36, 39⟩ []]]
example : (structs exNodes).Pairwise fun a b => a.x.el ≠ b.x.el := by decide +kernel
example : ∀ d ∈ structs exNodes, 1 ≤ d.x.el ∧ ∃ line, (getlines exCode)[d.x.el - 1]? = some line ∧ Closed d line := by
  have h : structs exNodes = [⟨"A".toList, "A".toList, ⟨1, 1, 4, 2, 0, 42⟩, ["b".toList]⟩, ⟨"B".toList, "B".toList, ⟨2, 3, 2, 22, 13, 32⟩, ["x".toList]⟩] := rfl
  rw [h]
  intro d hd
  rcases List.mem_cons.1 hd with rfl | hd
  · exact ⟨by decide, "};".toList, by decide +kernel, by decide, by decide, by decide, .inr (by decide)⟩
  · rcases List.mem_cons.1 hd with rfl | hd
    · exact ⟨by decide, "  struct B { int x; };".toList, by decide +kernel, by decide, by decide, by decide, .inl (by decide)⟩
    · simp at hd
example : ∃ sort, IsSort sort := ⟨fun db => db.mergeSort fun a b => decide (lend a ≤ lend b), fun db => ⟨List.mergeSort_perm _ _, by
  have := List.pairwise_mergeSort (le := fun a b : Entry => decide (lend a ≤ lend b)) (by intro a b c; simp; omega) (by intro a b; simp; omega) db
  exact this.imp (by intro a b h; simpa using h)⟩⟩

end Verif.Refgen
