import Verif.Io.Path
import Verif.Str.SplitProps
import Verif.Str.WordProps
/-!
# Properties C44, C79 and C80: paths, `mkdir` and the directory explorer
-/
namespace Verif.Io
open Verif Verif.Str

/-! ### searches -/

theorem lastOf_char {s : Str} {c : Char} {p : Nat} :
    lastOf s [c] none = some p ↔ ∃ a b, s = a ++ c :: b ∧ c ∉ b ∧ a.length = p := by
  unfold lastOf
  simp only [upTo]
  rw [lastIn_some]
  constructor
  · rintro ⟨h1, h2, h3⟩
    rw [inSet_lt h1] at h2
    have hc : s[p] = c := by simpa using h2
    refine ⟨s.take p, s.drop (p + 1), ?_, ?_, by rw [List.length_take]; omega⟩
    · rw [← hc, List.getElem_cons_drop, List.take_append_drop]
    · intro hm
      obtain ⟨i, hi, he⟩ := List.mem_iff_getElem.1 hm
      rw [List.length_drop] at hi
      have := h3 (p + 1 + i) (by omega) (by omega)
      rw [inSet_lt (by omega)] at this
      rw [List.getElem_drop] at he
      simp [he] at this
  · rintro ⟨a, b, rfl, hb, rfl⟩
    refine ⟨by simp, by simp [inSet], fun j h1 h2 => ?_⟩
    simp at h2
    rw [inSet_lt (by simp; omega)]
    simp only [List.mem_singleton, decide_eq_false_iff_not]
    rw [List.getElem_append_right (by omega)]
    intro he
    apply hb
    have h4 : j - a.length - 1 < b.length := by omega
    have : (c :: b)[j - a.length]'(by simp; omega) = b[j - a.length - 1] := by
      rw [List.getElem_cons, dif_neg (by omega)]
    rw [this] at he
    rw [← he]; exact List.getElem_mem _

theorem lastOf_char_none {s : Str} {c : Char} : lastOf s [c] none = none ↔ c ∉ s := by
  unfold lastOf
  simp only [upTo]
  rw [lastIn_none]
  constructor
  · intro h hm
    obtain ⟨i, hi, he⟩ := List.mem_iff_getElem.1 hm
    have := h i hi
    rw [inSet_lt hi] at this
    simp [he] at this
  · intro h j hj
    rw [inSet_lt hj]
    simp only [List.mem_singleton, decide_eq_false_iff_not]
    intro he
    exact h (he ▸ List.getElem_mem _)

/-- the last occurrence strictly before `p` -/
theorem lastOf_before {a b : Str} {c : Char} {p : Nat} (hp : a.length = p) (hp0 : 0 < p) :
    lastOf (a ++ b) [c] (some (p - 1)) = lastOf a [c] none := by
  unfold lastOf
  simp only [upTo]
  have : min (p - 1 + 1) (a ++ b).length = a.length := by rw [List.length_append]; omega
  rw [this]
  have key : ∀ j < a.length, inSet (a ++ b) [c] j = inSet a [c] j := by
    intro j hj
    unfold inSet
    rw [List.getElem?_append_left (by omega)]
  cases h : lastIn (fun i => inSet a [c] i) a.length with
  | none =>
    rw [lastIn_none] at h ⊢
    exact fun j hj => by rw [key j hj]; exact h j hj
  | some k =>
    rw [lastIn_some] at h ⊢
    exact ⟨h.1, by rw [key k h.1]; exact h.2.1, fun j h1 h2 => by rw [key j h2]; exact h.2.2 j h1 h2⟩

/-- the last non-space is the slash exactly if only spaces follow -/
theorem lastNotOf_slash {a b : Str} (hb : '/' ∉ b) :
    some a.length = lastNotOf (a ++ '/' :: b) [' '] none ↔ ∀ c ∈ b, c = ' ' := by
  unfold lastNotOf
  simp only [upTo]
  rw [eq_comm, lastIn_some]
  constructor
  · rintro ⟨_, _, h⟩ c hc
    obtain ⟨i, hi, he⟩ := List.mem_iff_getElem.1 hc
    have := h (a.length + 1 + i) (by omega) (by simp; omega)
    rw [inSet_lt (by simp; omega)] at this
    have e : (a ++ '/' :: b)[a.length + 1 + i]'(by simp; omega) = c := by
      rw [List.getElem_append_right (by omega)]
      simp only [show a.length + 1 + i - a.length = i + 1 by omega, List.getElem_cons_succ, he]
    rw [e] at this
    simpa using this
  · intro h
    refine ⟨by simp, by simp [inSet], fun j h1 h2 => ?_⟩
    simp only [List.length_append, List.length_cons] at h2
    rw [inSet_lt (by simp; omega)]
    have e : (a ++ '/' :: b)[j]'(by simp; omega) = b[j - a.length - 1]'(by omega) := by
      rw [List.getElem_append_right (by omega), List.getElem_cons, dif_neg (by omega)]
    rw [e]
    simp [h _ (List.getElem_mem _)]

/-! ### C44: directory and file name -/

/-- the five shapes of a path -/
inductive Shape : Str → Type
  /-- no slash -/
  | name (p : Str) (h : '/' ∉ p) : Shape p
  /-- directory, slash, name with a visible character -/
  | file (d b : Str) (h : '/' ∉ b) (hv : ∃ c ∈ b, c ≠ ' ') : Shape (d ++ '/' :: b)
  /-- a directory written with a final slash (and spaces) inside another one -/
  | dir (d b sp : Str) (h : '/' ∉ b) (hs : ∀ c ∈ sp, c = ' ') : Shape (d ++ '/' :: b ++ '/' :: sp)
  /-- the root -/
  | root (sp : Str) (hs : ∀ c ∈ sp, c = ' ') : Shape ('/' :: sp)
  /-- a directory written with a final slash, without parent -/
  | dir1 (b sp : Str) (hb : b ≠ []) (h : '/' ∉ b) (hs : ∀ c ∈ sp, c = ' ') : Shape (b ++ '/' :: sp)

/-- Every path has one of these shapes. -/
theorem C44_shapes (p : Str) : Nonempty (Shape p) := by
  cases h : lastOf p ['/'] none with
  | none => exact ⟨.name p (lastOf_char_none.1 h)⟩
  | some k =>
    obtain ⟨a, b, rfl, hb, -⟩ := lastOf_char.1 h
    by_cases hs : ∀ c ∈ b, c = ' '
    · by_cases ha : a = []
      · subst ha; exact ⟨.root b hs⟩
      · cases h2 : lastOf a ['/'] none with
        | none => exact ⟨.dir1 a b ha (lastOf_char_none.1 h2) hs⟩
        | some k2 =>
          obtain ⟨d, m, rfl, hm, -⟩ := lastOf_char.1 h2
          exact ⟨.dir d m b hm hs⟩
    · refine ⟨.file a b hb ?_⟩
      by_contra hc
      exact hs fun c h1 => by_contra fun h2 => hc ⟨c, h1, h2⟩

/-- `slash ∉ b` for a run of spaces -/
theorem spaces_slash {sp : Str} (hs : ∀ c ∈ sp, c = ' ') : '/' ∉ sp := fun h => by simpa using hs _ h

/-- C44: a path without slash is a file in the current directory. -/
theorem C44_name (p : Str) (h : '/' ∉ p) : getDirectory p = .ok "./".toList ∧ getBasename p = .ok p := by
  unfold getDirectory getBasename
  rw [lastOf_char_none.2 h]
  exact ⟨rfl, rfl⟩

/-- C44: a path `d/b` is cut at its last slash; directory and name together are the path. -/
theorem C44_file (d b : Str) (h : '/' ∉ b) (hv : ∃ c ∈ b, c ≠ ' ') :
    getDirectory (d ++ '/' :: b) = .ok (d ++ ['/']) ∧ getBasename (d ++ '/' :: b) = .ok b := by
  have e := lastOf_char.2 ⟨d, b, rfl, h, rfl⟩
  have hn : ¬ some d.length = lastNotOf (d ++ '/' :: b) [' '] none := by
    rw [lastNotOf_slash h]
    intro hh
    obtain ⟨c, hc, hne⟩ := hv
    exact hne (hh c hc)
  unfold getDirectory getBasename
  rw [e]
  simp only [if_neg hn]
  constructor
  · unfold substr
    rw [if_neg (by omega)]
    simp [List.take_append, List.take_of_length_le]
  · unfold substrFrom
    rw [if_neg (by simp)]
    simp [List.drop_append]

/-- C44: `d/b/` (also with spaces at the end) is the directory `b` inside `d/`. -/
theorem C44_dir (d b sp : Str) (h : '/' ∉ b) (hs : ∀ c ∈ sp, c = ' ') :
    getDirectory (d ++ '/' :: b ++ '/' :: sp) = .ok (d ++ ['/']) ∧
    getBasename (d ++ '/' :: b ++ '/' :: sp) = .ok b := by
  have hsp := spaces_slash hs
  have e := lastOf_char.2 ⟨d ++ '/' :: b, sp, rfl, hsp, rfl⟩
  have hn : some (d ++ '/' :: b).length = lastNotOf (d ++ '/' :: b ++ '/' :: sp) [' '] none :=
    (lastNotOf_slash hsp).2 hs
  have hl : 0 < (d ++ '/' :: b).length := by simp only [List.length_append, List.length_cons]; omega
  have e2 : lastOf (d ++ '/' :: b ++ '/' :: sp) ['/'] (some ((d ++ '/' :: b).length - 1)) = some d.length := by
    rw [lastOf_before rfl hl]; exact lastOf_char.2 ⟨d, b, rfl, h, rfl⟩
  unfold getDirectory getBasename
  rw [e]
  simp only [if_pos hn, if_neg (Nat.pos_iff_ne_zero.1 hl), e2]
  constructor
  · unfold substr
    rw [if_neg (by omega)]
    simp [List.take_append, List.take_of_length_le]
  · unfold substr
    rw [if_neg (by simp)]
    simp only [List.append_assoc, List.cons_append, List.length_append, List.length_cons]
    rw [show d.length + (b.length + 1) - d.length - 1 = b.length by omega]
    have : (d ++ '/' :: (b ++ '/' :: sp)).drop (d.length + 1) = b ++ '/' :: sp := by
      rw [List.drop_append]; simp
    rw [this, List.take_left]

/-- C44: the root directory. -/
theorem C44_root (sp : Str) (hs : ∀ c ∈ sp, c = ' ') :
    getDirectory ('/' :: sp) = .ok ['/'] ∧ getBasename ('/' :: sp) = .ok ['/'] := by
  have hsp := spaces_slash hs
  have e := lastOf_char.2 ⟨[], sp, rfl, hsp, rfl⟩
  have hn : some ([] : Str).length = lastNotOf ([] ++ '/' :: sp) [' '] none := (lastNotOf_slash hsp).2 hs
  simp only [List.nil_append, List.length_nil] at e hn
  unfold getDirectory getBasename
  rw [e]
  simp [← hn]

/-- Finding: for a directory written with a final slash and no parent, such as `foo/`, `get_basename` returns
the slash (and the spaces after it) instead of `foo`. -/
theorem C44_dir1_refuted (b sp : Str) (hb : b ≠ []) (h : '/' ∉ b) (hs : ∀ c ∈ sp, c = ' ') :
    getDirectory (b ++ '/' :: sp) = .ok "./".toList ∧ getBasename (b ++ '/' :: sp) = .ok ('/' :: sp) ∧
    getBasename (b ++ '/' :: sp) ≠ .ok b := by
  have hsp := spaces_slash hs
  have e := lastOf_char.2 ⟨b, sp, rfl, hsp, rfl⟩
  have hn : some b.length = lastNotOf (b ++ '/' :: sp) [' '] none := (lastNotOf_slash hsp).2 hs
  have hl : b.length ≠ 0 := by simpa using hb
  have e2 : lastOf (b ++ '/' :: sp) ['/'] (some (b.length - 1)) = none := by
    rw [lastOf_before rfl (by omega)]; exact lastOf_char_none.2 h
  have key : getBasename (b ++ '/' :: sp) = .ok ('/' :: sp) := by
    unfold getBasename
    rw [e]
    simp only [if_pos hn, if_neg hl, e2]
    unfold substrFrom
    rw [if_neg (by simp)]
    simp
  refine ⟨?_, key, ?_⟩
  · unfold getDirectory
    rw [e]
    simp only [if_pos hn, if_neg hl, e2]
    rfl
  · rw [key]
    simp only [ne_eq, Res.ok.injEq]
    intro he
    exact h (by rw [← he]; exact List.mem_cons_self)

/-- C44 (partial): the name returned contains no slash, except for the root and for `foo/`.
Full statement: for every path but the root; false by `C44_dir1_refuted`. -/
theorem C44_basename_partial (p b : Str) (h : getBasename p = .ok b) :
    '/' ∉ b ∨ (∃ sp, (∀ c ∈ sp, c = ' ') ∧ p = '/' :: sp) ∨
      ∃ a sp, (∀ c ∈ sp, c = ' ') ∧ '/' ∉ a ∧ p = a ++ '/' :: sp := by
  obtain ⟨s⟩ := C44_shapes p
  cases s with
  | name p hp => rw [(C44_name p hp).2, Res.ok.injEq] at h; exact .inl (h ▸ hp)
  | file d b' hb hv => rw [(C44_file d b' hb hv).2, Res.ok.injEq] at h; exact .inl (h ▸ hb)
  | dir d b' sp hb hs => rw [(C44_dir d b' sp hb hs).2, Res.ok.injEq] at h; exact .inl (h ▸ hb)
  | root sp hs => exact .inr (.inl ⟨sp, hs, rfl⟩)
  | dir1 b' sp _ hb hs => exact .inr (.inr ⟨b', sp, hs, hb, rfl⟩)

example : getDirectory "data/cat.fits".toList = .ok "data/".toList ∧ getBasename "data/cat.fits".toList = .ok "cat.fits".toList :=
  C44_file "data".toList "cat.fits".toList (by decide) ⟨'c', by decide, by decide⟩
example : getBasename "foo/".toList = .ok "/".toList :=
  (C44_dir1_refuted "foo".toList [] (by decide) (by decide) (by simp)).2.1

/-! ### C44: extension, directorize, absolute paths -/

/-- C44: the name without extension and the extension together are the name; the extension is empty or a dot
followed by no other dot. -/
theorem C44_extension (s : Str) : ∃ r x, removeExtension s = .ok r ∧ getExtension s = .ok x ∧
    splitExtension s = .ok (r, x) ∧ r ++ x = s ∧
    ((x = [] ∧ '.' ∉ s) ∨ ∃ t, x = '.' :: t ∧ '.' ∉ t) := by
  unfold removeExtension getExtension splitExtension
  cases h : lastOf s ['.'] none with
  | none => exact ⟨s, [], rfl, rfl, rfl, by simp, .inl ⟨rfl, lastOf_char_none.1 h⟩⟩
  | some p =>
    obtain ⟨a, b, rfl, hb, rfl⟩ := lastOf_char.1 h
    refine ⟨a, '.' :: b, ?_, ?_, ?_, rfl, .inr ⟨b, rfl, hb⟩⟩
    · simp [substr]
    · simp [substrFrom]
    · simp only [substr, substrFrom]
      rw [if_neg (by omega), if_neg (by simp)]
      simp

/-- Finding: the dot is searched in the whole path, so a file without extension in a directory with a dot gets
an extension with a slash. -/
theorem C44_extension_dir : getExtension "v1.2/file".toList = .ok ".2/file".toList ∧
    removeExtension "v1.2/file".toList = .ok "v1".toList := by decide

/-- C44: `directorize` trims the path and adds a slash unless the path is blank or has one. -/
theorem C44_directorize (p : Str) : ∃ m d, IsTrim blanks p m ∧ directorize p = .ok d ∧
    (m = [] → d = []) ∧ (m ≠ [] → m.getLast? = some '/' → d = m) ∧
    (m ≠ [] → m.getLast? ≠ some '/' → d = m ++ ['/']) ∧ directorize d = .ok d := by
  obtain ⟨m, h1, h2⟩ := C36_trim p blanks
  have key : ∀ q, (trim p blanks = .ok q → True) := fun _ _ => trivial
  have hd : directorize p = .ok (if m ≠ [] ∧ m.getLast? ≠ some '/' then m ++ ['/'] else m) := by
    unfold directorize
    rw [h1, Res.ok_bind]
    split <;> rfl
  refine ⟨m, _, h2, hd, ?_, ?_, ?_, ?_⟩
  · intro h; simp [h]
  · intro h h'; simp [h']
  · intro h h'; rw [if_pos ⟨h, h'⟩]
  · have hm := C36_idempotent p blanks m h1
    have trim_self : ∀ d : Str, IsTrim blanks d d → d = [] ∨ d.getLast? = some '/' → directorize d = .ok d := by
      intro d ht hc
      obtain ⟨d', e1, e2⟩ := C36_trim d blanks
      have := isTrim_unique ht e2
      unfold directorize
      rw [e1, Res.ok_bind, ← this]
      rw [if_neg]
      · rfl
      · rintro ⟨c1, c2⟩
        rcases hc with hc | hc
        · exact c1 hc
        · exact c2 hc
    obtain ⟨a, b, _, _, _, g1, g2⟩ := h2
    by_cases hc : m ≠ [] ∧ m.getLast? ≠ some '/'
    · rw [if_pos hc]
      apply trim_self
      · refine ⟨[], [], by simp, by simp, by simp, ?_, ?_⟩
        · intro c h
          rw [List.head?_append_of_ne_nil _ hc.1] at h
          exact g1 c h
        · intro c h
          rw [List.getLast?_append] at h
          simp at h
          subst h; decide
      · right; simp
    · rw [if_neg hc]
      apply trim_self
      · exact ⟨[], [], by simp, by simp, by simp, g1, g2⟩
      · by_cases h0 : m = []
        · exact .inl h0
        · right
          by_contra h3
          exact hc ⟨h0, h3⟩

/-- C44: a path is absolute if its first character that is no space or tabulation is a slash. -/
theorem C44_absolute (p : Str) : isAbsolutePath p = true ↔
    ∃ a b, p = a ++ '/' :: b ∧ ∀ c ∈ a, c = ' ' ∨ c = '\t' := by
  unfold isAbsolutePath
  rcases span_cases (fun c => c ∈ [' ', '\t']) p with h | ⟨a, c, t, rfl, ha, hc⟩
  · have := firstNotOf_append_none (d := []) (t := p) (cs := [' ', '\t']) h
    rw [List.nil_append, List.length_nil] at this
    rw [this]
    simp only [Bool.false_eq_true, false_iff]
    rintro ⟨a, b, rfl, -⟩
    have := h '/' (by simp)
    simp at this
  · have := firstNotOf_append_some (d := []) (a := a) (t := t) (cs := [' ', '\t']) ha hc
    simp only [List.nil_append, List.length_nil, Nat.zero_add] at this
    rw [this]
    simp only [List.getElem?_append_right (Nat.le_refl _), Nat.sub_self, List.getElem?_cons_zero, beq_iff_eq,
      Option.some.injEq]
    constructor
    · rintro rfl
      exact ⟨a, t, rfl, fun c hc => by simpa using ha c hc⟩
    · rintro ⟨a', b', he, ha'⟩
      clear this
      induction a generalizing a' with
      | nil =>
        cases a' with
        | nil => simp at he; exact he.1
        | cons x a' =>
          simp at he
          have := ha' x (by simp)
          rw [← he.1] at this
          exact absurd (by simpa using this) hc
      | cons y a ih =>
        cases a' with
        | nil =>
          simp at he
          have := ha y (by simp)
          rw [he.1] at this; simp at this
        | cons x a' =>
          simp at he
          exact ih (fun c hc => ha c (by simp [hc])) a' he.2 (fun c hc => ha' c (by simp [hc]))

/-! ### C79: mkdir -/

theorem split_words {c : Char} {s : Str} {l : List Str} (h : IsSplit [c] s l) :
    l.filter (fun x => decide (x ≠ [])) = words [c] s := by
  have hw : ∀ x : Str, c ∉ x → [x].filter (fun x => decide (x ≠ [])) = words [c] x := by
    intro x hx
    by_cases h0 : x = []
    · subst h0; rfl
    · rw [words_word [c] x (fun d hd => by simp; rintro rfl; exact hx hd) h0]; simp [h0]
  have hp : ∀ x ∈ l, ¬ Contains x [c] := isSplit_pieces (by simp) h
  have hc : ∀ x : Str, ¬ Contains x [c] → c ∉ x := by
    intro x hx hm
    obtain ⟨a, b, rfl⟩ := List.append_of_mem hm
    exact hx ⟨a, b, by simp⟩
  induction h with
  | last x hx => exact hw x (hc x (hp x (by simp)))
  | cons x t l hx hr ih =>
    rw [List.append_assoc, List.singleton_append, words_append _ _ _ _ (by simp), ← ih fun y hy => hp y (by simp [hy]),
      ← hw x (hc x (hp x (by simp)))]
    rw [← List.filter_append]; rfl

/-- Spec: the ancestors of a path given by its components, from the top: `c1`, `c1/c2`, ... after `tmp` -/
def ancestors (root : Str) : List Str → List Str
  | [] => []
  | d :: ds => (root ++ d) :: ancestors (root ++ d ++ ['/']) ds

/-- the paths up to the first one that fails -/
def untilFail (sys : Str → Bool) : List Str → List Str
  | [] => []
  | x :: xs => if sys x then x :: untilFail sys xs else [x]

theorem mkdirLoop_spec (abs : Bool) (sys : Str → Bool) (ds : List Str) (tmp : Str) (log : List Str) :
    mkdirLoop abs sys ds tmp log =
      (log ++ untilFail sys (ancestors (if tmp ≠ [] ∨ abs then tmp ++ ['/'] else tmp) (ds.filter fun x => decide (x ≠ []))),
       (ancestors (if tmp ≠ [] ∨ abs then tmp ++ ['/'] else tmp) (ds.filter fun x => decide (x ≠ []))).all sys) := by
  induction ds generalizing tmp log with
  | nil => simp [mkdirLoop, ancestors, untilFail]
  | cons d ds ih =>
    unfold mkdirLoop
    by_cases hd : d = []
    · rw [if_pos hd, ih]; simp [hd]
    · rw [if_neg hd]
      simp only
      rw [List.filter_cons_of_pos (by simp [hd])]
      simp only [ancestors]
      generalize (if tmp ≠ [] ∨ abs = true then tmp ++ ['/'] else tmp) = r
      by_cases hs : sys (r ++ d)
      · rw [if_pos hs, ih]
        rw [if_pos (.inl (by simp [hd]))]
        simp [untilFail, hs]
      · rw [if_neg hs]
        simp [untilFail, hs]

/-- C79: `mkdir` creates the ancestors of the path from the top, then the path itself, ignoring empty
components, keeps the leading slash of an absolute path, stops at the first failure, and returns whether
all succeeded. -/
theorem C79_mkdir (sys : Str → Bool) (p : Str) (hp : p ≠ []) : ∃ log, mkdir sys p =
      .ok (log, (ancestors (if p.head? = some '/' then ['/'] else []) (words ['/'] p)).all sys) ∧
    log = untilFail sys (ancestors (if p.head? = some '/' then ['/'] else []) (words ['/'] p)) := by
  obtain ⟨l, h1, h2⟩ := C34_split p ['/'] (by simp)
  have hb : beginsWith p ['/'] = decide (p.head? = some '/') := by
    rw [Bool.eq_iff_iff, C36_begins_with]
    cases p with
    | nil => simp
    | cons c t => simp [eq_comm]
  refine ⟨_, ?_, rfl⟩
  unfold mkdir
  rw [if_neg hp, h1, Res.ok_bind, mkdirLoop_spec, split_words h2, hb]
  by_cases h : p.head? = some '/'
  · simp [h]
  · simp [h]

example : ancestors ['/'] (words ['/'] "/a//b/".toList) = ["/a".toList, "/a/b".toList] := by decide

/-! ### C80: the directory explorer -/

/-- operations on an explorer -/
inductive Op
  | open (found : Bool)
  | close

/-- run a sequence of operations, then the destructor -/
def runOps (e : Explorer) : List Op → Res Explorer
  | [] => e.close
  | .open f :: os => do
    let r ← e.open f
    runOps r.1 os
  | .close :: os => do
    let e ← e.close
    runOps e os

/-- the handle held is the one open handle -/
def Explorer.Inv (e : Explorer) : Prop := e.opened = e.dirfd.toList

theorem close_inv {e : Explorer} (h : e.Inv) : ∃ e', e.close = .ok e' ∧ e'.opened = [] := by
  unfold Explorer.close
  unfold Explorer.Inv at h
  cases hd : e.dirfd with
  | none => rw [hd] at h; exact ⟨e, rfl, h⟩
  | some k =>
    rw [hd] at h
    simp only [Option.toList_some] at h
    simp [h]

/-- C80 (partial): an explorer that is only opened (any number of times, with success or not) and destroyed
closes every handle exactly once: nothing is undefined and no handle stays open.
Full statement: also with `close()`; false by `C80_close_refuted`. -/
theorem C80_open_partial (os : List Op) (h : Op.close ∉ os) : ∃ e, runOps {} os = .ok e ∧ e.opened = [] := by
  suffices ∀ e : Explorer, e.Inv → ∃ e', runOps e os = .ok e' ∧ e'.opened = [] from this {} rfl
  induction os with
  | nil => intro e he; exact close_inv he
  | cons o os ih =>
    intro e he
    cases o with
    | close => simp at h
    | «open» f =>
      obtain ⟨e1, h1, h2⟩ := close_inv he
      unfold runOps Explorer.open
      rw [h1, Res.ok_bind]
      cases f with
      | false =>
        simp only [Bool.false_eq_true, if_false, Res.pure_def, Res.ok_bind]
        exact ih (by simp at h; exact h) _ (by simp [Explorer.Inv, h2])
      | true =>
        simp only [if_true, Res.pure_def, Res.ok_bind]
        exact ih (by simp at h; exact h) _ (by simp [Explorer.Inv, h2])

/-- Finding: `close()` leaves the handle in place, so the destructor (or a later `open`) closes it again. -/
theorem C80_close_refuted : runOps {} [.open true, .close] = .ub ∧
    runOps {} [.open true, .close, .open true] = .ub := by decide

theorem listLoop_none {keep : FileData → Bool} {pat : Str → Bool} {es : List Entry} {out : List Str}
    (h : findNext pat es = none) : listLoop keep pat es out = out := by
  rw [listLoop]
  split
  · rfl
  · rename_i h2; rw [h] at h2; cases h2

theorem listLoop_some {keep : FileData → Bool} {pat : Str → Bool} {es es' : List Entry} {out : List Str} {f : FileData}
    (h : findNext pat es = some (f, es')) :
    listLoop keep pat es out = listLoop keep pat es' (if keep f then out ++ [f.name] else out) := by
  rw [listLoop]
  split
  · rename_i h2; rw [h] at h2; cases h2
  · rename_i f' es'' h2
    rw [h] at h2
    simp only [Option.some.injEq, Prod.mk.injEq] at h2
    obtain ⟨rfl, rfl⟩ := h2
    rfl

theorem fileData_name (en : Entry) : (fileData en).name = en.name := rfl

theorem listLoop_spec (keep : FileData → Bool) (pat : Str → Bool) (es : List Entry) (out : List Str) :
    listLoop keep pat es out = out ++ (es.filter fun en => pat en.name && keep (fileData en)).map (·.name) := by
  induction es generalizing out with
  | nil => rw [listLoop_none rfl]; simp
  | cons en es ih =>
    by_cases hp : pat en.name
    · rw [listLoop_some (f := fileData en) (es' := es) (by rw [findNext, if_pos hp]), ih, List.filter_cons, hp]
      simp only [Bool.true_and]
      by_cases hk : keep (fileData en)
      · simp [hk, fileData_name]
      · simp [hk]
    · have e : findNext pat (en :: es) = findNext pat es := by rw [findNext, if_neg hp]
      have : listLoop keep pat (en :: es) out = listLoop keep pat es out := by
        cases h : findNext pat es with
        | none => rw [listLoop_none h, listLoop_none (e.trans h)]
        | some r => rw [listLoop_some h, listLoop_some (e.trans h)]
      rw [this, ih, List.filter_cons, if_neg (by simp [hp])]

/-- Spec: hidden names are those of at least two characters that begin with a dot -/
def Hidden (s : Str) : Prop := ∃ c t, s = '.' :: c :: t

theorem hidden_iff (en : Entry) : (fileData en).isHidden = true ↔ Hidden en.name := by
  unfold fileData Hidden
  cases en.name with
  | nil => simp
  | cons a t => cases t <;> simp

open scoped Classical in
/-- C80: `list_files` returns, in the order of the directory and without repetition or omission, the names of the
entries that match the pattern, are not hidden and are not directories (an entry that cannot be examined counts
as a file). -/
theorem C80_list_files (pat : Str → Bool) (es : List Entry) : ∃ l : List Entry, listFiles pat es = l.map (·.name) ∧ l.Sublist es ∧
    ∀ en : Entry, l.count en = if pat en.name ∧ ¬ Hidden en.name ∧ (∀ n, en.stat ≠ some (true, n)) then es.count en else 0 := by
  refine ⟨_, listLoop_spec _ pat es [], List.filter_sublist, fun en => ?_⟩
  have hd : (fileData en).isDir = false ↔ ∀ n, en.stat ≠ some (true, n) := by
    unfold fileData
    rcases hs : en.stat with _ | ⟨d, n⟩
    · simp
    · cases d <;> simp
  have hh := hidden_iff en
  split
  · rename_i h
    rw [List.count_filter]
    have h1 : (fileData en).isHidden = false := by
      cases h2 : (fileData en).isHidden with
      | false => rfl
      | true => exact absurd (hh.1 h2) h.2.1
    simp [h.1, h1, hd.2 h.2.2]
  · rename_i h
    rw [List.count_eq_zero, List.mem_filter]
    rintro ⟨-, h2⟩
    simp only [Bool.and_eq_true, Bool.not_eq_true'] at h2
    refine h ⟨h2.1, fun h3 => ?_, hd.1 h2.2.2⟩
    rw [← hh, h2.2.1] at h3; cases h3

open scoped Classical in
/-- C80: `list_directories` the same for directories; `..` is hidden and `.` is left out. -/
theorem C80_list_directories (pat : Str → Bool) (es : List Entry) : ∃ l : List Entry, listDirectories pat es = l.map (·.name) ∧
    l.Sublist es ∧ ∀ en : Entry, l.count en =
      if pat en.name ∧ ¬ Hidden en.name ∧ en.name ≠ ['.'] ∧ (∃ n, en.stat = some (true, n)) then es.count en else 0 := by
  refine ⟨_, listLoop_spec _ pat es [], List.filter_sublist, fun en => ?_⟩
  have hd : (fileData en).isDir = true ↔ ∃ n, en.stat = some (true, n) := by
    unfold fileData
    rcases hs : en.stat with _ | ⟨d, n⟩
    · simp
    · cases d <;> simp
  have hh := hidden_iff en
  split
  · rename_i h
    rw [List.count_filter]
    have h1 : (fileData en).isHidden = false := by
      cases h2 : (fileData en).isHidden with
      | false => rfl
      | true => exact absurd (hh.1 h2) h.2.1
    have h3 : en.name ≠ ['.', '.'] := fun h3 => h.2.1 ⟨'.', [], h3⟩
    simp [h.1, h1, hd.2 h.2.2.2, fileData_name, h.2.2.1, h3]
  · rename_i h
    rw [List.count_eq_zero, List.mem_filter]
    rintro ⟨-, h2⟩
    simp only [Bool.and_eq_true, Bool.not_eq_true', bne_iff_ne] at h2
    refine h ⟨h2.1, fun h3 => ?_, h2.2.1.2, hd.1 h2.2.1.1.2⟩
    rw [← hh, h2.2.1.1.1] at h3; cases h3

example : (⟨".git".toList, some (true, 0)⟩ : Entry) ∉ ([] : List Entry) ∧ Hidden ".git".toList ∧ ¬ Hidden ['.'] :=
  ⟨by simp, ⟨'g', _, rfl⟩, by rintro ⟨c, t, h⟩; simp at h⟩

end Verif.Io
