import Verif.Str.WordProps
/-!
# Help texts in the terminal (C231): `terminal_format` (`utility/bits/string-format.hpp:70-101`)

The printed lines are the result.
-/
namespace Verif.Str
open Verif

/-! ### Model -/

/-- `header(msg)` (string-format.hpp:71-76) -/
def tHeader (msg : Str) : Res (List Str) := wrap ("  ".toList ++ msg) 80 "  ".toList false

/-- `paragraph(msg)` (string-format.hpp:78-84) -/
def tParagraph (msg : Str) : Res (List Str) := do
  let w ← wrap ("  ".toList ++ msg) 80 "  ".toList false
  .ok (w ++ [[]])

/-- `bullet(name, desc)` (string-format.hpp:86-92) -/
def tBullet (name desc : Str) : Res (List Str) :=
  let header := "    ".toList ++ name ++ ": ".toList
  wrap (header ++ desc) 80 (List.replicate header.length ' ') false

/-- `item(msg)` (string-format.hpp:94-100) -/
def tItem (msg : Str) : Res (List Str) :=
  let header := " - ".toList
  wrap (header ++ msg) 80 (List.replicate header.length ' ') false

/-! ### Helpers -/

theorem wrapLoop_indent (width : Nat) (indent : Str) (e : Bool) (s : Str) (tw : Option Nat) (header : Str) (ret r : List Str) (h : wrapLoop width indent e s tw header ret = .ok r) :
    ∃ l, r = ret ++ l ∧ (∀ x ∈ l.head?, header <+: x) ∧ ∀ x ∈ l.tail, indent <+: x := by
  induction hn : s.length using Nat.strongRecOn generalizing s tw header ret with
  | _ n ih =>
    subst hn
    have hfin : ∀ r, (.ok (if s ≠ [] then ret ++ [header ++ s] else ret) : Res (List Str)) = .ok r → ∃ l, r = ret ++ l ∧ (∀ x ∈ l.head?, header <+: x) ∧ ∀ x ∈ l.tail, indent <+: x := by
      intro r hr
      cases hr
      by_cases hs : s = []
      · exact ⟨[], by simp [hs], by simp, by simp⟩
      · exact ⟨[header ++ s], by simp [hs], by simp, by simp⟩
    have hstep : ∀ i tw' line, header <+: line → (match trim (s.drop i) blanks with
            | .ok s' => if s'.length < s.length then wrapLoop width indent e s' tw' indent (ret ++ [line]) else .diverge
            | .abort => .abort
            | .ub => .ub
            | .diverge => .diverge) = .ok r → ∃ l, r = ret ++ l ∧ (∀ x ∈ l.head?, header <+: x) ∧ ∀ x ∈ l.tail, indent <+: x := by
      intro i tw' line hl h
      cases ht : trim (s.drop i) blanks with
      | ok s' =>
        rw [ht] at h
        dsimp only at h
        split at h
        · rename_i hlt
          obtain ⟨l, l1, l2, l3⟩ := ih _ hlt s' tw' indent (ret ++ [line]) h rfl
          refine ⟨line :: l, by rw [l1]; simp, by simpa using hl, ?_⟩
          rw [List.tail_cons]
          intro x hx
          cases l with
          | nil => simp at hx
          | cons y l =>
            rcases List.mem_cons.1 hx with rfl | hx
            · exact l2 x (by simp)
            · exact l3 x (by simpa using hx)
        · cases h
      | abort => rw [ht] at h; cases h
      | ub => rw [ht] at h; cases h
      | diverge => rw [ht] at h; cases h
    unfold wrapLoop at h
    dsimp only at h
    cases tw with
    | none => exact hfin r h
    | some tw =>
      dsimp only at h
      by_cases hlen : s.length > tw
      · rw [if_pos hlen] at h
        cases hsp : lastSpace s tw with
        | none =>
          rw [hsp] at h
          dsimp only at h
          refine hstep _ _ _ ?_ h
          cases e
          · exact ⟨_, rfl⟩
          · exact ⟨_, by rw [← List.append_assoc]; rfl⟩
        | some i =>
          rw [hsp] at h
          exact hstep _ _ _ ⟨_, rfl⟩ h
      · rw [if_neg hlen] at h
        exact hfin r h

/-! ### Properties -/

/-- C39: every line after the first begins with the indentation. -/
theorem C39_wrap_indent (s : Str) (width : Nat) (indent : Str) (e : Bool) (l : List Str) (h : wrap s width indent e = .ok l) : ∀ x ∈ l.tail, indent <+: x := by
  unfold wrap at h
  obtain ⟨l', rfl, -, h3⟩ := wrapLoop_indent _ _ _ _ _ _ _ _ h
  simpa using h3

/-- a text of the terminal: `text` is all there, in lines of 80 columns or of one word; the lines after the first begin with the indentation -/
def IsHelp (text indent : Str) (l : List Str) : Prop :=
  (∀ x ∈ l, LineOk 80 indent x) ∧ l.flatMap (words blanks) = words blanks text ∧ ∀ x ∈ l.tail, indent <+: x

theorem help (pre text indent : Str) (hp : ∀ c ∈ pre, c ∈ blanks) (hi : indent.length ≤ 80) (hb : ∀ c ∈ indent, c ∈ blanks) :
    ∃ l, wrap (pre ++ text) 80 indent false = .ok l ∧ IsHelp text indent l := by
  obtain ⟨l, h1, h2, h3⟩ := C39_wrap (pre ++ text) 80 indent hi hb
  rw [words_seps _ _ _ hp] at h3
  exact ⟨l, h1, h2, h3, C39_wrap_indent _ _ _ _ _ h1⟩

/-- **C231** headers -/
theorem C231_header (msg : Str) : ∃ l, tHeader msg = .ok l ∧ IsHelp msg "  ".toList l := help _ msg _ (by decide) (by decide) (by decide)

/-- **C231** paragraphs: the same, and an empty line -/
theorem C231_paragraph (msg : Str) : ∃ l, tParagraph msg = .ok (l ++ [[]]) ∧ IsHelp msg "  ".toList l := by
  obtain ⟨l, h1, h2⟩ := help "  ".toList msg "  ".toList (by decide) (by decide) (by decide)
  exact ⟨l, by unfold tParagraph; rw [h1]; rfl, h2⟩

/-- **C231** items: a dash and the text, aligned -/
theorem C231_item (msg : Str) : ∃ l, tItem msg = .ok l ∧ IsHelp ("- ".toList ++ msg) "   ".toList l := help " ".toList ("- ".toList ++ msg) "   ".toList (by decide) (by decide) (by decide)

/-- **C231** options: the name, a colon and the description, aligned after the colon. Missing: names of more than 74 characters. -/
theorem C231_bullet_partial (name desc : Str) (hn : name.length ≤ 74) :
    ∃ l, tBullet name desc = .ok l ∧ IsHelp (name ++ ": ".toList ++ desc) (List.replicate (name.length + 6) ' ') l := by
  obtain ⟨l, h1, h2⟩ := help "    ".toList (name ++ ": ".toList ++ desc) (List.replicate (name.length + 6) ' ') (by decide) (by simp; omega) (by
    intro c hc
    rw [(List.mem_replicate.1 hc).2]
    decide)
  refine ⟨l, ?_, h2⟩
  rw [← h1]
  unfold tBullet
  have e : ("    ".toList ++ name ++ ": ".toList).length = name.length + 6 := by simp
  dsimp only
  rw [e]
  simp

/-- **C231** the description of an option whose name has 75 characters is not wrapped, however long it is -/
theorem C231_bullet_refuted (desc : Str) (h : IsTrim blanks desc desc) (hne : desc ≠ []) :
    tBullet (List.replicate 75 'a') desc = .ok ["    ".toList ++ List.replicate 75 'a' ++ [':'], List.replicate 81 ' ' ++ desc] := by
  unfold tBullet wrap
  dsimp only
  have hl : ("    ".toList ++ List.replicate 75 'a' ++ ": ".toList).length = 81 := by simp
  rw [hl]
  generalize hs : "    ".toList ++ List.replicate 75 'a' ++ ": ".toList ++ desc = s
  have hs' : s = ("    ".toList ++ List.replicate 75 'a' ++ [':']) ++ ' ' :: desc := by rw [← hs]; simp
  have hlen : ("    ".toList ++ List.replicate 75 'a' ++ [':']).length = 80 := by simp
  have hlast : lastSpace s 80 = some 80 := by
    show (if s[79 + 1]? = some ' ' then some (79 + 1) else _) = _
    rw [if_pos]
    rw [hs', List.getElem?_append_right (by rw [hlen]; decide), hlen]
    rfl
  have htake : s.take 80 = "    ".toList ++ List.replicate 75 'a' ++ [':'] := by rw [hs', ← hlen, List.take_left]
  have hdrop : s.drop 80 = ' ' :: desc := by rw [hs', ← hlen, List.drop_left]
  have htrim : trim (' ' :: desc) blanks = .ok desc := by
    obtain ⟨m, m1, m2⟩ := C36_trim (' ' :: desc) blanks
    obtain ⟨a, b, e, ha, hb, h3, h4⟩ := h
    rw [m1, isTrim_unique m2 (show IsTrim blanks (' ' :: desc) desc from ⟨' ' :: a, b, by rw [List.cons_append, List.cons_append, ← e], by
      intro c hc
      rcases List.mem_cons.1 hc with rfl | hc
      exacts [by decide, ha c hc], hb, h3, h4⟩)]
  have hsl : s.length = 81 + desc.length := by rw [hs', List.length_append, hlen, List.length_cons]; omega
  unfold wrapLoop
  dsimp only
  rw [if_pos (by omega), hlast]
  dsimp only
  rw [hdrop, htrim]
  dsimp only
  rw [if_pos (by omega), if_neg (by simp)]
  unfold wrapLoop
  dsimp only
  rw [if_pos hne, htake]
  rfl

/-- not vacuous: a text of one line, one of two -/
example : IsHelp "ab c".toList "  ".toList ["  ab".toList, "  c".toList] := by
  refine ⟨?_, by decide, ?_⟩
  · intro x hx
    left
    revert x
    decide
  · intro x hx
    rw [List.tail_cons, List.mem_singleton] at hx
    rw [hx]
    exact ⟨"c".toList, rfl⟩
example : ∃ desc : Str, IsTrim blanks desc desc ∧ desc ≠ [] ∧ ¬ LineOk 80 (List.replicate 81 ' ') (List.replicate 81 ' ' ++ desc) := by
  refine ⟨"b c".toList, ⟨[], [], by decide, by simp, by simp, by decide, by decide⟩, by decide, ?_⟩
  rintro (h | ⟨u, hu, h | h⟩)
  · simp at h
  · apply hu
    rw [← h]
    simp
  · rw [List.append_cancel_left_eq] at h
    apply hu
    rw [← h]
    decide

end Verif.Str
