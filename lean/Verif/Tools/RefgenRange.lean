import Verif.Basic
import Mathlib.Data.List.Basic
/-!
# The line of code below a message of `refgen` (C247)

The line of the message is printed, and below it a line with `~` under the ranges of the message and `^` under its place. Columns count from 1, the end of a range is the column after its last character.
-/
namespace Verif.Refgen
open Verif

/-! ### Model -/

/-- a range that clang gives with a message; `here`: it starts in the file and in the line of the message; the column of the end is that of another line if it does not end in this line -/
structure Rng where
  here : Bool
  cstart : Nat
  cend : Nat
deriving DecidableEq

/-- the line, cut to the width of the terminal (`refgen.cpp:399-412`) -/
def cutLine (line : List Char) (maxw : Nat) : List Char :=
  if line.length > maxw then (if 3 ≤ maxw then line.take (maxw - 3) ++ ['.', '.', '.'] else line.take maxw) else line

/-- `s[i] = c` for a string: not checked -/
def setAt (s : List Char) (i : Int) (c : Char) : Res (List Char) := if 0 ≤ i ∧ i.toNat < s.length then .ok (s.set i.toNat c) else .ub

/-- the loop on the columns of a range (`refgen.cpp:433-435`) -/
def markCols : List Nat → List Char → Res (List Char)
  | [], s => .ok s
  | j :: js, s => do
    let s ← setAt s ((j : Int) - 1) '~'
    markCols js s

/-- one range (`refgen.cpp:419-437`) -/
def markRange (width : Nat) (s : List Char) (r : Rng) : Res (List Char) :=
  let a := min r.cstart r.cend
  let b := max r.cstart r.cend
  if r.here ∧ b ≤ width then markCols ((List.range (b - a)).map (a + ·)) s else .ok s

/-- all ranges -/
def markAll (width : Nat) : List Rng → List Char → Res (List Char)
  | [], s => .ok s
  | r :: rs, s => do
    let s ← markRange width s r
    markAll width rs s

/-- `format_range` (`refgen.cpp:379-446`): the line of code and the line of marks; `cloc` is `unsigned int`, a column is at least 1 -/
def formatRange (line : List Char) (maxw : Nat) (cloc : Nat) (rs : List Rng) : Res (List Char × List Char) := do
  let l := cutLine line maxw
  let width := min line.length maxw
  let s ← markAll width rs (List.replicate width ' ')
  let s ← if 1 ≤ cloc ∧ cloc - 1 < width then setAt s ((cloc : Int) - 1) '^' else .ok s
  .ok (l, s)

/-! ### Specification -/

/-- the range is within this line -/
def Rng.Plain (r : Rng) : Prop := 1 ≤ r.cstart ∧ r.cstart ≤ r.cend

/-- the range covers the column `j` of the line of the message, and ends before the last column that is printed -/
def Rng.Covers (width : Nat) (r : Rng) (j : Nat) : Prop := r.here = true ∧ r.cend ≤ width ∧ r.cstart ≤ j ∧ j < r.cend

instance (w : Nat) (r : Rng) (j : Nat) : Decidable (r.Covers w j) := by unfold Rng.Covers; infer_instance

/-! ### Lemmas -/

theorem markCols_spec (js : List Nat) (s : List Char) (h : ∀ j ∈ js, 1 ≤ j ∧ j ≤ s.length) :
    ∃ t, markCols js s = .ok t ∧ t.length = s.length ∧ ∀ k < s.length, t[k]? = if k + 1 ∈ js then some '~' else s[k]? := by
  induction js generalizing s with
  | nil => exact ⟨s, rfl, rfl, by simp⟩
  | cons j js ih =>
    obtain ⟨h1, h2⟩ := h j (by simp)
    have e : setAt s ((j : Int) - 1) '~' = .ok (s.set (j - 1) '~') := by
      unfold setAt
      have : ((j : Int) - 1).toNat = j - 1 := by omega
      rw [this, if_pos ⟨by omega, by omega⟩]
    obtain ⟨t, h3, h4, h5⟩ := ih (s.set (j - 1) '~') (fun x hx => by rw [List.length_set]; exact h x (by simp [hx]))
    refine ⟨t, ?_, by rw [h4, List.length_set], fun k hk => ?_⟩
    · show (setAt s _ _ >>= _) = _
      rw [e, Res.ok_bind, h3]
    · rw [h5 k (by rw [List.length_set]; exact hk), List.getElem?_set]
      by_cases hjs : k + 1 ∈ js
      · simp [hjs]
      · by_cases hkj : j - 1 = k
        · have : k + 1 = j := by omega
          simp [hkj, this, hk]
        · have : k + 1 ≠ j := by omega
          simp [hjs, hkj, this]

theorem markRange_spec (width : Nat) (s : List Char) (hs : s.length = width) (r : Rng) (h : 1 ≤ r.cstart ∧ 1 ≤ r.cend) :
    ∃ t, markRange width s r = .ok t ∧ t.length = width ∧ (r.Plain → ∀ k < width, t[k]? = if r.Covers width (k + 1) then some '~' else s[k]?) := by
  unfold markRange
  dsimp only
  split
  · rename_i hc
    obtain ⟨t, h1, h2, h3⟩ := markCols_spec ((List.range (max r.cstart r.cend - min r.cstart r.cend)).map (min r.cstart r.cend + ·)) s (by
      intro j hj
      simp only [List.mem_map, List.mem_range] at hj
      obtain ⟨i, hi, rfl⟩ := hj
      omega)
    refine ⟨t, h1, by rw [h2, hs], fun hp k hk => ?_⟩
    rw [h3 k (by omega)]
    have hp2 := hp.2
    have : (k + 1 ∈ (List.range (max r.cstart r.cend - min r.cstart r.cend)).map (min r.cstart r.cend + ·)) ↔ r.Covers width (k + 1) := by
      simp only [List.mem_map, List.mem_range, Rng.Covers]
      constructor
      · rintro ⟨i, hi, he⟩
        exact ⟨hc.1, by omega, by omega, by omega⟩
      · rintro ⟨-, -, h4, h5⟩
        exact ⟨k + 1 - r.cstart, by omega, by omega⟩
    simp only [this]
  · rename_i hc
    refine ⟨s, rfl, hs, fun hp k _ => ?_⟩
    rw [if_neg]
    rintro ⟨h1, h2, -, -⟩
    have := hp.2
    exact hc ⟨h1, by omega⟩

theorem markAll_spec (width : Nat) (rs : List Rng) (s : List Char) (hs : s.length = width) (h : ∀ r ∈ rs, 1 ≤ r.cstart ∧ 1 ≤ r.cend) :
    ∃ t, markAll width rs s = .ok t ∧ t.length = width ∧ ((∀ r ∈ rs, r.Plain) → ∀ k < width, t[k]? = if ∃ r ∈ rs, r.Covers width (k + 1) then some '~' else s[k]?) := by
  induction rs generalizing s with
  | nil => exact ⟨s, rfl, hs, by simp⟩
  | cons r rs ih =>
    obtain ⟨t, h1, h2, h3⟩ := markRange_spec width s hs r (h r (by simp))
    obtain ⟨v, h4, h5, h6⟩ := ih t h2 fun x hx => h x (by simp [hx])
    refine ⟨v, ?_, h5, fun hp k hk => ?_⟩
    · show (markRange width s r >>= _) = _
      rw [h1, Res.ok_bind, h4]
    · rw [h6 (fun x hx => hp x (by simp [hx])) k hk, h3 (hp r (by simp)) k hk]
      by_cases ha : ∃ x ∈ rs, x.Covers width (k + 1)
      · have hb : ∃ x ∈ r :: rs, x.Covers width (k + 1) := by
          obtain ⟨x, hx, hx2⟩ := ha
          exact ⟨x, by simp [hx], hx2⟩
        rw [if_pos ha, if_pos hb]
      · rw [if_neg ha]
        by_cases hr : r.Covers width (k + 1)
        · rw [if_pos hr, if_pos ⟨r, by simp, hr⟩]
        · rw [if_neg hr, if_neg]
          rintro ⟨x, hx, hx2⟩
          rcases List.mem_cons.1 hx with rfl | hx
          · exact hr hx2
          · exact ha ⟨x, hx, hx2⟩

theorem cutLine_length (line : List Char) (maxw : Nat) : (cutLine line maxw).length = min line.length maxw := by
  unfold cutLine
  split
  · split
    · simp only [List.length_append, List.length_take, List.length_cons, List.length_nil]; omega
    · rw [List.length_take]; omega
  · omega

/-! ### C247 -/

/-- **C247**: whatever the line, the width of the terminal and the ranges, nothing is written out of bounds, and the two lines that are printed are as long as each other and fit in the terminal. -/
theorem C247_safe (line : List Char) (maxw cloc : Nat) (rs : List Rng) (h : ∀ r ∈ rs, 1 ≤ r.cstart ∧ 1 ≤ r.cend) :
    ∃ l s, formatRange line maxw cloc rs = .ok (l, s) ∧ l.length = s.length ∧ l.length ≤ maxw ∧ (line.length ≤ maxw → l = line) := by
  obtain ⟨t, h1, h2, -⟩ := markAll_spec (min line.length maxw) rs (List.replicate (min line.length maxw) ' ') (by simp) h
  unfold formatRange
  dsimp only
  rw [h1, Res.ok_bind]
  have hl : line.length ≤ maxw → cutLine line maxw = line := fun hm => by
    unfold cutLine
    rw [if_neg (by omega)]
  split
  · rename_i hc
    unfold setAt
    rw [if_pos ⟨by omega, by omega⟩, Res.ok_bind]
    exact ⟨_, _, rfl, by rw [List.length_set, h2, cutLine_length], by rw [cutLine_length]; omega, hl⟩
  · rw [Res.ok_bind]
    exact ⟨_, _, rfl, by rw [h2, cutLine_length], by rw [cutLine_length]; omega, hl⟩

/-- **C247**: a line that is too long for the terminal is printed from its start, and ends in three dots if there is room for them. -/
theorem C247_cut (line : List Char) (maxw cloc : Nat) (rs : List Rng) (hw : maxw < line.length) (l s : List Char)
    (hf : formatRange line maxw cloc rs = .ok (l, s)) :
    ∃ a b, line = a ++ b ∧ l.length = maxw ∧ (l = a ++ ['.', '.', '.'] ∨ (maxw < 3 ∧ l = a)) := by
  have hl : l = cutLine line maxw := by
    unfold formatRange at hf
    dsimp only at hf
    obtain ⟨t, -, hf⟩ := Res.bind_eq_ok.1 hf
    split at hf
    · obtain ⟨u, -, hf⟩ := Res.bind_eq_ok.1 hf
      exact (Prod.mk.inj (Res.ok.inj hf)).1.symm
    · exact (Prod.mk.inj (Res.ok.inj hf)).1.symm
  subst hl
  have hlen := cutLine_length line maxw
  rw [Nat.min_eq_right (by omega)] at hlen
  by_cases h3 : 3 ≤ maxw
  · exact ⟨line.take (maxw - 3), line.drop (maxw - 3), (List.take_append_drop _ _).symm, hlen, .inl (by unfold cutLine; rw [if_pos (by omega), if_pos h3])⟩
  · exact ⟨line.take maxw, line.drop maxw, (List.take_append_drop _ _).symm, hlen, .inr ⟨by omega, by unfold cutLine; rw [if_pos (by omega), if_neg h3]⟩⟩

/-- **C247 (in part)**: if the ranges are within the line, the mark of a column is `^` at the place of the message, else `~` if one of the ranges that end before the last column covers it, else blank. -/
theorem C247_marks_partial (line : List Char) (maxw cloc : Nat) (rs : List Rng) (h : ∀ r ∈ rs, r.Plain) (l s : List Char) (hf : formatRange line maxw cloc rs = .ok (l, s)) (k : Nat)
    (hk : k < min line.length maxw) :
    s[k]? = some (if k + 1 = cloc then '^' else if ∃ r ∈ rs, r.Covers (min line.length maxw) (k + 1) then '~' else ' ') := by
  obtain ⟨t, h1, h2, h3⟩ := markAll_spec (min line.length maxw) rs (List.replicate (min line.length maxw) ' ') (by simp)
    (fun r hr => ⟨(h r hr).1, Nat.le_trans (h r hr).1 (h r hr).2⟩)
  have h3 := h3 h k hk
  unfold formatRange at hf
  dsimp only at hf
  rw [h1, Res.ok_bind] at hf
  have hblank : (List.replicate (min line.length maxw) ' ')[k]? = some ' ' := by simp [List.getElem?_replicate, hk]
  rw [hblank] at h3
  have h3' : t[k]? = some (if ∃ r ∈ rs, r.Covers (min line.length maxw) (k + 1) then '~' else ' ') := by
    rw [h3]; split <;> rfl
  split at hf
  · rename_i hc
    unfold setAt at hf
    rw [if_pos ⟨by omega, by omega⟩, Res.ok_bind] at hf
    obtain ⟨-, rfl⟩ := Prod.mk.inj (Res.ok.inj hf)
    rw [List.getElem?_set]
    have e : ((cloc : Int) - 1).toNat = cloc - 1 := by omega
    rw [e]
    by_cases hkc : k + 1 = cloc
    · rw [if_pos (by omega), if_pos (by omega), if_pos hkc]
    · rw [if_neg (by omega), if_neg hkc, h3']
  · rename_i hc
    rw [Res.ok_bind] at hf
    obtain ⟨-, rfl⟩ := Prod.mk.inj (Res.ok.inj hf)
    rw [if_neg (by omega), h3']

/-- **C247 is false** for a range up to the end of the line: it is not marked. -/
theorem C247_end_refuted : formatRange "f(x)".toList 80 1 [⟨true, 3, 4⟩, ⟨true, 1, 5⟩] = .ok ("f(x)".toList, "^ ~ ".toList) := by decide +kernel

/-- **C247 is false** for a range that goes on in the next lines: columns before its start are marked. -/
theorem C247_lines_refuted : formatRange "int a = f(1,".toList 80 9 [⟨true, 9, 3⟩] = .ok ("int a = f(1,".toList, "  ~~~~~~^   ".toList) := by decide +kernel

example : formatRange "int a = b + c;".toList 80 11 [⟨true, 9, 10⟩, ⟨true, 13, 14⟩] = .ok ("int a = b + c;".toList, "        ~ ^ ~ ".toList) := by decide +kernel

example : formatRange "int a = b + c;".toList 10 1 [] = .ok ("int a =...".toList, "^         ".toList) := by decide +kernel

example : Rng.Plain ⟨true, 9, 10⟩ := ⟨by decide, by decide⟩

end Verif.Refgen
