import Verif.Str.Std
import Verif.Str.WordProps
/-!
# The messages of refgen (C224)

`wrap` of `tools/refgen/refgen.cpp`, which breaks the messages of the compiler into lines of the width of the terminal. The sizes are far from the limits of the integers.
-/
namespace Verif.Refgen
open Verif Verif.Str

/-! ### Model -/

/-- `const string spaces = " \t"` (`refgen.cpp:296`) -/
def sp : Str := [' ', '\t']

/-- `string_range` (`refgen.cpp:271-279`): `e - b` is unsigned -/
def range (s : Str) (b : Nat) (e : Option Nat) : Res Str := match e with
  | none => substrFrom s b
  | some e => if b ≤ e then substr s b (e - b) else substrFrom s b

/-- Where the line is cut: the beginning of the line, if there is something to write, its end, and the beginning of the next one (`refgen.cpp:302-339`). The end of a line that is not written is
not used. -/
def cut (msg : Str) (first : Bool) (lb pos : Nat) : Option (Nat × Option Nat) × Option Nat :=
  if inSet msg sp pos then
    match lastNotOf msg sp (some pos) with
    | none => (none, firstNotOf msg sp pos)
    | some e => (some (lb, some (e + 1)), firstNotOf msg sp pos)
  else
    match lastOf msg sp (some pos) with
    | none => if first then (none, some lb) else (some (lb, firstOf msg sp pos), (firstOf msg sp pos).bind (firstNotOf msg sp))
    | some q => (some (lb, some (q + 1)), some (q + 1))

/-- `if (!first) res += '\n'+string(indent, ' '); res += string_range(msg, line_begin, line_end)` (`refgen.cpp:342-343,361-362`) -/
def emit (msg : Str) (indent : Nat) (first : Bool) (res : Str) (l : Nat × Option Nat) : Res Str := do
  let t ← range msg l.1 l.2
  .ok (res ++ (if first then [] else '\n' :: List.replicate indent ' ') ++ t)

/-- The loop of `wrap` and what follows it (`refgen.cpp:301-364`), with fuel -/
def wrapLoop (msg : Str) (head indent w : Nat) : Nat → Bool → Nat → Str → Res Str
  | 0, _, _, _ => .diverge
  | n + 1, first, lb, res =>
    let pos := lb + w - (if first then head else indent)
    if pos < msg.length then
      match cut msg first lb pos with
      | (none, none) => .ok res
      | (none, some l) => wrapLoop msg head indent w n false l res
      | (some p, none) => emit msg indent first res p
      | (some p, some l) => do
        let res ← emit msg indent first res p
        wrapLoop msg head indent w n false l res
    else
      match lastNotOf msg sp none with
      | none => .ok res
      | some e => emit msg indent first res (lb, some (e + 1))

/-- `wrap` (`refgen.cpp:281-367`). For a message made of spaces the loop starts from `npos`: it cuts nothing, or nothing that is written. -/
def wrap (n : Nat) (msg : Str) (head indent w : Nat) : Res Str :=
  if w ≤ indent then .ok ['.', '.', '.'] else
  match firstNotOf msg sp 0 with
  | none => .ok []
  | some lb => wrapLoop msg head indent w n (!decide (w ≤ head)) lb []

/-! ### Specification -/

/-- the text made of a first line, that comes after the header, and of other lines that are indented -/
def text (indent : Nat) (l : Str) (ls : List Str) : Str := l ++ (ls.map fun l => '\n' :: List.replicate indent ' ' ++ l).flatten

/-- no word is longer than `k` characters: there is a space in any `k + 1` characters in a row -/
def Short (msg : Str) (k : Nat) : Prop := ∀ i, i + k < msg.length → ∃ j ≤ k, inSet msg sp (i + j) = true

/-! ### Helpers -/

theorem range_ok {s : Str} {b e : Nat} (h : b ≤ e) (he : e ≤ s.length) : range s b (some e) = .ok ((s.drop b).take (e - b)) := by
  unfold range
  simp only
  rw [if_pos h]
  unfold substr
  rw [if_neg (by omega)]

theorem blanks {s : Str} {b n : Nat} (h : ∀ i, b ≤ i → i < b + n → i < s.length → inSet s sp i = true) : ∀ c ∈ (s.drop b).take n, c ∈ sp := by
  intro c hc
  obtain ⟨i, hi, rfl⟩ := List.getElem_of_mem hc
  simp only [List.length_take, List.length_drop] at hi
  have := h (b + i) (by omega) (by omega) (by omega)
  unfold inSet at this
  rw [List.getElem?_eq_getElem (by omega)] at this
  simpa using this

/-- the words of a text that is cut where there are spaces -/
theorem words_cut {s : Str} {a b c : Nat} (h1 : a ≤ b) (h2 : b < c) (hc : c ≤ s.length) (h : ∀ i, b ≤ i → i < c → inSet s sp i = true) :
    words sp (s.drop a) = words sp ((s.drop a).take (b - a)) ++ words sp (s.drop c) := by
  have e : s.drop a = (s.drop a).take (b - a) ++ ((s.drop b).take (c - b) ++ s.drop c) := by
    conv_lhs => rw [← List.take_append_drop (b - a) (s.drop a)]
    rw [List.drop_drop, show a + (b - a) = b by omega]
    congr 1
    conv_lhs => rw [← List.take_append_drop (c - b) (s.drop b)]
    rw [List.drop_drop, show b + (c - b) = c by omega]
  have hb := blanks (s := s) (b := b) (n := c - b) (fun i h3 h4 _ => h i h3 (by omega))
  obtain ⟨x, l, hx⟩ : ∃ x l, (s.drop b).take (c - b) = x :: l := by
    cases hh : (s.drop b).take (c - b) with
    | nil =>
      have := congrArg List.length hh
      simp only [List.length_take, List.length_drop, List.length_nil] at this
      omega
    | cons x l => exact ⟨x, l, rfl⟩
  conv_lhs => rw [e]
  rw [hx] at hb ⊢
  rw [List.cons_append, words_append _ _ _ _ (hb x (by simp)), words_seps _ _ _ (fun c hc => hb c (by simp [hc]))]

/-- the words of a text that ends with spaces -/
theorem words_end {s : Str} {a b : Nat} (h1 : a ≤ b) (h : ∀ i, b ≤ i → i < s.length → inSet s sp i = true) :
    words sp (s.drop a) = words sp ((s.drop a).take (b - a)) := by
  have e : s.drop a = (s.drop a).take (b - a) ++ s.drop b := by
    conv_lhs => rw [← List.take_append_drop (b - a) (s.drop a)]
    rw [List.drop_drop, show a + (b - a) = b by omega]
  conv_lhs => rw [e]
  apply words_append_seps
  have := blanks (s := s) (b := b) (n := s.length) (fun i h3 h4 h5 => h i h3 h5)
  rwa [List.take_of_length_le (by simp)] at this

/-- the beginning of a line is that of a word -/
def Start (msg : Str) (lb : Nat) : Prop := lb < msg.length ∧ inSet msg sp lb = false ∧ (lb = 0 ∨ inSet msg sp (lb - 1) = true)

/-- One line: either there is no space to cut it at, or it is cut after `lb`, at spaces. -/
theorem cut_spec {msg : Str} {first : Bool} {lb pos : Nat} (hs : Start msg lb) (hl : lb < pos) (hp : pos < msg.length) :
    ((∀ i, lb ≤ i → i ≤ pos → inSet msg sp i = false) ∧ (first = true → cut msg first lb pos = (none, some lb) ∨ cut msg first lb pos = (some (lb, some lb), some lb))) ∨
    (∃ e, lb < e ∧ e ≤ pos ∧ ((cut msg first lb pos = (some (lb, some e), none) ∧ ∀ i, e ≤ i → i < msg.length → inSet msg sp i = true) ∨
      ∃ l, e ≤ l ∧ lb < l ∧ Start msg l ∧ cut msg first lb pos = (some (lb, some e), some l) ∧ words sp (msg.drop lb) = words sp ((msg.drop lb).take (e - lb)) ++ words sp (msg.drop l))) := by
  have notlt : ∀ i, inSet msg sp i = true → i < msg.length := by
    intro i hi
    obtain ⟨c, -, hc⟩ := inSet_iff.1 hi
    exact (List.getElem?_eq_some_iff.1 hc).1
  by_cases hc : inSet msg sp pos = true
  · right
    obtain ⟨e, he⟩ : ∃ e, lastNotOf msg sp (some pos) = some e := by
      cases h : lastNotOf msg sp (some pos) with
      | some e => exact ⟨e, rfl⟩
      | none =>
        have := lastIn_none.1 h lb (by simp only [upTo]; omega)
        rw [hs.2.1] at this
        exact absurd this (by decide)
    obtain ⟨g1, g2, g3⟩ := lastIn_some.1 he
    simp only [upTo] at g1 g3
    have g2' : inSet msg sp e = false := by simpa using g2
    have hne : e ≠ pos := by rintro rfl; rw [hc] at g2'; exact absurd g2' (by decide)
    have hle : lb ≤ e := by
      by_contra hcon
      have := g3 lb (by omega) (by omega)
      rw [hs.2.1] at this
      exact absurd this (by decide)
    refine ⟨e + 1, by omega, by omega, ?_⟩
    have hb : ∀ i, e + 1 ≤ i → i ≤ pos → inSet msg sp i = true := by
      intro i h1 h2
      simpa using g3 i (by omega) (by omega)
    cases hf : firstNotOf msg sp pos with
    | none =>
      left
      refine ⟨by unfold cut; rw [if_pos hc, he, hf], fun i h1 h2 => ?_⟩
      rcases Nat.lt_or_ge pos i with h3 | h3
      · simpa using firstIn_none.1 hf i (by omega) h2
      · exact hb i h1 h3
    | some l =>
      right
      obtain ⟨f1, f2, f3, f4⟩ := firstIn_some.1 hf
      have f3' : inSet msg sp l = false := by simpa using f3
      have hnl : l ≠ pos := by rintro rfl; rw [hc] at f3'; exact absurd f3' (by decide)
      have hb' : ∀ i, e + 1 ≤ i → i < l → inSet msg sp i = true := by
        intro i h1 h2
        rcases Nat.lt_or_ge pos i with h3 | h3
        · simpa using f4 i (by omega) h2
        · exact hb i h1 h3
      refine ⟨l, by omega, by omega, ⟨f2, f3', .inr (hb' _ (by omega) (by omega))⟩, by unfold cut; rw [if_pos hc, he, hf], ?_⟩
      exact words_cut (by omega) (by omega) (by omega) hb'
  · have hc' : inSet msg sp pos = false := by simpa using hc
    cases hq : lastOf msg sp (some pos) with
    | none =>
      left
      have h := lastIn_none.1 hq
      simp only [upTo] at h
      refine ⟨fun i h1 h2 => h i (by omega), fun hf => .inl ?_⟩
      unfold cut
      rw [if_neg hc, hq]
      simp only [hf, if_true]
    | some q =>
      obtain ⟨g1, g2, g3⟩ := lastIn_some.1 hq
      simp only [upTo] at g1 g3
      have hcut : cut msg first lb pos = (some (lb, some (q + 1)), some (q + 1)) := by
        unfold cut; rw [if_neg hc, hq]
      have hqp : q ≠ pos := by rintro rfl; exact hc g2
      have hql : q ≠ lb := by rintro rfl; rw [hs.2.1] at g2; exact absurd g2 (by decide)
      rcases Nat.lt_or_ge q lb with h | h
      · left
        have hq' : q + 1 = lb := by
          by_contra hcon
          rcases hs.2.2 with h0 | h0
          · omega
          · have := g3 (lb - 1) (by omega) (by omega)
            rw [h0] at this
            exact absurd this (by decide)
        refine ⟨fun i h1 h2 => g3 i (by omega) (by omega), fun _ => .inr ?_⟩
        rw [hcut, hq']
      · right
        refine ⟨q + 1, by omega, by omega, .inr ⟨q + 1, by omega, by omega, ⟨by omega, g3 _ (by omega) (by omega), .inr g2⟩, hcut, ?_⟩⟩
        rw [words_cut (a := lb) (b := q) (c := q + 1) (by omega) (by omega) (by omega) (fun i h1 h2 => by
          obtain rfl : i = q := by omega
          exact g2)]
        congr 1
        obtain ⟨c, hcs, hcq⟩ := inSet_iff.1 g2
        have : (msg.drop lb).take (q + 1 - lb) = (msg.drop lb).take (q - lb) ++ [c] := by
          rw [show q + 1 - lb = (q - lb) + 1 by omega, List.take_add_one, List.getElem?_drop, show lb + (q - lb) = q by omega, hcq]
          rfl
        rw [this, words_append_seps _ _ _ (by simpa using hcs)]

theorem emit_ok {msg : Str} {indent : Nat} {first : Bool} {res : Str} {b e : Nat} (h : b ≤ e) (he : e ≤ msg.length) :
    emit msg indent first res (b, some e) = .ok (res ++ (if first then [] else '\n' :: List.replicate indent ' ') ++ (msg.drop b).take (e - b)) := by
  unfold emit
  rw [range_ok h he, Res.ok_bind]

/-- The last line. -/
theorem last_spec {msg : Str} {lb : Nat} (hs : Start msg lb) : ∃ e, lastNotOf msg sp none = some e ∧ lb ≤ e ∧ e < msg.length ∧
    words sp (msg.drop lb) = words sp ((msg.drop lb).take (e + 1 - lb)) := by
  obtain ⟨e, he⟩ : ∃ e, lastNotOf msg sp none = some e := by
    cases h : lastNotOf msg sp none with
    | some e => exact ⟨e, rfl⟩
    | none =>
      have := lastIn_none.1 h lb hs.1
      rw [hs.2.1] at this
      exact absurd this (by decide)
  obtain ⟨g1, g2, g3⟩ := lastIn_some.1 he
  simp only [upTo] at g1 g3
  have hle : lb ≤ e := by
    by_contra hcon
    have := g3 lb (by omega) hs.1
    rw [hs.2.1] at this
    exact absurd this (by decide)
  refine ⟨e, he, hle, g1, words_end (by omega) fun i h1 h2 => by simpa using g3 i (by omega) h2⟩

/-- The lines after the first one. -/
theorem loop_next {msg : Str} {head indent w : Nat} (hw : indent < w) (hsh : Short msg (w - indent)) (n : Nat) : ∀ (k lb : Nat) (res : Str), Start msg lb → msg.length - lb < n → n ≤ k →
    ∃ ls, wrapLoop msg head indent w k false lb res = .ok (res ++ text indent [] ls) ∧ (∀ l ∈ ls, l ≠ [] ∧ indent + l.length ≤ w) ∧ ls.flatMap (words sp) = words sp (msg.drop lb) := by
  induction n with
  | zero => intro k lb res _ h; omega
  | succ n ih =>
    intro k lb res hs hn hk
    obtain ⟨k, rfl⟩ : ∃ k', k = k' + 1 := ⟨k - 1, by omega⟩
    unfold wrapLoop
    simp only [Bool.false_eq_true, if_false]
    by_cases hp : lb + w - indent < msg.length
    · rw [if_pos hp]
      rcases cut_spec (first := false) hs (show lb < lb + w - indent by omega) hp with ⟨h1, -⟩ | ⟨e, h1, h2, h3⟩
      · obtain ⟨j, hj, hj'⟩ := hsh lb (by omega)
        rw [h1 (lb + j) (by omega) (by omega)] at hj'
        exact absurd hj' (by decide)
      · have hlen : ((msg.drop lb).take (e - lb)).length = e - lb := by
          rw [List.length_take, List.length_drop]; omega
        have hne : (msg.drop lb).take (e - lb) ≠ [] := by
          intro hc
          rw [hc] at hlen
          simp at hlen
          omega
        rcases h3 with ⟨h3, h4⟩ | ⟨l, h3, h4, h5, h6, h7⟩
        · rw [h3]
          simp only
          rw [emit_ok (by omega) (by omega)]
          refine ⟨[(msg.drop lb).take (e - lb)], ?_, ?_, ?_⟩
          · simp [text]
          · intro l hl
            rw [List.mem_singleton] at hl
            subst hl
            exact ⟨hne, by omega⟩
          · rw [words_end (by omega) h4]
            simp
        · rw [h6]
          simp only
          rw [emit_ok (by omega) (by omega), Res.ok_bind]
          obtain ⟨ls, g1, g2, g3⟩ := ih k l (res ++ (if false then [] else '\n' :: List.replicate indent ' ') ++ (msg.drop lb).take (e - lb)) h5 (by omega) (by omega)
          refine ⟨(msg.drop lb).take (e - lb) :: ls, ?_, ?_, ?_⟩
          · rw [g1]
            simp [text]
          · intro l hl
            rcases List.mem_cons.1 hl with rfl | hl
            · exact ⟨hne, by omega⟩
            · exact g2 l hl
          · rw [List.flatMap_cons, g3, h7]
    · rw [if_neg hp]
      obtain ⟨e, h1, h2, h3, h4⟩ := last_spec hs
      rw [h1]
      simp only
      rw [emit_ok (by omega) (by omega)]
      have hlen : ((msg.drop lb).take (e + 1 - lb)).length = e + 1 - lb := by
        rw [List.length_take, List.length_drop]; omega
      refine ⟨[(msg.drop lb).take (e + 1 - lb)], by simp [text], ?_, by rw [h4]; simp⟩
      intro l hl
      rw [List.mem_singleton] at hl
      subst hl
      refine ⟨?_, by omega⟩
      intro hc
      rw [hc] at hlen
      simp at hlen
      omega

/-- A line that begins with a word too long, in the middle of the message, never ends. -/
theorem loop_stuck {msg : Str} {head indent w : Nat} (hw : indent < w) (lb : Nat) (h0 : 0 < lb) (hb : inSet msg sp (lb - 1) = true) (hl : lb + (w - indent) < msg.length)
    (h : ∀ i, lb ≤ i → i ≤ lb + (w - indent) → inSet msg sp i = false) (k : Nat) (res : Str) : wrapLoop msg head indent w k false lb res = .diverge := by
  induction k generalizing res with
  | zero => rfl
  | succ k ih =>
    unfold wrapLoop
    simp only [Bool.false_eq_true, if_false]
    rw [if_pos (by omega)]
    have hq : lastOf msg sp (some (lb + w - indent)) = some (lb - 1) := by
      apply lastIn_some.2
      simp only [upTo]
      exact ⟨by omega, hb, fun j h1 h2 => h j (by omega) (by omega)⟩
    have hc : cut msg false lb (lb + w - indent) = (some (lb, some lb), some lb) := by
      unfold cut
      rw [if_neg (by rw [h _ (by omega) (by omega)]; decide), hq]
      simp only
      rw [show lb - 1 + 1 = lb by omega]
    rw [hc]
    simp only
    rw [emit_ok (Nat.le_refl _) (by omega), Res.ok_bind]
    exact ih _

/-! ### C224 -/

/-- The message is broken into lines that are not longer than the terminal, the first one after the header and the others after the indentation, which have all its words in the same order, if
none of them is longer than a line. (Full statement: for all messages.) -/
theorem C224_wrap_partial (msg : Str) (head indent w : Nat) (hw : indent < w) (hsh : Short msg (w - indent)) (n : Nat) (hn : msg.length + 2 ≤ n) :
    ∃ l ls, wrap n msg head indent w = .ok (text indent l ls) ∧ (l = [] ∨ head + l.length ≤ w) ∧ (∀ l ∈ ls, l ≠ [] ∧ indent + l.length ≤ w) ∧
      words sp l ++ ls.flatMap (words sp) = words sp msg := by
  unfold wrap
  rw [if_neg (by omega)]
  cases h0 : firstNotOf msg sp 0 with
  | none =>
    refine ⟨[], [], by simp [text], .inl rfl, by simp, ?_⟩
    have := words_end (s := msg) (a := 0) (b := 0) (by omega) (fun i h1 h2 => by simpa using firstIn_none.1 h0 i h1 h2)
    simpa using this.symm
  | some lb =>
    obtain ⟨f1, f2, f3, f4⟩ := firstIn_some.1 h0
    have hs : Start msg lb := by
      refine ⟨f2, by simpa using f3, ?_⟩
      rcases Nat.eq_zero_or_pos lb with h | h
      · exact .inl h
      · exact .inr (by simpa using f4 (lb - 1) (by omega) (by omega))
    have hwords : words sp msg = words sp (msg.drop lb) := by
      conv_lhs => rw [← List.take_append_drop lb msg]
      apply words_seps
      have := blanks (s := msg) (b := 0) (n := lb) (fun i h1 h2 h3 => by simpa using f4 i h1 (by omega))
      simpa using this
    simp only
    by_cases hh : w ≤ head
    · obtain ⟨ls, g1, g2, g3⟩ := loop_next (head := head) hw hsh n n lb [] hs (by omega) (Nat.le_refl _)
      refine ⟨[], ls, ?_, .inl rfl, g2, by rw [g3, hwords]; rfl⟩
      simp only [hh, decide_true, Bool.not_true]
      rw [g1]; simp
    · obtain ⟨k, rfl⟩ : ∃ k, n = k + 1 := ⟨n - 1, by omega⟩
      simp only [hh, decide_false, Bool.not_false]
      unfold wrapLoop
      simp only [if_true]
      by_cases hp : lb + w - head < msg.length
      · rw [if_pos hp]
        rcases cut_spec (first := true) hs (show lb < lb + w - head by omega) hp with ⟨h1, h2⟩ | ⟨e, h1, h2, h3⟩
        · obtain ⟨ls, g1, g2, g3⟩ := loop_next (head := head) hw hsh k k lb [] hs (by omega) (Nat.le_refl _)
          refine ⟨[], ls, ?_, .inl rfl, g2, by rw [g3, hwords]; rfl⟩
          rcases h2 rfl with h2 | h2
          · rw [h2]
            simp only
            rw [g1]; simp
          · rw [h2]
            simp only
            rw [emit_ok (Nat.le_refl _) (by omega), Res.ok_bind]
            simp only [if_true, Nat.sub_self, List.take_zero, List.append_nil]
            rw [g1]; simp
        · have hlen : ((msg.drop lb).take (e - lb)).length = e - lb := by
            rw [List.length_take, List.length_drop]; omega
          rcases h3 with ⟨h3, h4⟩ | ⟨l, h3, h4, h5, h6, h7⟩
          · rw [h3]
            simp only
            rw [emit_ok (by omega) (by omega)]
            refine ⟨(msg.drop lb).take (e - lb), [], by simp [text], .inr (by omega), by simp, ?_⟩
            rw [hwords, words_end (by omega) h4]
            simp
          · rw [h6]
            simp only
            rw [emit_ok (by omega) (by omega), Res.ok_bind]
            obtain ⟨ls, g1, g2, g3⟩ := loop_next (head := head) hw hsh k k l ([] ++ (if true then [] else '\n' :: List.replicate indent ' ') ++ (msg.drop lb).take (e - lb)) h5 (by omega) (Nat.le_refl _)
            refine ⟨(msg.drop lb).take (e - lb), ls, ?_, .inr (by omega), g2, ?_⟩
            · rw [g1]
              simp [text]
            · rw [g3, hwords, h7]
      · rw [if_neg hp]
        obtain ⟨e, h1, h2, h3, h4⟩ := last_spec hs
        rw [h1]
        simp only
        rw [emit_ok (by omega) (by omega)]
        have hlen : ((msg.drop lb).take (e + 1 - lb)).length = e + 1 - lb := by
          rw [List.length_take, List.length_drop]; omega
        refine ⟨(msg.drop lb).take (e + 1 - lb), [], by simp [text], .inr (by omega), by simp, ?_⟩
        rw [hwords, h4]
        simp

example : wrap 40 "no member named 'a' in 'b'".toList 5 2 12 = .ok "no \n  member \n  named 'a' \n  in 'b'".toList := by decide +kernel
example : Short "no member named 'a' in 'b'".toList 10 := by
  have key : ∀ i < 16, ∃ j < 11, inSet "no member named 'a' in 'b'".toList sp (i + j) = true := by decide +kernel
  intro i hi
  obtain ⟨j, h1, h2⟩ := key i (by have : "no member named 'a' in 'b'".toList.length = 26 := by decide
                                  omega)
  exact ⟨j, by omega, h2⟩

/-- Finding: a message with a word longer than a line, which is not its first one, never ends (and fills the memory with empty lines): the end of the line is looked for before its beginning. -/
theorem C224_long_refuted (a : Str) (ha : ∀ c ∈ a, c ∉ sp) (hne : a ≠ []) (b : Str) (hb : ∀ c ∈ b, c ∉ sp) (head indent w : Nat) (hw : indent < w) (hh : head + a.length + 1 ≤ w)
    (hl : w < indent + b.length) (hl' : w ≤ head + a.length + b.length) (n : Nat) : wrap n (a ++ ' ' :: b) head indent w = .diverge := by
  have hlen : (a ++ ' ' :: b).length = a.length + 1 + b.length := by simp; omega
  have hapos : 0 < a.length := List.length_pos_iff.2 hne
  have in1 : ∀ i, i < a.length → inSet (a ++ ' ' :: b) sp i = false := by
    intro i hi
    rw [inSet_lt (by omega), List.getElem_append_left hi]
    simpa using ha _ (List.getElem_mem _)
  have in2 : inSet (a ++ ' ' :: b) sp a.length = true := by
    rw [inSet_lt (by omega)]
    simp [sp]
  have in3 : ∀ i, a.length < i → i < a.length + 1 + b.length → inSet (a ++ ' ' :: b) sp i = false := by
    intro i hi hi'
    rw [inSet_lt (by omega), List.getElem_append_right (by omega)]
    obtain ⟨j, hj⟩ : ∃ j, i - a.length = j + 1 := ⟨i - a.length - 1, by omega⟩
    simp only [hj, List.getElem_cons_succ]
    simpa using hb _ (List.getElem_mem _)
  have h0 : firstNotOf (a ++ ' ' :: b) sp 0 = some 0 := firstIn_some.2 ⟨Nat.le_refl _, by omega, by simpa using in1 0 hapos, by intro j _ h; omega⟩
  unfold wrap
  rw [if_neg (by omega), h0]
  simp only
  rw [show (!decide (w ≤ head)) = true by simp; omega]
  cases n with
  | zero => rfl
  | succ n =>
    unfold wrapLoop
    simp only [if_true]
    rw [if_pos (by omega)]
    have hstuck := fun res => loop_stuck (msg := a ++ ' ' :: b) (head := head) hw (a.length + 1) (by omega) in2 (by omega) (fun i h1 h2 => in3 i (by omega) (by omega)) n res
    have hcut : ∃ p, cut (a ++ ' ' :: b) true 0 (0 + w - head) = (some p, some (a.length + 1)) ∧ ∃ e, p = (0, some e) ∧ e ≤ a.length + 1 := by
      unfold cut
      by_cases he : 0 + w - head = a.length
      · omega
      · rw [if_neg (by rw [in3 _ (by omega) (by omega)]; decide)]
        have : lastOf (a ++ ' ' :: b) sp (some (0 + w - head)) = some a.length := by
          apply lastIn_some.2
          simp only [upTo]
          exact ⟨by omega, in2, fun j h1 h2 => in3 j h1 (by omega)⟩
        rw [this]
        exact ⟨_, rfl, _, rfl, Nat.le_refl _⟩
    obtain ⟨p, hp, e, rfl, he⟩ := hcut
    rw [hp]
    simp only
    rw [emit_ok (by omega) (by omega), Res.ok_bind]
    exact hstuck _

example (n : Nat) : wrap n "unknown std::vector<std::string>".toList 4 6 20 = .diverge :=
  C224_long_refuted "unknown".toList (by decide) (by decide) "std::vector<std::string>".toList (by decide) 4 6 20 (by decide) (by decide) (by decide) (by decide) n

end Verif.Refgen
