import Verif.Str.TrimProps
/-!
# Properties C39 (cut, wrap), C75 (split_any_of), C76 (get_word)
-/
namespace Verif.Str
open Verif

/-- Spec: collect the words of `s`, `cur` being the word under construction. -/
def wordsAux (cs : Str) : Str → Str → List Str
  | cur, [] => if cur = [] then [] else [cur]
  | cur, c :: t =>
    if c ∈ cs then (if cur = [] then [] else [cur]) ++ wordsAux cs [] t else wordsAux cs (cur ++ [c]) t

/-- Spec: the words of `s`: the maximal runs of characters that are not in `cs`. -/
def words (cs s : Str) : List Str := wordsAux cs [] s

/-! ### facts about words -/

theorem wordsAux_cons (cs cur t : Str) (c : Char) : wordsAux cs cur (c :: t) =
    if c ∈ cs then (if cur = [] then [] else [cur]) ++ wordsAux cs [] t else wordsAux cs (cur ++ [c]) t := rfl

theorem wordsAux_append (cs cur a b : Str) (c : Char) (hc : c ∈ cs) :
    wordsAux cs cur (a ++ c :: b) = wordsAux cs cur a ++ wordsAux cs [] b := by
  induction a generalizing cur with
  | nil => simp [wordsAux, hc]
  | cons x a ih =>
    rw [List.cons_append, wordsAux_cons, wordsAux_cons]
    split
    · rw [ih, List.append_assoc]
    · rw [ih]

theorem words_append (cs a b : Str) (c : Char) (hc : c ∈ cs) : words cs (a ++ c :: b) = words cs a ++ words cs b :=
  wordsAux_append cs [] a b c hc

theorem words_nil (cs : Str) : words cs [] = [] := rfl

theorem words_cons_sep (cs b : Str) (c : Char) (hc : c ∈ cs) : words cs (c :: b) = words cs b := by
  have := words_append cs [] b c hc
  simpa [words_nil] using this

theorem words_seps (cs a b : Str) (ha : ∀ c ∈ a, c ∈ cs) : words cs (a ++ b) = words cs b := by
  induction a with
  | nil => rfl
  | cons c a ih =>
    rw [List.cons_append, words_cons_sep _ _ _ (ha c (by simp)), ih fun x hx => ha x (by simp [hx])]

theorem words_all_seps (cs a : Str) (ha : ∀ c ∈ a, c ∈ cs) : words cs a = [] := by
  have := words_seps cs a [] ha
  simpa [words_nil] using this

theorem words_append_seps (cs a b : Str) (hb : ∀ c ∈ b, c ∈ cs) : words cs (a ++ b) = words cs a := by
  cases b with
  | nil => simp
  | cons c b =>
    rw [words_append _ _ _ _ (hb c (by simp)), words_all_seps cs b fun x hx => hb x (by simp [hx])]
    simp

theorem wordsAux_word (cs cur a : Str) (ha : ∀ c ∈ a, c ∉ cs) (hne : cur ++ a ≠ []) :
    wordsAux cs cur a = [cur ++ a] := by
  induction a generalizing cur with
  | nil =>
    have : cur ≠ [] := by simpa using hne
    simp [wordsAux, this]
  | cons c a ih =>
    unfold wordsAux
    rw [if_neg (ha c (by simp)), ih _ (fun x hx => ha x (by simp [hx])) (by simp)]
    simp

theorem words_word (cs a : Str) (ha : ∀ c ∈ a, c ∉ cs) (hne : a ≠ []) : words cs a = [a] := by
  unfold words
  rw [wordsAux_word cs [] a ha (by simpa using hne)]; simp

theorem words_trim (cs s m : Str) (h : IsTrim cs s m) : words cs s = words cs m := by
  obtain ⟨a, b, rfl, ha, hb, -, -⟩ := h
  rw [List.append_assoc, words_seps _ _ _ ha, words_append_seps _ _ _ hb]

/-- every word is non-empty and has no separator; adjacent words are separated in the string (the list is
determined by the two laws `words_append` and `words_word`) -/
theorem words_mem (cs s w : Str) (h : w ∈ words cs s) : w ≠ [] ∧ ∀ c ∈ w, c ∉ cs := by
  have : ∀ (s cur : Str), (∀ c ∈ cur, c ∉ cs) → ∀ w ∈ wordsAux cs cur s, w ≠ [] ∧ ∀ c ∈ w, c ∉ cs := by
    intro s
    induction s with
    | nil =>
      intro cur hcur w hw
      unfold wordsAux at hw
      split at hw
      · simp at hw
      · obtain rfl : w = cur := by simpa using hw
        rename_i h
        exact ⟨h, hcur⟩
    | cons c s ih =>
      intro cur hcur w hw
      unfold wordsAux at hw
      split at hw
      · rcases List.mem_append.1 hw with hw | hw
        · split at hw
          · simp at hw
          · obtain rfl : w = cur := by simpa using hw
            rename_i h
            exact ⟨h, hcur⟩
        · exact ih [] (by simp) w hw
      · rename_i hc
        refine ih _ ?_ w hw
        intro x hx
        rcases List.mem_append.1 hx with hx | hx
        · exact hcur x hx
        · obtain rfl : x = c := by simpa using hx
          exact hc
  exact this s [] (by simp) w h

/-! ### searching in a suffix -/

theorem firstOf_append_none {d t cs : Str} (h : ∀ c ∈ t, c ∉ cs) : firstOf (d ++ t) cs d.length = none := by
  unfold firstOf
  rw [firstIn_none]
  intro j h1 h2
  obtain ⟨k, rfl⟩ := Nat.exists_eq_add_of_le h1
  rw [List.length_append] at h2
  have hk : k < t.length := by omega
  rw [inSet_lt (by simpa using hk)]
  simp [h t[k] (List.getElem_mem hk)]

theorem firstOf_append_some {d a t cs : Str} {c : Char} (h : ∀ c ∈ a, c ∉ cs) (hc : c ∈ cs) :
    firstOf (d ++ (a ++ c :: t)) cs d.length = some (d.length + a.length) := by
  unfold firstOf
  rw [firstIn_some]
  refine ⟨by omega, by simp, ?_, ?_⟩
  · rw [inSet_iff]; exact ⟨c, hc, by simp⟩
  · intro j h1 h2
    obtain ⟨k, rfl⟩ := Nat.exists_eq_add_of_le h1
    have hk : k < a.length := by omega
    rw [inSet_lt (by simp; omega)]
    simp [List.getElem_append_left hk, h a[k] (List.getElem_mem hk)]

theorem firstNotOf_append_none {d t cs : Str} (h : ∀ c ∈ t, c ∈ cs) : firstNotOf (d ++ t) cs d.length = none := by
  unfold firstNotOf
  rw [firstIn_none]
  intro j h1 h2
  obtain ⟨k, rfl⟩ := Nat.exists_eq_add_of_le h1
  rw [List.length_append] at h2
  have hk : k < t.length := by omega
  rw [inSet_lt (by simpa using hk)]
  simp [h t[k] (List.getElem_mem hk)]

theorem firstNotOf_append_some {d a t cs : Str} {c : Char} (h : ∀ c ∈ a, c ∈ cs) (hc : c ∉ cs) :
    firstNotOf (d ++ (a ++ c :: t)) cs d.length = some (d.length + a.length) := by
  unfold firstNotOf
  rw [firstIn_some]
  refine ⟨by omega, by simp, ?_, ?_⟩
  · rw [inSet_lt (by simp)]; simp [hc]
  · intro j h1 h2
    obtain ⟨k, rfl⟩ := Nat.exists_eq_add_of_le h1
    have hk : k < a.length := by omega
    rw [inSet_lt (by simp; omega)]
    simp [List.getElem_append_left hk, h a[k] (List.getElem_mem hk)]

/-- a string is all `p`, or has a first character that is not -/
theorem span_cases (p : Char → Prop) (t : Str) :
    (∀ c ∈ t, p c) ∨ ∃ a c u, t = a ++ c :: u ∧ (∀ x ∈ a, p x) ∧ ¬ p c := by
  induction t with
  | nil => exact .inl (by simp)
  | cons x t ih =>
    by_cases hx : p x
    · rcases ih with h | ⟨a, c, u, rfl, h1, h2⟩
      · exact .inl (by simpa [hx] using h)
      · exact .inr ⟨x :: a, c, u, rfl, by simpa [hx] using h1, h2⟩
    · exact .inr ⟨[], x, t, rfl, by simp, hx⟩

/-- a string is all `p`, or has a last character that is not -/
theorem span_cases_last (p : Char → Prop) (t : Str) :
    (∀ c ∈ t, p c) ∨ ∃ a c u, t = a ++ c :: u ∧ (∀ x ∈ u, p x) ∧ ¬ p c := by
  rcases span_cases p t.reverse with h | ⟨a, c, u, he, h1, h2⟩
  · exact .inl (by simpa using h)
  · refine .inr ⟨u.reverse, c, a.reverse, ?_, by simpa using h1, h2⟩
    rw [← List.reverse_reverse t, he]; simp

/-! ### C75 -/

theorem splitAnyLoop_spec (cs : Str) (d t : Str) (ret : List Str) :
    splitAnyLoop (d ++ t) cs (firstNotOf (d ++ t) cs d.length) ret = .ok (ret ++ words cs t) := by
  induction hn : t.length using Nat.strongRecOn generalizing d t ret with
  | _ n ih =>
    subst hn
    rcases span_cases (· ∈ cs) t with h | ⟨a, c, u, rfl, ha, hc⟩
    · rw [firstNotOf_append_none h, words_all_seps cs t h]
      unfold splitAnyLoop; simp
    · rw [firstNotOf_append_some ha hc, words_seps _ _ _ ha]
      unfold splitAnyLoop
      have e0 : d ++ (a ++ c :: u) = (d ++ a) ++ (c :: u) := by simp
      rw [e0, ← List.length_append]
      rcases span_cases (· ∉ cs) u with h | ⟨w, x, v, rfl, hw, hx⟩
      · have hall : ∀ y ∈ c :: u, y ∉ cs := by simpa [hc] using h
        rw [firstOf_append_none hall, words_word cs _ hall (by simp)]
        simp only [substrFrom]
        rw [if_neg (by simp)]
        simp
      · rw [not_not] at hx
        have hall : ∀ y ∈ c :: w, y ∉ cs := by simpa [hc] using hw
        have e1 : c :: (w ++ x :: v) = (c :: w) ++ x :: v := rfl
        rw [e1, firstOf_append_some hall hx, words_append _ _ _ _ hx, words_word cs _ hall (by simp)]
        simp only
        have es : substr (d ++ a ++ (c :: w ++ x :: v)) (d ++ a).length ((d ++ a).length + (c :: w).length - (d ++ a).length) =
            .ok (c :: w) := by
          unfold substr
          rw [if_neg (by simp)]
          simp
        rw [es, Res.ok_bind]
        -- the search for the next word starts at the separator
        have e2 : d ++ a ++ (c :: w ++ x :: v) = (d ++ a ++ c :: w) ++ (x :: v) := by simp
        have e3 : (d ++ a).length + (c :: w).length = (d ++ a ++ c :: w).length := (List.length_append).symm
        rw [e2, e3]
        have hrec := ih (x :: v).length (by simp; omega) (d ++ a ++ c :: w) (x :: v) (ret ++ [c :: w]) rfl
        rw [words_cons_sep _ _ _ hx] at hrec
        split
        · rename_i hnone
          rw [hnone] at hrec
          unfold splitAnyLoop at hrec
          simp only [Res.ok.injEq] at hrec
          rw [hrec]; simp
        · rename_i q hq
          have hge := (firstIn_some.1 hq).1
          rw [if_pos ⟨by simp at hge ⊢; omega, by simp⟩]
          rw [hq] at hrec
          rw [hrec]; simp

/-- C75: `split_any_of` returns the words: the maximal runs of characters that are not separators. -/
theorem C75_split_any_of (s cs : Str) : splitAnyOf s cs = .ok (words cs s) := by
  have := splitAnyLoop_spec cs [] s []
  simpa [splitAnyOf] using this

/-- C75: no empty piece, no separator in a piece, and the pieces hold all other characters in order. -/
theorem C75_content (s cs : Str) : (∀ w ∈ words cs s, w ≠ [] ∧ ∀ c ∈ w, c ∉ cs) ∧
    (words cs s).flatten = s.filter (· ∉ cs) := by
  refine ⟨fun w hw => words_mem cs s w hw, ?_⟩
  have : ∀ (s cur : Str), (wordsAux cs cur s).flatten = cur ++ s.filter (· ∉ cs) := by
    intro s
    induction s with
    | nil => intro cur; unfold wordsAux; split <;> simp_all
    | cons c s ih =>
      intro cur
      unfold wordsAux
      split
      · rename_i hc
        rw [List.flatten_append, ih]
        simp only [hc, List.filter_cons, not_true, decide_false, Bool.false_eq_true, if_false, List.nil_append]
        congr 1
        split <;> simp_all
      · rename_i hc
        rw [ih]; simp [hc]
  exact this s []

/-- C75: joining words with a separator and splitting gives back the words. -/
theorem C75_join (cs : Str) (c : Char) (hc : c ∈ cs) (v : List Str) (h : ∀ w ∈ v, w ≠ [] ∧ ∀ x ∈ w, x ∉ cs) :
    splitAnyOf (List.intercalate [c] v) cs = .ok v := by
  rw [C75_split_any_of]
  congr 1
  induction v with
  | nil => rfl
  | cons x v ih =>
    obtain ⟨hx, hx'⟩ := h x (by simp)
    cases v with
    | nil => rw [List.intercalate_singleton, words_word cs x hx' hx]
    | cons y v =>
      rw [List.intercalate_cons_cons, List.append_assoc, List.singleton_append, words_append _ _ _ _ hc,
        words_word cs x hx' hx, ih fun w hw => h w (by simp [hw])]
      rfl

example : splitAnyOf "  ab, c ,".toList " ,".toList = .ok ["ab".toList, "c".toList] := by
  rw [C75_split_any_of]; decide

/-! ### C76 -/

theorem wordFwd_spec (cs : Str) (n : Nat) (d t : Str) :
    match (words cs t)[n]? with
    | none => wordFwd (d ++ t) cs n d.length = .abort
    | some w => ∃ b u, d ++ t = b ++ w ++ u ∧
        (wordFwd (d ++ t) cs n d.length = .ok (b.length, some (b.length + w.length)) ∨
         (u = [] ∧ wordFwd (d ++ t) cs n d.length = .ok (b.length, none))) := by
  induction n generalizing d t with
  | zero =>
    unfold wordFwd
    rcases span_cases (· ∈ cs) t with h | ⟨a, c, u, rfl, ha, hc⟩
    · rw [firstNotOf_append_none h, words_all_seps cs t h]; simp
    · rw [firstNotOf_append_some ha hc, words_seps _ _ _ ha]
      have e0 : d ++ (a ++ c :: u) = (d ++ a) ++ (c :: u) := by simp
      rw [e0, ← List.length_append]
      rcases span_cases (· ∉ cs) u with h | ⟨w, x, v, rfl, hw, hx⟩
      · have hall : ∀ y ∈ c :: u, y ∉ cs := by simpa [hc] using h
        rw [words_word cs _ hall (by simp)]
        simp only [firstOf_append_none hall]
        exact ⟨d ++ a, [], by simp, .inr ⟨rfl, rfl⟩⟩
      · rw [not_not] at hx
        have hall : ∀ y ∈ c :: w, y ∉ cs := by simpa [hc] using hw
        have e1 : c :: (w ++ x :: v) = (c :: w) ++ x :: v := rfl
        rw [e1, words_append _ _ _ _ hx, words_word cs _ hall (by simp)]
        simp only [firstOf_append_some hall hx]
        exact ⟨d ++ a, x :: v, by simp, .inl rfl⟩
  | succ n ih =>
    unfold wordFwd
    rcases span_cases (· ∈ cs) t with h | ⟨a, c, u, rfl, ha, hc⟩
    · rw [firstNotOf_append_none h, words_all_seps cs t h]; simp
    · rw [firstNotOf_append_some ha hc, words_seps _ _ _ ha]
      have e0 : d ++ (a ++ c :: u) = (d ++ a) ++ (c :: u) := by simp
      rw [e0, ← List.length_append]
      rcases span_cases (· ∉ cs) u with h | ⟨w, x, v, rfl, hw, hx⟩
      · have hall : ∀ y ∈ c :: u, y ∉ cs := by simpa [hc] using h
        rw [words_word cs _ hall (by simp)]
        simp only [firstOf_append_none hall]
        simp
      · rw [not_not] at hx
        have hall : ∀ y ∈ c :: w, y ∉ cs := by simpa [hc] using hw
        have e1 : c :: (w ++ x :: v) = (c :: w) ++ x :: v := rfl
        rw [e1, words_append _ _ _ _ hx, words_word cs _ hall (by simp)]
        simp only [firstOf_append_some hall hx]
        have := ih (d ++ a ++ c :: w) (x :: v)
        rw [words_cons_sep _ _ _ hx] at this
        have e2 : d ++ a ++ (c :: w ++ x :: v) = (d ++ a ++ c :: w) ++ (x :: v) := by simp
        have e3 : (d ++ a).length + (c :: w).length = (d ++ a ++ c :: w).length := (List.length_append).symm
        rw [e2, e3]
        simpa using this

/-- C76: `get_word(s, n)` for `n ≥ 0` is the `n`-th word, and aborts if there are not enough words. -/
theorem C76_forward (s cs : Str) (n : Nat) :
    getWord s n cs = match (words cs s)[n]? with | none => .abort | some w => .ok w := by
  unfold getWord
  rw [if_neg (by omega), Int.toNat_natCast]
  have := wordFwd_spec cs n [] s
  simp only [List.nil_append, List.length_nil] at this
  cases hw : (words cs s)[n]? with
  | none => rw [hw] at this; simp only at this; rw [this]; rfl
  | some w =>
    rw [hw] at this
    have hne := (words_mem cs s w (List.mem_of_getElem? hw)).1
    have hpos : 0 < w.length := List.length_pos_iff.2 hne
    obtain ⟨b, u, e, h | ⟨rfl, h⟩⟩ := this
    · rw [h, Res.ok_bind]
      simp only [substr]
      rw [if_neg (by rw [e]; simp), e, show b.length + w.length - 1 - b.length + 1 = w.length by omega]
      simp
    · rw [h, Res.ok_bind]
      simp only [substrFrom]
      rw [if_neg (by rw [e]; simp), e]
      simp

theorem lastNotOf_none' {s cs : Str} {o : Option Nat} {t v : Str} (he : s = t ++ v)
    (ho : o = none ∧ v = [] ∨ (∃ p, o = some p ∧ t.length = p + 1)) (h : ∀ c ∈ t, c ∈ cs) :
    lastNotOf s cs o = none := by
  have hb : upTo s o = t.length := by
    rcases ho with ⟨rfl, rfl⟩ | ⟨p, rfl, hp⟩
    · simp [upTo, he]
    · simp only [upTo]; rw [he, List.length_append]; omega
  unfold lastNotOf
  rw [hb, lastIn_none]
  intro j hj
  subst he
  rw [inSet_lt (by simp; omega), List.getElem_append_left hj]
  simp [h _ (List.getElem_mem hj)]

theorem lastNotOf_some' {s cs : Str} {o : Option Nat} {t v : Str} (he : s = t ++ v)
    (ho : o = none ∧ v = [] ∨ (∃ p, o = some p ∧ t.length = p + 1)) {a u : Str} {c : Char}
    (ht : t = a ++ c :: u) (hu : ∀ x ∈ u, x ∈ cs) (hc : c ∉ cs) :
    lastNotOf s cs o = some a.length := by
  have hb : upTo s o = t.length := by
    rcases ho with ⟨rfl, rfl⟩ | ⟨p, rfl, hp⟩
    · simp [upTo, he]
    · simp only [upTo]; rw [he, List.length_append]; omega
  unfold lastNotOf
  rw [hb, lastIn_some]
  subst he ht
  refine ⟨by simp, ?_, fun j h1 h2 => ?_⟩
  · rw [inSet_lt (by simp)]; simp [hc]
  · rw [inSet_lt (by simp at h2 ⊢; omega), List.getElem_append_left h2]
    obtain ⟨k, rfl⟩ := Nat.exists_eq_add_of_lt h1
    have hk : k < u.length := by simp at h2; omega
    have : (a ++ c :: u)[a.length + k + 1] = u[k] := by
      rw [List.getElem_append_right (by omega)]
      simp [show a.length + k + 1 - a.length = k + 1 by omega]
    rw [this]
    simp [hu _ (List.getElem_mem hk)]

theorem lastOf_none' {s cs t v : Str} {p : Nat} (he : s = t ++ v) (hp : t.length = p + 1)
    (h : ∀ c ∈ t, c ∉ cs) : lastOf s cs (some p) = none := by
  unfold lastOf upTo
  simp only
  rw [lastIn_none]
  intro j hj
  subst he
  have hj' : j < t.length := by omega
  rw [inSet_lt (by simp; omega), List.getElem_append_left hj']
  simp [h _ (List.getElem_mem hj')]

theorem lastOf_some' {s cs t v : Str} {p : Nat} (he : s = t ++ v) (hp : t.length = p + 1) {a u : Str} {c : Char}
    (ht : t = a ++ c :: u) (hu : ∀ x ∈ u, x ∉ cs) (hc : c ∈ cs) : lastOf s cs (some p) = some a.length := by
  unfold lastOf upTo
  simp only
  rw [lastIn_some]
  subst he ht
  refine ⟨by simp at hp ⊢; omega, ?_, fun j h1 h2 => ?_⟩
  · rw [inSet_lt (by simp)]; simp [hc]
  · have h2' : j < (a ++ c :: u).length := by omega
    rw [inSet_lt (by simp at h2' ⊢; omega), List.getElem_append_left h2']
    obtain ⟨k, rfl⟩ := Nat.exists_eq_add_of_lt h1
    have hk : k < u.length := by simp at h2'; omega
    have : (a ++ c :: u)[a.length + k + 1] = u[k] := by
      rw [List.getElem_append_right (by omega)]
      simp [show a.length + k + 1 - a.length = k + 1 by omega]
    rw [this]
    simp [hu _ (List.getElem_mem hk)]

theorem wordBwd_spec (s cs : Str) (n : Nat) (t v : Str) (o : Option Nat) (he : s = t ++ v)
    (ho : o = none ∧ v = [] ∨ (∃ p, o = some p ∧ t.length = p + 1)) :
    match (words cs t).reverse[n]? with
    | none => wordBwd s cs n o = .abort
    | some w => ∃ b u, s = b ++ w ++ u ∧ 0 < w.length ∧
        ((b = [] ∧ wordBwd s cs n o = .ok (none, w.length - 1)) ∨
         (b ≠ [] ∧ wordBwd s cs n o = .ok (some (b.length - 1), b.length + w.length - 1))) := by
  induction n generalizing t v o with
  | zero =>
    unfold wordBwd
    rcases span_cases_last (· ∈ cs) t with h | ⟨a, c, u, ht, hu, hc⟩
    · rw [lastNotOf_none' he ho h, words_all_seps cs t h]; simp
    · rw [lastNotOf_some' he ho ht hu hc]
      have e1 : s = (a ++ [c]) ++ (u ++ v) := by rw [he, ht]; simp
      have e2 : words cs t = words cs (a ++ [c]) := by
        rw [ht, show a ++ c :: u = (a ++ [c]) ++ u by simp, words_append_seps _ _ _ hu]
      rw [e2]
      rcases span_cases_last (· ∉ cs) a with h | ⟨b, x, w, rfl, hw, hx⟩
      · have hall : ∀ y ∈ a ++ [c], y ∉ cs := by
          intro y hy; rcases List.mem_append.1 hy with hy | hy
          · exact h y hy
          · obtain rfl : y = c := by simpa using hy
            exact hc
        simp only [lastOf_none' (p := a.length) e1 (by simp) hall, words_word cs _ hall (by simp)]
        exact ⟨[], u ++ v, by simp [e1], by simp, .inl ⟨rfl, by simp⟩⟩
      · rw [not_not] at hx
        have hall : ∀ y ∈ w ++ [c], y ∉ cs := by
          intro y hy; rcases List.mem_append.1 hy with hy | hy
          · exact hw y hy
          · obtain rfl : y = c := by simpa using hy
            exact hc
        have e3 : b ++ x :: w ++ [c] = b ++ x :: (w ++ [c]) := by simp
        simp only [lastOf_some' (p := (b ++ x :: w).length) e1 (by simp; omega) e3 hall hx]
        rw [e3, words_append _ _ _ _ hx, words_word cs (w ++ [c]) hall (by simp)]
        simp only [List.reverse_append, List.reverse_cons, List.reverse_nil, List.nil_append, List.singleton_append,
          List.getElem?_cons_zero]
        refine ⟨b ++ [x], u ++ v, by simp [e1], by simp, .inr ⟨by simp, ?_⟩⟩
        simp only [List.length_append, List.length_cons, List.length_nil, Res.ok.injEq, Prod.mk.injEq,
          Option.some.injEq]
        omega
  | succ n ih =>
    unfold wordBwd
    rcases span_cases_last (· ∈ cs) t with h | ⟨a, c, u, ht, hu, hc⟩
    · rw [lastNotOf_none' he ho h, words_all_seps cs t h]; simp
    · rw [lastNotOf_some' he ho ht hu hc]
      have e1 : s = (a ++ [c]) ++ (u ++ v) := by rw [he, ht]; simp
      have e2 : words cs t = words cs (a ++ [c]) := by
        rw [ht, show a ++ c :: u = (a ++ [c]) ++ u by simp, words_append_seps _ _ _ hu]
      rw [e2]
      rcases span_cases_last (· ∉ cs) a with h | ⟨b, x, w, rfl, hw, hx⟩
      · have hall : ∀ y ∈ a ++ [c], y ∉ cs := by
          intro y hy; rcases List.mem_append.1 hy with hy | hy
          · exact h y hy
          · obtain rfl : y = c := by simpa using hy
            exact hc
        simp only [lastOf_none' (p := a.length) e1 (by simp) hall, words_word cs _ hall (by simp)]
        simp
      · rw [not_not] at hx
        have hall : ∀ y ∈ w ++ [c], y ∉ cs := by
          intro y hy; rcases List.mem_append.1 hy with hy | hy
          · exact hw y hy
          · obtain rfl : y = c := by simpa using hy
            exact hc
        have e3 : b ++ x :: w ++ [c] = b ++ x :: (w ++ [c]) := by simp
        simp only [lastOf_some' (p := (b ++ x :: w).length) e1 (by simp; omega) e3 hall hx]
        rw [e3, words_append _ _ _ _ hx, words_word cs (w ++ [c]) hall (by simp)]
        simp only [List.reverse_append, List.reverse_cons, List.reverse_nil, List.nil_append, List.singleton_append,
          List.getElem?_cons_succ]
        have := ih (b ++ [x]) (w ++ [c] ++ (u ++ v)) (some b.length) (by simp [e1]) (.inr ⟨_, rfl, by simp⟩)
        rwa [words_append_seps cs b [x] (by simpa using hx)] at this

/-- C76: `get_word(s, -1-n)` is the `n`-th word from the end, and aborts if there are not enough words. -/
theorem C76_backward (s cs : Str) (n : Nat) :
    getWord s (-(n + 1 : Nat)) cs = match (words cs s).reverse[n]? with | none => .abort | some w => .ok w := by
  unfold getWord
  rw [if_pos (by omega), show (-((n + 1 : Nat) : Int)).natAbs - 1 = n by omega]
  have := wordBwd_spec s cs n s [] none (by simp) (.inl ⟨rfl, rfl⟩)
  cases hw : (words cs s).reverse[n]? with
  | none => rw [hw] at this; simp only at this; rw [this]; rfl
  | some w =>
    rw [hw] at this
    obtain ⟨b, u, e, hp, ⟨rfl, h⟩ | ⟨hb, h⟩⟩ := this
    · rw [h, Res.ok_bind]
      simp only [substr]
      rw [if_neg (by omega), e, show w.length - 1 - 0 + 1 = w.length by omega]
      simp
    · have hb' : 0 < b.length := List.length_pos_iff.2 hb
      rw [h, Res.ok_bind]
      simp only [substr]
      rw [show b.length - 1 + 1 = b.length by omega, if_neg (by rw [e]; simp), e,
        show b.length + w.length - 1 - b.length + 1 = w.length by omega]
      simp

example : getWord "the quick  fox".toList 1 " ".toList = .ok "quick".toList := by
  have := C76_forward "the quick  fox".toList " ".toList 1
  rw [show ((1 : Nat) : Int) = 1 from rfl] at this
  rw [this]; decide
example : getWord "the quick  fox".toList (-1) " ".toList = .ok "fox".toList := by
  have := C76_backward "the quick  fox".toList " ".toList 0
  rw [show (-((0 + 1 : Nat) : Int)) = -1 from rfl] at this
  rw [this]; decide

/-! ### C39: cut -/

/-- C39, what `cut` does: consecutive pieces of exactly `n` characters; their concatenation is the string
without its last `|s| mod n` characters. -/
theorem C39_cut_partial (s : Str) (n : Nat) (hn : 0 < n) : ∃ l, cut s n = .ok l ∧
    (∀ x ∈ l, x.length = n) ∧ l.flatten = s.take (s.length / n * n) ∧
    (s.length % n = 0 → l.flatten = s) := by
  have key : ∀ k, k ≤ s.length / n →
      (List.range k).mapM (fun i => substr s (i * n) (min n (s.length - i * n))) =
        .ok ((List.range k).map fun i => (s.drop (i * n)).take n) ∧
      ((List.range k).map fun i => (s.drop (i * n)).take n).flatten = s.take (k * n) ∧
      ∀ i < k, i * n + n ≤ s.length := by
    intro k hk
    have hle : k * n ≤ s.length := Nat.le_trans (Nat.mul_le_mul_right n hk) (Nat.div_mul_le_self _ _)
    have hi : ∀ i < k, i * n + n ≤ s.length := by
      intro i hi
      have : (i + 1) * n ≤ k * n := Nat.mul_le_mul_right n hi
      rw [Nat.add_mul] at this; omega
    refine ⟨?_, ?_, hi⟩
    · apply Res.mapM_ok
      intro i hi'
      have := hi i (List.mem_range.1 hi')
      unfold substr
      rw [if_neg (by omega), Nat.min_eq_left (by omega)]
    · clear hi
      induction k with
      | zero => simp
      | succ k ih =>
        rw [Nat.add_mul] at hle
        rw [List.range_succ, List.map_append, List.flatten_append, ih (by omega) (by omega)]
        simp only [List.map_cons, List.map_nil, List.flatten_cons, List.flatten_nil, List.append_nil]
        rw [Nat.add_mul, Nat.one_mul, List.take_add]
  obtain ⟨h1, h2, h3⟩ := key _ (Nat.le_refl _)
  unfold cut
  rw [if_neg (by omega)]
  refine ⟨_, h1, ?_, h2, ?_⟩
  · intro x hx
    obtain ⟨i, hi, rfl⟩ := List.mem_map.1 hx
    have := h3 i (List.mem_range.1 hi)
    rw [List.length_take, List.length_drop]; omega
  · intro hm
    rw [h2, Nat.div_mul_cancel (Nat.dvd_of_mod_eq_zero hm), List.take_length]

/-- Finding: `cut` drops the end of the string when the size does not divide its length. -/
theorem C39_cut_refuted : cut "abcde".toList 2 = .ok ["ab".toList, "cd".toList] ∧
    ["ab".toList, "cd".toList].flatten ≠ "abcde".toList := by decide

example : ∃ l, cut "abcdef".toList 2 = .ok l ∧ l.flatten = "abcdef".toList :=
  let ⟨l, h1, _, _, h4⟩ := C39_cut_partial "abcdef".toList 2 (by omega)
  ⟨l, h1, h4 rfl⟩

/-! ### C39: wrap -/

theorem lastSpace_some {s : Str} {n i : Nat} (h : lastSpace s n = some i) : i ≤ n ∧ s[i]? = some ' ' := by
  induction n with
  | zero => unfold lastSpace at h; split at h <;> simp_all
  | succ n ih =>
    unfold lastSpace at h
    split at h
    · obtain rfl : n + 1 = i := by simpa using h
      exact ⟨Nat.le_refl _, by assumption⟩
    · have := ih h; exact ⟨by omega, this.2⟩

theorem lastSpace_none {s : Str} {n : Nat} (h : lastSpace s n = none) : ∀ i ≤ n, s[i]? ≠ some ' ' := by
  induction n with
  | zero => unfold lastSpace at h; intro i hi; obtain rfl : i = 0 := by omega
            split at h <;> simp_all
  | succ n ih =>
    unfold lastSpace at h
    split at h
    · simp at h
    · intro i hi
      by_cases e : i = n + 1
      · subst e; assumption
      · exact ih h i (by omega)

theorem nextSpace_spec {s : Str} {i : Nat} (hi : i ≤ s.length) (hpre : ∀ j < i, s[j]? ≠ some ' ') :
    i ≤ nextSpace s i ∧ nextSpace s i ≤ s.length ∧ ' ' ∉ s.take (nextSpace s i) ∧
      (s.drop (nextSpace s i) = [] ∨ ∃ t, s.drop (nextSpace s i) = ' ' :: t) := by
  unfold nextSpace
  have hnot : ∀ k, (∀ j < k, s[j]? ≠ some ' ') → ' ' ∉ s.take k := by
    intro k hk hm
    obtain ⟨j, hj, he⟩ := List.getElem_of_mem hm
    rw [List.length_take] at hj
    apply hk j (by omega)
    rw [List.getElem_take] at he
    rw [List.getElem?_eq_getElem (by omega), he]
  cases h : firstIn (fun j => decide (s[j]? = some ' ')) i s.length with
  | none =>
    simp only [Option.getD_none, Nat.max_eq_right hi]
    refine ⟨hi, Nat.le_refl _, hnot _ fun j hj => ?_, .inl (by simp)⟩
    by_cases hji : j < i
    · exact hpre j hji
    · simpa using firstIn_none.1 h j (by omega) hj
  | some k =>
    obtain ⟨h1, h2, h3, h4⟩ := firstIn_some.1 h
    simp only [Option.getD_some]
    refine ⟨h1, by omega, hnot _ fun j hj => ?_, .inr ⟨s.drop (k + 1), ?_⟩⟩
    · by_cases hji : j < i
      · exact hpre j hji
      · simpa using h4 j (by omega) hj
    · rw [List.drop_eq_getElem_cons h2]
      simp only [decide_eq_true_eq, List.getElem?_eq_getElem h2, Option.some.injEq] at h3
      rw [h3]

theorem words_take_drop {s : Str} {i : Nat} (h : s.drop i = [] ∨ ∃ t, s.drop i = ' ' :: t) {m : Str}
    (hm : IsTrim blanks (s.drop i) m) : words blanks s = words blanks (s.take i) ++ words blanks m := by
  rw [← words_trim _ _ _ hm]
  conv_lhs => rw [← List.take_append_drop i s]
  rcases h with h | ⟨t, h⟩
  · rw [h]; simp [words_nil]
  · rw [h, words_append _ _ _ _ (by decide), words_cons_sep _ _ _ (by decide)]

theorem isTrim_length {cs s m : Str} (h : IsTrim cs s m) : m.length ≤ s.length := by
  obtain ⟨a, b, rfl, -⟩ := h; simp; omega

/-- Spec: a line of width at most `w`, or a single unbreakable word after the indentation. -/
def LineOk (w : Nat) (indent : Str) (line : Str) : Prop :=
  line.length ≤ w ∨ ∃ u, ' ' ∉ u ∧ (line = u ∨ line = indent ++ u)

theorem wrapLoop_spec (width : Nat) (indent : Str) (hi : indent.length ≤ width)
    (hb : ∀ c ∈ indent, c ∈ blanks) (s : Str) (tw : Nat) (header : Str) (ret : List Str)
    (hh : header = [] ∧ tw = width ∨ header = indent ∧ tw = width - indent.length) :
    ∃ l, wrapLoop width indent false s (some tw) header ret = .ok (ret ++ l) ∧
      (∀ x ∈ l, LineOk width indent x) ∧ (l.flatMap (words blanks)) = words blanks s := by
  induction hn : s.length using Nat.strongRecOn generalizing s tw header ret with
  | _ n ih =>
    subst hn
    have hblank : ∀ c ∈ header, c ∈ blanks := by
      rcases hh with ⟨rfl, -⟩ | ⟨rfl, -⟩
      · simp
      · exact hb
    have hwd : header.length + tw ≤ width := by
      rcases hh with ⟨rfl, rfl⟩ | ⟨rfl, rfl⟩
      · simp
      · omega
    have hline : ∀ u, ' ' ∉ u → LineOk width indent (header ++ u) := by
      intro u hu
      rcases hh with ⟨rfl, -⟩ | ⟨rfl, -⟩
      · exact .inr ⟨u, hu, .inl rfl⟩
      · exact .inr ⟨u, hu, .inr rfl⟩
    unfold wrapLoop
    simp only
    by_cases hlen : s.length > tw
    · rw [if_pos hlen]
      have hstep : ∀ i, (s.drop i = [] ∨ ∃ t, s.drop i = ' ' :: t) → LineOk width indent (header ++ s.take i) →
          (0 < i ∨ ∃ t, s.drop i = ' ' :: t) →
          ∃ l, (match trim (s.drop i) blanks with
            | .ok s' => if s'.length < s.length then
                wrapLoop width indent false s' (if indent.length ≤ width then some (width - indent.length) else none)
                  indent (ret ++ [header ++ s.take i])
              else .diverge
            | .abort => .abort
            | .ub => .ub
            | .diverge => .diverge) = .ok (ret ++ l) ∧
            (∀ x ∈ l, LineOk width indent x) ∧ (l.flatMap (words blanks)) = words blanks s := by
        intro i h1 h2 h3
        obtain ⟨m, e1, e2⟩ := C36_trim (s.drop i) blanks
        have hlt : m.length < s.length := by
          have hl := isTrim_length e2
          rw [List.length_drop] at hl
          rcases h3 with h3 | ⟨t, h3⟩
          · omega
          · have : IsTrim blanks t m := by
              obtain ⟨a, b, ea, q1, q2, q3, q4⟩ := e2
              rw [h3] at ea
              cases a with
              | nil =>
                cases m with
                | nil => cases b with
                  | nil => simp at ea
                  | cons y b =>
                    simp at ea
                    exact ⟨[], b, by simp [ea.2], by simp, fun c hc => q2 c (by simp [hc]), by simp, by simp⟩
                | cons y m =>
                  simp at ea
                  have := q3 y rfl
                  rw [← ea.1] at this
                  exact absurd (by decide : ' ' ∈ blanks) this
              | cons y a =>
                simp at ea
                exact ⟨a, b, by simp [ea.2], fun c hc => q1 c (by simp [hc]), q2, q3, q4⟩
            have h5 := isTrim_length this
            have h6 : (s.drop i).length = t.length + 1 := by rw [h3]; rfl
            rw [List.length_drop] at h6
            omega
        rw [e1]
        simp only
        rw [if_pos hlt, if_pos hi]
        obtain ⟨l, g1, g2, g3⟩ := ih m.length hlt m (width - indent.length) indent (ret ++ [header ++ s.take i])
          (.inr ⟨rfl, rfl⟩) rfl
        refine ⟨(header ++ s.take i) :: l, by rw [g1]; simp, ?_, ?_⟩
        · intro x hx
          rcases List.mem_cons.1 hx with rfl | hx
          · exact h2
          · exact g2 x hx
        · rw [List.flatMap_cons, g3, words_seps _ _ _ hblank, words_take_drop h1 e2]
      cases hsp : lastSpace s tw with
      | none =>
        simp only [Bool.false_eq_true, if_false]
        obtain ⟨k1, k2, k3, k4⟩ := nextSpace_spec (s := s) (i := tw + 1) (by omega) (fun j hj =>
          lastSpace_none hsp j (by omega))
        exact hstep _ k4 (hline _ k3) (.inl (by omega))
      | some i =>
        obtain ⟨k1, k2⟩ := lastSpace_some hsp
        have hi' : i < s.length := (List.getElem?_eq_some_iff.1 k2).1
        have hd : s.drop i = ' ' :: s.drop (i + 1) := by
          rw [List.drop_eq_getElem_cons hi']
          rw [List.getElem?_eq_getElem hi', Option.some.injEq] at k2
          rw [k2]
        refine hstep i (.inr ⟨_, hd⟩) (.inl ?_) (.inr ⟨_, hd⟩)
        rw [List.length_append, List.length_take]; omega
    · rw [if_neg hlen]
      by_cases hs : s = []
      · subst hs
        exact ⟨[], by simp, by simp, by simp [words_nil]⟩
      · refine ⟨[header ++ s], by simp [hs], ?_, ?_⟩
        · intro x hx
          obtain rfl : x = header ++ s := by simpa using hx
          left; rw [List.length_append]; omega
        · simp [words_seps _ _ _ hblank]

/-- C39: `wrap` (without ellipsis) returns lines that fit the width, except lines of a single word, and that
hold exactly the words of the text in order. -/
theorem C39_wrap (s : Str) (width : Nat) (indent : Str) (hi : indent.length ≤ width)
    (hb : ∀ c ∈ indent, c ∈ blanks) :
    ∃ l, wrap s width indent false = .ok l ∧ (∀ x ∈ l, LineOk width indent x) ∧
      l.flatMap (words blanks) = words blanks s := by
  obtain ⟨l, h⟩ := wrapLoop_spec width indent hi hb s width [] [] (.inl ⟨rfl, rfl⟩)
  exact ⟨l, by simpa [wrap] using h⟩

example : ∃ l, wrap "aa bb cc".toList 5 "  ".toList false = .ok l ∧
    l.flatMap (words blanks) = ["aa".toList, "bb".toList, "cc".toList] := by
  obtain ⟨l, h1, -, h3⟩ := C39_wrap "aa bb cc".toList 5 "  ".toList (by decide) (by decide)
  exact ⟨l, h1, by rw [h3]; decide⟩

end Verif.Str
