import Verif.Io.Ascii
import Verif.Str.WordProps
import Verif.Str.SplitProps
/-!
# Properties C45 (words of a line) and C81 (reading a table)
-/
namespace Verif.Io
open Verif Verif.Str

/-! ### C45 -/

/-- Spec: the splitter `s` still has to produce exactly the words `ws`. -/
inductive Rem : Spl → List Str → Prop
  | done (s : Spl) (h : s.pos = none) : Rem s []
  | blank (line delim d t : Str) (h : line = d ++ t) : Rem ⟨line, some d.length, delim, false⟩ (words delim t)
  | first (line delim : Str) (ws : List Str) (hd : delim ≠ []) (hb : ¬ delim <+: line) (h : IsSplit delim line ws) :
      Rem ⟨line, some 0, delim, true⟩ ws
  | next (line delim d t : Str) (ws : List Str) (hd : delim ≠ []) (hne : d ≠ []) (he : line = d ++ (delim ++ t))
      (h : IsSplit delim t ws) : Rem ⟨line, some d.length, delim, true⟩ ws

/-- the two methods move the position in the same way -/
theorem skipWord_of_nextWord {s s' : Spl} {o : Option Str} (h : nextWord s = .ok (o, s')) :
    skipWord s = .ok (o.isSome, s') := by
  unfold nextWord at h
  unfold skipWord
  cases hp : s.pos with
  | none => rw [hp] at h; simp only [Res.ok.injEq, Prod.mk.injEq] at h; simp [← h.1, ← h.2]
  | some pos =>
    rw [hp] at h
    simp only at h ⊢
    split at h
    · rename_i hs
      rw [if_pos hs]
      split at h
      · rename_i he
        rw [Res.bind_eq_ok] at h
        obtain ⟨w, -, h⟩ := h
        simp only [Res.ok.injEq, Prod.mk.injEq] at h
        rw [he, ← h.1, ← h.2]; rfl
      · rename_i p1 he
        rw [Res.bind_eq_ok] at h
        obtain ⟨w, -, h⟩ := h
        simp only [Res.ok.injEq, Prod.mk.injEq] at h
        rw [he, ← h.1, ← h.2]; rfl
    · rename_i hs
      rw [if_neg hs]
      split at h
      · rename_i he
        simp only [Res.ok.injEq, Prod.mk.injEq] at h
        simp [← h.1, ← h.2]
      · rename_i p0 he
        split at h
        · rename_i he
          rw [Res.bind_eq_ok] at h
          obtain ⟨w, -, h⟩ := h
          simp only [Res.ok.injEq, Prod.mk.injEq] at h
          rw [he, ← h.1, ← h.2]; rfl
        · rename_i p1 he
          rw [Res.bind_eq_ok] at h
          obtain ⟨w, -, h⟩ := h
          simp only [Res.ok.injEq, Prod.mk.injEq] at h
          rw [he, ← h.1, ← h.2]; rfl

theorem nextWord_single {line delim : Str} (hd : delim ≠ []) {d t : Str} {w : Str} {ws : List Str}
    (he : line = d ++ t) (h : IsSplit delim t (w :: ws)) {pos : Nat}
    (hp : (if pos ≠ 0 then pos + delim.length else pos) = d.length) (hnb : d = [] → ¬ delim <+: line) :
    ∃ s', nextWord ⟨line, some pos, delim, true⟩ = .ok (some w, s') ∧ Rem s' ws := by
  unfold nextWord
  simp only [if_true, hp]
  subst he
  cases h with
  | last _ h =>
    rw [sfind_append_none h]
    refine ⟨⟨d ++ t, none, delim, true⟩, ?_, .done _ rfl⟩
    simp only [substrFrom]
    rw [if_neg (by simp)]
    simp
  | cons _ t _ h hr =>
    rw [sfind_append_some h]
    refine ⟨⟨d ++ (w ++ delim ++ t), some (d.length + w.length), delim, true⟩, ?_, ?_⟩
    · simp only [substr]
      rw [if_neg (by simp)]
      simp
    · have := Rem.next (d ++ (w ++ delim ++ t)) delim (d ++ w) t ws hd ?_ (by simp) hr
      · rwa [List.length_append] at this
      · intro hnil
        rw [List.append_eq_nil_iff] at hnil
        obtain ⟨rfl, rfl⟩ := hnil
        exact hnb rfl (by simp)

theorem nextWord_blank {line delim d t : Str} (he : line = d ++ t) :
    (words delim t = [] ∧ nextWord ⟨line, some d.length, delim, false⟩ = .ok (none, ⟨line, some d.length, delim, false⟩)) ∨
    ∃ w ws s', words delim t = w :: ws ∧ nextWord ⟨line, some d.length, delim, false⟩ = .ok (some w, s') ∧
      Rem s' ws := by
  subst he
  unfold nextWord
  simp only [Bool.false_eq_true, if_false]
  rcases span_cases (· ∈ delim) t with h | ⟨a, c, u, rfl, ha, hc⟩
  · rw [firstNotOf_append_none h]
    exact .inl ⟨words_all_seps _ _ h, rfl⟩
  · right
    rw [firstNotOf_append_some ha hc, words_seps _ _ _ ha]
    have e0 : d ++ (a ++ c :: u) = (d ++ a) ++ (c :: u) := by simp
    rw [e0, ← List.length_append]
    rcases span_cases (· ∉ delim) u with h | ⟨w, x, v, rfl, hw, hx⟩
    · have hall : ∀ y ∈ c :: u, y ∉ delim := by simpa [hc] using h
      simp only
      rw [firstOf_append_none hall, words_word delim _ hall (by simp)]
      refine ⟨_, _, ⟨d ++ a ++ c :: u, none, delim, false⟩, rfl, ?_, .done _ rfl⟩
      simp only [substrFrom]
      rw [if_neg (by simp)]
      simp
    · rw [not_not] at hx
      have hall : ∀ y ∈ c :: w, y ∉ delim := by simpa [hc] using hw
      have e1 : c :: (w ++ x :: v) = (c :: w) ++ x :: v := rfl
      simp only
      rw [e1, firstOf_append_some hall hx, words_append _ _ _ _ hx, words_word delim _ hall (by simp)]
      refine ⟨c :: w, words delim v,
        ⟨d ++ a ++ (c :: w ++ x :: v), some ((d ++ a).length + (c :: w).length), delim, false⟩, rfl, ?_, ?_⟩
      · simp only
        unfold substr
        rw [if_neg (by simp)]
        simp
      · have := Rem.blank (d ++ a ++ (c :: w ++ x :: v)) delim (d ++ a ++ c :: w) (x :: v) (by simp)
        rw [words_cons_sep _ _ _ hx] at this
        rwa [List.length_append] at this

theorem Rem.nil {s : Spl} (h : Rem s []) : ∃ s', nextWord s = .ok (none, s') ∧ Rem s' [] := by
  generalize hw : ([] : List Str) = ws at h
  cases h with
  | done s h => refine ⟨s, ?_, .done s h⟩; unfold nextWord; rw [h]
  | blank line delim d t h =>
    rcases nextWord_blank (delim := delim) h with ⟨-, h2⟩ | ⟨w, ws, s', h1, -⟩
    · exact ⟨_, h2, .blank line delim d t h⟩
    · rw [h1] at hw; exact absurd hw (by simp)
  | first line delim ws hd hb h => subst hw; exact absurd rfl (isSplit_ne_nil h)
  | next line delim d t ws hd hne he h => subst hw; exact absurd rfl (isSplit_ne_nil h)

theorem Rem.cons {s : Spl} {w : Str} {ws : List Str} (h : Rem s (w :: ws)) :
    ∃ s', nextWord s = .ok (some w, s') ∧ Rem s' ws := by
  generalize hw : w :: ws = l at h
  cases h with
  | done s h => exact absurd hw (by simp)
  | blank line delim d t h =>
    rcases nextWord_blank (delim := delim) h with ⟨h1, -⟩ | ⟨w', ws', s', h1, h2, h3⟩
    · rw [h1] at hw; exact absurd hw (by simp)
    · rw [h1, List.cons.injEq] at hw
      obtain ⟨rfl, rfl⟩ := hw
      exact ⟨s', h2, h3⟩
  | first line delim _ hd hb h =>
    subst hw
    exact nextWord_single (d := []) hd rfl h rfl fun _ => hb
  | next line delim d t _ hd hne he h =>
    subst hw
    have h0 : d.length ≠ 0 := by simpa using hne
    exact nextWord_single (d := d ++ delim) hd (by simpa using he) h (by simp [hne])
      fun h => absurd (List.append_eq_nil_iff.1 h).1 hne

/-- a sequence of calls on a splitter, `true` for `next_word` and `false` for `skip_word` -/
def calls : List Bool → Spl → Res (List (Option Str))
  | [], _ => .ok []
  | true :: os, s => do
    let (w, s) ← nextWord s
    let r ← calls os s
    .ok (w :: r)
  | false :: os, s => do
    let (b, s) ← skipWord s
    let r ← calls os s
    .ok ((if b then some [] else none) :: r)

/-- Spec: the outcomes of the calls on a line with the words `ws` (`none`: the call reports the end of the
line, `some []` a skipped word) -/
def callsSpec : List Bool → List Str → List (Option Str)
  | [], _ => []
  | _ :: os, [] => none :: callsSpec os []
  | true :: os, w :: ws => some w :: callsSpec os ws
  | false :: os, _ :: ws => some [] :: callsSpec os ws

theorem calls_rem (os : List Bool) : ∀ (s : Spl) (ws : List Str), Rem s ws → calls os s = .ok (callsSpec os ws) := by
  induction os with
  | nil => intro s ws _; cases ws <;> rfl
  | cons o os ih =>
    intro s ws h
    cases ws with
    | nil =>
      obtain ⟨s', h1, h2⟩ := h.nil
      cases o with
      | true => simp only [calls, h1, Res.ok_bind, ih s' [] h2, callsSpec]
      | false => simp [calls, skipWord_of_nextWord h1, ih s' [] h2, callsSpec]
    | cons w ws =>
      obtain ⟨s', h1, h2⟩ := h.cons
      cases o with
      | true => simp only [calls, h1, Res.ok_bind, ih s' ws h2, callsSpec]
      | false => simp [calls, skipWord_of_nextWord h1, ih s' ws h2, callsSpec]

/-- C45: with a set of blank characters, successive calls give the words of the line in order and then
report the end of the line for ever. -/
theorem C45_words (line delim : Str) (os : List Bool) :
    calls os ⟨line, some 0, delim, false⟩ = .ok (callsSpec os (words delim line)) :=
  calls_rem os _ _ (.blank line delim [] line rfl)

/-- C45, with the hypothesis that the line does not start with the delimiter: with a single delimiter,
successive calls give the pieces between the delimiters, empty ones included. -/
theorem C45_single_partial (line delim : Str) (os : List Bool) (hd : delim ≠ []) (hb : ¬ delim <+: line) :
    ∃ ws, IsSplit delim line ws ∧ calls os ⟨line, some 0, delim, true⟩ = .ok (callsSpec os ws) := by
  obtain ⟨ws, h⟩ := isSplit_exists delim hd line
  exact ⟨ws, h, calls_rem os _ _ (.first line delim ws hd hb h)⟩

/-- the full statement: without the hypothesis on the beginning of the line -/
def C45_full : Prop := ∀ (line delim : Str) (os : List Bool), delim ≠ [] →
  ∃ ws, IsSplit delim line ws ∧ calls os ⟨line, some 0, delim, true⟩ = .ok (callsSpec os ws)

theorem leading_stuck (delim t : Str) :
    nextWord ⟨delim ++ t, some 0, delim, true⟩ = .ok (some [], ⟨delim ++ t, some 0, delim, true⟩) := by
  have := sfind_append_some (d := []) (a := []) (t := t) (pat := delim) (by simp)
  simp only [List.nil_append, List.length_nil, Nat.add_zero] at this
  unfold nextWord
  simp only [if_true, ne_eq, not_true_eq_false, if_false, this]
  simp [substr]

/-- C45 is false for a line that starts with the delimiter: every call returns an empty word and the
position never moves, so all columns read empty. -/
theorem C45_leading (delim t : Str) (n : Nat) :
    calls (List.replicate n true) ⟨delim ++ t, some 0, delim, true⟩ = .ok (List.replicate n (some [])) := by
  induction n with
  | zero => rfl
  | succ n ih => simp only [List.replicate_succ, calls, leading_stuck, Res.ok_bind, ih]

theorem C45_single_refuted : ¬ C45_full := by
  intro h
  obtain ⟨ws, h1, h2⟩ := h ",7".toList [','] [true, true] (by decide)
  have h3 := C45_leading [','] "7".toList 2
  have e : (',' :: "7".toList) = ",7".toList := rfl
  simp only [List.cons_append, List.nil_append, List.replicate] at h3
  rw [e, h2, Res.ok.injEq] at h3
  have h4 : ws = [[], ['7']] := isSplit_unique (by decide) h1
    (.cons [] ['7'] [['7']] (by simp) (.last _ (by
      intro p _ ho
      exact absurd (occursAt_single ho) (by decide))))
  rw [h4] at h3
  exact absurd h3 (by decide)

example : calls [true, false, true, true] ⟨"  ab c\tde".toList, some 0, [' ', '\t'], false⟩ =
    .ok [some "ab".toList, some [], some "de".toList, none] := C45_words _ _ _
example : ¬ [','] <+: "1,,2".toList := by decide

/-! ### C81: lines of the file -/

theorem fileLines_split (cur s : Str) (hc : '\n' ∉ cur) : IsSplit ['\n'] (cur ++ s) (fileLines cur s) := by
  induction s generalizing cur with
  | nil =>
    rw [List.append_nil]
    exact .last cur fun p _ ho => hc (occursAt_single ho)
  | cons c s ih =>
    unfold fileLines
    split
    · rename_i hcn
      subst hcn
      have e : cur ++ '\n' :: s = cur ++ ['\n'] ++ s := by simp
      rw [e]
      refine .cons cur s _ ?_ (by simpa using ih [] (by simp))
      intro p hp ho
      apply hc
      obtain ⟨t, ht⟩ := ho
      have h2 : ((cur ++ ['\n'] ++ s).drop p)[0]? = some '\n' := by rw [← ht]; rfl
      rw [List.getElem?_drop, List.append_assoc, List.getElem?_append_left (by omega)] at h2
      exact List.mem_of_getElem? h2
    · rename_i hcn
      have := ih (cur ++ [c]) (by simp [hc, Ne.symm hcn])
      simpa using this

/-- Spec: `m` is the line `l` without the carriage returns at its end. -/
def IsChomp (l m : Str) : Prop := ∃ e, l = m ++ e ∧ (∀ c ∈ e, c = '\r' ∨ c = '\n') ∧ ∀ c, m.getLast? = some c → c ≠ '\r' ∧ c ≠ '\n'

theorem chomp_spec (l : Str) : IsChomp l (chomp l) := by
  refine ⟨(l.reverse.takeWhile fun c => c == '\r' || c == '\n').reverse, ?_, ?_, ?_⟩
  · unfold chomp
    rw [← List.reverse_append, List.takeWhile_append_dropWhile, List.reverse_reverse]
  · intro c hc
    have := List.all_takeWhile (l := l.reverse) (p := fun c => c == '\r' || c == '\n')
    rw [List.all_eq_true] at this
    simpa using this c (List.mem_reverse.1 hc)
  · intro c hc
    unfold chomp at hc
    rw [List.getLast?_reverse] at hc
    have := List.head?_dropWhile_not (fun c => c == '\r' || c == '\n') l.reverse
    rw [hc] at this
    simpa using this

/-- Spec: a line with nothing but blanks. -/
def Blank (l : Str) : Prop := ∀ c ∈ l, c = ' ' ∨ c = '\t'

/-- Spec: a line whose first non-blank text is the pattern. -/
def Commented (pat l : Str) : Prop := ∃ b r, l = b ++ pat ++ r ∧ Blank b ∧ ∀ c, pat.head? = some c → c ≠ ' ' ∧ c ≠ '\t'

/-- Spec: the line carries data. -/
def DataLine (o : InFmt) (l : Str) : Prop := ¬ Blank l ∧ (o.autoSkip = true → ¬ Commented o.skipPattern l)

theorem isData_iff (o : InFmt) (hp : o.skipPattern ≠ []) (l : Str) : isData o l = true ↔ DataLine o l := by
  unfold isData
  rcases span_cases (· ∈ [' ', '\t']) l with h | ⟨a, c, u, rfl, ha, hc⟩
  · have := firstNotOf_append_none (d := []) h
    simp only [List.nil_append, List.length_nil] at this
    rw [this]
    simp only [Bool.false_eq_true, DataLine, false_iff, not_and]
    intro hb
    exact absurd (fun c hc => by simpa using h c hc) hb
  · have := firstNotOf_append_some (d := []) (t := u) ha hc
    simp only [List.nil_append, List.length_nil, Nat.zero_add] at this
    rw [this]
    simp only [Bool.not_eq_true', Bool.and_eq_false_iff, DataLine]
    have hnb : ¬ Blank (a ++ c :: u) := by
      intro hb
      exact hc (by simpa using hb c (by simp))
    have hcom : (sfind (a ++ c :: u) o.skipPattern 0 == some a.length) = true ↔ Commented o.skipPattern (a ++ c :: u) := by
      rw [beq_iff_eq, sfind_some]
      constructor
      · rintro ⟨-, h2, ⟨r, hr⟩, -⟩
        rw [List.drop_left] at hr
        refine ⟨a, r, by rw [List.append_assoc, hr], fun x hx => by simpa using ha x hx, ?_⟩
        intro x hx
        cases hpat : o.skipPattern with
        | nil => exact absurd hpat hp
        | cons y q =>
          rw [hpat] at hr hx
          simp only [List.cons_append, List.cons.injEq] at hr
          simp only [List.head?_cons, Option.some.injEq] at hx
          rw [← hx, hr.1]
          simpa using hc
      · rintro ⟨b, r, he, hb, hh⟩
        cases hpat : o.skipPattern with
        | nil => exact absurd hpat hp
        | cons y q =>
          rw [hpat] at he hh
          have hy := hh y rfl
          -- both are the position of the first non-blank character
          have hlen : b.length = a.length := by
            rcases Nat.lt_trichotomy b.length a.length with h | h | h
            · exfalso
              have h1 : (a ++ c :: u)[b.length]? = some y := by rw [he]; simp
              rw [List.getElem?_append_left h] at h1
              have := ha y (List.mem_of_getElem? h1)
              simp at this
              exact this.elim hy.1 hy.2
            · exact h
            · exfalso
              have h1 : (b ++ (y :: q) ++ r)[a.length]? = some c := by rw [← he]; simp
              rw [List.append_assoc, List.getElem?_append_left h] at h1
              have := hb c (List.mem_of_getElem? h1)
              exact hc (by simpa using this)
          have hab : b = a := by
            have h1 := congrArg (List.take b.length) he
            rw [List.append_assoc, List.take_left, hlen, List.take_left] at h1
            exact h1.symm
          subst hab
          refine ⟨by omega, by simp, ?_, ?_⟩
          · unfold OccursAt
            rw [List.drop_left]
            rw [List.append_assoc] at he
            rw [List.append_cancel_left he]
            simp
          · rintro j - hj ⟨t, ht⟩
            have h2 : ((b ++ c :: u).drop j)[0]? = some y := by rw [← ht]; rfl
            rw [List.getElem?_drop, Nat.add_zero, List.getElem?_append_left hj] at h2
            have := hb y (List.mem_of_getElem? h2)
            exact this.elim hy.1 hy.2
    cases hskip : o.autoSkip with
    | false => simp [hnb]
    | true =>
      simp only [Bool.true_eq_false, false_or, hnb, not_false_iff, true_and, forall_const]
      rw [← hcom]
      simp

/-! ### C81: rows -/

/-- Spec: the values of the columns of a line with words `ws`, `none` if it has too few words or a
conversion fails. -/
def rowSpec {V : Type} : List (Act V) → List Str → Option (List V)
  | [], _ => some []
  | _ :: _, [] => none
  | .skip :: as, _ :: ws => rowSpec as ws
  | .read conv :: as, w :: ws => do
    let v ← conv w
    let vs ← rowSpec as ws
    some (v :: vs)

/-- an error is an abort -/
def orAbort {α : Type} : Option α → Res α
  | some a => .ok a
  | none => .abort

theorem readRow_rem {V : Type} (acts : List (Act V)) : ∀ (s : Spl) (ws : List Str), Rem s ws →
    readRow acts s = orAbort (rowSpec acts ws) := by
  induction acts with
  | nil => intro s ws _; cases ws <;> rfl
  | cons a acts ih =>
    intro s ws h
    cases ws with
    | nil =>
      obtain ⟨s', h1, h2⟩ := h.nil
      cases a with
      | skip => simp [readRow, skipWord_of_nextWord h1, rowSpec, orAbort]
      | read conv => simp [readRow, h1, rowSpec, orAbort]
    | cons w ws =>
      obtain ⟨s', h1, h2⟩ := h.cons
      cases a with
      | skip => simp [readRow, skipWord_of_nextWord h1, rowSpec, ih s' ws h2]
      | read conv =>
        simp only [readRow, h1, Res.ok_bind, rowSpec, ih s' ws h2]
        cases conv w with
        | none => rfl
        | some v => cases rowSpec acts ws <;> rfl

theorem readLoop_spec {V : Type} (o : InFmt) (acts : List (Act V)) (f : Str → Option (List V)) (n : Nat) (ls : List Str) :
    ∀ (i skip : Nat),
    (∀ l ∈ (ls.filter (isData o)).drop skip, readRow acts ⟨l, some 0, o.delim, o.single⟩ = orAbort (f l)) →
    i + ((ls.filter (isData o)).length - skip) ≤ n →
    readLoop o acts n ls i skip = orAbort (((ls.filter (isData o)).drop skip).mapM f) := by
  induction ls with
  | nil => intro i skip _ _; simp [readLoop, orAbort]
  | cons l ls ih =>
    intro i skip hf hn
    unfold readLoop
    by_cases hd : isData o l = true
    · rw [if_pos hd]
      rw [List.filter_cons_of_pos hd] at hf hn ⊢
      rw [List.length_cons] at hn
      cases skip with
      | succ k =>
        rw [if_pos (by omega), List.drop_succ_cons]
        rw [List.drop_succ_cons] at hf
        exact ih i k hf (by omega)
      | zero =>
        rw [if_neg (by omega), if_pos (by omega)]
        rw [List.drop_zero] at hf ⊢
        rw [hf l (by simp), List.mapM_cons]
        rw [ih (i + 1) 0 (fun x hx => hf x (by simp at hx; simp [hx])) (by omega), List.drop_zero]
        cases f l with
        | none => rfl
        | some v => cases (ls.filter (isData o)).mapM f <;> rfl
    · rw [if_neg hd]
      rw [List.filter_cons_of_neg hd] at hf hn ⊢
      exact ih i skip hf hn

theorem mapM_some_length {A B : Type} (f : A → Option B) : ∀ (l : List A) (r : List B), l.mapM f = some r → r.length = l.length := by
  intro l
  induction l with
  | nil => intro r h; simp at h; simp [h]
  | cons a l ih =>
    intro r h
    rw [List.mapM_cons] at h
    cases hf : f a with
    | none => rw [hf] at h; simp at h
    | some b =>
      cases hl : l.mapM f with
      | none => rw [hf, hl] at h; simp at h
      | some bs => rw [hf, hl] at h; simp at h; rw [← h]; simp [ih _ hl]

theorem pad_spec {V : Type} (f : Str → Option (List V)) (ls : List Str) (n : Nat) (hn : ls.length = n) :
    (orAbort (ls.mapM f)).map (fun rows => rows ++ List.replicate (n - rows.length) []) = orAbort (ls.mapM f) := by
  cases h : ls.mapM f with
  | none => rfl
  | some r =>
    have := mapM_some_length f ls r h
    simp [orAbort, Res.map, this, hn]

open scoped Classical in
/-- Spec: the lines that `read_table` reads, in order: the text between newlines, without the carriage return
at the end, that are not blank or comments, without the first `skipFirst` of them. -/
def IsDataLines (o : InFmt) (content : Str) (count : Nat) (ls : List Str) : Prop :=
  ∃ raw lines, IsSplit ['\n'] content raw ∧ List.Forall₂ IsChomp raw lines ∧
    count = (lines.filter (DataLine o)).length ∧ ls = (lines.filter (DataLine o)).drop o.skipFirst

theorem dataLines_exist (o : InFmt) (hp : o.skipPattern ≠ []) (content : Str) :
    IsDataLines o content (((fileLines [] content).map chomp).filter (isData o)).length
      ((((fileLines [] content).map chomp).filter (isData o)).drop o.skipFirst) := by
  classical
  have he : ((fileLines [] content).map chomp).filter (isData o) =
      ((fileLines [] content).map chomp).filter (DataLine o) := by
    congr 1
    funext l
    rw [Bool.eq_iff_iff, isData_iff o hp]
    simp
  refine ⟨fileLines [] content, (fileLines [] content).map chomp, by simpa using fileLines_split [] content (by simp), ?_, ?_, ?_⟩
  · generalize fileLines [] content = ls
    induction ls with
    | nil => exact .nil
    | cons l ls ih => exact .cons (chomp_spec l) ih
  · rw [he]
  · rw [he]

/-- C81 (blank-separated columns): the rows read are the conversions of the words of the data lines; the
call stops with an error exactly when there are fewer data lines than must be skipped, or some line has too
few words or a word that cannot be converted. -/
theorem C81_read {V : Type} (content : Str) (o : InFmt) (acts : List (Act V)) (hp : o.skipPattern ≠ [])
    (hs : o.single = false) : ∃ count ls, IsDataLines o content count ls ∧
    readTable content o acts =
      if count < o.skipFirst then .abort else orAbort (ls.mapM fun l => rowSpec acts (words o.delim l)) := by
  refine ⟨_, _, dataLines_exist o hp content, ?_⟩
  simp only [readTable, List.countP_eq_length_filter]
  split
  · rfl
  · rw [readLoop_spec o acts _ _ _ 0 _ ?_ (by omega)]
    · exact pad_spec _ _ _ (by simp)
    intro l hl
    refine readRow_rem acts _ _ ?_
    rw [hs]
    exact .blank l o.delim [] l rfl

/-- C81 (single delimiter), with the hypothesis that no data line starts with the delimiter (C45). -/
theorem C81_read_single_partial {V : Type} (content : Str) (o : InFmt) (acts : List (Act V)) (hp : o.skipPattern ≠ [])
    (hs : o.single = true) (hd : o.delim ≠ []) (pieces : Str → List Str) (hpc : ∀ l, IsSplit o.delim l (pieces l)) :
    ∃ count ls, IsDataLines o content count ls ∧ ((∀ l ∈ ls, ¬ o.delim <+: l) →
    readTable content o acts =
      if count < o.skipFirst then .abort else orAbort (ls.mapM fun l => rowSpec acts (pieces l))) := by
  refine ⟨_, _, dataLines_exist o hp content, ?_⟩
  intro hb
  simp only [readTable, List.countP_eq_length_filter]
  split
  · rfl
  · rw [readLoop_spec o acts _ _ _ 0 _ ?_ (by omega)]
    · exact pad_spec _ _ _ (by simp)
    intro l hl
    refine readRow_rem acts _ _ ?_
    rw [hs]
    exact .first l o.delim _ hd (hb l hl) (hpc l)

/-- the data lines and their number are determined by the content -/
theorem C81_unique (o : InFmt) (content : Str) (n n' : Nat) (ls ls' : List Str) (h : IsDataLines o content n ls)
    (h' : IsDataLines o content n' ls') : n = n' ∧ ls = ls' := by
  obtain ⟨raw, lines, h1, h2, h3, h4⟩ := h
  obtain ⟨raw', lines', h1', h2', h3', h4'⟩ := h'
  have hr := isSplit_unique (by simp) h1 h1'
  subst hr
  have hl : lines = lines' := by
    clear h1 h1' h3 h4 h3' h4'
    induction h2 generalizing lines' with
    | nil => cases h2'; rfl
    | cons hc hcs ih =>
      cases h2' with
      | cons hc' hcs' =>
        rw [ih _ hcs']
        congr 1
        obtain ⟨e, he, h3, h4⟩ := hc
        obtain ⟨e', he', h3', h4'⟩ := hc'
        rename_i l m _ _ m' _
        rw [he] at he'
        -- the shorter of the two would end with a terminator of the other
        have key : ∀ (m m' e e' : Str), m ++ e = m' ++ e' → (∀ c ∈ e, c = '\r' ∨ c = '\n') →
            (∀ c, m'.getLast? = some c → c ≠ '\r' ∧ c ≠ '\n') → m'.length ≤ m.length := by
          intro m m' e e' he h3 h4
          by_contra hlt
          rw [Nat.not_le] at hlt
          have hlast : m'.getLast? = some (m'[m'.length - 1]'(by omega)) := by
            rw [List.getLast?_eq_getElem?, List.getElem?_eq_getElem]
          have h5 := h4 _ hlast
          have h6 : (m ++ e)[m'.length - 1]? = some (m'[m'.length - 1]'(by omega)) := by
            rw [he, List.getElem?_append_left (by omega), List.getElem?_eq_getElem]
          rw [List.getElem?_append_right (by omega)] at h6
          rcases h3 _ (List.mem_of_getElem? h6) with h7 | h7
          · exact h5.1 h7
          · exact h5.2 h7
        have hlen : m.length = m'.length :=
          Nat.le_antisymm (key m' m e' e he'.symm h3' h4) (key m m' e e' he' h3 h4')
        exact List.append_inj_left he' hlen
  subst hl
  exact ⟨h3.trans h3'.symm, h4.trans h4'.symm⟩

example : readTable "# a b\n1 x\r\n\n 2 y z\n".toList {} [.read some, .skip] = .ok [["1".toList], ["2".toList]] := by
  decide
example : readTable "1 x\n2\n".toList {} [.read some, .read some] = .abort := by decide

end Verif.Io
