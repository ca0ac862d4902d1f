import Verif.Str.Regex
import Verif.Str.WordProps
import Verif.Str.SplitProps
/-!
# Properties C42 (regex_replace), C78 (regex_extract), C77 (replace_block)
-/
namespace Verif.Str
open Verif

/-- Spec: the text of a group of a match in `t`. -/
def textOf (t : Str) : Option (Nat × Nat) → Str
  | some (a, b) => (t.drop a).take (b - a)
  | none => []

/-- Spec: `out` is `t` with each successive match rewritten by `func`. -/
inductive IsRewrite (rx : Rx) (func : List Str → Str) : Str → Str → Prop
  | stop (t : Str) (h : rx t = none) : IsRewrite rx func t t
  | step (t : Str) (m : Match) (out : Str) (h : rx t = some m) (hr : IsRewrite rx func (t.drop m.eo) out) :
      IsRewrite rx func t (t.take m.so ++ func (m.groups.map (textOf t)) ++ out)

/-- Spec: `rows` are the group texts of the successive matches in `t`. -/
inductive IsRows (rx : Rx) : Str → List (List Str) → Prop
  | stop (t : Str) (h : rx t = none) : IsRows rx t []
  | step (t : Str) (m : Match) (rows : List (List Str)) (h : rx t = some m) (hr : IsRows rx (t.drop m.eo) rows) :
      IsRows rx t (m.groups.map (textOf t) :: rows)

theorem isRewrite_unique {rx : Rx} {func : List Str → Str} {t o1 o2 : Str} (h1 : IsRewrite rx func t o1)
    (h2 : IsRewrite rx func t o2) : o1 = o2 := by
  induction h1 generalizing o2 with
  | stop t h =>
    cases h2 with
    | stop => rfl
    | step _ m out h' _ => rw [h] at h'; simp at h'
  | step t m out h hr ih =>
    cases h2 with
    | stop _ h' => rw [h] at h'; simp at h'
    | step _ m' out' h' hr' =>
      rw [h, Option.some.injEq] at h'
      subst h'
      rw [ih hr']

theorem regexReplaceLoop_spec (rx : Rx) (func : List Str → Str) (hv : ∀ t m, rx t = some m → m.Valid t)
    (hp : ∀ t m, rx t = some m → 0 < m.eo) (hg : ∀ t m, rx t = some m → none ∉ m.groups)
    (d t s : Str) : ∃ out, regexReplaceLoop rx func (d ++ t) s d.length = .ok (s ++ out) ∧ IsRewrite rx func t out := by
  induction hn : t.length using Nat.strongRecOn generalizing d t s with
  | _ n ih =>
    subst hn
    unfold regexReplaceLoop
    rw [if_neg (by simp), List.drop_left]
    cases h : rx t with
    | none =>
      refine ⟨t, ?_, .stop t h⟩
      simp only [substrFrom]
      rw [if_neg (by simp), List.drop_left]; rfl
    | some m =>
      obtain ⟨v1, v2, v3⟩ := hv t m h
      have hpos := hp t m h
      have e1 : substr (d ++ t) d.length m.so = .ok (t.take m.so) := by
        unfold substr; rw [if_neg (by simp), List.drop_left]
      have e2 : m.groups.mapM (groupText (d ++ t) d.length) = .ok (m.groups.map (textOf t)) := by
        apply Res.mapM_ok
        intro g hgm
        cases g with
        | none => exact absurd hgm (hg t m h)
        | some ab =>
          obtain ⟨a, b⟩ := ab
          have := v3 a b hgm
          simp only [groupText, substr, textOf]
          rw [if_neg (by simp; omega), ← List.drop_drop, List.drop_left]
      obtain ⟨out, g1, g2⟩ := ih (t.drop m.eo).length (by rw [List.length_drop]; omega) (d ++ t.take m.eo)
        (t.drop m.eo) (s ++ t.take m.so ++ func (m.groups.map (textOf t))) rfl
      refine ⟨_, ?_, .step t m out h g2⟩
      simp only [e1, e2, Res.ok_bind]
      rw [if_pos hpos]
      rw [List.append_assoc d, List.take_append_drop, List.length_append, List.length_take, Nat.min_eq_left v2] at g1
      rw [g1]; simp

/-- C42, for an engine whose matches are never empty and whose groups all take part: `regex_replace` returns
the text with each successive match rewritten, all other text copied. -/
theorem C42_replace_partial (rx : Rx) (func : List Str → Str) (hv : ∀ t m, rx t = some m → m.Valid t)
    (hp : ∀ t m, rx t = some m → 0 < m.eo) (hg : ∀ t m, rx t = some m → none ∉ m.groups) (ts : Str) :
    ∃ out, regexReplace rx func ts = .ok out ∧ IsRewrite rx func ts out := by
  obtain ⟨out, h1, h2⟩ := regexReplaceLoop_spec rx func hv hp hg [] ts []
  exact ⟨out, by simpa [regexReplace] using h1, h2⟩

/-- C42: a function that returns the matched text leaves the subject unchanged. -/
theorem C42_identity_partial (rx : Rx) (func : List Str → Str) (hv : ∀ t m, rx t = some m → m.Valid t)
    (hp : ∀ t m, rx t = some m → 0 < m.eo) (hg : ∀ t m, rx t = some m → none ∉ m.groups)
    (hid : ∀ t m, rx t = some m → func (m.groups.map (textOf t)) = (t.drop m.so).take (m.eo - m.so)) (ts : Str) :
    regexReplace rx func ts = .ok ts := by
  obtain ⟨out, h1, h2⟩ := C42_replace_partial rx func hv hp hg ts
  rw [h1]
  congr 1
  clear h1
  induction h2 with
  | stop => rfl
  | step t m out h hr ih =>
    rw [ih, hid t m h]
    have := (hv t m h).1
    conv_rhs => rw [← List.take_append_drop m.eo t]
    congr 1
    rw [← List.take_add]; congr 1; omega

/-- Finding: a regular expression that matches the empty string makes `regex_replace` loop for ever: any engine
whose first match in the subject ends at its start, with all groups taking part. -/
theorem C42_empty_match_refuted (rx : Rx) (func : List Str → Str) (ts : Str) (m : Match) (h : rx ts = some m)
    (he : m.eo = 0) (hg : m.groups = []) : regexReplace rx func ts = .diverge := by
  unfold regexReplace regexReplaceLoop
  rw [if_neg (by simp), List.drop_zero, h]
  simp [he, hg, substr]

/-- Finding: a group that takes no part in a match at the start of the subject (e.g. `(a)|b` on `b`) makes
`regex_replace` throw. -/
theorem C42_group_refuted : regexReplace (fun t => if t = ['b'] then some ⟨0, 1, [none]⟩ else none)
    (fun _ => []) ['b'] = .abort := by
  unfold regexReplace regexReplaceLoop
  simp [substr, groupText]

/-- Finding: each search sees the rest of the subject as a new string, so `^a` rewrites every leading `a`:
`regex_replace("aab", "^a", "x")` is `"xxb"`. -/
theorem C42_anchor : regexReplace (fun t => if t.head? = some 'a' then some ⟨0, 1, []⟩ else none)
    (fun _ => ['x']) "aab".toList = .ok "xxb".toList := by
  obtain ⟨out, h1, h2⟩ := C42_replace_partial (fun t => if t.head? = some 'a' then some ⟨0, 1, []⟩ else none)
    (fun _ => ['x']) (by
      intro t m h
      split at h
      · obtain rfl := Option.some.inj h
        cases t with
        | nil => simp at *
        | cons => simp [Match.Valid]
      · simp at h) (by
      intro t m h
      split at h
      · obtain rfl := Option.some.inj h; simp
      · simp at h) (by
      intro t m h
      split at h
      · obtain rfl := Option.some.inj h; simp
      · simp at h) "aab".toList
  rw [h1]
  congr 1
  refine isRewrite_unique h2 ?_
  exact .step "aab".toList ⟨0, 1, []⟩ "xb".toList rfl (.step "ab".toList ⟨0, 1, []⟩ "b".toList rfl (.stop _ rfl))

theorem regexExtractLoop_spec (rx : Rx) (hv : ∀ t m, rx t = some m → m.Valid t)
    (hp : ∀ t m, rx t = some m → 0 < m.eo) (d t : Str) (ret : List (List Str)) :
    ∃ rows, regexExtractLoop rx (d ++ t) ret d.length = .ok (ret ++ rows) ∧ IsRows rx t rows := by
  induction hn : t.length using Nat.strongRecOn generalizing d t ret with
  | _ n ih =>
    subst hn
    unfold regexExtractLoop
    rw [if_neg (by simp), List.drop_left]
    cases h : rx t with
    | none => exact ⟨[], by simp, .stop t h⟩
    | some m =>
      obtain ⟨v1, v2, v3⟩ := hv t m h
      have hpos := hp t m h
      have e2 : m.groups.mapM (extractText (d ++ t) d.length) = .ok (m.groups.map (textOf t)) := by
        apply Res.mapM_ok
        intro g hgm
        cases g with
        | none => rfl
        | some ab =>
          obtain ⟨a, b⟩ := ab
          have := v3 a b hgm
          simp only [extractText, substr, textOf]
          split
          · rw [if_neg (by simp; omega), ← List.drop_drop, List.drop_left]
          · rw [show b - a = 0 by omega]; simp
      obtain ⟨rows, g1, g2⟩ := ih (t.drop m.eo).length (by rw [List.length_drop]; omega) (d ++ t.take m.eo)
        (t.drop m.eo) (ret ++ [m.groups.map (textOf t)]) rfl
      refine ⟨_, ?_, .step t m rows h g2⟩
      simp only [e2, Res.ok_bind]
      rw [if_pos hpos]
      rw [List.append_assoc d, List.take_append_drop, List.length_append, List.length_take, Nat.min_eq_left v2] at g1
      rw [g1]; simp

/-- C78: `regex_extract` returns one row per successive match, with the text of each group, for an engine
whose matches are never empty. -/
theorem C78_extract_partial (rx : Rx) (hv : ∀ t m, rx t = some m → m.Valid t)
    (hp : ∀ t m, rx t = some m → 0 < m.eo) (ts : Str) : ∃ rows, regexExtract rx ts = .ok rows ∧ IsRows rx ts rows := by
  obtain ⟨rows, h1, h2⟩ := regexExtractLoop_spec rx hv hp [] ts []
  exact ⟨rows, by simpa [regexExtract] using h1, h2⟩

/-- Finding: an empty match makes `regex_extract` loop for ever. -/
theorem C78_empty_match_refuted (rx : Rx) (ts : Str) (m : Match) (h : rx ts = some m)
    (he : m.eo = 0) (hg : m.groups = []) : regexExtract rx ts = .diverge := by
  unfold regexExtract regexExtractLoop
  rw [if_neg (by simp), List.drop_zero, h]
  simp [he, hg]

/-- Spec: number of `(` in `re` that do not follow a backslash. -/
def opens (re : Str) : Nat :=
  (List.range re.length).countP fun i => decide (re[i]? = some '(' ∧ (i = 0 ∨ re[i - 1]? ≠ some '\\'))

theorem nmatchLoop_spec (re : Str) (lo n : Nat) (hlo : lo ≤ re.length) :
    nmatchLoop re (firstOf re ['('] lo) n = .ok (n + (List.range' lo (re.length - lo)).countP
      fun i => decide (re[i]? = some '(' ∧ (i = 0 ∨ re[i - 1]? ≠ some '\\'))) := by
  induction hm : re.length - lo using Nat.strongRecOn generalizing lo n with
  | _ k ih =>
    subst hm
    have hskip : ∀ p, lo ≤ p → p ≤ re.length → (∀ j, lo ≤ j → j < p → inSet re ['('] j = false) →
        (List.range' lo (re.length - lo)).countP (fun i => decide (re[i]? = some '(' ∧ (i = 0 ∨ re[i - 1]? ≠ some '\\'))) =
        (List.range' p (re.length - p)).countP (fun i => decide (re[i]? = some '(' ∧ (i = 0 ∨ re[i - 1]? ≠ some '\\'))) := by
      intro p h1 h2 h3
      have e : List.range' lo (re.length - lo) = List.range' lo (p - lo) ++ List.range' p (re.length - p) := by
        rw [show re.length - lo = (p - lo) + (re.length - p) by omega, ← List.range'_append_1]
        congr 2; omega
      rw [e, List.countP_append, List.countP_eq_zero.2, Nat.zero_add]
      intro i hi
      rw [List.mem_range'_1] at hi
      have := h3 i (by omega) (by omega)
      rw [inSet_lt (by omega)] at this
      simp only [decide_eq_false_iff_not, List.mem_singleton] at this
      simp only [decide_eq_true_eq, not_and]
      intro h4
      rw [List.getElem?_eq_getElem (by omega), Option.some.injEq] at h4
      exact absurd h4 this
    cases h : firstOf re ['('] lo with
    | none =>
      unfold nmatchLoop
      have h' := firstIn_none.1 h
      rw [hskip re.length hlo (Nat.le_refl _) (fun j a b => h' j a b)]
      simp
    | some p =>
      obtain ⟨h1, h2, h3, h4⟩ := firstIn_some.1 h
      rw [hskip p h1 (by omega) h4]
      have e : List.range' p (re.length - p) = p :: List.range' (p + 1) (re.length - (p + 1)) := by
        rw [show re.length - p = (re.length - (p + 1)) + 1 by omega, List.range'_succ]
      have hat : re[p]? = some '(' := by
        rw [inSet_iff] at h3
        obtain ⟨c, hc, h3⟩ := h3
        simp at hc; rw [h3, hc]
      have hrec := ih (re.length - (p + 1)) (by omega) (p + 1)
        (if p = 0 ∨ re[p - 1]? ≠ some '\\' then n + 1 else n) (by omega) rfl
      rw [e, List.countP_cons]
      unfold nmatchLoop
      simp only
      have hfin : ∀ x : Nat, n + (x + (if decide (re[p]? = some '(' ∧ (p = 0 ∨ re[p - 1]? ≠ some '\\')) = true then 1 else 0)) =
          (if p = 0 ∨ re[p - 1]? ≠ some '\\' then n + 1 else n) + x := by
        intro x
        by_cases hq : p = 0 ∨ re[p - 1]? ≠ some '\\'
        · simp [hat, hq]; omega
        · simp [hq]
      rw [hfin]
      cases hq : firstOf re ['('] (p + 1) with
      | none =>
        simp only
        rw [hq] at hrec
        rw [← hrec]; unfold nmatchLoop; rfl
      | some q =>
        simp only
        have := (firstIn_some.1 hq).1
        rw [if_pos ⟨by omega, by omega⟩, ← hq, hrec]

/-- C78: the number of columns: the opening parentheses that do not follow a backslash. -/
theorem C78_nmatch (re : Str) : findNmatch re = .ok (opens re) := by
  unfold findNmatch opens
  rw [nmatchLoop_spec re 0 0 (by omega), List.range_eq_range']; simp

example : findNmatch "(a)\\((b|c)".toList = .ok 2 := by rw [C78_nmatch]; decide

/-! ### C77 -/

/-- Spec: the text with every `b...e` block rewritten; `none` if a block is not closed. -/
inductive IsBlocks (b e : Str) (convert : Str → Str) : Str → Option Str → Prop
  | stop (t : Str) (h : ∀ p ≤ t.length, ¬ OccursAt b t p) : IsBlocks b e convert t (some t)
  | bad (a t : Str) (h : ∀ p < a.length, ¬ OccursAt b (a ++ b ++ t) p) (h2 : ∀ p ≤ t.length, ¬ OccursAt e t p) :
      IsBlocks b e convert (a ++ b ++ t) none
  | block (a m t : Str) (out : Option Str) (h : ∀ p < a.length, ¬ OccursAt b (a ++ b ++ (m ++ e ++ t)) p)
      (h2 : ∀ p < m.length, ¬ OccursAt e (m ++ e ++ t) p) (hr : IsBlocks b e convert t out) :
      IsBlocks b e convert (a ++ b ++ (m ++ e ++ t)) (out.map fun o => a ++ convert m ++ o)

theorem replaceBlockLoop_spec (b e : Str) (convert : Str → Str) (hne : b ≠ [] ∨ e ≠ []) (d t s : Str) :
    ∃ o, IsBlocks b e convert t o ∧ replaceBlockLoop (d ++ t) b e convert s d.length (sfind (d ++ t) b d.length) =
      match o with | none => .abort | some out => .ok (s ++ out) := by
  induction hn : t.length using Nat.strongRecOn generalizing d t s with
  | _ n ih =>
    subst hn
    rcases split_first t b with h | ⟨a, u, rfl, h⟩
    · refine ⟨_, .stop t h, ?_⟩
      rw [sfind_append_none h]
      unfold replaceBlockLoop substrFrom
      rw [if_neg (by simp)]
      simp
    · rw [sfind_append_some h]
      have e1 : substr (d ++ (a ++ b ++ u)) d.length (d.length + a.length - d.length) = .ok a := by
        unfold substr; rw [if_neg (by simp)]; simp
      have e2 : d ++ (a ++ b ++ u) = (d ++ a ++ b) ++ u := by simp
      have e3 : d.length + a.length + b.length = (d ++ a ++ b).length := by simp; omega
      rcases split_first u e with h2 | ⟨m, v, rfl, h2⟩
      · refine ⟨_, .bad a u h h2, ?_⟩
        unfold replaceBlockLoop
        rw [e1, Res.ok_bind, e3, e2, sfind_append_none h2]
      · obtain ⟨o, g1, g2⟩ := ih v.length (by
          have : b.length + e.length ≠ 0 := by
            rcases hne with hne | hne
            · have : b.length ≠ 0 := by simpa using hne
              omega
            · have : e.length ≠ 0 := by simpa using hne
              omega
          simp only [List.length_append]; omega) (d ++ a ++ b ++ m ++ e) v (s ++ a ++ convert m) rfl
        refine ⟨_, .block a m v o h h2 g1, ?_⟩
        unfold replaceBlockLoop
        rw [e1, Res.ok_bind, e3, e2, sfind_append_some h2]
        simp only
        have e4 : substr (d ++ a ++ b ++ (m ++ e ++ v)) (d ++ a ++ b).length
            ((d ++ a ++ b).length + m.length - (d ++ a ++ b).length) = .ok m := by
          unfold substr; rw [if_neg (by simp), List.drop_left]; simp
        have hlt : d.length < (d ++ a ++ b).length + m.length + e.length := by
          have : b.length + e.length ≠ 0 := by
            rcases hne with hne | hne
            · have : b.length ≠ 0 := by simpa using hne
              omega
            · have : e.length ≠ 0 := by simpa using hne
              omega
          simp only [List.length_append]; omega
        rw [e4, Res.ok_bind, dif_pos ⟨hlt, by simp⟩]
        have e5 : d ++ a ++ b ++ (m ++ e ++ v) = (d ++ a ++ b ++ m ++ e) ++ v := by simp
        have e6 : (d ++ a ++ b).length + m.length + e.length = (d ++ a ++ b ++ m ++ e).length := by
          simp only [List.length_append]
        rw [e5, e6, g2]
        cases o <;> simp

/-- C77: `replace_block` rewrites exactly the blocks between the first opening marker and the first closing
marker after it, copies all other text, and aborts exactly if a block is not closed. -/
theorem C77_replace_block (os b e : Str) (convert : Str → Str) (hne : b ≠ [] ∨ e ≠ []) :
    ∃ o, IsBlocks b e convert os o ∧
      replaceBlock os b e convert = match o with | none => .abort | some out => .ok out := by
  obtain ⟨o, h1, h2⟩ := replaceBlockLoop_spec b e convert hne [] os []
  refine ⟨o, h1, ?_⟩
  simpa [replaceBlock] using h2

/-- C77: rewriting each block to itself with its markers changes nothing. -/
theorem C77_identity (os b e out : Str) (h : IsBlocks b e (fun m => b ++ m ++ e) os (some out)) : out = os := by
  generalize ho : some out = o at h
  induction h generalizing out with
  | stop => simpa using ho
  | bad => simp at ho
  | block a m t o h h2 hr ih =>
    cases o with
    | none => simp at ho
    | some o =>
      simp only [Option.map_some, Option.some.injEq] at ho
      rw [ho, ih o rfl]; simp

/-- Finding: with both markers empty `replace_block` never returns. -/
theorem C77_empty_markers (os : Str) (convert : Str → Str) : replaceBlock os [] [] convert = .diverge := by
  unfold replaceBlock
  have : sfind os [] 0 = some 0 := by rw [sfind_some]; simp [OccursAt]
  rw [this]
  unfold replaceBlockLoop
  simp [substr, this]

example : IsBlocks "{".toList "}".toList (fun _ => "X".toList) "a{b}c".toList (some "aXc".toList) := by
  refine IsBlocks.block "a".toList "b".toList "c".toList (some "c".toList) ?_ ?_ (.stop _ ?_)
  · intro p hp
    obtain rfl : p = 0 := by simp at hp; omega
    simp [OccursAt]
  · intro p hp
    obtain rfl : p = 0 := by simp at hp; omega
    simp [OccursAt]
  · intro p hp h
    have : '{' ∈ "c".toList := occursAt_single h
    revert this; decide

end Verif.Str
