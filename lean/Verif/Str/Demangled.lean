import Verif.Basic
/-!
# C255: names of functions in the backtrace (`core/error.hpp:146-241`)

`dbg_pretty_demangled` shortens the name of a function for the backtrace of a failed check. Modelled here is the pass on template arguments, "Remove spaces between template arguments and remove enable_if void parameter".
-/
namespace Verif.Demangled
open Verif

abbrev S := List Char

/-! ### Model -/

/-- the loop to the end of the template arguments (`error.hpp:200-204`) with `open = n + 1`: the characters passed, and the others -/
def scan : Nat → S → S × S
  | _, [] => ([], [])
  | n, c :: l =>
    if c = '<' then let r := scan (n + 1) l; (c :: r.1, r.2)
    else if c = '>' then
      match n with
      | 0 => ([c], l)
      | n + 1 => let r := scan n l; (c :: r.1, r.2)
    else let r := scan n l; (c :: r.1, r.2)

/-- `local_split(s, ",")` (`error.hpp:158-168`) -/
def splitComma : S → List S
  | [] => [[]]
  | c :: l =>
    if c = ',' then [] :: splitComma l
    else match splitComma l with
      | [] => [[c]]
      | w :: ws => (c :: w) :: ws

def isBlank (c : Char) : Bool := c = ' ' || c = '\t'

/-- `local_trim(s)` (`error.hpp:170-185`) -/
def trim (s : S) : S := ((s.dropWhile isBlank).reverse.dropWhile isBlank).reverse

/-- the loop on the arguments from index `i` (`error.hpp:207-212`) -/
def emit : Nat → List S → S
  | _, [] => []
  | i, w :: ws =>
    (if ws = [] ∧ trim w = ['v', 'o', 'i', 'd'] then [] else (if i ≠ 0 then [','] else []) ++ trim w) ++ emit (i + 1) ws

/-- `oname.find('<')`: what is before, and what is after -/
def findLt : S → Option (S × S)
  | [] => none
  | c :: l => if c = '<' then some ([], l) else (findLt l).map fun r => (c :: r.1, r.2)

/-- the loop on the template names (`error.hpp:193-220`), with `n` more rounds at most; `oname.substr(p1, p-p1-1)` is without the last character that was passed, if there is one -/
def passN : Nat → S → S
  | 0, l => l
  | n + 1, l =>
    match findLt l with
    | none => l
    | some (pre, r) => pre ++ '<' :: (emit 0 (splitComma (scan 0 r).1.dropLast) ++ '>' :: passN n (scan 0 r).2)

/-- the pass -/
def pass (l : S) : S := passN l.length l

/-! ### Specification -/

/-- the depth of `<` and `>` at the end of a name, starting from `d` -/
def depth : Nat → S → Nat
  | d, [] => d
  | d, c :: l => depth (if c = '<' then d + 1 else if c = '>' then d - 1 else d) l

/-- every `<` is closed -/
def Balanced (l : S) : Prop := depth 0 l = 0

/-- a name without its spaces -/
def solid (l : S) : S := l.filter fun c => !isBlank c

/-! ### C255 -/

theorem solid_append (a b : S) : solid (a ++ b) = solid a ++ solid b := List.filter_append ..

theorem solid_dropWhile (l : S) : solid (l.dropWhile isBlank) = solid l := by
  induction l with
  | nil => rfl
  | cons c l ih =>
    rw [List.dropWhile_cons]
    split
    · next h => rw [ih]; simp [solid, h]
    · rfl

theorem solid_trim (l : S) : solid (trim l) = solid l := by
  have hr : ∀ l : S, solid l.reverse = (solid l).reverse := fun l => by simp [solid]
  unfold trim
  rw [hr, solid_dropWhile, hr, List.reverse_reverse, solid_dropWhile]

theorem trim_infix (l : S) : trim l <:+: l := by
  unfold trim
  have h1 : (l.dropWhile isBlank).reverse.dropWhile isBlank <:+ (l.dropWhile isBlank).reverse := List.dropWhile_suffix _
  have h2 := List.reverse_prefix.mpr h1
  rw [List.reverse_reverse] at h2
  exact h2.isInfix.trans (List.dropWhile_suffix _).isInfix

theorem splitComma_ne (l : S) : splitComma l ≠ [] := by
  cases l with
  | nil => simp [splitComma]
  | cons c l => unfold splitComma; split; · simp
                split <;> simp

/-- the pieces put together again -/
def join : List S → S
  | [] => []
  | [w] => w
  | w :: ws => w ++ ',' :: join ws

theorem join_cons (w : S) (ws : List S) (h : ws ≠ []) : join (w :: ws) = w ++ ',' :: join ws := by
  cases ws with
  | nil => exact absurd rfl h
  | cons a l => rfl

theorem join_split (l : S) : join (splitComma l) = l := by
  induction l with
  | nil => rfl
  | cons c l ih =>
    unfold splitComma
    split
    · next h => rw [join_cons _ _ (splitComma_ne l), ih, h]; rfl
    · cases hs : splitComma l with
      | nil => exact absurd hs (splitComma_ne l)
      | cons w ws =>
        rw [hs] at ih
        cases ws with
        | nil => simpa [join] using ih
        | cons a b => rw [join_cons _ _ (by simp)] at ih ⊢; simp [← ih]

theorem mem_join (ws : List S) (w : S) (h : w ∈ ws) : w <:+: join ws := by
  induction ws with
  | nil => simp at h
  | cons a l ih =>
    by_cases hl : l = []
    · subst hl; simp at h; subst h; exact List.infix_rfl
    · rw [join_cons _ _ hl]
      rcases List.mem_cons.mp h with rfl | h
      · exact (List.prefix_append _ _).isInfix
      · exact (ih h).trans ((List.suffix_cons _ _).trans (List.suffix_append _ _)).isInfix

theorem solid_emit (i : Nat) (ws : List S) (hv : ∀ w ∈ ws, trim w ≠ ['v', 'o', 'i', 'd']) (hn : ws ≠ []) :
    solid (emit i ws) = (if i ≠ 0 then [','] else []) ++ solid (join ws) := by
  induction ws generalizing i with
  | nil => exact absurd rfl hn
  | cons w ws ih =>
    unfold emit
    rw [if_neg (fun h => hv w (by simp) h.2)]
    have e : solid (if i ≠ 0 then [','] else []) = if i ≠ 0 then [','] else [] := by split <;> rfl
    by_cases hw : ws = []
    · subst hw
      simp only [emit, List.append_nil, solid_append, solid_trim, e, join]
    · rw [solid_append, solid_append, ih _ (fun x hx => hv x (List.mem_cons_of_mem _ hx)) hw, join_cons _ _ hw, solid_append, solid_trim, e]
      simp [solid, isBlank]

theorem scan_closed (n : Nat) (l : S) (h : depth (n + 1) l = 0) :
    ∃ a b, scan n l = (a ++ ['>'], b) ∧ l = a ++ '>' :: b ∧ depth 0 b = 0 := by
  induction l generalizing n with
  | nil => simp [depth] at h
  | cons c l ih =>
    unfold depth at h
    unfold scan
    by_cases h1 : c = '<'
    · rw [if_pos h1] at h
      obtain ⟨a, b, e, hl, hb⟩ := ih _ h
      exact ⟨c :: a, b, by rw [if_pos h1, e]; rfl, by rw [hl]; rfl, hb⟩
    · rw [if_neg h1] at h
      by_cases h2 : c = '>'
      · rw [if_pos h2] at h
        cases n with
        | zero => exact ⟨[], l, by simp [h2], by simp [h2], h⟩
        | succ n =>
          obtain ⟨a, b, e, hl, hb⟩ := ih n h
          exact ⟨c :: a, b, by rw [if_neg h1, if_pos h2]; simp [e], by rw [hl]; rfl, hb⟩
      · rw [if_neg h2] at h
        obtain ⟨a, b, e, hl, hb⟩ := ih _ h
        exact ⟨c :: a, b, by rw [if_neg h1, if_neg h2, e]; rfl, by rw [hl]; rfl, hb⟩

theorem findLt_some (l pre r : S) (h : findLt l = some (pre, r)) : l = pre ++ '<' :: r ∧ (depth 0 l = 0 → depth 1 r = 0) := by
  induction l generalizing pre r with
  | nil => simp [findLt] at h
  | cons c l ih =>
    unfold findLt at h
    split at h
    · next hc => simp at h; obtain ⟨rfl, rfl⟩ := h; subst hc; exact ⟨rfl, fun h => h⟩
    · next hc =>
      rw [Option.map_eq_some_iff] at h
      obtain ⟨⟨p, q⟩, hq, he⟩ := h
      simp at he
      obtain ⟨rfl, rfl⟩ := he
      obtain ⟨h1, h2⟩ := ih p q hq
      refine ⟨by rw [h1]; rfl, fun hd => h2 ?_⟩
      unfold depth at hd
      rw [if_neg hc] at hd
      simpa using hd

theorem scan_len (n : Nat) (l : S) : (scan n l).2.length ≤ l.length := by
  induction l generalizing n with
  | nil => simp [scan]
  | cons c l ih =>
    unfold scan
    split
    · exact Nat.le_succ_of_le (ih _)
    · split
      · split
        · simp
        · exact Nat.le_succ_of_le (ih _)
      · exact Nat.le_succ_of_le (ih _)

/-- as many rounds as characters are enough -/
theorem passN_enough (n : Nat) (l : S) (h : l.length ≤ n) : passN n l = passN (n + 1) l := by
  induction n generalizing l with
  | zero =>
    have : l = [] := List.eq_nil_of_length_eq_zero (by omega)
    subst this; rfl
  | succ n ih =>
    unfold passN
    cases hf : findLt l with
    | none => rfl
    | some q =>
      obtain ⟨pre, r⟩ := q
      have hl := congrArg List.length (findLt_some l pre r hf).1
      have := scan_len 0 r
      simp only [List.length_append, List.length_cons] at hl
      simp only
      rw [ih _ (by omega)]

/-- C255 (partial): for a name where every `<` is closed and that does not contain `void`, the pass removes spaces only. -/
theorem C255_spaces_partial (l : S) (hb : Balanced l) (hv : ¬ ['v', 'o', 'i', 'd'] <:+: l) : solid (pass l) = solid l := by
  have key : ∀ n l, depth 0 l = 0 → ¬ ['v', 'o', 'i', 'd'] <:+: l → solid (passN n l) = solid l := by
    intro n
    induction n with
    | zero => intro l _ _; rfl
    | succ n ih =>
      intro l hb hv
      unfold passN
      split
      · rfl
      · next pre r hf =>
        obtain ⟨hl, hd⟩ := findLt_some l pre r hf
        obtain ⟨a, b, hs, hr, hb'⟩ := scan_closed 0 r (hd hb)
        have ha : a <:+: l := ⟨pre ++ ['<'], '>' :: b, by rw [hl, hr]; simp⟩
        have hb2 : b <:+: l := ⟨pre ++ '<' :: (a ++ ['>']), [], by rw [hl, hr]; simp⟩
        rw [hs]
        have he := solid_emit 0 (splitComma a) (fun w hw hc => hv (by
          rw [← hc]
          have := (trim_infix w).trans (mem_join _ w hw)
          rw [join_split] at this
          exact this.trans ha)) (splitComma_ne a)
        rw [join_split] at he
        have hi := ih b hb' (fun h => hv (h.trans hb2))
        simp only [List.dropLast_concat]
        have c1 : ∀ x : S, solid ('<' :: x) = '<' :: solid x := fun x => by simp [solid, isBlank]
        have c2 : ∀ x : S, solid ('>' :: x) = '>' :: solid x := fun x => by simp [solid, isBlank]
        rw [hl, hr]
        simp only [solid_append, c1, c2, he, hi]
        simp
  exact key _ l hb hv

/-- C255 (partial): two such names that are shown as the same text differ by spaces only. -/
theorem C255_distinct_partial (a b : S) (ha : Balanced a) (hb : Balanced b) (va : ¬ ['v', 'o', 'i', 'd'] <:+: a) (vb : ¬ ['v', 'o', 'i', 'd'] <:+: b)
    (h : pass a = pass b) : solid a = solid b := by
  rw [← C255_spaces_partial a ha va, h, C255_spaces_partial b hb vb]

theorem findLt_of (pre r : S) (h : '<' ∉ pre) : findLt (pre ++ '<' :: r) = some (pre, r) := by
  induction pre with
  | nil => simp [findLt]
  | cons c l ih =>
    simp only [List.mem_cons, not_or] at h
    simp [findLt, Ne.symm h.1, ih h.2]

theorem scan_open (n : Nat) (r : S) (h : '>' ∉ r) : scan n r = (r, []) := by
  induction r generalizing n with
  | nil => rfl
  | cons c l ih =>
    simp only [List.mem_cons, not_or] at h
    unfold scan
    rw [ih _ h.2, if_neg (Ne.symm h.1), ih _ h.2]
    split <;> rfl

/-- C255 fails for `operator<` and `operator<<`: for any name with a `<` that nothing closes, the last character of the name is replaced by `>`: two names that differ by their last character, such as `operator<(a)` and `operator<(a]`, are the same. -/
theorem C255_operator_refuted (pre r : S) (x y : Char) (hp : '<' ∉ pre) (hr : '>' ∉ r) (hx : x ≠ '>') (hy : y ≠ '>') :
    pass (pre ++ '<' :: (r ++ [x])) = pass (pre ++ '<' :: (r ++ [y])) ∧ (pass (pre ++ '<' :: (r ++ [x]))).getLast? = some '>' := by
  have e : ∀ z : Char, z ≠ '>' → pass (pre ++ '<' :: (r ++ [z])) = pre ++ '<' :: (emit 0 (splitComma r) ++ ['>']) := by
    intro z hz
    unfold pass
    have hl : (pre ++ '<' :: (r ++ [z])).length = (pre.length + r.length + 1) + 1 := by simp; omega
    rw [hl]
    unfold passN
    rw [findLt_of _ _ hp]
    simp only
    rw [scan_open 0 (r ++ [z]) (by simp [hr, Ne.symm hz]), List.dropLast_concat]
    simp [passN, findLt]
  refine ⟨by rw [e x hx, e y hy], ?_⟩
  rw [e x hx, show pre ++ '<' :: (emit 0 (splitComma r) ++ ['>']) = (pre ++ '<' :: emit 0 (splitComma r)) ++ ['>'] by simp]
  exact List.getLast?_concat

/-- C255 fails for a last argument `void` that is no parameter of `enable_if`: `f<void>` and `f<>` are shown as the same name. -/
theorem C255_void_refuted : pass "f<void>(int)".toList = "f<>(int)".toList ∧ pass "f<>(int)".toList = "f<>(int)".toList := by decide +kernel

example : pass "vif::operator<(a, b)".toList = "vif::operator<(a,b>".toList := by decide +kernel
example : pass "vec<1, a<b, c> > f<x , void>::operator->()".toList = "vec<1,a<b,c>> f<x>::operator->()".toList := by decide +kernel
example : Balanced "vec<1, a<b, c> >::operator->()".toList := by unfold Balanced; decide +kernel

end Verif.Demangled
