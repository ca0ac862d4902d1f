import Verif.Tools.Fitstool
import Verif.Io.HeaderFileProps
import Verif.Str.ConvProps
import Mathlib.Tactic.NormNum
import Mathlib.Data.List.TakeWhile
/-!
# C182: editing keywords with `fitstool`; C183: removing keywords with `fitstool`
-/
namespace Verif.Fitstool
open Verif Verif.Str Verif.StrConv Verif.Sex Verif.Fits

/-! ### Spec -/

/-- the value of the first keyword of that name in the file, as it is written -/
def Has (ks : Keys) (name v : Str) : Prop := ∃ a b, ks = a ++ (name, v) :: b ∧ ∀ k ∈ a, k.1 ≠ name

/-- the file has no keyword of that name -/
def Lacks (ks : Keys) (name : Str) : Prop := ∀ k ∈ ks, k.1 ≠ name

/-- the file `ks'` is the file `ks` in which the first keyword of that name has this value, or with this keyword at the end if there was none -/
def Sets (ks ks' : Keys) (name v : Str) : Prop :=
  (∃ a w b, ks = a ++ (name, w) :: b ∧ (∀ k ∈ a, k.1 ≠ name) ∧ ks' = a ++ (name, v) :: b) ∨ (Lacks ks name ∧ ks' = ks ++ [(name, v)])

/-- the text is a number for `from_string` -/
def IsNum (r : Reader (Fl ℚ)) (s : Str) (q : Fl ℚ) : Prop := ∀ d, fromString r flFallback s d = (true, q)

/-- the text is not a number for `from_string` -/
def NotNum (r : Reader (Fl ℚ)) (s : Str) : Prop := ∀ d, (fromString r flFallback s d).1 = false

/-! ### Helpers -/

theorem sets_update (ks : Keys) (name v : Str) : Sets ks (updateKey ks name v) name v := by
  induction ks with
  | nil => exact Or.inr ⟨by simp [Lacks], rfl⟩
  | cons k ks ih =>
    unfold updateKey
    by_cases h : k.1 = name
    · rw [if_pos h]
      left
      refine ⟨[], k.2, ks, ?_, by simp, rfl⟩
      rw [← h]; rfl
    · rw [if_neg h]
      rcases ih with ⟨a, w, b, h1, h2, h3⟩ | ⟨h1, h2⟩
      · left
        refine ⟨k :: a, w, b, by rw [h1]; rfl, ?_, by rw [h3]; rfl⟩
        intro x hx
        rcases List.mem_cons.1 hx with rfl | hx
        · exact h
        · exact h2 x hx
      · right
        refine ⟨?_, by rw [h2]; rfl⟩
        intro x hx
        rcases List.mem_cons.1 hx with rfl | hx
        · exact h
        · exact h1 x hx

theorem update_absent {ks : Keys} {name : Str} (v : Str) (h : rawKey ks name = none) : updateKey ks name v = ks ++ [(name, v)] := by
  induction ks with
  | nil => rfl
  | cons k ks ih =>
    unfold rawKey at h
    rw [Option.map_eq_none_iff, List.find?_eq_none] at h
    have h1 : k.1 ≠ name := by simpa using h k (by simp)
    have h2 : rawKey ks name = none := by
      unfold rawKey
      rw [Option.map_eq_none_iff, List.find?_eq_none]
      intro x hx
      exact h x (by simp [hx])
    unfold updateKey
    rw [if_neg h1, ih h2]; rfl

theorem putKey_eq (ks : Keys) (name v : Str) : putKey (rawKey ks name).isNone ks name v = updateKey ks name v := by
  unfold putKey
  cases h : rawKey ks name with
  | none => rw [update_absent v h]; rfl
  | some w => rfl

theorem lookup_iff (ks : Keys) (name v : Str) : rawKey ks name = some v ↔ Has ks name v := by
  unfold rawKey Has
  rw [Option.map_eq_some_iff]
  constructor
  · rintro ⟨k, hk, rfl⟩
    rw [List.find?_eq_some_iff_append] at hk
    obtain ⟨hn, a, b, he, ha⟩ := hk
    refine ⟨a, b, ?_, fun x hx => by simpa using ha x hx⟩
    rw [he]
    rw [decide_eq_true_eq] at hn
    rw [← hn]
  · rintro ⟨a, b, rfl, ha⟩
    refine ⟨(name, v), ?_, rfl⟩
    rw [List.find?_eq_some_iff_append]
    exact ⟨by simp, a, b, rfl, fun x hx => by simpa using ha x hx⟩

theorem rawKey_none (ks : Keys) (name : Str) : rawKey ks name = none ↔ Lacks ks name := by
  unfold rawKey Lacks
  rw [Option.map_eq_none_iff, List.find?_eq_none]
  simp

/-- first and last quotes of a value written by cfitsio -/
theorem quote_ends (q : Str) (hq : '\'' ∉ q) :
    firstOf ('\'' :: q ++ ['\'']) ['\''] 0 = some 0 ∧ lastOf ('\'' :: q ++ ['\'']) ['\''] none = some (q.length + 1) := by
  constructor
  · rw [firstOf_zero]
    exact ⟨'\'', by simp, rfl⟩
  · unfold lastOf upTo
    rw [lastIn_some]
    refine ⟨by simp, ?_, ?_⟩
    · unfold inSet
      have : ('\'' :: q ++ ['\''])[q.length + 1]? = some '\'' := by
        rw [List.getElem?_append_right (by simp)]
        simp
      rw [this]; rfl
    · intro j h1 h2
      simp at h2
      omega

theorem flat_quote (v : Str) (hq : '\'' ∉ v) : (v.flatMap fun c => if c = '\'' then ['\'', '\''] else [c]) = v := by
  induction v with
  | nil => rfl
  | cons c v ih =>
    rw [List.flatMap_cons, ih (fun h => hq (by simp [h])), if_neg (fun e => hq (by simp [e]))]; rfl

theorem show_quote {ks : Keys} {key v m : Str} (h : rawKey ks (key.map Char.toUpper) = some (quoteValue v)) (hq : '\'' ∉ v)
    (hm : IsTrim blanks (v.take 68) m) : showKey ks key = .ok m := by
  unfold showKey
  rw [h]
  dsimp only
  have e : quoteValue v = '\'' :: (v.take 68 ++ List.replicate (8 - (v.take 68).length) ' ') ++ ['\''] := by
    unfold quoteValue
    dsimp only
    rw [flat_quote v hq]
    simp
  have hq' : '\'' ∉ v.take 68 ++ List.replicate (8 - (v.take 68).length) ' ' := by
    rw [List.mem_append, not_or]
    exact ⟨fun h => hq (List.mem_of_mem_take h), fun h => by simp at h⟩
  obtain ⟨h1, h2⟩ := quote_ends _ hq'
  rw [e, if_pos (by rfl), h1, h2]
  simp only [Option.getD_some]
  rw [if_neg (by omega)]
  unfold substr
  rw [if_neg (by simp)]
  have e2 : (List.drop (0 + 1) ('\'' :: (v.take 68 ++ List.replicate (8 - (v.take 68).length) ' ') ++ ['\''])).take
      ((v.take 68 ++ List.replicate (8 - (v.take 68).length) ' ').length + 1 - 0 - 1) =
      v.take 68 ++ List.replicate (8 - (v.take 68).length) ' ' := by
    rw [show (v.take 68 ++ List.replicate (8 - (v.take 68).length) ' ').length + 1 - 0 - 1 =
      (v.take 68 ++ List.replicate (8 - (v.take 68).length) ' ').length by omega]
    show List.take _ (_ ++ ['\'']) = _
    exact List.take_left
  rw [e2, Res.ok_bind]
  obtain ⟨a, b, h3, h4, h5, h6, h7⟩ := hm
  refine trim_of ⟨a, b ++ List.replicate (8 - (v.take 68).length) ' ', ?_, h4, ?_, h6, h7⟩
  · rw [← List.append_assoc, ← h3]
  · intro c hc
    rcases List.mem_append.1 hc with hc | hc
    · exact h5 c hc
    · rw [List.eq_of_mem_replicate hc]; decide

theorem edit_num {r : Reader (Fl ℚ)} {fmt : Fl ℚ → Str} {d : Fl ℚ} {ks : Keys} {key val : Str} {q : Fl ℚ} (h : IsNum r val q) :
    editKey r fmt d ks key val = if val.getLast? = some '.' ∨ '.' ∉ val then
      (toInt32 q >>= fun di => .ok (true, updateKey ks (key.map Char.toUpper) (decInt di)))
      else .ok (true, updateKey ks (key.map Char.toUpper) (fmt q)) := by
  unfold editKey writeValue
  dsimp only
  rw [h d]
  simp only [Bool.not_true, Bool.false_eq_true, if_false, putKey_eq]

theorem edit_text {r : Reader (Fl ℚ)} {fmt : Fl ℚ → Str} {d : Fl ℚ} {ks : Keys} {key val : Str} (h : NotNum r val) :
    editKey r fmt d ks key val = if val.head? = some '\'' then
      (if '\'' ∈ val.tail then .ok (false, ks) else .ok (true, updateKey ks (key.map Char.toUpper) (quoteValue val.tail)))
      else .ok (true, updateKey ks (key.map Char.toUpper) (quoteValue val)) := by
  unfold editKey writeValue
  dsimp only
  rcases hf : fromString r flFallback val d with ⟨b, w⟩
  have hb : b = false := by have := h d; rw [hf] at this; exact this
  subst hb
  simp only [Bool.not_false, if_true, putKey_eq]

theorem from_indep {T : Type} (r : Reader T) (fb : Str → Option T) (s : Str) (d d' : T) (h : s.dropWhile isSp ≠ []) :
    fromString r fb s d = fromString r fb s d' := by
  unfold fromString extract
  simp only [if_neg h]

theorem isNum_of {r : Reader (Fl ℚ)} {s : Str} {q : Fl ℚ} (h : s.dropWhile isSp ≠ []) (h' : fromString r flFallback s .nan = (true, q)) : IsNum r s q :=
  fun d => (from_indep r flFallback s d .nan h).trans h'

theorem notNum_of {r : Reader (Fl ℚ)} {s : Str} (h : s.dropWhile isSp ≠ []) (h' : (fromString r flFallback s .nan).1 = false) : NotNum r s :=
  fun d => (congrArg Prod.fst (from_indep r flFallback s d .nan h)).trans h'

/-! ### C182 -/

/-- A text that is not a number and does not start with a quote is stored between quotes: the first keyword of that name gets it, or a keyword is added; all
the other keywords stay. A text of at most 68 characters without quotes is then printed as it is by `readkwd`, without the spaces around it. -/
theorem C182_text (r : Reader (Fl ℚ)) (fmt : Fl ℚ → Str) (d : Fl ℚ) (ks : Keys) (key val : Str) (h : NotNum r val) (h0 : val.head? ≠ some '\'') :
    ∃ ks', editKey r fmt d ks key val = .ok (true, ks') ∧ Sets ks ks' (key.map Char.toUpper) (quoteValue val) ∧
      ('\'' ∉ val → val.length ≤ 68 → ∀ m, IsTrim blanks val m → showKey ks' key = .ok m) ∧
      (∀ k, k.map Char.toUpper ≠ key.map Char.toUpper → showKey ks' k = showKey ks k) := by
  refine ⟨updateKey ks (key.map Char.toUpper) (quoteValue val), ?_, sets_update _ _ _, ?_, ?_⟩
  · rw [edit_text h, if_neg h0]
  · intro hq hl m hm
    refine show_quote (v := val) ?_ hq (by rw [List.take_of_length_le hl]; exact hm)
    rw [rawKey_update, if_pos rfl]
  · intro k hk
    unfold showKey
    rw [rawKey_update, if_neg hk]

/-- A whole number written without dot, or with a dot at the end, within the range of `int`, is stored as an integer. -/
theorem C182_int_partial (r : Reader (Fl ℚ)) (fmt : Fl ℚ → Str) (d : Fl ℚ) (ks : Keys) (key val : Str) (z : Int) (h : IsNum r val (.fin z))
    (h0 : val.getLast? = some '.' ∨ '.' ∉ val) (h1 : -2 ^ 31 ≤ z) (h2 : z < 2 ^ 31) :
    ∃ ks', editKey r fmt d ks key val = .ok (true, ks') ∧ Sets ks ks' (key.map Char.toUpper) (decInt z) ∧ showKey ks' key = .ok (decInt z) ∧
      (∀ k, k.map Char.toUpper ≠ key.map Char.toUpper → showKey ks' k = showKey ks k) := by
  refine ⟨updateKey ks (key.map Char.toUpper) (decInt z), ?_, sets_update _ _ _, ?_, ?_⟩
  · rw [edit_num h, if_pos h0]
    have : toInt32 (.fin (z : ℚ)) = .ok z := by
      unfold toInt32
      have e : (if (0 : ℚ) ≤ (z : ℚ) then ⌊(z : ℚ)⌋ else ⌈(z : ℚ)⌉) = z := by simp
      simp only [e]
      rw [if_pos ⟨h1, h2⟩]
    rw [this, Res.ok_bind]
  · unfold showKey
    rw [rawKey_update, if_pos rfl]
    dsimp only
    rw [if_neg]
    intro hc
    unfold decInt at hc
    split at hc
    · simp at hc
    · have hm : '\'' ∈ Io.dec z.natAbs := List.mem_of_mem_head? hc
      have := Nat.isDigit_of_mem_toDigits (b := 10) (by norm_num) (by norm_num) hm
      exact absurd this (by decide)
  · intro k hk
    unfold showKey
    rw [rawKey_update, if_neg hk]

/-- A number written with a dot that is not at the end is stored as a floating point number. -/
theorem C182_real (r : Reader (Fl ℚ)) (fmt : Fl ℚ → Str) (d : Fl ℚ) (ks : Keys) (key val : Str) (q : Fl ℚ) (h : IsNum r val q)
    (h0 : '.' ∈ val) (h1 : val.getLast? ≠ some '.') :
    ∃ ks', editKey r fmt d ks key val = .ok (true, ks') ∧ Sets ks ks' (key.map Char.toUpper) (fmt q) ∧
      (∀ k, k.map Char.toUpper ≠ key.map Char.toUpper → showKey ks' k = showKey ks k) := by
  refine ⟨updateKey ks (key.map Char.toUpper) (fmt q), ?_, sets_update _ _ _, ?_⟩
  · rw [edit_num h, if_neg (by rintro (h' | h'); exacts [h1 h', h' h0])]
  · intro k hk
    unfold showKey
    rw [rawKey_update, if_neg hk]

/-- Numbers without dot are rounded towards zero, and nothing is defined outside of the range of `int`. -/
theorem C182_truncated (r : Reader (Fl ℚ)) (fmt : Fl ℚ → Str) (d : Fl ℚ) (ks : Keys) (key val : Str) (q : ℚ) (h : IsNum r val (.fin q)) (h0 : '.' ∉ val) :
    (∀ z : Int, (z : ℚ) ≤ |q| → |q| < z + 1 → z < 2 ^ 31 → ∃ ks', editKey r fmt d ks key val = .ok (true, ks') ∧
      Sets ks ks' (key.map Char.toUpper) (decInt (if 0 ≤ q then z else -z))) ∧
    (2 ^ 31 + 1 ≤ |q| → editKey r fmt d ks key val = .ub) := by
  have hf : ∀ z : Int, (z : ℚ) ≤ |q| → |q| < z + 1 → (if 0 ≤ q then ⌊q⌋ else ⌈q⌉) = if 0 ≤ q then z else -z := by
    intro z h1 h2
    by_cases hq : 0 ≤ q
    · rw [if_pos hq, if_pos hq, Int.floor_eq_iff]
      rw [abs_of_nonneg hq] at h1 h2
      exact ⟨h1, h2⟩
    · rw [if_neg hq, if_neg hq, Int.ceil_eq_iff]
      rw [abs_of_neg (not_le.1 hq)] at h1 h2
      push_cast
      constructor <;> linarith
  constructor
  · intro z h1 h2 h3
    refine ⟨_, ?_, sets_update _ _ _⟩
    rw [edit_num h, if_pos (Or.inr h0)]
    have h4 : 0 ≤ z := by
      have : (0 : ℚ) < z + 1 := lt_of_le_of_lt (abs_nonneg q) h2
      have : (0 : Int) < z + 1 := by exact_mod_cast this
      omega
    have : toInt32 (.fin q) = .ok (if 0 ≤ q then z else -z) := by
      unfold toInt32
      simp only [hf z h1 h2]
      rw [if_pos]
      split <;> constructor <;> omega
    rw [this, Res.ok_bind]
  · intro h1
    rw [edit_num h, if_pos (Or.inr h0)]
    have h2 := hf ⌊|q|⌋ (Int.floor_le _) (Int.lt_floor_add_one _)
    have h3 : 2 ^ 31 + 1 ≤ ⌊|q|⌋ := by
      rw [Int.le_floor]
      exact_mod_cast h1
    have : toInt32 (.fin q) = .ub := by
      unfold toInt32
      simp only [h2]
      rw [if_neg]
      split <;> omega
    rw [this, Res.ub_bind]

/-- A text between quotes, as FITS texts are written, is refused and nothing is written. -/
theorem C182_quotes_refuted (r : Reader (Fl ℚ)) (fmt : Fl ℚ → Str) (d : Fl ℚ) (ks : Keys) (key w : Str) (h : NotNum r ('\'' :: w ++ ['\''])) :
    editKey r fmt d ks key ('\'' :: w ++ ['\'']) = .ok (false, ks) := by
  rw [edit_text h, if_pos (by rfl), if_pos (by simp)]

/-- A number with an exponent and no dot loses its fraction: `1e-3` is stored as 0. Large whole numbers, NaN and infinities give undefined behaviour. -/
theorem C182_number_refuted (fmt : Fl ℚ → Str) (d : Fl ℚ) :
    editKey numReader fmt d [] "CDELT1".toList "1e-3".toList = .ok (true, [("CDELT1".toList, "0".toList)]) ∧
    editKey numReader fmt d [] "DATE".toList "20161116000".toList = .ub ∧ editKey numReader fmt d [] "NAME".toList "NaN".toList = .ub := by
  have i1 : IsNum numReader "1e-3".toList (.fin (1 / 1000)) := isNum_of (by decide) (by decide +kernel)
  have i2 : IsNum numReader "20161116000".toList (.fin 20161116000) := isNum_of (by decide) (by decide +kernel)
  have i3 : IsNum numReader "NaN".toList .nan := isNum_of (by decide) (by decide +kernel)
  refine ⟨?_, ?_, ?_⟩
  · rw [edit_num i1, if_pos (by decide), show toInt32 (.fin (1 / 1000)) = .ok 0 by decide +kernel, Res.ok_bind]; decide +kernel
  · rw [edit_num i2, if_pos (by decide), show toInt32 (.fin 20161116000) = .ub by decide +kernel, Res.ub_bind]
  · rw [edit_num i3, if_pos (by decide)]; rfl

example : ∃ q, IsNum numReader "2.5".toList (.fin q) ∧ '.' ∈ "2.5".toList ∧ "2.5".toList.getLast? ≠ some '.' :=
  ⟨5 / 2, isNum_of (by decide) (by decide +kernel), by decide, by decide⟩
example : IsNum numReader "-42".toList (.fin (-42 : Int)) ∧ '.' ∉ "-42".toList := ⟨isNum_of (by decide) (by decide +kernel), by decide⟩
example : NotNum numReader "deg".toList ∧ "deg".toList.head? ≠ some '\'' := ⟨notNum_of (by decide) (by decide +kernel), by decide⟩
example : NotNum numReader "'deg'".toList := notNum_of (by decide) (by decide +kernel)

end Verif.Fitstool
