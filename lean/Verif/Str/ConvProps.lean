import Verif.Str.Conv
import Verif.Astro.SexProps
import Verif.Str.WordProps
import Verif.Io.ArgvProps
import Mathlib.Data.List.TakeWhile
/-!
# C143: conversions to and from text
-/
namespace Verif.StrConv
open Verif Verif.Str Verif.Io Verif.Sex

/-! ### Spec -/

/-- only spaces -/
def Blank (s : Str) : Prop := ∀ c ∈ s, isSp c = true

/-- the text of a number: spaces, a sign, digits and spaces. `neg` tells that the sign is `-` and `m` is the number written by the digits. -/
def IntText (s : Str) (neg : Bool) (m : Nat) : Prop :=
  ∃ a g d b : Str, s = a ++ (g ++ (d ++ b)) ∧ Blank a ∧ Blank b ∧ d ≠ [] ∧ Digits d ∧ m = val d ∧
    ((neg = true ∧ g = ['-']) ∨ (neg = false ∧ (g = [] ∨ g = ['+'])))

/-! ### Helpers -/

theorem dropWhile_blank {s : Str} : s.dropWhile isSp = [] ↔ Blank s := by
  rw [List.dropWhile_eq_nil_iff]; exact Iff.rfl

theorem word_head {c : Char} {s : Str} (h : isSp c = false) : (wordReader (c :: s)).1 ≠ [] := by
  unfold wordReader
  rw [List.takeWhile_cons_of_pos (by simp [h])]
  simp

theorem drop_head {s u : Str} {c : Char} (h : s.dropWhile isSp = c :: u) : isSp c = false := by
  have := List.head?_dropWhile_not isSp s
  rw [h] at this
  simpa using this

theorem firstNotOf_word {c : Char} {w : Str} (h : isSp c = false) : firstNotOf (c :: w) [' ', '\t'] 0 ≠ none := by
  have := firstNotOf_append_some (d := []) (a := []) (t := w) (cs := [' ', '\t']) (c := c) (by simp) (by
    intro hc
    rcases List.mem_cons.1 hc with rfl | hc
    · exact absurd h (by decide)
    · rw [List.mem_singleton] at hc
      subst hc
      exact absurd h (by decide))
  simp only [List.nil_append, List.length_nil] at this
  rw [this]
  simp

/-- what follows the value must be blank -/
theorem rem_blank (rest : Str) : firstNotOf (extract wordReader rest ([] : Str)).1 [' ', '\t'] 0 = none ↔ Blank rest := by
  unfold extract
  dsimp only
  by_cases h : rest.dropWhile isSp = []
  · rw [if_pos h]
    exact ⟨fun _ => dropWhile_blank.1 h, fun _ => rfl⟩
  · rw [if_neg h]
    constructor
    · intro hf
      exfalso
      obtain ⟨c, u, hu⟩ := List.exists_cons_of_ne_nil h
      have hc := drop_head hu
      rw [hu] at hf
      unfold wordReader at hf
      rw [List.takeWhile_cons_of_pos (by simp [hc])] at hf
      exact firstNotOf_word hc hf
    · intro hb
      exact absurd (dropWhile_blank.2 hb) h

/-- `from_string` in one step -/
theorem fromString_eq {T : Type} (r : Reader T) (fb : Str → Option T) (s : Str) (t : T) :
    (∀ v rest, extract r s t = (v, false, rest) → ((fromString r fb s t).1 = true ↔ Blank rest) ∧ (fromString r fb s t).2 = v) ∧
    (∀ v rest, extract r s t = (v, true, rest) → fromString r fb s t = match fb s with | some w => (true, w) | none => (false, v)) := by
  constructor
  · intro v rest h
    unfold fromString
    rw [h]
    dsimp only
    rw [Bool.not_false, if_pos rfl]
    by_cases h0 : rest = []
    · rw [if_pos h0]
      subst h0
      exact ⟨⟨fun _ c hc => by simp at hc, fun _ => rfl⟩, rfl⟩
    · rw [if_neg h0]
      refine ⟨?_, rfl⟩
      rw [decide_eq_true_eq]
      exact rem_blank rest
  · intro v rest h
    unfold fromString
    rw [h]
    rfl

theorem takeWhile_digits {d b : Str} (hd : Digits d) (hb : Blank b) :
    (d ++ b).takeWhile Char.isDigit = d ∧ (d ++ b).dropWhile Char.isDigit = b := by
  have h1 : ∀ b : Str, Blank b → b.takeWhile Char.isDigit = [] ∧ b.dropWhile Char.isDigit = b := by
    intro b hb
    cases b with
    | nil => exact ⟨rfl, rfl⟩
    | cons c b =>
      have : ¬ Char.isDigit c = true := fun h => by
        have := isDigit_not_isSp h
        rw [hb c (by simp)] at this
        cases this
      exact ⟨List.takeWhile_cons_of_neg this, List.dropWhile_cons_of_neg this⟩
  constructor
  · rw [List.takeWhile_append_of_pos hd, (h1 b hb).1, List.append_nil]
  · rw [List.dropWhile_append_of_pos hd, (h1 b hb).2]

theorem sign_digit {c : Char} {s : Str} (h : c.isDigit = true) : sign (c :: s) = (false, c :: s) := by
  unfold sign
  split
  · rename_i e; injection e with e1 e2; subst e1; exact absurd h (by decide)
  · rename_i e; injection e with e1 e2; subst e1; exact absurd h (by decide)
  · rfl

/-- the sign of a text -/
theorem sign_cases (s : Str) : (s = '-' :: (sign s).2 ∧ (sign s).1 = true) ∨ (s = '+' :: (sign s).2 ∧ (sign s).1 = false) ∨
    (s = (sign s).2 ∧ (sign s).1 = false) := by
  unfold sign
  split
  · exact Or.inl ⟨rfl, rfl⟩
  · exact Or.inr (Or.inl ⟨rfl, rfl⟩)
  · exact Or.inr (Or.inr ⟨rfl, rfl⟩)

/-- the sign and the digits found in the text of a number -/
theorem intText_sign {s : Str} {neg : Bool} {m : Nat} (h : IntText s neg m) :
    s.dropWhile isSp ≠ [] ∧ (sign (s.dropWhile isSp)).1 = neg ∧
    (sign (s.dropWhile isSp)).2.takeWhile Char.isDigit ≠ [] ∧
    Nat.ofDigitChars 10 ((sign (s.dropWhile isSp)).2.takeWhile Char.isDigit) 0 = m ∧
    Blank ((sign (s.dropWhile isSp)).2.dropWhile Char.isDigit) := by
  obtain ⟨a, g, d, b, rfl, ha, hb, hd0, hd, hm, hg⟩ := h
  obtain ⟨c, d', rfl⟩ := List.exists_cons_of_ne_nil hd0
  have hc : c.isDigit = true := hd c (by simp)
  obtain ⟨ht1, ht2⟩ := takeWhile_digits hd hb
  have e1 : (a ++ (g ++ (c :: d' ++ b))).dropWhile isSp = g ++ (c :: d' ++ b) := by
    rw [List.dropWhile_append_of_pos ha]
    rcases hg with ⟨_, rfl⟩ | ⟨_, rfl | rfl⟩
    · rfl
    · exact List.dropWhile_cons_of_neg (by rw [isDigit_not_isSp hc]; simp)
    · rfl
  have e2 : sign (g ++ (c :: d' ++ b)) = (neg, c :: d' ++ b) := by
    rcases hg with ⟨rfl, rfl⟩ | ⟨rfl, rfl | rfl⟩
    · rfl
    · exact sign_digit hc
    · rfl
  rw [e1, e2]
  dsimp only
  rw [ht1, ht2]
  exact ⟨by simp, rfl, hd0, hm.symm, hb⟩

/-- and conversely -/
theorem sign_intText {s : Str} (h1 : (sign (s.dropWhile isSp)).2.takeWhile Char.isDigit ≠ [])
    (h2 : Blank ((sign (s.dropWhile isSp)).2.dropWhile Char.isDigit)) :
    IntText s (sign (s.dropWhile isSp)).1 (Nat.ofDigitChars 10 ((sign (s.dropWhile isSp)).2.takeWhile Char.isDigit) 0) := by
  have hs : s = s.takeWhile isSp ++ s.dropWhile isSp := List.takeWhile_append_dropWhile.symm
  generalize hu : s.dropWhile isSp = u at *
  have ha : Blank (s.takeWhile isSp) := fun c hc => List.mem_takeWhile_imp hc
  have hd : Digits ((sign u).2.takeWhile Char.isDigit) := fun c hc => List.mem_takeWhile_imp hc
  have hw : (sign u).2.takeWhile Char.isDigit ++ (sign u).2.dropWhile Char.isDigit = (sign u).2 := List.takeWhile_append_dropWhile
  rcases sign_cases u with ⟨h, h'⟩ | ⟨h, h'⟩ | ⟨h, h'⟩
  · refine ⟨_, ['-'], _, _, ?_, ha, h2, h1, hd, rfl, Or.inl ⟨h', rfl⟩⟩
    rw [hw]
    exact hs.trans (congrArg _ h)
  · refine ⟨_, ['+'], _, _, ?_, ha, h2, h1, hd, rfl, Or.inr ⟨h', Or.inr rfl⟩⟩
    rw [hw]
    exact hs.trans (congrArg _ h)
  · refine ⟨_, [], _, _, ?_, ha, h2, h1, hd, rfl, Or.inr ⟨h', Or.inl rfl⟩⟩
    rw [hw]
    exact hs.trans (congrArg _ h)

/-- integers refused by the reader stay refused -/
theorem fromString_true {T : Type} {r : Reader T} {s : Str} {t v : T} :
    fromString r noFallback s t = (true, v) ↔ ∃ rest, extract r s t = (v, false, rest) ∧ Blank rest := by
  obtain ⟨h1, h2⟩ := fromString_eq r noFallback s t
  rcases h : extract r s t with ⟨w, fl, rest⟩
  cases fl with
  | true =>
    rw [h2 w rest h]
    simp [noFallback]
  | false =>
    obtain ⟨h3, h4⟩ := h1 w rest h
    rw [Prod.ext_iff, h3, h4]
    constructor
    · rintro ⟨hb, rfl⟩
      exact ⟨rest, rfl, hb⟩
    · rintro ⟨rest', he, hb⟩
      injection he with he1 he2
      injection he2 with _ he2
      subst he1 he2
      exact ⟨hb, rfl⟩

/-! ### C143 -/

/-- Signed integers of any size: a text is accepted exactly if it is a number, with a sign and surrounded by spaces if any, within the range of the
type; and the value is this number. -/
theorem C143_signed (bits : Nat) (s : Str) (t v : Int) :
    fromString (intReader ⟨true, bits⟩) noFallback s t = (true, v) ↔
      ∃ neg m, IntText s neg m ∧ v = (if neg then -(m : Int) else m) ∧ -2 ^ (bits - 1) ≤ v ∧ v ≤ 2 ^ (bits - 1) - 1 := by
  rw [fromString_true]
  constructor
  · rintro ⟨rest, he, hb⟩
    unfold extract at he
    dsimp only at he
    split at he
    · injection he with _ he; injection he with he _; cases he
    · unfold intReader at he
      dsimp only at he
      split at he
      · injection he with _ he; injection he with he _; cases he
      · rename_i hd
        rw [if_pos rfl] at he
        generalize hw : (if (sign (s.dropWhile isSp)).1 = true then
          -((Nat.ofDigitChars 10 ((sign (s.dropWhile isSp)).2.takeWhile Char.isDigit) 0 : Nat) : Int)
          else ((Nat.ofDigitChars 10 ((sign (s.dropWhile isSp)).2.takeWhile Char.isDigit) 0 : Nat) : Int)) = w at he
        split at he
        · injection he with _ he; injection he with he _; cases he
        · rename_i hlo
          split at he
          · injection he with _ he; injection he with he _; cases he
          · rename_i hhi
            injection he with he1 he
            injection he with _ he2
            subst he2 he1
            refine ⟨_, _, sign_intText hd hb, hw.symm, ?_, ?_⟩
            · simpa [IntTy.lo] using hlo
            · simpa [IntTy.hi] using hhi
  · rintro ⟨neg, m, ht, hv, hlo, hhi⟩
    obtain ⟨k1, k2, k3, k4, k5⟩ := intText_sign ht
    refine ⟨_, ?_, k5⟩
    unfold extract
    dsimp only
    rw [if_neg k1]
    unfold intReader
    dsimp only
    rw [if_neg k3, if_pos rfl, k2, k4, ← hv, if_neg, if_neg]
    · simpa [IntTy.hi] using hhi
    · simpa [IntTy.lo] using hlo

/-- Unsigned integers of any size: a text is accepted exactly if it is a number whose absolute value is within the range of the type. The value is
this number, but negative numbers are accepted, and wrap around. -/
theorem C143_unsigned_partial (bits : Nat) (s : Str) (t v : Int) :
    fromString (intReader ⟨false, bits⟩) noFallback s t = (true, v) ↔
      ∃ neg m, IntText s neg m ∧ v = (if neg then (-(m : Int)) % 2 ^ bits else m) ∧ (m : Int) ≤ 2 ^ bits - 1 := by
  rw [fromString_true]
  constructor
  · rintro ⟨rest, he, hb⟩
    unfold extract at he
    dsimp only at he
    split at he
    · injection he with _ he; injection he with he _; cases he
    · unfold intReader at he
      dsimp only at he
      split at he
      · injection he with _ he; injection he with he _; cases he
      · rename_i hd
        rw [if_neg (by simp)] at he
        split at he
        · injection he with _ he; injection he with he _; cases he
        · rename_i hhi
          injection he with he1 he
          injection he with _ he2
          subst he2
          refine ⟨_, _, sign_intText hd hb, he1.symm, ?_⟩
          simpa [IntTy.hi] using hhi
  · rintro ⟨neg, m, ht, hv, hhi⟩
    obtain ⟨k1, k2, k3, k4, k5⟩ := intText_sign ht
    refine ⟨_, ?_, k5⟩
    unfold extract
    dsimp only
    rw [if_neg k1]
    unfold intReader
    dsimp only
    rw [if_neg k3, if_neg (by simp), k2, k4, ← hv, if_neg]
    simpa [IntTy.hi] using hhi

/-- "-1" is accepted as an unsigned integer -/
theorem C143_unsigned_refuted : fromString (intReader ⟨false, 64⟩) noFallback "-1".toList 0 = (true, 18446744073709551615) := by
  decide +kernel

/-- the text of an integer -/
theorem intText_dec (v : Int) : IntText (intToString v) (decide (v < 0)) v.natAbs := by
  unfold intToString decInt
  by_cases h : v < 0
  · rw [if_pos h]
    exact ⟨[], ['-'], dec v.natAbs, [], by simp, by simp [Blank], by simp [Blank], dec_ne_nil _, digits_dec _, (val_dec _).symm,
      Or.inl ⟨by simp [h], rfl⟩⟩
  · rw [if_neg h]
    exact ⟨[], [], dec v.natAbs, [], by simp, by simp [Blank], by simp [Blank], dec_ne_nil _, digits_dec _, (val_dec _).symm,
      Or.inr ⟨by simp [h], Or.inl rfl⟩⟩

/-- Integers of any type are read back from their text. -/
theorem C143_int_round_trip (ty : IntTy) (v t : Int) (h1 : ty.lo ≤ v) (h2 : v ≤ ty.hi) :
    fromString (intReader ty) noFallback (intToString v) t = (true, v) := by
  obtain ⟨sg, bits⟩ := ty
  cases sg with
  | true =>
    rw [C143_signed]
    refine ⟨_, _, intText_dec v, ?_, by simpa [IntTy.lo] using h1, by simpa [IntTy.hi] using h2⟩
    by_cases h : v < 0
    · rw [if_pos (by simpa using h)]; omega
    · rw [if_neg (by simpa using h)]; omega
  | false =>
    rw [C143_unsigned_partial]
    have h1' : 0 ≤ v := by simpa [IntTy.lo] using h1
    have h2' : v ≤ 2 ^ bits - 1 := by simpa [IntTy.hi] using h2
    refine ⟨_, _, intText_dec v, ?_, ?_⟩
    · rw [if_neg (by simpa using h1')]; omega
    · omega

example : (⟨true, 16⟩ : IntTy).lo ≤ -32768 ∧ (-32768 : Int) ≤ (⟨true, 16⟩ : IntTy).hi ∧
    fromString (intReader ⟨true, 16⟩) noFallback "-32769".toList 3 = (false, -32768) ∧
    fromString (intReader ⟨true, 16⟩) noFallback " +12\t\n".toList 3 = (true, 12) ∧
    fromString (intReader ⟨true, 16⟩) noFallback "12 a".toList 3 = (false, 12) ∧
    fromString (intReader ⟨true, 16⟩) noFallback "1.5".toList 3 = (false, 1) := by decide +kernel

/-- Booleans are read back from their text. -/
theorem C143_bool (b t : Bool) : fromString boolReader noFallback (boolToString b) t = (true, b) ∧
    fromString boolReader noFallback "true".toList t = (false, false) ∧ fromString boolReader noFallback "2".toList t = (false, true) := by
  cases b <;> cases t <;> decide +kernel

/-- Texts: a word is read back. -/
theorem C143_string_partial {s : Str} (h0 : s ≠ []) (h : ∀ c ∈ s, isSp c = false) (t : Str) :
    fromString wordReader noFallback s t = (true, s) := by
  rw [fromString_true]
  have h1 : s.dropWhile isSp = s := by
    obtain ⟨c, u, rfl⟩ := List.exists_cons_of_ne_nil h0
    exact List.dropWhile_cons_of_neg (by rw [h c (by simp)]; simp)
  have hp : ∀ c ∈ s, (fun c => !isSp c) c = true := fun c hc => by simp [h c hc]
  refine ⟨[], ?_, by simp [Blank]⟩
  unfold extract
  dsimp only
  rw [h1, if_neg h0]
  unfold wordReader
  rw [List.takeWhile_eq_self_iff.2 hp, List.dropWhile_eq_nil_iff.2 hp]

/-- Empty texts and texts of several words are refused, although `to_string` returns them unchanged. -/
theorem C143_string_refuted : fromString wordReader noFallback [] "old".toList = (false, "old".toList) ∧
    fromString wordReader noFallback "a b".toList [] = (false, "a".toList) := by decide +kernel

/-- Characters: any character but spaces is read back. -/
theorem C143_char_partial {c : Char} (h : isSp c = false) (t : Char) : fromString charReader noFallback [c] t = (true, c) := by
  rw [fromString_true]
  refine ⟨[], ?_, by simp [Blank]⟩
  unfold extract
  dsimp only
  rw [List.dropWhile_cons_of_neg (by rw [h]; simp), if_neg (by simp)]
  rfl

/-- A space is not read back; and "12" is refused as an integer of 8 bits, which is read as a character. -/
theorem C143_char_refuted : fromString charReader noFallback [' '] 'x' = (false, 'x') ∧
    fromString charReader noFallback "12".toList 'x' = (false, '1') := by decide +kernel

/-- NaN and the infinities are read back from their texts, which are refused by the reader of numbers. -/
theorem C143_special {K : Type} (r : Reader (Fl K)) (fmt : K → Str) (nanNeg : Bool) (x t : Fl K) (hx : ∀ y, x ≠ .fin y)
    (hr : ∀ s ∈ ["nan".toList, "-nan".toList, "inf".toList, "-inf".toList], (r s).2.1 = true) :
    fromString r flFallback (flToString fmt nanNeg x) t = (true, x) := by
  have key : ∀ s ∈ ["nan".toList, "-nan".toList, "inf".toList, "-inf".toList], ∀ w, flFallback s = some w → fromString r flFallback s t = (true, w) := by
    intro s hs w hw
    have h1 : s.dropWhile isSp = s ∧ s ≠ [] := by
      simp only [List.mem_cons, List.not_mem_nil, or_false] at hs
      rcases hs with rfl | rfl | rfl | rfl <;> decide
    have he : extract r s t = ((r s).1, true, (r s).2.2) := by
      unfold extract
      dsimp only
      rw [h1.1, if_neg h1.2, ← hr s hs]
    rw [(fromString_eq r flFallback s t).2 _ _ he, hw]
  cases x with
  | fin y => exact absurd rfl (hx y)
  | nan =>
    cases nanNeg
    · exact key "nan".toList (by simp) _ rfl
    · exact key "-nan".toList (by simp) _ rfl
  | inf neg =>
    cases neg
    · exact key "inf".toList (by simp) _ rfl
    · exact key "-inf".toList (by simp) _ rfl

example : ∀ s ∈ ["nan".toList, "-nan".toList, "inf".toList, "-inf".toList], (flReader s).2.1 = true := by decide +kernel

/-- A number which is not special is given by the reader of numbers only: the special texts are exactly NAN, INF with or without a sign in front, and INF
with a sign behind, in any case; spaces are not accepted around them. -/
theorem C143_special_texts {K : Type} (s : Str) : (flFallback (K := K) s = some .nan ↔ s.map Char.toUpper ∈ ["NAN".toList, "+NAN".toList, "-NAN".toList]) ∧
    (flFallback (K := K) s = some (.inf false) ↔ s.map Char.toUpper ∈ ["INF".toList, "+INF".toList, "INF+".toList]) ∧
    (flFallback (K := K) s = some (.inf true) ↔ s.map Char.toUpper ∈ ["-INF".toList, "INF-".toList]) ∧
    ∀ x, flFallback (K := K) s ≠ some (.fin x) := by
  unfold flFallback
  generalize s.map Char.toUpper = u
  dsimp only
  simp only [List.mem_cons, List.not_mem_nil, or_false]
  split
  · rename_i h
    have : u ≠ "+INF".toList ∧ u ≠ "INF+".toList ∧ u ≠ "INF".toList ∧ u ≠ "-INF".toList ∧ u ≠ "INF-".toList := by
      rcases h with rfl | rfl | rfl <;> decide
    simp only [this, h]
    simp
  · rename_i h
    split
    · rename_i h'
      have : u ≠ "-INF".toList ∧ u ≠ "INF-".toList := by
        rcases h' with rfl | rfl | rfl <;> decide
      simp only [h]
      simp [this]
      tauto
    · rename_i h'
      split
      · rename_i h2
        simp only [h]
        simp [h2]
        tauto
      · rename_i h2
        simp only [h]
        simp [h2]
        tauto

/-- Vectors: each element is converted on its own, whatever the size of the output before. -/
theorem C143_vec {T : Type} (r : Reader T) (fb : Str → Option T) (s : List Str) (t : List T) (z : T) :
    ∃ bs vs, fromStringVec r fb s t z = .ok (bs, vs) ∧ bs.length = s.length ∧ vs.length = s.length ∧
      ∀ i (hi : i < s.length), ∃ o, (bs[i]?, vs[i]?) = (some (fromString r fb s[i] o).1, some (fromString r fb s[i] o).2) ∧
        (o = t[i]?.getD z) := by
  unfold fromStringVec
  generalize ht : t.take s.length ++ List.replicate (s.length - t.length) z = t'
  have hl : t'.length = s.length := by
    subst ht
    simp
    omega
  have hg : ∀ i (hi : i < t'.length), t'[i] = t[i]?.getD z := by
    intro i hi
    subst ht
    rw [List.getElem_append]
    split
    · rename_i h
      simp only [List.length_take] at h
      rw [List.getElem_take, List.getElem?_eq_getElem (by omega)]
      rfl
    · rename_i h
      simp only [List.length_take] at h
      rw [List.getElem_replicate, List.getElem?_eq_none (by omega)]
      rfl
  have hm := Res.mapM_ok (l := List.range s.length)
    (f := fun i => (do let a ← Res.rd s i; let b ← Res.rd t' i; .ok (fromString r fb a b) : Res (Bool × T)))
    (g := fun i => fromString r fb (s[i]?.getD []) (t[i]?.getD z)) (by
      intro i hi
      rw [List.mem_range] at hi
      rw [Res.rd_lt hi, Res.ok_bind, Res.rd_lt (by omega : i < t'.length), Res.ok_bind, hg, List.getElem?_eq_getElem hi]
      rfl)
  dsimp only
  rw [hm, Res.ok_bind]
  refine ⟨_, _, rfl, by simp, by simp, ?_⟩
  intro i hi
  exact ⟨_, by simp [hi], rfl⟩

/-- Floating point numbers are printed with six digits: they are not read back beyond. -/
theorem C143_float_refuted : fmtG 1234567 = "1.23457e+06".toList ∧
    fromString flReader flFallback (fmtG 1234567) .nan = (true, .fin 1234570) := by decide +kernel

/-- Whole numbers of up to six digits are read back. -/
theorem C143_float_partial {n : Nat} (h : n < 10 ^ 6) (t : Fl ℚ) : fromString flReader flFallback (fmtG n) t = (true, .fin (n : ℚ)) := by
  have hd := digits_dec n
  obtain ⟨c, u, hu⟩ := List.exists_cons_of_ne_nil (dec_ne_nil n)
  have hc : c.isDigit = true := hd c (by rw [hu]; simp)
  obtain ⟨k1, k2⟩ := takeWhile_digits (b := []) hd (by simp [Blank])
  rw [List.append_nil] at k1 k2
  have he : extract flReader (dec n) t = (.fin (n : ℚ), false, []) := by
    unfold extract
    have e1 : (dec n).dropWhile isSp = dec n := by
      rw [hu]
      exact List.dropWhile_cons_of_neg (by rw [isDigit_not_isSp hc]; simp)
    dsimp only
    rw [e1, if_neg (dec_ne_nil n)]
    unfold flReader
    have e2 : sign (dec n) = (false, dec n) := by rw [hu]; exact sign_digit hc
    rw [e2]
    dsimp only
    rw [k2, k1]
    dsimp only
    rw [if_neg (by simp [dec_ne_nil])]
    have := val_dec n
    unfold val at this
    simp [this]
  unfold fmtG
  rw [if_pos h]
  obtain ⟨h1, h2⟩ := (fromString_eq flReader flFallback (dec n) t).1 _ _ he
  exact Prod.ext (h1.2 (by simp [Blank])) h2

/-- The conversion of the components of coordinates (`sex2deg`) is the one of 64 bit integers. -/
theorem C143_int64 (s : Str) (t v : Int) : Sex.fromInt s = some v ↔ fromString (intReader ⟨true, 64⟩) noFallback s t = (true, v) := by
  rw [C143_signed]
  constructor
  · intro h
    unfold fromInt at h
    obtain ⟨h1, h2⟩ := Option.filter_eq_some_iff.1 h
    rw [decide_eq_true_eq] at h2
    obtain ⟨a, w, b, hs, ha, hb, hw⟩ : ∃ a w b, s = a ++ (w ++ b) ∧ Blank a ∧ Blank b ∧
        ((s.dropWhile isSp).reverse.dropWhile isSp).reverse = w := by
      refine ⟨s.takeWhile isSp, _, ((s.dropWhile isSp).reverse.takeWhile isSp).reverse, ?_, fun c hc => List.mem_takeWhile_imp hc,
        fun c hc => List.mem_takeWhile_imp (List.mem_reverse.1 hc), rfl⟩
      rw [← List.reverse_append, List.takeWhile_append_dropWhile, List.reverse_reverse, List.takeWhile_append_dropWhile]
    rw [hw] at h1
    have key : ∀ u n, parseNat u = some n → u ≠ [] ∧ Digits u ∧ n = val u := by
      intro u n hu
      unfold parseNat at hu
      split at hu
      · rename_i hh
        exact ⟨hh.1, fun c hc => List.all_eq_true.1 hh.2 c hc, by injection hu with hu; exact hu.symm⟩
      · cases hu
    unfold parseInt at h1
    split at h1
    · obtain ⟨n, hn, hv⟩ := Option.map_eq_some_iff.1 h1
      obtain ⟨k1, k2, k3⟩ := key _ _ hn
      exact ⟨true, n, ⟨a, ['-'], _, b, hs, ha, hb, k1, k2, k3, Or.inl ⟨rfl, rfl⟩⟩, hv.symm, by omega, by omega⟩
    · obtain ⟨n, hn, hv⟩ := Option.map_eq_some_iff.1 h1
      obtain ⟨k1, k2, k3⟩ := key _ _ hn
      exact ⟨false, n, ⟨a, ['+'], _, b, hs, ha, hb, k1, k2, k3, Or.inr ⟨rfl, Or.inr rfl⟩⟩, hv.symm, by omega, by omega⟩
    · obtain ⟨n, hn, hv⟩ := Option.map_eq_some_iff.1 h1
      obtain ⟨k1, k2, k3⟩ := key _ _ hn
      exact ⟨false, n, ⟨a, [], _, b, hs, ha, hb, k1, k2, k3, Or.inr ⟨rfl, Or.inl rfl⟩⟩, hv.symm, by omega, by omega⟩
  · rintro ⟨neg, m, ⟨a, g, d, b, rfl, ha, hb, hd0, hd, hm, hg⟩, hv, hlo, hhi⟩
    have hns : ∀ c ∈ g ++ d, isSp c = false := by
      intro c hc
      rcases List.mem_append.1 hc with hc | hc
      · rcases hg with ⟨_, rfl⟩ | ⟨_, rfl | rfl⟩
        · rw [List.mem_singleton] at hc; subst hc; decide
        · simp at hc
        · rw [List.mem_singleton] at hc; subst hc; decide
      · exact isDigit_not_isSp (hd c hc)
    have hne : g ++ d ≠ [] := by simp [hd0]
    have e : (((a ++ (g ++ (d ++ b))).dropWhile isSp).reverse.dropWhile isSp).reverse = g ++ d := by
      rw [List.dropWhile_append_of_pos ha, ← List.append_assoc]
      have e1 : (g ++ d ++ b).dropWhile isSp = g ++ d ++ b := by
        obtain ⟨c, w, hw⟩ := List.exists_cons_of_ne_nil hne
        rw [hw]
        exact List.dropWhile_cons_of_neg (by rw [hns c (by rw [hw]; simp)]; simp)
      rw [e1, List.reverse_append, List.dropWhile_append_of_pos (fun c hc => hb c (List.mem_reverse.1 hc))]
      have := trim_id (s := (g ++ d)) hns
      have e2 : (g ++ d).dropWhile isSp = g ++ d := by
        obtain ⟨c, w, hw⟩ := List.exists_cons_of_ne_nil hne
        rw [hw]
        exact List.dropWhile_cons_of_neg (by rw [hns c (by rw [hw]; simp)]; simp)
      rw [e2] at this
      exact this
    unfold fromInt
    rw [e]
    have e3 : parseInt (g ++ d) = some v := by
      rcases hg with ⟨rfl, rfl⟩ | ⟨rfl, rfl | rfl⟩
      · change (parseNat d).map _ = _
        rw [parseNat_digits hd0 hd, ← hm, hv]
        rfl
      · rw [List.nil_append, parseInt_digits hd0 hd, ← hm, hv]
        rfl
      · change (parseNat d).map _ = _
        rw [parseNat_digits hd0 hd, ← hm, hv]
        rfl
    rw [e3, Option.filter_some, if_pos]
    rw [decide_eq_true_eq]
    omega

/-- the conversion that `from_string` makes, as an option -/
def convOpt {T : Type} (r : Reader T) (fb : Str → Option T) (t : T) (s : Str) : Option T :=
  let p := fromString r fb s t
  if p.1 then some p.2 else none

/-- A vector of integers written on the command line by the library is read back, for all types of integers (C85 with these conversions). -/
theorem C143_argument (ty : IntTy) (name : Str) (ts t : List Int) (hname : '=' ∉ name ∧ name.head? ≠ some '-' ∧ IsTrim blanks name name)
    (hts : ∀ x ∈ ts, ty.lo ≤ x ∧ x ≤ ty.hi) :
    readVector ⟨1, convOpt (intReader ty) noFallback 0⟩ name ⟨name ++ '=' :: writeArg intToString ts, true, true⟩ t =
      .ok (true, ts, ⟨name ++ '=' :: writeArg intToString ts, true, true⟩) := by
  have hchars : ∀ x : Int, ∀ c ∈ intToString x, c = '-' ∨ c.isDigit = true := by
    intro x c hc
    unfold intToString decInt at hc
    split at hc
    · rcases List.mem_cons.1 hc with h | h
      · exact Or.inl h
      · exact Or.inr (digits_dec _ c h)
    · exact Or.inr (digits_dec _ c hc)
  have hcs : ∀ cs : Str, (∀ c ∈ cs, c ≠ '-' ∧ c.isDigit = false) → ∀ x, IsTrim cs (intToString x) (intToString x) := by
    intro cs hcs x
    refine ⟨[], [], by simp, by simp, by simp, ?_, ?_⟩
    · intro c hc hm
      rcases hchars x c (List.mem_of_mem_head? hc) with h | h
      · exact (hcs c hm).1 h
      · rw [(hcs c hm).2] at h; cases h
    · intro c hc hm
      rcases hchars x c (List.mem_of_getLast? hc) with h | h
      · exact (hcs c hm).1 h
      · rw [(hcs c hm).2] at h; cases h
  refine C85_roundtrip _ intToString name ts t hname ?_ ?_
  · intro x hx
    refine ⟨?_, ⟨hcs _ (by decide) x, hcs _ (by decide) x⟩, ?_⟩
    · intro hc
      rcases hchars x _ hc with h | h
      · exact absurd h (by decide)
      · exact absurd h (by decide)
    · change (if (fromString (intReader ty) noFallback (intToString x) 0).1 = true then _ else _) = _
      rw [C143_int_round_trip ty x 0 (hts x hx).1 (hts x hx).2]
      rfl
  · intro h
    cases ts with
    | nil => cases h
    | cons x ts =>
      rw [List.map_cons] at h
      injection h with h _
      unfold intToString decInt at h
      split at h
      · cases h
      · exact dec_ne_nil _ h

example : '=' ∉ "ids".toList ∧ "ids".toList.head? ≠ some '-' ∧ IsTrim blanks "ids".toList "ids".toList :=
  ⟨by decide, by decide, [], [], by decide, by simp, by simp, by decide, by decide⟩

end Verif.StrConv
