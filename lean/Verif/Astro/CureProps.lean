import Verif.Astro.Cure
import Verif.Io.HeaderParseProps
/-!
# C174: headers given to WCSlib
-/
namespace Verif.Cure
open Verif Verif.Str Verif.Fits

/-! ### Specification -/

/-- Spec: a number -/
def Digits (s : Str) : Prop := s ≠ [] ∧ ∀ c ∈ s, c ∈ "0123456789".toList

/-- Spec: `CUNITn` -/
def UnitKey (s : Str) : Prop := ∃ d, Digits d ∧ s = "CUNIT".toList ++ d

/-- Spec: `CPDISn` and `CQDISn` -/
def DisKey (s : Str) : Prop := ∃ p d, p ∈ ["CPDIS".toList, "CQDIS".toList] ∧ Digits d ∧ s = p ++ d

/-- Spec: the coefficients and orders of SIP polynomials: `A_1_2`, `BP_ORDER`... -/
def SipKey (s : Str) : Prop := ∃ p t, p ∈ ["A_".toList, "B_".toList, "AP_".toList, "BP_".toList] ∧
  (t = "ORDER".toList ∨ ∃ d e, Digits d ∧ Digits e ∧ t = d ++ "_".toList ++ e) ∧ s = p ++ t

/-- Spec: the keywords of distortions by a table -/
def TableKey (s : Str) : Prop := ∃ p d, p ∈ ["DP".toList, "DQ".toList, "D2IM".toList, "CPERR".toList, "CPDIS".toList, "CPEXT".toList, "CQERR".toList,
  "CQDIS".toList, "CQEXT".toList, "D2IMERR".toList, "D2IMDIS".toList, "D2IMEXT".toList] ∧ Digits d ∧ s = p ++ d

/-- Spec: some keyword asks for a distortion by a table -/
def Lookup (keys : List Keyword) : Prop := ∃ k ∈ keys, DisKey k.key ∧ "Lookup".toList <:+: k.value

/-- Spec: the keywords that are removed -/
def Gone (keys : List Keyword) (k : Keyword) : Prop := SipKey k.key ∨ (Lookup keys ∧ TableKey k.key)

/-- Spec: the value without quotes and spaces around -/
def Bare (v t : Str) : Prop := IsTrim "' ".toList v t

/-- Spec: the standard name of a unit -/
def unitName (t : Str) : Option Str :=
  if t = "micron".toList ∨ t = "microns".toList then some "'um'".toList
  else if t = "degree".toList ∨ t = "degrees".toList then some "'deg'".toList else none

/-- Spec: the correction of one keyword -/
def Fix (k k' : Keyword) : Prop :=
  (UnitKey k.key ∧ ∃ t u, Bare k.value t ∧ unitName t = some u ∧ k' = { k with value := u }) ∨
  ((UnitKey k.key → ∀ t, Bare k.value t → unitName t = none) ∧ k' = k)

/-- Spec: a list of keywords without some of them, the others being corrected -/
inductive Cured (gone : Keyword → Prop) : List Keyword → List Keyword → Prop
  | nil : Cured gone [] []
  | drop {k l l'} : gone k → Cured gone l l' → Cured gone (k :: l) l'
  | keep {k k' l l'} : ¬ gone k → Fix k k' → Cured gone l l' → Cured gone (k :: l) (k' :: l')

/-! ### Expressions -/

theorem cls_iff (cs s : Str) : (cls cs).rmatch s = true ↔ ∃ c ∈ cs, s = [c] := by
  induction cs with
  | nil => simp [cls, RegularExpression.zero_rmatch]
  | cons c cs ih =>
    unfold cls at ih ⊢
    rw [List.foldr_cons, RegularExpression.add_rmatch_iff, RegularExpression.char_rmatch_iff, ih]
    simp

theorem lit_iff (l s : Str) : (lit l).rmatch s = true ↔ s = l := by
  induction l generalizing s with
  | nil => simp [lit, RegularExpression.one_rmatch_iff]
  | cons c l ih =>
    unfold lit at ih ⊢
    rw [List.foldr_cons, RegularExpression.mul_rmatch_iff]
    constructor
    · rintro ⟨t, u, rfl, h1, h2⟩
      rw [RegularExpression.char_rmatch_iff] at h1
      rw [ih] at h2
      simp [h1, h2]
    · rintro rfl
      exact ⟨[c], l, rfl, by rw [RegularExpression.char_rmatch_iff], by rw [ih]⟩

theorem cls_star (cs s : Str) : (cls cs).star.rmatch s = true ↔ ∀ c ∈ s, c ∈ cs := by
  rw [RegularExpression.star_rmatch_iff]
  constructor
  · rintro ⟨S, rfl, h⟩ c hc
    obtain ⟨t, ht, hc⟩ := List.mem_flatten.1 hc
    obtain ⟨a, ha, rfl⟩ := (cls_iff cs t).1 (h t ht).2
    simp at hc
    exact hc ▸ ha
  · intro h
    refine ⟨s.map fun c => [c], ?_, ?_⟩
    · induction s with
      | nil => rfl
      | cons c s ih => rw [List.map_cons, List.flatten_cons, ← ih fun c hc => h c (by simp [hc])]; rfl
    · intro t ht
      obtain ⟨c, hc, rfl⟩ := List.mem_map.1 ht
      exact ⟨by simp, (cls_iff _ _).2 ⟨c, h c hc, rfl⟩⟩

theorem digits_iff (s : Str) : digits.rmatch s = true ↔ Digits s := by
  unfold digits Digits
  rw [RegularExpression.mul_rmatch_iff]
  constructor
  · rintro ⟨t, u, rfl, h1, h2⟩
    obtain ⟨c, hc, rfl⟩ := (cls_iff _ _).1 h1
    refine ⟨by simp, fun x hx => ?_⟩
    rcases List.mem_cons.1 hx with rfl | hx
    · exact hc
    · exact (cls_star _ _).1 h2 x hx
  · rintro ⟨h1, h2⟩
    cases s with
    | nil => exact absurd rfl h1
    | cons c s => exact ⟨[c], s, rfl, (cls_iff _ _).2 ⟨c, h2 c (by simp), rfl⟩, (cls_star _ _).2 fun x hx => h2 x (by simp [hx])⟩

theorem mul_iff (P Q : Rx) (s : Str) : (P * Q).rmatch s = true ↔ ∃ t u, s = t ++ u ∧ P.rmatch t = true ∧ Q.rmatch u = true :=
  RegularExpression.mul_rmatch_iff P Q s

theorem add_iff (P Q : Rx) (s : Str) : (P + Q).rmatch s = true ↔ P.rmatch s = true ∨ Q.rmatch s = true :=
  RegularExpression.add_rmatch_iff P Q s

theorem unit_iff (s : Str) : rxUnit.rmatch s = true ↔ UnitKey s := by
  unfold rxUnit UnitKey
  rw [mul_iff]
  constructor
  · rintro ⟨t, u, rfl, h1, h2⟩
    exact ⟨u, (digits_iff u).1 h2, by rw [(lit_iff _ _).1 h1]⟩
  · rintro ⟨d, hd, rfl⟩
    exact ⟨_, d, rfl, (lit_iff _ _).2 rfl, (digits_iff d).2 hd⟩

theorem dis_iff (s : Str) : rxDis.rmatch s = true ↔ DisKey s := by
  unfold rxDis DisKey
  rw [mul_iff]
  constructor
  · rintro ⟨t, u, rfl, h1, h2⟩
    obtain ⟨t2, u2, rfl, h2', h3⟩ := (mul_iff _ _ _).1 h2
    obtain ⟨t3, u3, rfl, h3, h4⟩ := (mul_iff _ _ _).1 h3
    obtain ⟨c, hc, rfl⟩ := (cls_iff _ _).1 h2'
    rw [(lit_iff _ _).1 h1, (lit_iff _ _).1 h3]
    refine ⟨"C".toList ++ [c] ++ "DIS".toList, u3, ?_, (digits_iff u3).1 h4, by simp⟩
    have : c = 'P' ∨ c = 'Q' := by simpa using hc
    rcases this with rfl | rfl <;> simp
  · rintro ⟨p, d, hp, hd, rfl⟩
    have : p = "C".toList ++ (['P'] ++ "DIS".toList) ∨ p = "C".toList ++ (['Q'] ++ "DIS".toList) := by simpa using hp
    rcases this with rfl | rfl
    · exact ⟨"C".toList, ['P'] ++ ("DIS".toList ++ d), by simp, (lit_iff _ _).2 rfl, (mul_iff _ _ _).2 ⟨['P'], _, rfl, (cls_iff _ _).2 ⟨'P', by decide, rfl⟩,
        (mul_iff _ _ _).2 ⟨_, d, rfl, (lit_iff _ _).2 rfl, (digits_iff d).2 hd⟩⟩⟩
    · exact ⟨"C".toList, ['Q'] ++ ("DIS".toList ++ d), by simp, (lit_iff _ _).2 rfl, (mul_iff _ _ _).2 ⟨['Q'], _, rfl, (cls_iff _ _).2 ⟨'Q', by decide, rfl⟩,
        (mul_iff _ _ _).2 ⟨_, d, rfl, (lit_iff _ _).2 rfl, (digits_iff d).2 hd⟩⟩⟩

theorem sip_iff (s : Str) : rxSip.rmatch s = true ↔ SipKey s := by
  unfold rxSip SipKey
  rw [mul_iff]
  constructor
  · rintro ⟨t, u, rfl, h1, h2⟩
    obtain ⟨t2, u2, rfl, h2', h3⟩ := (mul_iff _ _ _).1 h2
    obtain ⟨t3, u3, rfl, h3, h4⟩ := (mul_iff _ _ _).1 h3
    obtain ⟨c, hc, rfl⟩ := (cls_iff _ _).1 h1
    rw [(lit_iff _ _).1 h3]
    have hu : u3 = "ORDER".toList ∨ ∃ d e, Digits d ∧ Digits e ∧ u3 = d ++ "_".toList ++ e := by
      rcases (add_iff _ _ _).1 h4 with h4 | h4
      · obtain ⟨d, v, rfl, h5, h6⟩ := (mul_iff _ _ _).1 h4
        obtain ⟨w, e, rfl, h7, h8⟩ := (mul_iff _ _ _).1 h6
        exact .inr ⟨d, e, (digits_iff d).1 h5, (digits_iff e).1 h8, by rw [(lit_iff _ _).1 h7]; simp⟩
      · exact .inl ((lit_iff _ _).1 h4)
    have ht : t2 = "P".toList ∨ t2 = [] := by
      rcases (add_iff _ _ _).1 h2' with h2 | h2
      · exact .inl ((lit_iff _ _).1 h2)
      · exact .inr ((RegularExpression.one_rmatch_iff _).1 h2)
    refine ⟨[c] ++ t2 ++ "_".toList, u3, ?_, hu, by simp⟩
    have : c = 'A' ∨ c = 'B' := by simpa using hc
    rcases this with rfl | rfl <;> rcases ht with rfl | rfl <;> simp
  · rintro ⟨p, t, hp, ht, rfl⟩
    have h4 : (digits * (lit "_".toList * digits) + lit "ORDER".toList).rmatch t = true := by
      rw [add_iff]
      rcases ht with rfl | ⟨d, e, hd, he, rfl⟩
      · exact .inr ((lit_iff _ _).2 rfl)
      · exact .inl ((mul_iff _ _ _).2 ⟨d, "_".toList ++ e, by simp, (digits_iff d).2 hd, (mul_iff _ _ _).2 ⟨_, e, rfl, (lit_iff _ _).2 rfl, (digits_iff e).2 he⟩⟩)
    have h5 : ∀ c q, c ∈ "AB".toList → (q = "P".toList ∨ q = []) → ∃ t' u, [c] ++ (q ++ ("_".toList ++ t)) = t' ++ u ∧ (cls "AB".toList).rmatch t' = true ∧
        ((lit "P".toList + 1) * (lit "_".toList * (digits * (lit "_".toList * digits) + lit "ORDER".toList))).rmatch u = true := by
      intro c q hc hq
      refine ⟨[c], _, rfl, (cls_iff _ _).2 ⟨c, hc, rfl⟩, (mul_iff _ _ _).2 ⟨q, _, rfl, (add_iff _ _ _).2 ?_, (mul_iff _ _ _).2 ⟨_, t, rfl, (lit_iff _ _).2 rfl, h4⟩⟩⟩
      rcases hq with rfl | rfl
      · exact .inl ((lit_iff _ _).2 rfl)
      · exact .inr ((RegularExpression.one_rmatch_iff _).2 rfl)
    have : p = ['A', '_'] ∨ p = ['B', '_'] ∨ p = ['A', 'P', '_'] ∨ p = ['B', 'P', '_'] := by simpa using hp
    rcases this with rfl | rfl | rfl | rfl
    · exact h5 'A' [] (by decide) (.inr rfl)
    · exact h5 'B' [] (by decide) (.inr rfl)
    · exact h5 'A' "P".toList (by decide) (.inl rfl)
    · exact h5 'B' "P".toList (by decide) (.inl rfl)

theorem fam_iff (s : Str) : rxFam.rmatch s = true ↔ TableKey s := by
  have cpq : ∀ (x : Str) (t : Str), (lit x * cls "PQ".toList).rmatch t = true ↔ t = x ++ ['P'] ∨ t = x ++ ['Q'] := by
    intro x t
    rw [mul_iff]
    constructor
    · rintro ⟨a, b, rfl, h1, h2⟩
      obtain ⟨c, hc, rfl⟩ := (cls_iff _ _).1 h2
      rw [(lit_iff _ _).1 h1]
      have : c = 'P' ∨ c = 'Q' := by simpa using hc
      rcases this with rfl | rfl <;> simp
    · rintro (rfl | rfl)
      · exact ⟨x, _, rfl, (lit_iff _ _).2 rfl, (cls_iff _ _).2 ⟨'P', by decide, rfl⟩⟩
      · exact ⟨x, _, rfl, (lit_iff _ _).2 rfl, (cls_iff _ _).2 ⟨'Q', by decide, rfl⟩⟩
  have three : ∀ t : Str, (lit "ERR".toList + (lit "DIS".toList + lit "EXT".toList)).rmatch t = true ↔ t = "ERR".toList ∨ t = "DIS".toList ∨ t = "EXT".toList := by
    intro t
    rw [add_iff, add_iff, lit_iff, lit_iff, lit_iff]
  unfold rxFam TableKey
  rw [mul_iff]
  constructor
  · rintro ⟨t, u, rfl, h1, h2⟩
    refine ⟨t, u, ?_, (digits_iff u).1 h2, rfl⟩
    rw [add_iff, add_iff, cpq, lit_iff, mul_iff] at h1
    rcases h1 with (rfl | rfl) | rfl | ⟨a, b, rfl, h3, h4⟩
    · simp
    · simp
    · simp
    · rw [add_iff, cpq, lit_iff] at h3
      rw [three] at h4
      rcases h3 with (rfl | rfl) | rfl <;> rcases h4 with rfl | rfl | rfl <;> simp
  · rintro ⟨p, d, hp, hd, rfl⟩
    refine ⟨p, d, rfl, ?_, (digits_iff d).2 hd⟩
    rw [add_iff, add_iff, cpq, lit_iff, mul_iff]
    simp only [List.mem_cons, List.not_mem_nil, or_false] at hp
    have mk : ∀ a b : Str, (a = "C".toList ++ ['P'] ∨ a = "C".toList ++ ['Q']) ∨ a = "D2IM".toList → b = "ERR".toList ∨ b = "DIS".toList ∨ b = "EXT".toList →
        ∃ t u, a ++ b = t ++ u ∧ (lit "C".toList * cls "PQ".toList + lit "D2IM".toList).rmatch t = true ∧
          (lit "ERR".toList + (lit "DIS".toList + lit "EXT".toList)).rmatch u = true := by
      intro a b ha hb
      exact ⟨a, b, rfl, by rw [add_iff, cpq, lit_iff]; exact ha, by rw [three]; exact hb⟩
    rcases hp with rfl | rfl | rfl | rfl | rfl | rfl | rfl | rfl | rfl | rfl | rfl | rfl
    · exact .inl (.inl rfl)
    · exact .inl (.inr rfl)
    · exact .inr (.inl rfl)
    · exact .inr (.inr (mk "CP".toList "ERR".toList (.inl (.inl rfl)) (.inl rfl)))
    · exact .inr (.inr (mk "CP".toList "DIS".toList (.inl (.inl rfl)) (.inr (.inl rfl))))
    · exact .inr (.inr (mk "CP".toList "EXT".toList (.inl (.inl rfl)) (.inr (.inr rfl))))
    · exact .inr (.inr (mk "CQ".toList "ERR".toList (.inl (.inr rfl)) (.inl rfl)))
    · exact .inr (.inr (mk "CQ".toList "DIS".toList (.inl (.inr rfl)) (.inr (.inl rfl))))
    · exact .inr (.inr (mk "CQ".toList "EXT".toList (.inl (.inr rfl)) (.inr (.inr rfl))))
    · exact .inr (.inr (mk "D2IM".toList "ERR".toList (.inr rfl) (.inl rfl)))
    · exact .inr (.inr (mk "D2IM".toList "DIS".toList (.inr rfl) (.inr (.inl rfl))))
    · exact .inr (.inr (mk "D2IM".toList "EXT".toList (.inr rfl) (.inr (.inr rfl))))

/-! ### Disjoint families -/

theorem unit_head {s : Str} (h : UnitKey s) : s[1]? = some 'U' := by
  obtain ⟨d, -, rfl⟩ := h; rfl

theorem dis_head {s : Str} (h : DisKey s) : s[1]? = some 'P' ∨ s[1]? = some 'Q' := by
  obtain ⟨p, d, hp, -, rfl⟩ := h
  simp only [List.mem_cons, List.not_mem_nil, or_false] at hp
  rcases hp with rfl | rfl
  · exact .inl rfl
  · exact .inr rfl

theorem sip_head {s : Str} (h : SipKey s) : s.head? = some 'A' ∨ s.head? = some 'B' := by
  obtain ⟨p, d, hp, -, rfl⟩ := h
  simp only [List.mem_cons, List.not_mem_nil, or_false] at hp
  rcases hp with rfl | rfl | rfl | rfl
  · exact .inl rfl
  · exact .inr rfl
  · exact .inl rfl
  · exact .inr rfl

theorem unit_c {s : Str} (h : UnitKey s) : s.head? = some 'C' := by
  obtain ⟨d, -, rfl⟩ := h; rfl

theorem dis_c {s : Str} (h : DisKey s) : s.head? = some 'C' := by
  obtain ⟨p, d, hp, -, rfl⟩ := h
  simp only [List.mem_cons, List.not_mem_nil, or_false] at hp
  rcases hp with rfl | rfl <;> rfl

theorem dis_table {s : Str} (h : DisKey s) : TableKey s := by
  obtain ⟨p, d, hp, hd, rfl⟩ := h
  refine ⟨p, d, ?_, hd, rfl⟩
  simp only [List.mem_cons, List.not_mem_nil, or_false] at hp ⊢
  rcases hp with rfl | rfl <;> simp

theorem unit_not_table {s : Str} (h : UnitKey s) : ¬ TableKey s := by
  rintro ⟨p, d, hp, hd, rfl⟩
  have h1 := unit_head h
  have h2 := unit_c h
  simp only [List.mem_cons, List.not_mem_nil, or_false] at hp
  rcases hp with rfl | rfl | rfl | rfl | rfl | rfl | rfl | rfl | rfl | rfl | rfl | rfl <;> simp at h1 h2

theorem unit_not_sip {s : Str} (h : UnitKey s) : ¬ SipKey s := by
  intro h'
  have := unit_c h
  rcases sip_head h' with h | h <;> rw [h] at this <;> simp at this

theorem unit_not_dis {s : Str} (h : UnitKey s) : ¬ DisKey s := by
  intro h'
  have := unit_head h
  rcases dis_head h' with h | h <;> rw [h] at this <;> simp at this

theorem dis_not_sip {s : Str} (h : DisKey s) : ¬ SipKey s := by
  intro h'
  have := dis_c h
  rcases sip_head h' with h | h <;> rw [h] at this <;> simp at this

/-! ### The loops -/

theorem sfind_isSome (s pat : Str) : (sfind s pat 0).isSome = true ↔ pat <:+: s := by
  constructor
  · intro h
    obtain ⟨p, hp⟩ := Option.isSome_iff_exists.1 h
    obtain ⟨-, -, h, -⟩ := sfind_some.1 hp
    exact h.isInfix.trans (List.drop_suffix p s).isInfix
  · rintro ⟨a, b, rfl⟩
    cases hs : sfind (a ++ pat ++ b) pat 0 with
    | some _ => rfl
    | none =>
      refine absurd ?_ (sfind_none.1 hs a.length (Nat.zero_le _) (by simp))
      unfold OccursAt
      rw [List.append_assoc, List.drop_left]
      exact List.prefix_append _ _

theorem cureUnit_spec (k : Keyword) (hk : UnitKey k.key) : ∃ k', cureUnit k = .ok k' ∧ Fix k k' := by
  obtain ⟨t, ht, hb⟩ := C36_trim k.value "' ".toList
  refine ⟨_, by unfold cureUnit; rw [ht, Res.ok_bind], ?_⟩
  have hu : ∀ t', Bare k.value t' → t' = t := fun t' h => isTrim_unique h hb
  split
  · rename_i h
    exact .inl ⟨hk, t, _, hb, by rw [unitName, if_pos h], rfl⟩
  · rename_i h
    split
    · rename_i h'
      exact .inl ⟨hk, t, _, hb, by rw [unitName, if_neg h, if_pos h'], rfl⟩
    · rename_i h'
      exact .inr ⟨fun _ t' ht' => by rw [hu t' ht', unitName, if_neg h, if_neg h'], rfl⟩

theorem fix_key {k k' : Keyword} (h : Fix k k') : k'.key = k.key := by
  rcases h with ⟨-, t, u, -, -, rfl⟩ | ⟨-, rfl⟩ <;> rfl

theorem lookup_cons (k : Keyword) (l : List Keyword) : Lookup (k :: l) ↔ (DisKey k.key ∧ "Lookup".toList <:+: k.value) ∨ Lookup l := by
  unfold Lookup
  simp only [List.mem_cons, exists_eq_or_imp]

theorem scan_spec (keys : List Keyword) (f : Flags) : ∃ keys' f', scan keys f = .ok (keys', f') ∧ List.Forall₂ Fix keys keys' ∧
    (f'.cpdis = true ↔ f.cpdis = true ∨ Lookup keys) ∧ (f'.sipdis = true ↔ f.sipdis = true ∨ ∃ k ∈ keys, SipKey k.key) := by
  induction keys generalizing f with
  | nil => exact ⟨[], f, rfl, .nil, by simp [Lookup], by simp⟩
  | cons k l ih =>
    unfold scan
    by_cases h1 : UnitKey k.key
    · rw [if_pos ((unit_iff _).2 h1)]
      obtain ⟨k', e, hf⟩ := cureUnit_spec k h1
      obtain ⟨l', f', e2, hl, hc, hs⟩ := ih f
      refine ⟨k' :: l', f', by rw [e, Res.ok_bind, e2, Res.ok_bind], .cons hf hl, ?_, ?_⟩
      · rw [hc, lookup_cons]
        exact or_congr Iff.rfl (by rw [or_iff_right fun h => unit_not_dis h1 h.1])
      · rw [hs, List.exists_mem_cons_iff]
        simp [unit_not_sip h1]
    · rw [if_neg (fun h => h1 ((unit_iff _).1 h))]
      have hfix : Fix k k := .inr ⟨fun h => absurd h h1, rfl⟩
      by_cases h2 : DisKey k.key ∧ "Lookup".toList <:+: k.value
      · rw [if_pos ⟨(dis_iff _).2 h2.1, (sfind_isSome _ _).2 h2.2⟩]
        obtain ⟨l', f', e2, hl, hc, hs⟩ := ih { f with cpdis := true }
        refine ⟨k :: l', f', by rw [e2, Res.ok_bind], .cons hfix hl, ?_, ?_⟩
        · rw [hc, lookup_cons]
          exact ⟨fun _ => .inr (.inl h2), fun _ => .inl rfl⟩
        · rw [hs, List.exists_mem_cons_iff]
          simp [dis_not_sip h2.1]
      · rw [if_neg (fun h => h2 ⟨(dis_iff _).1 h.1, (sfind_isSome _ _).1 h.2⟩)]
        by_cases h3 : SipKey k.key
        · rw [if_pos ((sip_iff _).2 h3)]
          obtain ⟨l', f', e2, hl, hc, hs⟩ := ih { f with sipdis := true }
          refine ⟨k :: l', f', by rw [e2, Res.ok_bind], .cons hfix hl, ?_, ?_⟩
          · rw [hc, lookup_cons]
            exact or_congr Iff.rfl (by rw [or_iff_right h2])
          · rw [hs, List.exists_mem_cons_iff]
            simp [h3]
        · rw [if_neg (fun h => h3 ((sip_iff _).1 h))]
          obtain ⟨l', f', e2, hl, hc, hs⟩ := ih f
          refine ⟨k :: l', f', by rw [e2, Res.ok_bind], .cons hfix hl, ?_, ?_⟩
          · rw [hc, lookup_cons]
            exact or_congr Iff.rfl (by rw [or_iff_right h2])
          · rw [hs, List.exists_mem_cons_iff]
            simp [h3]

theorem keep_iff (f : Flags) (k : Keyword) : keep f k = true ↔ ¬ ((f.cpdis = true ∧ TableKey k.key) ∨ (f.sipdis = true ∧ SipKey k.key)) := by
  unfold keep
  rw [← fam_iff, ← sip_iff]
  cases f.cpdis <;> cases f.sipdis <;> cases rxFam.rmatch k.key <;> cases rxSip.rmatch k.key <;> simp

theorem cured_filter (gone : Keyword → Prop) (p : Keyword → Bool) (l l' : List Keyword) (h : List.Forall₂ Fix l l')
    (hp : ∀ k k', k ∈ l → Fix k k' → (p k' = true ↔ ¬ gone k)) : Cured gone l (l'.filter p) := by
  induction h with
  | nil => exact .nil
  | @cons k k' l l' hk hl ih =>
    have ih := ih fun a a' ha => hp a a' (by simp [ha])
    have hk' := hp k k' (by simp) hk
    by_cases hg : gone k
    · rw [List.filter_cons_of_neg (by rw [hk']; simpa using hg)]
      exact .drop hg ih
    · rw [List.filter_cons_of_pos (by rw [hk']; exact hg)]
      exact .keep hg hk ih

/-- The header given to WCSlib is the header of the user without the coefficients of SIP polynomials and, if a table of distortion is announced, without the
keywords of these tables; the non-standard names of units are corrected; nothing else is changed in the list of the keywords, nor in their order. -/
theorem C174_cure (h : Str) (keys : List Keyword) (hp : parseHeader h = .ok keys) :
    ∃ keys', cureHeader h = .ok (serializeHeader keys') ∧ Cured (Gone keys) keys keys' := by
  obtain ⟨keys', f, e, hf, hc, hs⟩ := scan_spec keys ⟨false, false⟩
  refine ⟨keys'.filter (keep f), by unfold cureHeader; rw [hp, Res.ok_bind, e, Res.ok_bind], cured_filter _ _ _ _ hf fun k k' hk hkk => ?_⟩
  rw [keep_iff, fix_key hkk, hc, hs]
  unfold Gone
  simp only [Bool.false_eq_true, false_or]
  have : (∃ k ∈ keys, SipKey k.key) ∧ SipKey k.key ↔ SipKey k.key := ⟨fun h => h.2, fun h => ⟨⟨k, hk, h⟩, h⟩⟩
  rw [this]
  tauto

/-! ### Reading the result -/

theorem unitName_some {t u : Str} (h : unitName t = some u) : u = "'um'".toList ∨ u = "'deg'".toList := by
  unfold unitName at h
  split_ifs at h
  · exact .inl (Option.some.inj h).symm
  · exact .inr (Option.some.inj h).symm

theorem bare_um {t : Str} (h : Bare "'um'".toList t) : unitName t = none := by
  have : t = "um".toList := isTrim_unique h ⟨['\''], ['\''], by decide, by decide, by decide, by decide, by decide⟩
  rw [this]
  decide

theorem bare_deg {t : Str} (h : Bare "'deg'".toList t) : unitName t = none := by
  have : t = "deg".toList := isTrim_unique h ⟨['\''], ['\''], by decide, by decide, by decide, by decide, by decide⟩
  rw [this]
  decide

theorem bare_nil {t : Str} (h : Bare [] t) : t = [] := by
  obtain ⟨a, b, e, -⟩ := h
  have := (List.append_eq_nil_iff.1 e.symm).1
  exact (List.append_eq_nil_iff.1 this).2

theorem alignLeft_len (s : Str) (n : Nat) : (alignLeft s n ' ').length = max n s.length := by
  unfold alignLeft
  split
  · rw [List.length_append, List.length_replicate]; omega
  · omega

theorem alignRight_len (s : Str) (n : Nat) : (alignRight s n ' ').length = max n s.length := by
  unfold alignRight
  split
  · rw [List.length_append, List.length_replicate]; omega
  · omega

theorem unit_card (k : Keyword) (hk : UnitKey k.key) (hn : k.novalue = false) : ∃ v, v.length = max 20 k.value.length ∧
    cardText k = (if k.comment = [] then alignLeft k.key 8 ' ' ++ ['=', ' '] ++ v else alignLeft k.key 8 ' ' ++ ['=', ' '] ++ v ++ [' '] ++ k.comment) := by
  have hh : beginsWith k.key "HIERARCH ".toList = false := by
    obtain ⟨d, -, e⟩ := hk
    rw [e]
    unfold beginsWith
    split
    · rfl
    · rw [List.all_eq_false]
      exact ⟨0, by decide, by show ¬ (some 'C' == some 'H') = true; decide⟩
  refine ⟨if k.value.head? = some '\'' then alignLeft k.value 20 ' ' else alignRight k.value 20 ' ', ?_, ?_⟩
  · split
    · exact alignLeft_len _ _
    · exact alignRight_len _ _
  · unfold cardText
    simp only [hn, hh, Bool.false_eq_true, if_false, if_true]

theorem unit_start (k : Keyword) (hk : UnitKey k.key) (hn : k.novalue = false) : ∃ r, fitCard (cardText k) = "CUNIT".toList ++ r := by
  obtain ⟨v, -, hv⟩ := unit_card k hk hn
  obtain ⟨b, hb, -⟩ := alignLeft_sp k.key 8
  obtain ⟨d, -, hd⟩ := hk
  have h1 : ∃ r, cardText k = "CUNIT".toList ++ r := by
    rw [hv, hb, hd]
    split
    · exact ⟨d ++ b ++ ['=', ' '] ++ v, by simp⟩
    · exact ⟨d ++ b ++ ['=', ' '] ++ v ++ [' '] ++ k.comment, by simp⟩
  obtain ⟨r, hr⟩ := h1
  rw [hr]
  unfold fitCard
  split
  · exact ⟨r.take 75, by rw [List.take_append]; rfl⟩
  · split
    · exact ⟨r ++ _, by rw [List.append_assoc]⟩
    · exact ⟨r, rfl⟩

theorem good_fix {k k' : Keyword} (hg : Good k) (hf : Fix k k') : Good k' := by
  rcases hf with ⟨hu, t, u, hb, hn, rfl⟩ | ⟨-, rfl⟩
  · have hne : k.value ≠ [] := by
      intro h
      rw [h] at hb
      rw [bare_nil hb] at hn
      simp [unitName] at hn
    have hl : u.length ≤ 20 := by rcases unitName_some hn with rfl | rfl <;> decide
    have hq : GoodValue u := by
      rcases unitName_some hn with rfl | rfl
      · exact .inl ⟨"um".toList, rfl, by decide⟩
      · exact .inl ⟨"deg".toList, rfl, by decide⟩
    obtain ⟨g1, g2, g3, g4⟩ := hg
    rcases g4 with ⟨-, h, -⟩ | ⟨g5, g6, g7, g8⟩
    · exact absurd h hne
    · rcases g8 with ⟨-, h⟩ | ⟨hv, -⟩
      · exact absurd h hne
      · obtain ⟨v, l1, e1⟩ := unit_card k hu hv
        obtain ⟨v', l2, e2⟩ := unit_card { k with value := u } hu hv
        obtain ⟨r, hr⟩ := unit_start { k with value := u } hu hv
        refine ⟨g1, ?_, ?_, .inr ⟨?_, g6, g7, .inr ⟨hv, hq⟩⟩⟩
        · rw [e1] at g2
          rw [e2]
          simp only at l2
          split
          · rename_i hc
            rw [if_pos hc] at g2
            simp only [List.length_append] at g2 ⊢
            omega
          · rename_i hc
            rw [if_neg hc] at g2
            simp only [List.length_append] at g2 ⊢
            omega
        · rw [hr]
          simp
        · rw [hr]
          simp
  · exact hg

theorem cured_mem {gone : Keyword → Prop} {l l' : List Keyword} (h : Cured gone l l') {k' : Keyword} (hk : k' ∈ l') : ∃ k ∈ l, ¬ gone k ∧ Fix k k' := by
  induction h with
  | nil => exact absurd hk (by simp)
  | drop _ _ ih =>
    obtain ⟨k, h1, h2⟩ := ih hk
    exact ⟨k, by simp [h1], h2⟩
  | @keep k k'' l l' hg hf _ ih =>
    rcases List.mem_cons.1 hk with rfl | hk
    · exact ⟨k, by simp, hg, hf⟩
    · obtain ⟨k, h1, h2⟩ := ih hk
      exact ⟨k, by simp [h1], h2⟩

theorem cured_same {gone : Keyword → Prop} {l l' : List Keyword} (h : Cured gone l l') (hg : ∀ k ∈ l, ¬ gone k) (hf : ∀ k ∈ l, ∀ k', Fix k k' → k' = k) : l' = l := by
  induction h with
  | nil => rfl
  | drop h _ _ => exact absurd h (hg _ (by simp))
  | keep _ hk _ ih => rw [hf _ (by simp) _ hk, ih (fun k hk => hg k (by simp [hk])) fun k hk => hf k (by simp [hk])]

theorem fix_fixed {k k' : Keyword} (h : Fix k k') : ∀ k'', Fix k' k'' → k'' = k' := by
  intro k'' h2
  rcases h2 with ⟨hu, t, u, hb, hn, -⟩ | ⟨-, h⟩
  · rcases h with ⟨-, t1, u1, -, hn1, rfl⟩ | ⟨h, rfl⟩
    · exfalso
      rcases unitName_some hn1 with rfl | rfl
      · rw [bare_um hb] at hn; simp at hn
      · rw [bare_deg hb] at hn; simp at hn
    · rw [h hu t hb] at hn
      simp at hn
  · exact h

theorem lookup_cured {keys keys' : List Keyword} (h : Cured (Gone keys) keys keys') : ¬ Lookup keys' := by
  rintro ⟨k', hk', hd, hl⟩
  obtain ⟨k, hk, hg, hf⟩ := cured_mem h hk'
  have hd' : DisKey k.key := by rw [← fix_key hf]; exact hd
  rcases hf with ⟨hu, -⟩ | ⟨-, rfl⟩
  · exact unit_not_dis hu hd'
  · exact hg (.inr ⟨⟨k', hk, hd, hl⟩, dis_table hd⟩)

theorem cured_clean {keys keys' : List Keyword} (h : Cured (Gone keys) keys keys') : ∀ k' ∈ keys', ¬ Gone keys' k' := by
  intro k' hk' hg
  obtain ⟨k, hk, hg', hf⟩ := cured_mem h hk'
  rcases hg with hs | ⟨hl, -⟩
  · exact hg' (.inl (by rw [← fix_key hf]; exact hs))
  · exact lookup_cured h hl

/-- For headers made of cards that can be read back (C121): reading the result gives the corrected keywords; in particular no coefficient of a SIP polynomial
and no announced table of distortion are left, and every `CUNITn` has a corrected value. Curing the result changes nothing. -/
theorem C174_result_partial (keys : List Keyword) (hg : ∀ k ∈ keys, Good k) : ∃ h keys', cureHeader (serializeHeader keys) = .ok h ∧ parseHeader h = .ok keys' ∧
    Cured (Gone keys) keys keys' ∧ (∀ k ∈ keys', ¬ SipKey k.key) ∧ ¬ Lookup keys' ∧
    (∀ k ∈ keys', UnitKey k.key → ∀ t, Bare k.value t → unitName t = none) ∧ cureHeader h = .ok h := by
  obtain ⟨keys', e, hc⟩ := C174_cure _ keys (C121_roundtrip_partial keys hg)
  have hg' : ∀ k' ∈ keys', Good k' := fun k' hk' => by
    obtain ⟨k, hk, -, hf⟩ := cured_mem hc hk'
    exact good_fix (hg k hk) hf
  have hp := C121_roundtrip_partial keys' hg'
  refine ⟨_, keys', e, hp, hc, fun k hk hs => cured_clean hc k hk (.inl hs), lookup_cured hc, fun k hk hu t ht => ?_, ?_⟩
  · obtain ⟨k0, -, -, hf⟩ := cured_mem hc hk
    cases hn : unitName t with
    | none => rfl
    | some u =>
      have h1 := fix_fixed hf { k with value := u } (.inl ⟨hu, t, u, ht, hn, rfl⟩)
      have h2 : u = k.value := congrArg Keyword.value h1
      rw [← h2] at ht
      rw [← hn]
      rcases unitName_some hn with rfl | rfl
      · exact bare_um ht
      · exact bare_deg ht
  · obtain ⟨keys'', e2, hc2⟩ := C174_cure _ keys' hp
    rw [e2, cured_same hc2 (cured_clean hc) fun k hk => by
      obtain ⟨k0, -, -, hf⟩ := cured_mem hc hk
      exact fix_fixed hf]

/-- A header of such cards without distortions nor wrong names of units is given unchanged to WCSlib. -/
theorem C174_unchanged_partial (keys : List Keyword) (hg : ∀ k ∈ keys, Good k) (h1 : ∀ k ∈ keys, ¬ SipKey k.key) (h2 : ¬ Lookup keys)
    (h3 : ∀ k ∈ keys, UnitKey k.key → ∀ t, Bare k.value t → unitName t = none) : cureHeader (serializeHeader keys) = .ok (serializeHeader keys) := by
  obtain ⟨keys', e, hc⟩ := C174_cure _ keys (C121_roundtrip_partial keys hg)
  rw [e, cured_same hc]
  · rintro k hk (h | ⟨h, -⟩)
    · exact h1 k hk h
    · exact h2 h
  · rintro k hk k' (⟨hu, t, u, hb, hn, -⟩ | ⟨-, h⟩)
    · rw [h3 k hk hu t hb] at hn
      simp at hn
    · exact h

/-- Finding: the units of alternate coordinates (`CUNIT1A`) are not corrected; the axes still announce SIP polynomials (`-SIP`) when these have been removed; the
mark of the end of the header and comments are written again by `serialize_header`, which changes a comment with a slash (C121). -/
theorem C174_refuted : (∃ h, cureHeader h = .ok h ∧ h = card "CUNIT1A = 'micron'" ) ∧
    (cureHeader (card "CTYPE1  = 'RA---TAN-SIP'" ++ card "A_ORDER =                    2" ++ card "A_DMAX  =                  1.5") =
      .ok (card "CTYPE1  = 'RA---TAN-SIP'" ++ card "A_DMAX  =                  1.5")) ∧
    cureHeader (card "COMMENT see http://a.b") = .ok (card "COMMENT see http:              //a.b") := by
  refine ⟨⟨_, ?_, rfl⟩, ?_, ?_⟩ <;> decide +kernel

/-- a header with a wrong unit and distortions of both kinds -/
example : cureHeader (card "CUNIT3  = 'micron  '           / unit" ++ card "CPDIS1  = 'Lookup'" ++ card "DP1     = 'NAXES: 2'" ++ card "B_1_2   =               1.0E-8" ++
    card "BP_ORDER=                    2" ++ card "CRVAL1  =                 12.5") =
    .ok (card "CUNIT3  = 'um'                 / unit" ++ card "CRVAL1  =                 12.5") := by decide +kernel

/-- the same tables without `Lookup` are kept -/
example : cureHeader (card "CPDIS1  = 'Polynomial'" ++ card "DP1     = 'NAXES: 2'") = .ok (card "CPDIS1  = 'Polynomial'" ++ card "DP1     = 'NAXES: 2'") := by decide +kernel

/-- keywords of C174_result_partial -/
example : ∃ keys : List Keyword, keys.length = 3 ∧ (∀ k ∈ keys, Good k) ∧ (∃ k ∈ keys, SipKey k.key) ∧ ∃ k ∈ keys, UnitKey k.key ∧ ∃ t u, Bare k.value t ∧ unitName t = some u := by
  refine ⟨[⟨"CUNIT1".toList, "'degrees'".toList, [], false⟩, ⟨"A_ORDER".toList, "2".toList, "/ order".toList, false⟩, ⟨"END".toList, [], [], true⟩], rfl, ?_, ?_, ?_⟩
  · intro k hk
    simp only [List.mem_cons, List.not_mem_nil, or_false] at hk
    rcases hk with rfl | rfl | rfl
    · exact ⟨by decide, by decide, by decide, Or.inr ⟨by decide, by decide, Or.inl rfl, Or.inr ⟨rfl, Or.inl ⟨"degrees".toList, by decide, by decide⟩⟩⟩⟩
    · exact ⟨by decide, by decide, by decide, Or.inr ⟨by decide, by decide, Or.inr ⟨by decide, by decide⟩, Or.inr ⟨rfl, Or.inr ⟨by decide, by decide, by decide⟩⟩⟩⟩
    · exact ⟨by decide, by decide, by decide, Or.inr ⟨by decide, by decide, Or.inl rfl, Or.inl ⟨rfl, rfl⟩⟩⟩
  · exact ⟨_, List.mem_cons_of_mem _ List.mem_cons_self, "A_".toList, "ORDER".toList, by decide, .inl rfl, by decide⟩
  · exact ⟨_, List.mem_cons_self, ⟨"1".toList, ⟨by decide, by decide⟩, by decide⟩, "degrees".toList, "'deg'".toList,
      ⟨['\''], ['\''], by decide, by decide, by decide, by decide, by decide⟩, by decide⟩

end Verif.Cure
