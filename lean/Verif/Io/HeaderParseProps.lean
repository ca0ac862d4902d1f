import Verif.Io.HeaderProps
import Verif.Str.WordProps
/-!
# C121: parsed FITS headers
-/
namespace Verif.Fits
open Verif Verif.Str

/-- Spec: a comment as read: empty, or from its slash to its last non-blank character -/
def GoodComment (c : Str) : Prop := c = [] ∨ (c.head? = some '/' ∧ strip c = c)

/-- Spec: a value as read: between quotes without quotes inside, or without quote nor slash -/
def GoodValue (v : Str) : Prop := (∃ t, v = '\'' :: t ++ ['\''] ∧ '\'' ∉ t) ∨ (v.head? ≠ some '\'' ∧ '/' ∉ v ∧ strip v = v)

/-- Spec: keywords that can be written as one card and read back -/
structure Good (k : Keyword) : Prop where
  key : strip k.key = k.key
  short : (cardText k).length ≤ 80
  noContinue : ¬ "CONTINUE ".toList <+: fitCard (cardText k)
  rest : (k.novalue = true ∧ k.value = [] ∧ k.comment = [] ∧ "HISTORY ".toList <+: fitCard (cardText k)) ∨
    (¬ "HISTORY ".toList <+: fitCard (cardText k) ∧ (∀ c ∈ k.key, c ≠ '=' ∧ c ≠ '/') ∧ GoodComment k.comment ∧
      ((k.novalue = true ∧ k.value = []) ∨ (k.novalue = false ∧ GoodValue k.value)))

/-! ### Texts -/

theorem firstOf_split (cs a pre post : Str) (c : Char) (hp : ∀ x ∈ pre, x ∉ cs) (hc : c ∈ cs) :
    firstOf (a ++ pre ++ c :: post) cs a.length = some (a.length + pre.length) := by
  unfold firstOf
  rw [firstIn_some]
  refine ⟨by omega, by simp, ?_, fun j h1 h2 => ?_⟩
  · rw [inSet_iff]
    refine ⟨c, hc, ?_⟩
    rw [← List.length_append, List.getElem?_append_right (Nat.le_refl _)]
    simp
  · have hlt : j < (a ++ pre ++ c :: post).length := by simp; omega
    rw [inSet_lt hlt]
    simp only [decide_eq_false_iff_not]
    have : (a ++ pre ++ c :: post)[j] = pre[j - a.length]'(by omega) := by
      rw [List.getElem_append_left (by simp; omega), List.getElem_append_right h1]
    rw [this]
    exact hp _ (List.getElem_mem _)

theorem firstOf_none (s cs : Str) (pos : Nat) (h : ∀ x ∈ s, x ∉ cs) : firstOf s cs pos = none := by
  unfold firstOf
  rw [firstIn_none]
  intro j _ hj
  rw [inSet_lt hj]
  simp only [decide_eq_false_iff_not]
  exact h _ (List.getElem_mem _)

theorem firstOf_split0 (cs pre post : Str) (c : Char) (hp : ∀ x ∈ pre, x ∉ cs) (hc : c ∈ cs) : firstOf (pre ++ c :: post) cs 0 = some pre.length := by
  have := firstOf_split cs [] pre post c hp hc
  simpa using this

/-- a text of spaces -/
def Sp (s : Str) : Prop := ∀ c ∈ s, c = ' '

theorem Sp.blank {s : Str} (h : Sp s) : ∀ c ∈ s, c ∈ blanks := fun c hc => by rw [h c hc]; decide

theorem Sp.rep (n : Nat) : Sp (List.replicate n ' ') := fun _ h => List.eq_of_mem_replicate h

theorem Sp.append {a b : Str} (ha : Sp a) (hb : Sp b) : Sp (a ++ b) := fun c h => by
  rcases List.mem_append.1 h with h | h
  · exact ha c h
  · exact hb c h

theorem alignLeft_sp (s : Str) (n : Nat) : ∃ b, alignLeft s n ' ' = s ++ b ∧ Sp b := by
  obtain ⟨⟨m, h, -⟩, -⟩ := C38_align s n ' '
  exact ⟨_, h, Sp.rep m⟩

theorem alignRight_sp (s : Str) (n : Nat) : ∃ b, alignRight s n ' ' = b ++ s ∧ Sp b := by
  obtain ⟨-, ⟨m, h, -⟩, -⟩ := C38_align s n ' '
  exact ⟨_, h, Sp.rep m⟩

theorem fitCard_sp (e : Str) (h : e.length ≤ 80) : ∃ b, fitCard e = e ++ b ∧ Sp b := by
  unfold fitCard
  rw [if_neg (by omega)]
  split
  · exact ⟨_, rfl, Sp.rep _⟩
  · exact ⟨[], by simp, by simp [Sp]⟩

theorem fitCard_length (e : Str) : (fitCard e).length = 80 := by
  unfold fitCard
  split
  · rw [List.length_take]; omega
  · split
    · rw [List.length_append, List.length_replicate]; omega
    · omega

theorem strip_ends {s : Str} (h1 : ∀ c, s.head? = some c → c ∉ blanks) (h2 : ∀ c, s.getLast? = some c → c ∉ blanks) : strip s = s :=
  isTrim_unique (strip_spec s) ⟨[], [], by simp, by simp, by simp, h1, h2⟩

theorem ends_of_strip {s : Str} (h : strip s = s) : (∀ c, s.head? = some c → c ∉ blanks) ∧ (∀ c, s.getLast? = some c → c ∉ blanks) := by
  obtain ⟨a, b, -, -, -, h3, h4⟩ := strip_spec s
  rw [h] at h3 h4
  exact ⟨h3, h4⟩

theorem strip_pad_self {a b : Str} {v : Str} (h : strip v = v) (ha : Sp a) (hb : Sp b) : strip (a ++ v ++ b) = v := by
  rw [strip_pad v ha.blank hb.blank, h]

theorem strip_right {b : Str} {v : Str} (h : strip v = v) (hb : Sp b) : strip (v ++ b) = v := by
  have := strip_pad_self (a := []) h (by simp [Sp]) hb
  simpa using this

theorem strip_left {a : Str} {v : Str} (h : strip v = v) (ha : Sp a) : strip (a ++ v) = v := by
  have := strip_pad_self (b := []) h ha (by simp [Sp])
  simpa using this

/-! ### One card -/

/-- the end of a card: the comment after a space, and spaces -/
theorem tail_form (k : Keyword) (entry b : Str) (hb : Sp b) : ∃ t, (if k.comment = [] then entry else entry ++ [' '] ++ k.comment) ++ b = entry ++ t ∧
    ((k.comment = [] ∧ Sp t) ∨ (k.comment ≠ [] ∧ t = ' ' :: (k.comment ++ b))) := by
  by_cases h : k.comment = []
  · rw [if_pos h]; exact ⟨b, rfl, Or.inl ⟨h, hb⟩⟩
  · rw [if_neg h]; exact ⟨' ' :: (k.comment ++ b), by simp [List.append_assoc], Or.inr ⟨h, rfl⟩⟩

theorem comment_cons {c : Str} (h : GoodComment c) (hne : c ≠ []) : ∃ d, c = '/' :: d := by
  rcases h with h | ⟨h, -⟩
  · exact absurd h hne
  · cases c with
    | nil => cases h
    | cons x d => simp at h; exact ⟨d, by rw [h]⟩

theorem comment_strip {c : Str} (h : GoodComment c) : strip c = c := by
  rcases h with rfl | ⟨-, h⟩
  · rfl
  · exact h

theorem parseCard_novalue (k : Keyword) (hk : strip k.key = k.key) (hc : ∀ c ∈ k.key, c ≠ '=' ∧ c ≠ '/') (hcm : GoodComment k.comment) (hn : k.novalue = true)
    (hv : k.value = []) (a b t : Str) (ha : Sp a) (hb : Sp b) (ht : (k.comment = [] ∧ Sp t) ∨ (k.comment ≠ [] ∧ t = ' ' :: (k.comment ++ b))) :
    parseCard (k.key ++ a ++ t) = .ok k := by
  obtain ⟨key, value, comment, novalue⟩ := k
  simp only at *
  subst hn hv
  have hka : ∀ x ∈ key ++ a, x ∉ ['=', '/'] := by
    intro x hx
    rcases List.mem_append.1 hx with h | h
    · simpa using hc x h
    · rw [ha x h]; decide
  unfold parseCard
  rcases ht with ⟨rfl, ht⟩ | ⟨hne, rfl⟩
  · rw [firstOf_none _ _ _ (by
      intro x hx
      rcases List.mem_append.1 hx with h | h
      · exact hka x h
      · rw [ht x h]; decide)]
    simp only
    rw [trim_strip, Res.ok_bind, List.append_assoc, strip_right hk (ha.append ht)]
  · obtain ⟨d, hd⟩ := comment_cons hcm hne
    have e : key ++ a ++ ' ' :: (comment ++ b) = (key ++ a ++ [' ']) ++ '/' :: (d ++ b) := by rw [hd]; simp
    rw [e, firstOf_split0 _ _ _ _ (by
      intro x hx
      rcases List.mem_append.1 hx with h | h
      · exact hka x h
      · rw [List.mem_singleton.1 h]; decide) (by simp)]
    simp only
    rw [if_pos (by rw [List.getElem?_append_right (Nat.le_refl _)]; simp)]
    unfold substr substrFrom
    rw [if_neg (by simp), if_neg (by simp), Res.ok_bind, trim_strip, Res.ok_bind, Res.ok_bind, trim_strip, Res.ok_bind, List.drop_zero, List.take_left, List.drop_left,
      show ('/' :: (d ++ b)) = comment ++ b by rw [hd]; rfl, List.append_assoc, strip_right hk (ha.append (by simp [Sp])), strip_right (comment_strip hcm) hb]

theorem parseCard_value (k : Keyword) (hk : strip k.key = k.key) (hc : ∀ c ∈ k.key, c ≠ '=' ∧ c ≠ '/') (hcm : GoodComment k.comment) (hn : k.novalue = false)
    (hv : GoodValue k.value) (a a1 a2 b t : Str) (ha : Sp a) (ha1 : Sp a1) (ha2 : Sp a2) (hb : Sp b)
    (ht : (k.comment = [] ∧ Sp t) ∨ (k.comment ≠ [] ∧ t = ' ' :: (k.comment ++ b))) :
    parseCard (k.key ++ a ++ '=' :: (a1 ++ k.value ++ a2 ++ t)) = .ok k := by
  obtain ⟨key, value, comment, novalue⟩ := k
  simp only at *
  subst hn
  have hka : ∀ x ∈ key ++ a, x ∉ ['=', '/'] := by
    intro x hx
    rcases List.mem_append.1 hx with h | h
    · simpa using hc x h
    · rw [ha x h]; decide
  unfold parseCard
  rw [firstOf_split0 _ _ _ _ hka (by simp)]
  simp only
  rw [if_neg (by rw [List.getElem?_append_right (Nat.le_refl _)]; simp)]
  unfold substr substrFrom
  rw [if_neg (by simp), if_neg (by simp; omega), Res.ok_bind, trim_strip, Res.ok_bind, Res.ok_bind, trim_strip, Res.ok_bind, List.drop_zero, List.take_left]
  have ed : (key ++ a ++ '=' :: (a1 ++ value ++ a2 ++ t)).drop ((key ++ a).length + 1) = a1 ++ value ++ a2 ++ t := by
    rw [← List.drop_drop, List.drop_left]; rfl
  rw [ed, strip_right hk ha]
  rcases hv with ⟨q, rfl, hq⟩ | ⟨hh, hs, hst⟩
  · -- quoted
    have hval : strip ('\'' :: q ++ ['\'']) = '\'' :: q ++ ['\''] := strip_ends (by
      rintro c hc'; simp at hc'; rw [← hc']; decide) (by
      rintro c hc'
      rw [List.getLast?_append] at hc'
      simp only [List.getLast?_singleton, Option.some_or, Option.some.injEq] at hc'
      rw [← hc']; decide)
    rcases ht with ⟨rfl, ht⟩ | ⟨hne, rfl⟩
    · rw [show a1 ++ ('\'' :: q ++ ['\'']) ++ a2 ++ t = a1 ++ ('\'' :: q ++ ['\'']) ++ (a2 ++ t) by simp, strip_pad_self hval ha1 (ha2.append ht)]
      rw [if_neg (by simp), if_pos (by simp)]
      unfold parseQuoted
      have := firstOf_split ['\''] ['\''] q [] '\'' (fun x hx h => hq (by rw [List.mem_singleton] at h; rwa [h] at hx)) (by simp)
      rw [show '\'' :: q ++ ['\''] = ['\''] ++ q ++ ['\''] by simp, show (1 : Nat) = ['\''].length from rfl, this]
      simp only
      rw [List.take_of_length_le (by simp; omega), List.drop_eq_nil_of_le (by simp; omega), trim_strip, Res.ok_bind, trim_strip, Res.ok_bind]
      rw [show ['\''] ++ q ++ ['\''] = '\'' :: q ++ ['\''] by simp, hval]
      rfl
    · obtain ⟨d, hd⟩ := comment_cons hcm hne
      have hw : strip (('\'' :: q ++ ['\'']) ++ (a2 ++ [' '] ++ comment)) = ('\'' :: q ++ ['\'']) ++ (a2 ++ [' '] ++ comment) := by
        refine strip_ends (by
          rintro c hc'; simp at hc'; rw [← hc']; decide) ?_
        intro c hc'
        rw [List.getLast?_append, List.getLast?_append] at hc'
        obtain ⟨x, hx⟩ : ∃ x, comment.getLast? = some x := by rw [hd]; exact ⟨_, List.getLast?_cons⟩
        rw [hx] at hc'
        simp only [Option.some_or, Option.some.injEq] at hc'
        rw [← hc']
        exact (ends_of_strip (comment_strip hcm)).2 x hx
      rw [show a1 ++ ('\'' :: q ++ ['\'']) ++ a2 ++ ' ' :: (comment ++ b) = a1 ++ (('\'' :: q ++ ['\'']) ++ (a2 ++ [' '] ++ comment)) ++ b by simp, strip_pad_self hw ha1 hb]
      rw [if_neg (by simp), if_pos (by simp)]
      unfold parseQuoted
      have := firstOf_split ['\''] ['\''] q (a2 ++ [' '] ++ comment) '\'' (fun x hx h => hq (by rw [List.mem_singleton] at h; rwa [h] at hx)) (by simp)
      rw [show ('\'' :: q ++ ['\'']) ++ (a2 ++ [' '] ++ comment) = ['\''] ++ q ++ '\'' :: (a2 ++ [' '] ++ comment) by simp, show (1 : Nat) = ['\''].length from rfl, this]
      simp only
      have el : ['\''].length + q.length + ['\''].length = ('\'' :: q ++ ['\'']).length := by simp; omega
      rw [show ['\''] ++ q ++ '\'' :: (a2 ++ [' '] ++ comment) = ('\'' :: q ++ ['\'']) ++ (a2 ++ [' '] ++ comment) by simp, el, List.take_left, List.drop_left,
        trim_strip, Res.ok_bind, trim_strip, Res.ok_bind, hval, strip_left (comment_strip hcm) (ha2.append (by simp [Sp]))]
  · rcases ht with ⟨rfl, ht⟩ | ⟨hne, rfl⟩
    · rw [show a1 ++ value ++ a2 ++ t = a1 ++ value ++ (a2 ++ t) by simp, strip_pad_self hst ha1 (ha2.append ht)]
      by_cases he : value = []
      · rw [if_pos he, he]
      · rw [if_neg he, if_neg hh]
        unfold parsePlain
        rw [firstOf_none _ _ _ (fun x hx h => hs (by rw [List.mem_singleton] at h; rwa [h] at hx))]
        simp only
        rw [trim_strip, Res.ok_bind, hst]
    · obtain ⟨d, hd⟩ := comment_cons hcm hne
      have hlast : ∀ c, (value ++ (a2 ++ [' '] ++ comment)).getLast? = some c → c ∉ blanks := by
        intro c hc'
        rw [List.getLast?_append, List.getLast?_append] at hc'
        obtain ⟨x, hx⟩ : ∃ x, comment.getLast? = some x := by rw [hd]; exact ⟨_, List.getLast?_cons⟩
        rw [hx] at hc'
        simp only [Option.some_or, Option.some.injEq] at hc'
        rw [← hc']
        exact (ends_of_strip (comment_strip hcm)).2 x hx
      by_cases he : value = []
      · subst he
        rw [show a1 ++ [] ++ a2 ++ ' ' :: (comment ++ b) = (a1 ++ a2 ++ [' ']) ++ comment ++ b by simp,
          strip_pad_self (comment_strip hcm) ((ha1.append ha2).append (by simp [Sp])) hb, if_neg hne, if_neg (by rw [hd]; simp)]
        unfold parsePlain
        have := firstOf_split0 ['/'] [] d '/' (by simp) (by simp)
        rw [List.nil_append, ← hd] at this
        rw [this]
        simp only
        rw [trim_strip, Res.ok_bind, trim_strip, Res.ok_bind, List.length_nil, List.take_zero, List.drop_zero, comment_strip hcm]
        rfl
      · have hw : strip (value ++ (a2 ++ [' '] ++ comment)) = value ++ (a2 ++ [' '] ++ comment) := by
          refine strip_ends ?_ hlast
          intro c hc'
          cases value with
          | nil => exact absurd rfl he
          | cons x v => exact (ends_of_strip hst).1 c (by simpa using hc')
        rw [show a1 ++ value ++ a2 ++ ' ' :: (comment ++ b) = a1 ++ (value ++ (a2 ++ [' '] ++ comment)) ++ b by simp, strip_pad_self hw ha1 hb]
        rw [if_neg (by simp), if_neg (by
          cases value with
          | nil => exact absurd rfl he
          | cons x v => simpa using hh)]
        unfold parsePlain
        have := firstOf_split0 ['/'] (value ++ (a2 ++ [' '])) d '/' (by
          intro x hx h
          rw [List.mem_singleton] at h
          subst h
          rcases List.mem_append.1 hx with h | h
          · exact hs h
          · rcases List.mem_append.1 h with h | h
            · exact absurd (ha2 _ h) (by decide)
            · simp at h) (by simp)
        rw [show value ++ (a2 ++ [' '] ++ comment) = (value ++ (a2 ++ [' '])) ++ '/' :: d by rw [hd]; simp, this]
        simp only
        rw [List.take_left, List.drop_left, trim_strip, Res.ok_bind, trim_strip, Res.ok_bind, ← hd, comment_strip hcm, strip_right hst (ha2.append (by simp [Sp]))]

theorem prefix_sfind (s p : Str) : sfind s p 0 = some 0 ↔ p <+: s := by
  rw [sfind_some]
  constructor
  · rintro ⟨-, -, h, -⟩; exact h
  · intro h; exact ⟨Nat.le_refl _, Nat.zero_le _, h, fun j _ hj => by omega⟩

/-- reading back a card -/
theorem parse_good (k : Keyword) (hk : Good k) (l : List Str) (keys : List Keyword) : parseLoop (fitCard (cardText k) :: l) keys = parseLoop l (keys ++ [k]) := by
  obtain ⟨h1, h2, h3, h4⟩ := hk
  rw [parseLoop]
  obtain ⟨b, hb, hbs⟩ := fitCard_sp (cardText k) h2
  rcases h4 with ⟨hn, hv, hc, hh⟩ | ⟨hh, hkey, hcm, hrest⟩
  · rw [if_pos ((prefix_sfind _ _).2 hh), trim_strip, Res.ok_bind]
    congr 3
    have e : cardText k = alignLeft k.key 30 ' ' := by
      unfold cardText
      simp [hn, hc]
    obtain ⟨b', hb', hbs'⟩ := alignLeft_sp k.key 30
    rw [hb, e, hb', List.append_assoc, strip_right h1 (hbs'.append hbs)]
    obtain ⟨key, value, comment, novalue⟩ := k
    simp only at *
    rw [hn, hv, hc]
  · rw [if_neg (by rw [prefix_sfind]; exact hh), if_neg (by rw [prefix_sfind]; exact h3)]
    have : parseCard (fitCard (cardText k)) = .ok k := by
      rw [hb]
      rcases hrest with ⟨hn, hv⟩ | ⟨hn, hv⟩
      · obtain ⟨b', hb', hbs'⟩ := alignLeft_sp k.key 30
        have e : cardText k = if k.comment = [] then k.key ++ b' else k.key ++ b' ++ [' '] ++ k.comment := by
          unfold cardText
          simp [hn, hb']
        obtain ⟨t, ht, ht'⟩ := tail_form k (k.key ++ b') b hbs
        rw [e, ht]
        exact parseCard_novalue k h1 hkey hcm hn hv b' b t hbs' hbs ht'
      · obtain ⟨a, a1, a2, ea, ha, ha1, ha2⟩ : ∃ a a1 a2, cardText k = (if k.comment = [] then k.key ++ a ++ '=' :: (a1 ++ k.value ++ a2) else
            (k.key ++ a ++ '=' :: (a1 ++ k.value ++ a2)) ++ [' '] ++ k.comment) ∧ Sp a ∧ Sp a1 ∧ Sp a2 := by
          unfold cardText
          rw [if_pos hn]
          by_cases hh : beginsWith k.key "HIERARCH ".toList = true
          · rw [if_pos hh]
            exact ⟨[' '], [' '], [], by simp, by simp [Sp], by simp [Sp], by simp [Sp]⟩
          · rw [if_neg hh]
            obtain ⟨b1, hb1, hs1⟩ := alignLeft_sp k.key 8
            by_cases hq : k.value.head? = some '\''
            · rw [if_pos hq]
              obtain ⟨b2, hb2, hs2⟩ := alignLeft_sp k.value 20
              exact ⟨b1, [' '], b2, by rw [hb1, hb2]; simp, hs1, by simp [Sp], hs2⟩
            · rw [if_neg hq]
              obtain ⟨b2, hb2, hs2⟩ := alignRight_sp k.value 20
              exact ⟨b1, ' ' :: b2, [], by rw [hb1, hb2]; simp, hs1, by
                intro c hc
                rcases List.mem_cons.1 hc with h | h
                · exact h
                · exact hs2 c h, by simp [Sp]⟩
        obtain ⟨t, ht, ht'⟩ := tail_form k (k.key ++ a ++ '=' :: (a1 ++ k.value ++ a2)) b hbs
        rw [ea, ht]
        have := parseCard_value k h1 hkey hcm hn hv a a1 a2 b t ha ha1 ha2 hbs ht'
        simpa [List.append_assoc] using this
    rw [this, Res.ok_bind]

theorem cut_flatten (cs : List Str) (h : ∀ c ∈ cs, c.length = 80) : cut cs.flatten 80 = .ok cs := by
  have hl := flatten_length cs h
  unfold cut
  rw [if_neg (by decide), hl, Nat.mul_div_cancel _ (by decide), Res.mapM_ok (g := fun i => (cs.flatten.drop (i * 80)).take 80)]
  · congr 1
    have := cardsOf_flatten cs h
    unfold cardsOf at this
    rw [hl, Nat.mul_div_cancel _ (by decide), List.range_succ, List.map_append] at this
    exact (List.append_inj this (by simp)).1
  · intro i hi
    have := entryAt_eq cs.flatten i (by rw [hl, Nat.mul_div_cancel _ (by decide)]; have := List.mem_range.1 hi; omega)
    unfold entryAt at this
    rw [hl] at this
    exact this

theorem serialize_flatten (keys : List Keyword) : serializeHeader keys = (keys.map fun k => fitCard (cardText k)).flatten := by
  have : ∀ (keys : List Keyword) (h : Str), keys.foldl (fun h k => h ++ fitCard (cardText k)) h = h ++ (keys.map fun k => fitCard (cardText k)).flatten := by
    intro keys
    induction keys with
    | nil => intro h; simp
    | cons k keys ih => intro h; rw [List.foldl_cons, ih]; simp [List.append_assoc]
  unfold serializeHeader
  rw [this]; rfl

/-- **C121** keywords written by `serialize_header` are read back by `parse_header` -/
theorem C121_roundtrip_partial (keys : List Keyword) (h : ∀ k ∈ keys, Good k) : parseHeader (serializeHeader keys) = .ok keys := by
  unfold parseHeader
  rw [serialize_flatten, cut_flatten _ (by
    intro c hc
    obtain ⟨k, -, rfl⟩ := List.mem_map.1 hc
    exact fitCard_length _), Res.ok_bind]
  have : ∀ (keys : List Keyword) (acc : List Keyword), (∀ k ∈ keys, Good k) → parseLoop (keys.map fun k => fitCard (cardText k)) acc = .ok (acc ++ keys) := by
    intro keys
    induction keys with
    | nil => intro acc _; simp [parseLoop]
    | cons k keys ih =>
      intro acc hg
      rw [List.map_cons, parse_good k (hg k (by simp)), ih _ fun k hk => hg k (by simp [hk])]
      simp
  have := this keys [] h
  simpa using this

/-- **C121** a serialized header is made of one card of 80 characters for each keyword -/
theorem C121_cards (keys : List Keyword) : (serializeHeader keys).length = 80 * keys.length ∧ cut (serializeHeader keys) 80 = .ok (keys.map fun k => fitCard (cardText k)) := by
  have hc : ∀ c ∈ keys.map (fun k => fitCard (cardText k)), c.length = 80 := by
    intro c hc
    obtain ⟨k, -, rfl⟩ := List.mem_map.1 hc
    exact fitCard_length _
  rw [serialize_flatten]
  exact ⟨by rw [flatten_length _ hc, List.length_map, Nat.mul_comm], cut_flatten _ hc⟩

/-- Spec: a text completed to one card -/
def card (s : String) : Str := s.toList ++ List.replicate (80 - s.toList.length) ' '

/-- Finding: a comment card that contains a slash is changed (the slash moves to column 31 or after) -/
theorem C121_comment_refuted : ∃ ks, parseHeader (card "COMMENT see http://a.b") = .ok ks ∧
    serializeHeader ks = card "COMMENT see http:              //a.b" ∧ serializeHeader ks ≠ card "COMMENT see http://a.b" := by
  refine ⟨[⟨"COMMENT see http:".toList, [], "//a.b".toList, true⟩], ?_, ?_, ?_⟩ <;> decide +kernel

/-- Finding: a text value with an escaped quote (two quotes) is changed -/
theorem C121_quote_refuted : ∃ ks, parseHeader (card "A       = 'it''s'") = .ok ks ∧
    serializeHeader ks = card "A       = 'it'                 's'" ∧ serializeHeader ks ≠ card "A       = 'it''s'" := by
  refine ⟨[⟨"A".toList, "'it'".toList, "'s'".toList, false⟩], ?_, ?_, ?_⟩ <;> decide +kernel

/-- Finding: the continuation of a value by an empty text (as written for long comments) has undefined behaviour, and so has a continuation without
previous card -/
theorem C121_continue_refuted : parseHeader (card "A       = 'x&'" ++ card "CONTINUE  '' / comment") = .ub ∧
    parseHeader (card "CONTINUE  'x'") = .ub := by
  constructor <;> decide +kernel

/-- Finding: a value read over several cards is written back on one card and cut -/
theorem C121_long_refuted : ∃ ks, parseHeader (card "A       = '12345678901234567890123456789012345678901234567890&'" ++ card "CONTINUE  '1234567890123456789012345'") = .ok ks ∧
    serializeHeader ks = "A       = '123456789012345678901234567890123456789012345678901234567890123456789".toList := by
  refine ⟨[⟨"A".toList, "'123456789012345678901234567890123456789012345678901234567890123456789012345'".toList, [], false⟩], ?_, ?_⟩ <;> decide +kernel

/-- keywords that are read back, with quoted and plain values, comments, no value -/
example : ∃ ks : List Keyword, ks.length = 4 ∧ parseHeader (serializeHeader ks) = .ok ks := by
  refine ⟨[⟨"A".toList, "'x y/z'".toList, "/ text".toList, false⟩, ⟨"B".toList, "1.5".toList, [], false⟩, ⟨"HISTORY a/b=c".toList, [], [], true⟩,
    ⟨"END".toList, [], [], true⟩], rfl, C121_roundtrip_partial _ ?_⟩
  intro k hk
  simp only [List.mem_cons, List.not_mem_nil, or_false] at hk
  rcases hk with rfl | rfl | rfl | rfl
  · exact ⟨by decide, by decide, by decide, Or.inr ⟨by decide, by decide, Or.inr ⟨by decide, by decide⟩, Or.inr ⟨rfl, Or.inl ⟨"x y/z".toList, by decide, by decide⟩⟩⟩⟩
  · exact ⟨by decide, by decide, by decide, Or.inr ⟨by decide, by decide, Or.inl rfl, Or.inr ⟨rfl, Or.inr ⟨by decide, by decide, by decide⟩⟩⟩⟩
  · exact ⟨by decide, by decide, by decide, Or.inl ⟨rfl, rfl, rfl, by decide⟩⟩
  · exact ⟨by decide, by decide, by decide, Or.inr ⟨by decide, by decide, Or.inl rfl, Or.inl ⟨rfl, rfl⟩⟩⟩

end Verif.Fits
