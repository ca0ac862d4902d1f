import Verif.Io.Header
import Verif.Str.TrimProps
import Mathlib.Data.List.TakeWhile
/-!
# C120: keywords of FITS headers
-/
namespace Verif.Fits
open Verif Verif.Str

/-! ### Spec -/

/-- Spec: a text without the blanks around it -/
def strip (s : Str) : Str := ((s.dropWhile (· ∈ blanks)).reverse.dropWhile (· ∈ blanks)).reverse

/-- Spec: the name of a card, what precedes the first equal sign -/
def nameOf (card : Str) : Option Str := if '=' ∈ card then some (strip (card.takeWhile (· ≠ '='))) else none

/-- Spec: the value of a card, between the first equal sign and the next slash -/
def valueOf (card : Str) : Str := strip (((card.dropWhile (· ≠ '=')).drop 1).takeWhile (· ≠ '/'))

/-- Spec: the value of the first card of that name -/
def lookup (cards : List Str) (key : Str) : Option Str := (cards.find? fun c => nameOf c = some key).map valueOf

/-- Spec: the cards of a header -/
def cardsOf (h : Str) : List Str := (List.range (h.length / 80 + 1)).map fun i => (h.drop (i * 80)).take 80

/-! ### Texts -/

theorem strip_spec (s : Str) : IsTrim blanks s (strip s) := by
  obtain ⟨m, -, h⟩ := C36_trim s blanks
  have : strip s = m := by
    obtain ⟨a, b, e, h1, h2, h3, h4⟩ := h
    unfold strip
    rw [e, List.append_assoc, List.dropWhile_append_of_pos (by simpa using h1)]
    cases m with
    | nil =>
      have : b.dropWhile (· ∈ blanks) = [] := by
        rw [← List.append_nil b, List.dropWhile_append_of_pos (by simpa using h2)]; rfl
      simp [this]
    | cons c m =>
      have hc := h3 c rfl
      rw [List.cons_append, List.dropWhile_cons_of_neg (by simpa using hc), ← List.cons_append, List.reverse_append,
        List.dropWhile_append_of_pos (by simpa using h2)]
      have : (c :: m).reverse.dropWhile (· ∈ blanks) = (c :: m).reverse := by
        cases hr : (c :: m).reverse with
        | nil => rfl
        | cons y l =>
          have : (c :: m).getLast? = some y := by rw [← List.head?_reverse, hr]; rfl
          rw [List.dropWhile_cons_of_neg (by simpa using h4 y this)]
      rw [this, List.reverse_reverse]
  rw [this]; exact h

theorem trim_strip (s : Str) : trim s blanks = .ok (strip s) := by
  obtain ⟨m, h1, h2⟩ := C36_trim s blanks
  rw [h1, isTrim_unique h2 (strip_spec s)]

theorem strip_pad {a b : Str} (v : Str) (ha : ∀ c ∈ a, c ∈ blanks) (hb : ∀ c ∈ b, c ∈ blanks) : strip (a ++ v ++ b) = strip v := by
  obtain ⟨x, y, e, h1, h2, h3, h4⟩ := strip_spec v
  refine isTrim_unique (strip_spec _) ⟨a ++ x, y ++ b, ?_, ?_, ?_, h3, h4⟩
  · conv_lhs => rw [e]
    simp [List.append_assoc]
  · intro c hc
    rcases List.mem_append.1 hc with h | h
    · exact ha c h
    · exact h1 c h
  · intro c hc
    rcases List.mem_append.1 hc with h | h
    · exact h2 c h
    · exact hb c h

theorem strip_strip (v : Str) : strip (strip v) = strip v := by
  obtain ⟨x, y, e, h1, h2, h3, h4⟩ := strip_spec v
  exact isTrim_unique (strip_spec _) ⟨[], [], by simp, by simp, by simp, h3, h4⟩

theorem takeWhile_take (s : Str) (p : Char → Bool) : s.take (s.takeWhile p).length = s.takeWhile p :=
  List.prefix_iff_eq_take.1 (List.takeWhile_prefix p) |>.symm

theorem takeWhile_drop (s : Str) (p : Char → Bool) : s.drop (s.takeWhile p).length = s.dropWhile p := by
  have h := List.takeWhile_append_dropWhile (p := p) (l := s)
  have h2 := List.take_append_drop (s.takeWhile p).length s
  rw [takeWhile_take] at h2
  exact List.append_cancel_left (h2.trans h.symm)

/-- `find_first_of` one character -/
theorem firstOf_one (s : Str) (c : Char) (pos : Nat) (hp : pos ≤ s.length) : firstOf s [c] pos =
    if c ∈ s.drop pos then some (pos + ((s.drop pos).takeWhile (· ≠ c)).length) else none := by
  by_cases h : c ∈ s.drop pos
  · rw [if_pos h]
    unfold firstOf
    have hl : ((s.drop pos).takeWhile (· ≠ c)).length < (s.drop pos).length := by
      rcases Nat.lt_or_ge ((s.drop pos).takeWhile (· ≠ c)).length (s.drop pos).length with h' | h'
      · exact h'
      · have : (s.drop pos).takeWhile (· ≠ c) = s.drop pos := (List.takeWhile_prefix _).eq_of_length_le h'
        rw [← this] at h
        exact absurd (List.mem_takeWhile_imp h) (by simp)
    rw [firstIn_some]
    have hd : (s.drop pos).length = s.length - pos := by simp
    refine ⟨by omega, by omega, ?_, fun j h1 h2 => ?_⟩
    · rw [inSet_iff]
      refine ⟨c, by simp, ?_⟩
      have h0 := List.head?_dropWhile_not (fun x => decide (x ≠ c)) (s.drop pos)
      have e := (takeWhile_drop (s.drop pos) (fun x => decide (x ≠ c))).symm
      rw [e, List.head?_drop, List.getElem?_drop, List.getElem?_eq_getElem (by omega)] at h0
      rw [List.getElem?_eq_getElem (by omega)]
      simpa using h0
    · have hj : j - pos < ((s.drop pos).takeWhile (· ≠ c)).length := by omega
      have hm := List.getElem_mem hj
      have := List.mem_takeWhile_imp hm
      rw [(List.takeWhile_prefix _).getElem hj, List.getElem_drop] at this
      rw [inSet_lt (by omega)]
      have e : pos + (j - pos) = j := by omega
      simp only [e] at this
      simpa using this
  · rw [if_neg h]
    unfold firstOf
    rw [firstIn_none]
    intro j h1 h2
    rw [inSet_lt h2]
    simp only [List.mem_singleton, decide_eq_false_iff_not]
    intro e
    refine h ?_
    rw [List.mem_iff_getElem?]
    exact ⟨j - pos, by rw [List.getElem?_drop, show pos + (j - pos) = j by omega, List.getElem?_eq_getElem h2, e]⟩

/-- the position of the equal sign -/
theorem eq_pos (e : Str) : (firstOf e ['='] 0 = none ∧ nameOf e = none) ∨ ∃ q, firstOf e ['='] 0 = some q ∧ q < e.length ∧ e.take q = e.takeWhile (· ≠ '=') ∧
    e.drop q = e.dropWhile (· ≠ '=') ∧ nameOf e = some (strip (e.take q)) ∧ (e.drop q).head? = some '=' := by
  rw [firstOf_one e '=' 0 (Nat.zero_le _)]
  unfold nameOf
  rw [List.drop_zero]
  by_cases h : '=' ∈ e
  · rw [if_pos h, if_pos h]
    refine Or.inr ⟨_, rfl, ?_, ?_, ?_, ?_, ?_⟩
    · rw [Nat.zero_add]
      rcases Nat.lt_or_ge (e.takeWhile (· ≠ '=')).length e.length with h' | h'
      · exact h'
      · have : e.takeWhile (· ≠ '=') = e := (List.takeWhile_prefix _).eq_of_length_le h'
        rw [← this] at h
        exact absurd (List.mem_takeWhile_imp h) (by simp)
    · rw [Nat.zero_add, takeWhile_take]
    · rw [Nat.zero_add, takeWhile_drop]
    · rw [Nat.zero_add, takeWhile_take]
    · rw [Nat.zero_add, takeWhile_drop]
      have h0 := List.head?_dropWhile_not (fun x => decide (x ≠ '=')) e
      cases hd : (e.dropWhile (· ≠ '=')).head? with
      | none =>
        rw [List.head?_eq_none_iff, List.dropWhile_eq_nil_iff] at hd
        exact absurd (hd '=' h) (by simp)
      | some c => rw [hd] at h0; simpa using h0
  · rw [if_neg h, if_neg h]
    exact Or.inl ⟨rfl, rfl⟩

/-- the text between the equal sign and the comment -/
theorem rawValue_eq (e : Str) (q : Nat) (hq : q < e.length) (h : (e.drop q).head? = some '=') :
    rawValue e q = .ok ((e.drop (q + 1)).takeWhile (· ≠ '/')) := by
  unfold rawValue
  rw [firstOf_one e '/' q (by omega)]
  have hd : e.drop q = '=' :: e.drop (q + 1) := by
    cases hx : e.drop q with
    | nil => rw [hx] at h; cases h
    | cons c l =>
      rw [hx] at h
      have : e.drop (q + 1) = l := by rw [← List.drop_drop, hx]; rfl
      rw [this]
      injection h with h
      rw [h]
  rw [hd]
  by_cases hc : '/' ∈ e.drop (q + 1)
  · rw [if_pos (by simp [hc])]
    simp only
    unfold substr
    rw [if_neg (by omega)]
    rw [List.takeWhile_cons_of_pos (by decide), List.length_cons]
    rw [show q + (((e.drop (q + 1)).takeWhile (· ≠ '/')).length + 1) - q - 1 = ((e.drop (q + 1)).takeWhile (· ≠ '/')).length by omega, takeWhile_take]
  · rw [if_neg (by simp [hc])]
    simp only
    unfold substrFrom
    rw [if_neg (by omega)]
    congr 1
    symm
    rw [List.takeWhile_eq_self_iff]
    intro x hx
    simp only [ne_eq, decide_not, Bool.not_eq_eq_eq_not, Bool.not_true, decide_eq_false_iff_not]
    rintro rfl
    exact hc hx

theorem entryAt_eq (h : Str) (i : Nat) (hi : i < h.length / 80 + 1) : entryAt h i = .ok ((h.drop (i * 80)).take 80) := by
  have : i * 80 ≤ h.length := by omega
  unfold entryAt substr
  rw [if_neg (by omega)]
  congr 1
  rcases Nat.le_total 80 (h.length - i * 80) with hc | hc
  · rw [Nat.min_eq_left hc]
  · rw [Nat.min_eq_right hc, List.take_of_length_le (by simp), List.take_of_length_le (by simp; omega)]

/-- **C120** `getkey` gives the value of the first card of that name -/
theorem C120_get (h key : Str) : getkey h key = .ok (lookup (cardsOf h) key) := by
  unfold getkey lookup cardsOf
  rw [List.find?_map, Option.map_map]
  have : ∀ l : List Nat, (∀ i ∈ l, i < h.length / 80 + 1) → getLoop h key l = .ok (Option.map (valueOf ∘ fun i => (h.drop (i * 80)).take 80)
      (l.find? ((fun c => decide (nameOf c = some key)) ∘ fun i => (h.drop (i * 80)).take 80))) := by
    intro l
    induction l with
    | nil => intro _; rfl
    | cons i l ih =>
      intro hi
      have ih := ih fun j hj => hi j (by simp [hj])
      rw [getLoop, entryAt_eq h i (hi i (by simp)), Res.ok_bind]
      generalize he : (h.drop (i * 80)).take 80 = e
      rcases eq_pos e with ⟨h1, h2⟩ | ⟨q, h1, h2, h3, h4, h5, h6⟩
      · rw [h1]
        simp only
        rw [ih, List.find?_cons_of_neg]
        simp [he, h2]
      · rw [h1]
        simp only
        unfold substr
        rw [if_neg (by omega), List.drop_zero, Res.ok_bind, trim_strip, Res.ok_bind]
        by_cases hk : strip (e.take q) = key
        · rw [if_pos hk, rawValue_eq e q h2 h6, Res.ok_bind, trim_strip, Res.ok_bind, List.find?_cons_of_pos (by simp [he, h5, hk])]
          simp only [Option.map_some, Function.comp, he]
          unfold valueOf
          rw [← h4, List.drop_drop]
        · rw [if_neg hk, ih, List.find?_cons_of_neg]
          simp [he, h5, hk]
  exact this _ fun i hi => List.mem_range.1 hi

theorem cardsOf_flatten (cs : List Str) (h : ∀ c ∈ cs, c.length = 80) : cardsOf cs.flatten = cs ++ [[]] := by
  have hl : ∀ cs : List Str, (∀ c ∈ cs, c.length = 80) → cs.flatten.length = cs.length * 80 := by
    intro cs
    induction cs with
    | nil => intro _; rfl
    | cons c cs ih =>
      intro h
      rw [List.flatten_cons, List.length_append, h c (by simp), ih fun c hc => h c (by simp [hc]), List.length_cons]; omega
  unfold cardsOf
  rw [hl cs h, Nat.mul_div_cancel _ (by decide)]
  induction cs with
  | nil => rfl
  | cons c cs ih =>
    have hc := h c (by simp)
    rw [List.length_cons, List.range_succ_eq_map, List.map_cons, List.map_map, List.cons_append]
    congr 1
    · simp only [Nat.zero_mul, List.drop_zero, List.flatten_cons]
      rw [List.take_append_of_le_length (by omega), List.take_of_length_le (by omega)]
    · rw [← ih fun c hc => h c (by simp [hc])]
      refine List.map_congr_left fun i _ => ?_
      simp only [Function.comp, List.flatten_cons]
      rw [show (i + 1) * 80 = c.length + i * 80 by omega, ← List.drop_drop]
      simp

theorem lookup_nil_card (cs : List Str) (key : Str) : lookup (cs ++ [[]]) key = lookup cs key := by
  unfold lookup
  rw [List.find?_append]
  cases cs.find? (fun c => decide (nameOf c = some key)) <;> simp [nameOf]

/-! ### Writing -/

/-- Spec: the comment of a card, what follows the first slash after the equal sign -/
def commentOf (card : Str) : Option Str := if '/' ∈ card.dropWhile (· ≠ '=') then some (((card.dropWhile (· ≠ '=')).dropWhile (· ≠ '/')).drop 1) else none

/-- the beginning of a new card -/
def base (key value : Str) : Str := key ++ List.replicate (8 - key.length) ' ' ++ ['=', ' '] ++ value

theorem base_length (key value : Str) (h : key.length ≤ 8) : (base key value).length = 10 + value.length := by
  unfold base; simp; omega

theorem newEntry_eq (key value comment : Str) : newEntry key value comment = base key value ++ (if comment = [] then [] else [' ', '/', ' '] ++ comment) := by
  unfold newEntry base
  split <;> simp [List.append_assoc]

theorem card_fields (key value rest : Str) (hk : '=' ∉ key) (hs : strip key = key) (hv : '/' ∉ value) (hr : ∀ c ∈ rest.takeWhile (· ≠ '/'), c = ' ') :
    nameOf (base key value ++ rest) = some key ∧ valueOf (base key value ++ rest) = strip value := by
  have hb : ∀ x ∈ key ++ List.replicate (8 - key.length) ' ', decide (x ≠ '=') = true := by
    intro x hx
    rw [decide_eq_true_eq]
    rintro rfl
    rcases List.mem_append.1 hx with h | h
    · exact hk h
    · exact absurd (List.eq_of_mem_replicate h) (by decide)
  have e : base key value ++ rest = (key ++ List.replicate (8 - key.length) ' ') ++ '=' :: ' ' :: (value ++ rest) := by
    unfold base; simp [List.append_assoc]
  rw [e]
  constructor
  · unfold nameOf
    rw [if_pos (by simp), List.takeWhile_append_of_pos hb, List.takeWhile_cons_of_neg (by simp), List.append_nil]
    have := strip_pad (a := []) (b := List.replicate (8 - key.length) ' ') key (by simp) (by
      intro c hc; rw [List.eq_of_mem_replicate hc]; decide)
    rw [List.nil_append] at this
    rw [this, hs]
  · unfold valueOf
    rw [List.dropWhile_append_of_pos hb, List.dropWhile_cons_of_neg (by simp), List.drop_one, List.tail_cons,
      List.takeWhile_cons_of_pos (by decide), List.takeWhile_append_of_pos (by
        intro x hx
        rw [decide_eq_true_eq]
        rintro rfl
        exact hv hx)]
    exact strip_pad (a := [' ']) value (by simp [blanks]) (fun c hc => by rw [hr c hc]; decide)

theorem takeWhile_blank_append (n : Nat) (t : Str) (h : ∀ c ∈ t.takeWhile (· ≠ '/'), c = ' ') :
    ∀ c ∈ (t ++ List.replicate n ' ').takeWhile (· ≠ '/'), c = ' ' := by
  intro c hc
  by_cases hs : '/' ∈ t
  · rw [List.takeWhile_append] at hc
    rw [if_neg] at hc
    · exact h c hc
    · intro he
      have := List.takeWhile_prefix (p := fun x => decide (x ≠ '/')) (l := t) |>.eq_of_length he
      rw [← this] at hs
      exact absurd (List.mem_takeWhile_imp hs) (by simp)
  · have : t.takeWhile (· ≠ '/') = t := by
      rw [List.takeWhile_eq_self_iff]
      intro x hx
      rw [decide_eq_true_eq]
      rintro rfl
      exact hs hx
    rw [this] at h
    have hm := (List.takeWhile_prefix _).subset hc
    rcases List.mem_append.1 hm with h' | h'
    · exact h c h'
    · exact List.eq_of_mem_replicate h'

/-- copying the comment of the previous card -/
theorem keepComment_spec (t : Str) (q : Nat) (comment entry : Str) (hq : q < t.length) (hd : t.drop q = t.dropWhile (· ≠ '=')) (hl : entry.length ≤ 80)
    (hamp : comment = [] → '/' ∈ t.dropWhile (· ≠ '=') → t.getLast? = some '&' → entry.length ≤ 77) :
    ∃ rest, keepComment t q comment entry = .ok (entry ++ rest) ∧ (entry ++ rest).length ≤ 80 ∧ (∀ c ∈ rest.takeWhile (· ≠ '/'), c = ' ') ∧
      (comment ≠ [] → rest = []) ∧
      ∀ cmt, comment = [] → commentOf t = some cmt → (entry ++ rest).take 79 = (entry ++ [' ', '/'] ++ cmt).take 79 := by
  unfold keepComment commentOf
  rw [firstOf_one t '/' q (by omega), ← hd]
  by_cases hs : '/' ∈ t.drop q
  · rw [if_pos hs, if_pos hs]
    simp only
    by_cases hc : comment = []
    · rw [if_pos hc]
      have hcm : t.drop (q + ((t.drop q).takeWhile (· ≠ '/')).length + 1) = ((t.drop q).dropWhile (· ≠ '/')).drop 1 := by
        rw [← takeWhile_drop, List.drop_drop, List.drop_drop, Nat.add_assoc]
      have hlt : q + ((t.drop q).takeWhile (· ≠ '/')).length + 1 ≤ t.length := by
        have h0 : (t.drop q).dropWhile (· ≠ '/') ≠ [] := by
          intro h
          rw [List.dropWhile_eq_nil_iff] at h
          exact absurd (h '/' hs) (by simp)
        rw [← takeWhile_drop, List.drop_drop] at h0
        have := List.length_pos_iff.2 h0
        rw [List.length_drop] at this
        omega
      unfold substrFrom
      rw [if_neg (by omega)]
      simp only [Res.map]
      rw [hcm]
      generalize hcmt : ((t.drop q).dropWhile (· ≠ '/')).drop 1 = cmt
      have hsuf : t.getLast? ≠ some '&' → (entry ++ [' ', '/'] ++ cmt).getLast? ≠ some '&' := by
        intro h1 h2
        rw [List.getLast?_append] at h2
        cases hx : cmt.getLast? with
        | none => rw [hx] at h2; simp at h2
        | some c =>
          rw [hx] at h2
          have h3 : t.getLast? = cmt.getLast? := by
            rw [← hcmt, ← hcm, List.getLast?_drop, if_neg]
            intro hle
            rw [← hcmt, ← hcm, List.drop_eq_nil_of_le hle] at hx
            simp at hx
          exact h1 (by rw [h3, hx]; simpa using h2)
      unfold cutCard
      by_cases h80 : (entry ++ [' ', '/'] ++ cmt).length > 80
      · rw [if_pos h80]
        by_cases ha : (entry ++ [' ', '/'] ++ cmt).getLast? = some '&'
        · rw [if_pos ha]
          have h77 := hamp hc (hd ▸ hs) (by
            by_contra h; exact hsuf h ha)
          have e : (entry ++ [' ', '/'] ++ cmt).take 79 = entry ++ ([' ', '/'] ++ cmt.take (77 - entry.length)) := by
            rw [List.append_assoc, List.take_append, List.take_of_length_le (by omega), List.take_append, List.take_of_length_le (l := [' ', '/']) (by simp; omega)]
            congr 3
            simp; omega
          refine ⟨[' ', '/'] ++ cmt.take (77 - entry.length) ++ ['&'], ?_, ?_, ?_, fun h => absurd hc h, ?_⟩
          · rw [e]; simp [List.append_assoc]
          · simp; omega
          · intro c h; simpa using h
          · rintro cm - h
            injection h with h
            subst h
            rw [← List.append_assoc, ← e, List.take_append_of_le_length]
            · rw [List.take_take]; simp
            · rw [List.length_take]; omega
        · rw [if_neg ha]
          refine ⟨([' ', '/'] ++ cmt).take (80 - entry.length), ?_, ?_, ?_, fun h => absurd hc h, ?_⟩
          · rw [List.append_assoc, List.take_append, List.take_of_length_le hl]
          · rw [List.length_append, List.length_take]; omega
          · intro c h
            have : ∀ n, ∀ c ∈ (([' ', '/'] ++ cmt).take n).takeWhile (· ≠ '/'), c = ' ' := by
              intro n c h
              match n with
              | 0 => simp at h
              | 1 => simpa using h
              | n + 2 => simpa using h
            exact this _ c h
          · rintro cm - h
            injection h with h
            subst h
            rw [show entry ++ ([' ', '/'] ++ cmt).take (80 - entry.length) = (entry ++ ([' ', '/'] ++ cmt)).take 80 by
              rw [List.take_append (l₁ := entry), List.take_of_length_le hl], List.take_take, List.append_assoc]
            simp
      · rw [if_neg h80]
        refine ⟨[' ', '/'] ++ cmt, by rw [List.append_assoc], by rw [← List.append_assoc]; omega, ?_, fun h => absurd hc h, ?_⟩
        · intro c h; simpa using h
        · rintro cm - h
          injection h with h
          rw [h, List.append_assoc]
    · rw [if_neg hc]
      exact ⟨[], by simp, by simpa using hl, by simp, fun _ => rfl, fun _ h => absurd h hc⟩
  · rw [if_neg hs, if_neg hs]
    exact ⟨[], by simp, by simpa using hl, by simp, fun _ => rfl, fun _ _ h => nomatch h⟩

/-- the search of the existing card -/
theorem setLoop_eq (h key comment entry : Str) : ∀ l : List Nat, (∀ i ∈ l, i < h.length / 80 + 1) →
    ((∀ i ∈ l, nameOf ((h.drop (i * 80)).take 80) ≠ some key) ∧ setLoop h key comment entry l = .ok none) ∨
    ∃ a i b q, l = a ++ i :: b ∧ (∀ j ∈ a, nameOf ((h.drop (j * 80)).take 80) ≠ some key) ∧ nameOf ((h.drop (i * 80)).take 80) = some key ∧
      q < ((h.drop (i * 80)).take 80).length ∧ ((h.drop (i * 80)).take 80).drop q = ((h.drop (i * 80)).take 80).dropWhile (· ≠ '=') ∧
      setLoop h key comment entry l = (keepComment ((h.drop (i * 80)).take 80) q comment entry).map fun e => some (i, e) := by
  intro l
  induction l with
  | nil => intro _; exact Or.inl ⟨by simp, rfl⟩
  | cons i l ih =>
    intro hi
    have ih := ih fun j hj => hi j (by simp [hj])
    rw [setLoop, entryAt_eq h i (hi i (by simp)), Res.ok_bind]
    have skip : nameOf ((h.drop (i * 80)).take 80) ≠ some key → ∀ x, x = setLoop h key comment entry l →
        ((∀ j ∈ i :: l, nameOf ((h.drop (j * 80)).take 80) ≠ some key) ∧ x = .ok none) ∨
        ∃ a i' b q, i :: l = a ++ i' :: b ∧ (∀ j ∈ a, nameOf ((h.drop (j * 80)).take 80) ≠ some key) ∧ nameOf ((h.drop (i' * 80)).take 80) = some key ∧
          q < ((h.drop (i' * 80)).take 80).length ∧ ((h.drop (i' * 80)).take 80).drop q = ((h.drop (i' * 80)).take 80).dropWhile (· ≠ '=') ∧
          x = (keepComment ((h.drop (i' * 80)).take 80) q comment entry).map fun e => some (i', e) := by
      rintro hne x rfl
      rcases ih with ⟨h1, h2⟩ | ⟨a, i', b, q, e, h1, h2, h3, h4, h5⟩
      · left
        exact ⟨fun j hj => by
          rcases List.mem_cons.1 hj with rfl | hj
          · exact hne
          · exact h1 j hj, h2⟩
      · right
        refine ⟨i :: a, i', b, q, by rw [e]; rfl, fun j hj => ?_, h2, h3, h4, h5⟩
        rcases List.mem_cons.1 hj with rfl | hj
        · exact hne
        · exact h1 j hj
    rcases eq_pos ((h.drop (i * 80)).take 80) with ⟨h1, h2⟩ | ⟨q, h1, h2, h3, h4, h5, h6⟩
    · rw [h1]
      exact skip (by rw [h2]; simp) _ rfl
    · rw [h1]
      simp only
      unfold substr
      rw [if_neg (by omega), List.drop_zero, Res.ok_bind, trim_strip, Res.ok_bind]
      by_cases hk : strip (((h.drop (i * 80)).take 80).take q) = key
      · rw [if_pos hk]
        right
        refine ⟨[], i, l, q, rfl, by simp, by rw [h5, hk], h2, h4, ?_⟩
        cases keepComment ((h.drop (i * 80)).take 80) q comment entry <;> rfl
      · rw [if_neg hk]
        exact skip (by rw [h5]; simpa using hk) _ rfl

theorem flatten_length (cs : List Str) (h : ∀ c ∈ cs, c.length = 80) : cs.flatten.length = cs.length * 80 := by
  induction cs with
  | nil => rfl
  | cons c cs ih =>
    rw [List.flatten_cons, List.length_append, h c (by simp), ih fun c hc => h c (by simp [hc]), List.length_cons]; omega

theorem cards_get (cs : List Str) (h : ∀ c ∈ cs, c.length = 80) (i : Nat) (hi : i < cs.length + 1) :
    (cs ++ [[]])[i]? = some ((cs.flatten.drop (i * 80)).take 80) := by
  rw [← cardsOf_flatten cs h]
  unfold cardsOf
  rw [flatten_length cs h, Nat.mul_div_cancel _ (by decide), List.getElem?_map, List.getElem?_range hi]
  rfl

theorem lookup_none {cs : List Str} {key : Str} : lookup cs key = none ↔ ∀ c ∈ cs, nameOf c ≠ some key := by
  unfold lookup
  simp

theorem lookup_append (a b : List Str) (k : Str) : lookup (a ++ b) k = (lookup a k).or (lookup b k) := by
  unfold lookup
  rw [List.find?_append]
  cases a.find? (fun c => decide (nameOf c = some k)) <;> simp

theorem lookup_cons (n : Str) (b : List Str) (k : Str) : lookup (n :: b) k = if nameOf n = some k then some (valueOf n) else lookup b k := by
  unfold lookup
  by_cases h : nameOf n = some k
  · rw [if_pos h, List.find?_cons_of_pos (by simpa using h)]; rfl
  · rw [if_neg h, List.find?_cons_of_neg (by simpa using h)]

theorem padCard_length (e : Str) (h : e.length ≤ 80) : (padCard e).length = 80 := by
  unfold padCard
  simp; omega

/-- **C120** `setkey` on a header made of whole cards: the cards are those of before, with the first card of that name replaced, or a new one added
before the `END` card (at the end if there is none). The new card has this name and value, and the comment given, or that of the replaced card, cut to
what fits. Afterwards the key has this value and the others are unchanged.

The name must have no equal sign nor blanks around it, the value no slash, and, only when the key is new, `END` must not occur within the last card (except
at its beginning); when the comment of the replaced card is cut and ends with `&` the new value must leave place for it. Without these, see
`C120_end_refuted`, `C120_slash_refuted`, `C120_amp_refuted`. -/
theorem C120_set_partial (cs : List Str) (hcs : ∀ c ∈ cs, c.length = 80) (key value comment : Str) (hk8 : key.length ≤ 8) (hk : '=' ∉ key) (hs : strip key = key)
    (hv : '/' ∉ value) (hlen : (newEntry key value comment).length ≤ 80)
    (hend : lookup cs key = none → ∀ e, cs.getLast? = some e → ['E', 'N', 'D'] <:+: e → ['E', 'N', 'D'] <+: e)
    (hamp : ∀ c ∈ cs, nameOf c = some key → comment = [] → '/' ∈ c → c.getLast? = some '&' → value.length ≤ 67) :
    ∃ a b n, setkey cs.flatten key value comment = .ok (some (a ++ n :: b).flatten) ∧ n.length = 80 ∧ nameOf n = some key ∧ valueOf n = strip value ∧
      ((lookup cs key = none ∧ cs = a ++ b ∧ n = padCard (newEntry key value comment) ∧ (∀ e, cs.getLast? = some e → ['E', 'N', 'D'] <+: e → b = [e]) ∧
          (b = [] ∨ ∃ e, b = [e] ∧ ['E', 'N', 'D'] <+: e)) ∨
        ∃ old, cs = a ++ old :: b ∧ nameOf old = some key ∧ lookup a key = none ∧ (comment ≠ [] → n = padCard (newEntry key value comment)) ∧
          ∀ cmt, comment = [] → commentOf old = some cmt → (base key value ++ [' ', '/'] ++ cmt).take 79 <+: n) ∧
      ∀ k, getkey (a ++ n :: b).flatten k = if k = key then .ok (some (strip value)) else getkey cs.flatten k := by
  have suff : ∀ a b n, n.length = 80 → nameOf n = some key → valueOf n = strip value → ((cs = a ++ b ∧ lookup cs key = none) ∨ ∃ old, cs = a ++ old :: b ∧
      nameOf old = some key ∧ lookup a key = none) → ∀ k, getkey (a ++ n :: b).flatten k = if k = key then .ok (some (strip value)) else getkey cs.flatten k := by
    intro a b n hn1 hn2 hn3 hc k
    have hall : ∀ c ∈ a ++ n :: b, c.length = 80 := by
      intro c hc'
      rcases List.mem_append.1 hc' with h | h
      · rcases hc with ⟨e, -⟩ | ⟨old, e, -, -⟩ <;> exact hcs c (by rw [e]; simp [h])
      · rcases List.mem_cons.1 h with rfl | h
        · exact hn1
        · rcases hc with ⟨e, -⟩ | ⟨old, e, -, -⟩ <;> exact hcs c (by rw [e]; simp [h])
    rw [C120_get, C120_get, cardsOf_flatten _ hall, cardsOf_flatten _ hcs, lookup_nil_card, lookup_nil_card, lookup_append, lookup_cons, hn2, hn3]
    rcases hc with ⟨e, h0⟩ | ⟨old, e, ho, h0⟩
    · by_cases hkk : k = key
      · subst hkk
        rw [if_pos rfl, if_pos rfl]
        have : lookup a k = none := lookup_none.2 fun c hc => lookup_none.1 h0 c (by rw [e]; simp [hc])
        rw [this]; rfl
      · rw [if_neg hkk, if_neg (by simpa using Ne.symm hkk), e, lookup_append]
    · by_cases hkk : k = key
      · subst hkk
        rw [if_pos rfl, if_pos rfl, h0]; rfl
      · rw [if_neg hkk, if_neg (by simpa using Ne.symm hkk), e, lookup_append, lookup_cons, ho, if_neg (by simpa using Ne.symm hkk)]
  have hrest0 : ∀ c ∈ (if comment = [] then [] else [' ', '/', ' '] ++ comment : Str).takeWhile (· ≠ '/'), c = ' ' := by
    split
    · simp
    · intro c h; simpa using h
  have hpad : nameOf (padCard (newEntry key value comment)) = some key ∧ valueOf (padCard (newEntry key value comment)) = strip value := by
    unfold padCard
    rw [newEntry_eq, List.append_assoc]
    refine card_fields key value _ hk hs hv ?_
    exact takeWhile_blank_append _ _ hrest0
  unfold setkey
  rw [if_neg (by omega), if_neg (by omega)]
  have hn : cs.flatten.length / 80 + 1 = cs.length + 1 := by rw [flatten_length cs hcs, Nat.mul_div_cancel _ (by decide)]
  have hget := cards_get cs hcs
  rcases setLoop_eq cs.flatten key comment (newEntry key value comment) (List.range (cs.flatten.length / 80 + 1)) (fun i hi => List.mem_range.1 hi) with
    ⟨h1, h2⟩ | ⟨a, i, b, q, e, h1, h2, h3, h4, h5⟩
  · have hnone : lookup cs key = none := by
      rw [lookup_none]
      intro c hc
      obtain ⟨i, hi, rfl⟩ := List.getElem_of_mem hc
      have := h1 i (List.mem_range.2 (by omega))
      have hg := hget i (by omega)
      rw [List.getElem?_append_left hi, List.getElem?_eq_getElem hi, Option.some.injEq] at hg
      rw [hg]; exact this
    rw [h2, Res.ok_bind]
    simp only
    unfold endPos
    rcases List.eq_nil_or_concat cs with rfl | ⟨init, last, rfl⟩
    · refine ⟨[], [], padCard (newEntry key value comment), by simp, padCard_length _ hlen, hpad.1, hpad.2,
        Or.inl ⟨hnone, rfl, rfl, by simp, Or.inl rfl⟩, suff [] [] _ (padCard_length _ hlen) hpad.1 hpad.2 (Or.inl ⟨rfl, hnone⟩)⟩
    · rw [List.concat_eq_append] at *
      have hlast : last.length = 80 := hcs last (by simp)
      have hfl : (init ++ [last]).flatten = init.flatten ++ last := by simp
      rw [if_pos (by rw [flatten_length _ hcs]; simp; omega)]
      have hdrop : (init ++ [last]).flatten.drop ((init ++ [last]).flatten.length - 80) = last := by
        rw [hfl, List.length_append, hlast, Nat.add_sub_cancel, List.drop_left]
      rw [hdrop]
      cases hf : sfind last ['E', 'N', 'D'] 0 with
      | none =>
        refine ⟨init ++ [last], [], padCard (newEntry key value comment), by simp, padCard_length _ hlen, hpad.1, hpad.2,
          Or.inl ⟨hnone, by simp, rfl, ?_, Or.inl rfl⟩, suff _ [] _ (padCard_length _ hlen) hpad.1 hpad.2 (Or.inl ⟨by simp, hnone⟩)⟩
        intro e he hp
        rw [List.getLast?_append] at he
        simp only [List.getLast?_singleton, Option.some_or, Option.some.injEq] at he
        subst he
        exact absurd (by unfold OccursAt; exact hp) (sfind_none.1 hf 0 (Nat.le_refl _) (Nat.zero_le _))
      | some p =>
        obtain ⟨-, p2, p3, p4⟩ := sfind_some.1 hf
        have hp : ['E', 'N', 'D'] <+: last := hend hnone last (by simp) ((p3 : _ <+: _).isInfix.trans (List.drop_suffix _ _).isInfix)
        have p0 : p = 0 := by
          rcases Nat.eq_zero_or_pos p with h | h
          · exact h
          · exact absurd (by unfold OccursAt; exact hp) (p4 0 (Nat.le_refl _) h)
        subst p0
        simp only [Option.map_some, Nat.zero_add]
        have htake : (init ++ [last]).flatten.take ((init ++ [last]).flatten.length - 80) = init.flatten := by
          rw [hfl, List.length_append, hlast, Nat.add_sub_cancel, List.take_left]
        rw [hdrop, htake]
        refine ⟨init, [last], padCard (newEntry key value comment), by simp, padCard_length _ hlen, hpad.1, hpad.2,
          Or.inl ⟨hnone, rfl, rfl, ?_, Or.inr ⟨last, rfl, hp⟩⟩, suff _ _ _ (padCard_length _ hlen) hpad.1 hpad.2 (Or.inl ⟨rfl, hnone⟩)⟩
        intro e he _
        rw [List.getLast?_append] at he
        simp only [List.getLast?_singleton, Option.some_or, Option.some.injEq] at he
        rw [he]
  · have hil : i ∈ List.range (cs.flatten.length / 80 + 1) := by rw [e]; simp
    rw [hn, List.mem_range] at hil
    have hi : i < cs.length := by
      rcases Nat.lt_or_ge i cs.length with h | h
      · exact h
      · have : i = cs.length := by omega
        subst this
        have hg := hget cs.length (by omega)
        rw [List.getElem?_append_right (Nat.le_refl _), Nat.sub_self, List.getElem?_cons_zero, Option.some.injEq] at hg
        rw [← hg] at h2
        exact nomatch h2
    have hg := hget i hil
    rw [List.getElem?_append_left hi, List.getElem?_eq_getElem hi, Option.some.injEq] at hg
    rw [← hg] at h2 h3 h4 h5
    have ha : lookup (cs.take i) key = none := by
      rw [lookup_none]
      intro c hc
      obtain ⟨j, hj, rfl⟩ := List.getElem_of_mem hc
      rw [List.length_take] at hj
      have hja : j ∈ a := by
        have e1 : a = List.range i := by
          have hle : a.length < (List.range (cs.flatten.length / 80 + 1)).length := by rw [e]; simp
          have hz : (List.range (cs.flatten.length / 80 + 1))[a.length]? = some i := by rw [e]; simp
          rw [List.getElem?_range (by simpa using hle), Option.some.injEq] at hz
          have ht : (List.range (cs.flatten.length / 80 + 1)).take a.length = a := by rw [e]; simp
          rw [← ht, List.take_range, hz, Nat.min_eq_left (by omega)]
        rw [e1]; exact List.mem_range.2 (by omega)
      have hgj := hget j (by omega)
      rw [List.getElem?_append_left (by omega), List.getElem?_eq_getElem (by omega), Option.some.injEq] at hgj
      rw [List.getElem_take, hgj]
      exact h1 j hja
    have hsplit : cs = cs.take i ++ cs[i] :: cs.drop (i + 1) := by simp
    have hflen : ∀ j ≤ cs.length, (cs.take j).flatten.length = j * 80 := by
      intro j hj
      rw [flatten_length _ fun c hc => hcs c (List.mem_of_mem_take hc), List.length_take, Nat.min_eq_left hj]
    obtain ⟨rest, r1, r2, r3, r4, r5⟩ := keepComment_spec cs[i] q comment (newEntry key value comment) h3 h4 hlen (by
      intro c1 c2 c3
      rw [newEntry_eq, if_pos c1, List.append_nil, base_length key value hk8]
      have := hamp cs[i] (List.getElem_mem hi) h2 c1 ((List.dropWhile_suffix _).subset c2) c3
      omega)
    have hnf : nameOf (padCard (newEntry key value comment ++ rest)) = some key ∧ valueOf (padCard (newEntry key value comment ++ rest)) = strip value := by
      unfold padCard
      rw [newEntry_eq, List.append_assoc, List.append_assoc]
      refine card_fields key value _ hk hs hv ?_
      rw [← List.append_assoc]
      refine takeWhile_blank_append _ _ ?_
      by_cases hc : comment = []
      · rw [if_pos hc]; exact r3
      · rw [r4 hc, List.append_nil]; exact hrest0
    rw [h5, r1]
    simp only [Res.map, Res.ok_bind]
    have hh : cs.flatten.take (i * 80) = (cs.take i).flatten := by
      conv_lhs => rw [hsplit]
      rw [List.flatten_append, ← hflen i (by omega), List.take_left]
    have hd : cs.flatten.drop (i * 80 + 80) = (cs.drop (i + 1)).flatten := by
      conv_lhs => rw [← List.take_append_drop (i + 1) cs]
      rw [List.flatten_append, show i * 80 + 80 = (cs.take (i + 1)).flatten.length by rw [hflen (i + 1) (by omega)]; omega, List.drop_left]
    rw [hh, hd]
    have ht2 : ((cs.take i).flatten ++ (cs.drop (i + 1)).flatten).take (i * 80) = (cs.take i).flatten := by
      rw [← hflen i (by omega), List.take_left]
    have hd2 : ((cs.take i).flatten ++ (cs.drop (i + 1)).flatten).drop (i * 80) = (cs.drop (i + 1)).flatten := by
      rw [← hflen i (by omega), List.drop_left]
    rw [ht2, hd2]
    refine ⟨cs.take i, cs.drop (i + 1), padCard (newEntry key value comment ++ rest), by simp, padCard_length _ r2, hnf.1, hnf.2,
      Or.inr ⟨cs[i], hsplit, h2, ha, fun h => by rw [r4 h, List.append_nil], ?_⟩, suff _ _ _ (padCard_length _ r2) hnf.1 hnf.2 (Or.inr ⟨cs[i], hsplit, h2, ha⟩)⟩
    intro cmt c1 c2
    have := r5 cmt c1 c2
    rw [newEntry_eq, if_pos c1, List.append_nil] at this ⊢
    rw [← this]
    unfold padCard
    exact (List.take_prefix _ _).trans (List.prefix_append _ _)

/-- **C120** keys of more than 8 characters and cards of more than 80 are refused, without changing the header -/
theorem C120_refused (h key value comment : Str) (hr : 8 < key.length ∨ 80 < (newEntry key value comment).length) : setkey h key value comment = .ok none := by
  unfold setkey
  rcases hr with h | h
  · rw [if_pos h]
  · by_cases h8 : key.length > 8
    · rw [if_pos h8]
    · rw [if_neg h8, if_pos h]

/-- **C120** reading a string removes the quotes around it -/
theorem C120_string (h key v : Str) (hg : getkey h key = .ok (some ('\'' :: v ++ ['\'']))) (h1 : v.head? ≠ some '\'') (h2 : v.getLast? ≠ some '\'') :
    getkeyStr h key = .ok (some v) := by
  unfold getkeyStr
  rw [hg, Res.ok_bind]
  simp only
  rw [if_pos (by rw [firstOf_zero]; exact ⟨'\'', by simp, by simp⟩)]
  obtain ⟨m, e1, e2⟩ := C36_trim ('\'' :: v ++ ['\'']) ['\'']
  rw [e1, isTrim_unique (m' := v) e2 ⟨['\''], ['\''], by simp, by simp, by simp, ?_, ?_⟩]
  · rfl
  · rintro c hc hm
    rw [List.mem_singleton] at hm
    subst hm
    exact h1 hc
  · rintro c hc hm
    rw [List.mem_singleton] at hm
    subst hm
    exact h2 hc

/-- Finding: when the last card contains `END` elsewhere than at its beginning (here a header of one card without `END` card), the new card is inserted
in the middle of it: the previous key is lost -/
theorem C120_end_refuted : ∃ h h', setkey [] "BLEND".toList "1".toList [] = .ok (some h) ∧ getkey h "BLEND".toList = .ok (some "1".toList) ∧
    setkey h "A".toList "2".toList [] = .ok (some h') ∧ getkey h' "BLEND".toList = .ok none ∧ getkey h' "A".toList = .ok none := by
  refine ⟨"BLEND   = 1".toList ++ List.replicate 69 ' ', "BLA       = 2".toList ++ List.replicate 69 ' ' ++ "END   = 1".toList ++ List.replicate 69 ' ', ?_, ?_, ?_, ?_, ?_⟩ <;>
    decide +kernel

/-- Finding: the value is cut at the first slash, even within quotes -/
theorem C120_slash_refuted : ∃ h, setkey [] "BUNIT".toList "'erg/s'".toList [] = .ok (some h) ∧ getkeyStr h "BUNIT".toList = .ok (some "erg".toList) := by
  refine ⟨"BUNIT   = 'erg/s'".toList ++ List.replicate 63 ' ', ?_, ?_⟩ <;> decide +kernel

/-- Finding: replacing the value of a card whose comment ends with `&` may overwrite the last character of the new value -/
theorem C120_amp_refuted : ∃ h', setkey ("K       = 1 /".toList ++ List.replicate 66 'c' ++ ['&']) "K".toList (List.replicate 70 '7') [] = .ok (some h') ∧
    getkey h' "K".toList = .ok (some (List.replicate 69 '7' ++ ['&'])) := by
  refine ⟨"K       = ".toList ++ List.replicate 69 '7' ++ ['&'], ?_, ?_⟩ <;> decide +kernel

/-- setting a new key and replacing a value with its comment -/
example : setkey ("A       = 1 / one".toList ++ List.replicate 63 ' ' ++ "END".toList ++ List.replicate 77 ' ') "A".toList "22".toList [] =
    .ok (some ("A       = 22 / one".toList ++ List.replicate 62 ' ' ++ "END".toList ++ List.replicate 77 ' ')) := by decide +kernel

end Verif.Fits
