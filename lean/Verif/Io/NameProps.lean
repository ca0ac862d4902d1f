import Verif.Io.TableProps
/-!
# Property C71 (column names of `ftable(...)`)
-/
namespace Verif.Io
open Verif Verif.Str

/-- Spec: the two characters are brackets of the same kind -/
def Match (o c : Char) : Prop := (o = '(' ∧ c = ')') ∨ (o = '[' ∧ c = ']') ∨ (o = '{' ∧ c = '}')

def Bracket (c : Char) : Prop := c ∈ opening ∨ c ∈ closing

instance (c : Char) : Decidable (Bracket c) := inferInstanceAs (Decidable (_ ∨ _))

/-- Spec: text with properly nested brackets. -/
inductive Balanced : Str → Prop
  | nil : Balanced []
  | char (c : Char) (s : Str) (hc : ¬ Bracket c) (h : Balanced s) : Balanced (c :: s)
  | group (o c : Char) (a b : Str) (hm : Match o c) (ha : Balanced a) (hb : Balanced b) : Balanced (o :: (a ++ c :: b))

/-- Spec: text with properly nested brackets and no comma outside of the brackets. -/
inductive Item : Str → Prop
  | nil : Item []
  | char (c : Char) (s : Str) (hc : ¬ Bracket c) (hn : c ≠ ',') (h : Item s) : Item (c :: s)
  | group (o c : Char) (a b : Str) (hm : Match o c) (ha : Balanced a) (hb : Item b) : Item (o :: (a ++ c :: b))

theorem scanChar_other {c : Char} (h : ¬ Bracket c) (st : List Nat) : scanChar c st = .ok st := by
  unfold Bracket opening closing at h
  simp only [List.mem_cons, List.not_mem_nil, or_false, not_or] at h
  obtain ⟨⟨h1, h2, h3⟩, h4, h5, h6⟩ := h
  unfold scanChar opening closing
  simp [List.idxOf?, List.findIdx?_cons, Ne.symm h1, Ne.symm h2, Ne.symm h3, Ne.symm h4, Ne.symm h5, Ne.symm h6]

theorem scanChar_match {o c : Char} (h : Match o c) (st : List Nat) :
    ∃ k, scanChar o st = .ok (k :: st) ∧ scanChar c (k :: st) = .ok st := by
  rcases h with ⟨rfl, rfl⟩ | ⟨rfl, rfl⟩ | ⟨rfl, rfl⟩
  · exact ⟨0, rfl, rfl⟩
  · exact ⟨1, rfl, rfl⟩
  · exact ⟨2, rfl, rfl⟩

theorem scan_cons (c : Char) (cs : Str) (st : List Nat) (pos : Nat) (h : ¬ (st = [] ∧ c = ',')) :
    scan (c :: cs) st pos = (scanChar c st >>= fun st => scan cs st (pos + 1)) := by
  rw [scan, if_neg h]

theorem match_ne_comma {o c : Char} (h : Match o c) : o ≠ ',' ∧ c ≠ ',' := by
  rcases h with ⟨rfl, rfl⟩ | ⟨rfl, rfl⟩ | ⟨rfl, rfl⟩ <;> decide

theorem scan_balanced {a : Str} (h : Balanced a) : ∀ (t : Str) (st : List Nat) (pos : Nat), st ≠ [] →
    scan (a ++ t) st pos = scan t st (pos + a.length) := by
  induction h with
  | nil => intro t st pos _; rfl
  | char c s hc _ ih =>
    intro t st pos hst
    rw [List.cons_append, scan_cons _ _ _ _ (fun h => hst h.1), scanChar_other hc, Res.ok_bind, ih t st _ hst]
    congr 1; simp; omega
  | group o c a b hm _ _ iha ihb =>
    intro t st pos hst
    obtain ⟨k, h1, h2⟩ := scanChar_match hm st
    have e : o :: (a ++ c :: b) ++ t = o :: (a ++ (c :: (b ++ t))) := by simp
    rw [e, scan_cons _ _ _ _ (fun h => hst h.1), h1, Res.ok_bind, iha _ _ _ (by simp),
      scan_cons _ _ _ _ (by simp), h2, Res.ok_bind, ihb t st _ hst]
    congr 1; simp; omega

theorem scan_item {a : Str} (h : Item a) : ∀ (t : Str) (pos : Nat), scan (a ++ t) [] pos = scan t [] (pos + a.length) := by
  induction h with
  | nil => intro t pos; rfl
  | char c s hc hn _ ih =>
    intro t pos
    rw [List.cons_append, scan_cons _ _ _ _ (fun h => hn h.2), scanChar_other hc, Res.ok_bind, ih t]
    congr 1; simp; omega
  | group o c a b hm ha _ ihb =>
    intro t pos
    obtain ⟨k, h1, h2⟩ := scanChar_match hm []
    have e : o :: (a ++ c :: b) ++ t = o :: (a ++ (c :: (b ++ t))) := by simp
    rw [e, scan_cons _ _ _ _ (fun h => (match_ne_comma hm).1 h.2), h1, Res.ok_bind, scan_balanced ha _ _ _ (by simp),
      scan_cons _ _ _ _ (by simp), h2, Res.ok_bind, ihb t]
    congr 1; simp; omega

theorem item_drop_blank {b u : Str} (hb : ∀ c ∈ b, c ∈ [' ', '\t']) (h : Item (b ++ u)) : Item u := by
  induction b with
  | nil => exact h
  | cons x b ih =>
    rw [List.cons_append] at h
    have hx := hb x (by simp)
    generalize hs : x :: (b ++ u) = s at h
    cases h with
    | nil => simp at hs
    | char c s hc hn h =>
      rw [List.cons.injEq] at hs
      rw [← hs.2] at h
      exact ih (fun c hc => hb c (by simp [hc])) h
    | group o c a b' hm ha hb' =>
      rw [List.cons.injEq] at hs
      rw [hs.1] at hx
      rcases hm with ⟨rfl, rfl⟩ | ⟨rfl, rfl⟩ | ⟨rfl, rfl⟩ <;> exact absurd hx (by decide)

theorem popName_ok (v tail : Str) (hi : Item v) (hv : ∃ c ∈ v, c ∉ [' ', '\t']) (ht : tail = [] ∨ ∃ r, tail = ',' :: r) :
    ∃ n, popName (v ++ tail) = .ok (n, tail.drop 1) ∧ IsTrim [' ', '\t'] v n := by
  obtain ⟨x, hx, hxb⟩ := hv
  rcases span_cases (· ∈ [' ', '\t']) v with h | ⟨b, c, u, rfl, hb, hc⟩
  · exact absurd (h x hx) hxb
  have hitem := item_drop_blank hb hi
  -- the last non-blank character
  rcases span_cases_last (· ∈ [' ', '\t']) (c :: u) with h | ⟨m, d, e, hme, he, hd⟩
  · exact absurd (h c (by simp)) hc
  refine ⟨m ++ [d], ?_, b, e, by rw [hme]; simp, hb, he, ?_, ?_⟩
  · have hp0 := firstNotOf_append_some (d := []) (t := u ++ tail) hb hc
    simp only [List.nil_append, List.length_nil, Nat.zero_add] at hp0
    have e0 : b ++ c :: u ++ tail = b ++ c :: (u ++ tail) := by simp
    unfold popName
    rw [e0, hp0]
    simp only
    have hsc : scan ((b ++ c :: (u ++ tail)).drop b.length) [] b.length = .ok (b ++ c :: u).length := by
      rw [List.drop_left, ← List.cons_append, scan_item hitem]
      rcases ht with rfl | ⟨r, rfl⟩
      · simp [scan]
      · simp [scan]
    rw [hsc, Res.ok_bind, ← e0]
    have hlast : lastNotOf (b ++ c :: u ++ tail) [' ', '\t']
        (if (b ++ c :: u).length = 0 then none else some ((b ++ c :: u).length - 1)) = some (b ++ m).length := by
      rw [if_neg (by simp)]
      refine lastNotOf_some' (t := b ++ c :: u) (v := tail) rfl (.inr ⟨_, rfl, by simp; omega⟩) (a := b ++ m) (c := d) (u := e)
        (by rw [hme]; simp) he hd
    rw [hlast]
    simp only
    have hname : substr (b ++ c :: u ++ tail) b.length ((b ++ m).length + 1 - b.length) = .ok (m ++ [d]) := by
      unfold substr
      rw [if_neg (by simp)]
      rw [hme, List.append_assoc, List.drop_left]
      have : (b ++ m).length + 1 - b.length = (m ++ [d]).length := by simp; omega
      rw [this]
      have e2 : m ++ d :: e ++ tail = (m ++ [d]) ++ (e ++ tail) := by simp
      rw [e2, List.take_left]
    rw [hname, Res.ok_bind]
    have hrest : substrFrom (b ++ c :: u ++ tail)
        (if (b ++ c :: u).length ≠ (b ++ c :: u ++ tail).length then (b ++ c :: u).length + 1 else (b ++ c :: u).length) =
        .ok (tail.drop 1) := by
      rcases ht with rfl | ⟨r, rfl⟩
      · rw [if_neg (by simp)]
        simp [substrFrom]
      · rw [if_pos (by simp)]
        unfold substrFrom
        rw [if_neg (by simp; omega)]
        have e3 : b ++ c :: u ++ ',' :: r = (b ++ c :: u ++ [',']) ++ r := by simp
        have e4 : (b ++ c :: u).length + 1 = (b ++ c :: u ++ [',']).length := by simp; omega
        rw [e3, e4, List.drop_left]; rfl
    rw [hrest, Res.ok_bind]
  · intro x hx
    cases m with
    | nil =>
      simp at hme hx
      rw [← hx, ← hme.1]; exact hc
    | cons y m =>
      simp at hme hx
      rw [← hx, ← hme.1]; exact hc
  · intro x hx
    simp at hx
    rw [← hx]; exact hd

/-- C71: a list of arguments separated by commas is cut at the commas outside of brackets, and each name is
the text of the argument without the blanks around it. -/
theorem C71_names (vs : List Str) (hne : vs ≠ []) (h : ∀ v ∈ vs, Item v ∧ ∃ c ∈ v, c ≠ ' ' ∧ c ≠ '\t') :
    ∃ ns, splitNames (List.intercalate [','] vs) = .ok ns ∧ List.Forall₂ (IsTrim [' ', '\t']) vs ns := by
  induction vs with
  | nil => exact absurd rfl hne
  | cons v vs ih =>
    obtain ⟨h1, c, hc, hcb⟩ := h v (by simp)
    have hcb' : ∃ c ∈ v, c ∉ [' ', '\t'] := ⟨c, hc, by simp [hcb]⟩
    cases vs with
    | nil =>
      obtain ⟨n, h2, h3⟩ := popName_ok v [] h1 hcb' (.inl rfl)
      rw [List.append_nil] at h2
      refine ⟨[n], ?_, .cons h3 .nil⟩
      rw [List.intercalate_singleton, splitNames, h2]
      simp
    | cons w vs =>
      obtain ⟨n, h2, h3⟩ := popName_ok v (',' :: List.intercalate [','] (w :: vs)) h1 hcb' (.inr ⟨_, rfl⟩)
      obtain ⟨ns, h4, h5⟩ := ih (by simp) fun x hx => h x (by simp at hx; simp [hx])
      have e : List.intercalate [','] (v :: w :: vs) = v ++ ',' :: List.intercalate [','] (w :: vs) := by
        rw [List.intercalate_cons_cons]; simp
      refine ⟨n :: ns, ?_, .cons h3 h5⟩
      rw [e, splitNames, h2]
      simp only [List.drop_one, List.tail_cons]
      obtain ⟨-, c, hc, -⟩ := h w (by simp)
      have hne2 : List.intercalate [','] (w :: vs) ≠ [] := by
        rw [intercalate_flatMap]
        intro hnil
        rw [(List.append_eq_nil_iff.1 hnil).1] at hc
        simp at hc
      rw [if_neg hne2, if_pos (by simp; omega), h4]
      rfl

theorem scanChar_mismatch {o c c' : Char} (h : Match o c) (hc : c' ∈ closing) (hne : c' ≠ c) (st : List Nat) :
    ∃ k, scanChar o st = .ok (k :: st) ∧ scanChar c' (k :: st) = .abort := by
  simp only [closing, List.mem_cons, List.not_mem_nil, or_false] at hc
  rcases h with ⟨rfl, rfl⟩ | ⟨rfl, rfl⟩ | ⟨rfl, rfl⟩
  · refine ⟨0, rfl, ?_⟩
    rcases hc with rfl | rfl | rfl
    all_goals first | exact absurd rfl hne | rfl
  · refine ⟨1, rfl, ?_⟩
    rcases hc with rfl | rfl | rfl
    all_goals first | exact absurd rfl hne | rfl
  · refine ⟨2, rfl, ?_⟩
    rcases hc with rfl | rfl | rfl
    all_goals first | exact absurd rfl hne | rfl

/-- C71: a list whose first argument closes a bracket with one of another kind is refused. -/
theorem C71_mismatch (a b t : Str) (o c c' : Char) (ha : Item a) (hb : Balanced b) (hm : Match o c) (hc : c' ∈ closing)
    (hne : c' ≠ c) : splitNames (a ++ o :: (b ++ c' :: t)) = .abort := by
  have hpop : popName (a ++ o :: (b ++ c' :: t)) = .abort := by
    obtain ⟨k, h1, h2⟩ := scanChar_mismatch hm hc hne []
    have key : ∀ (u : Str), Item u → ∀ pos, scan (u ++ o :: (b ++ c' :: t)) [] pos = .abort := by
      intro u hu pos
      rw [scan_item hu, scan_cons _ _ _ _ (fun h => (match_ne_comma hm).1 h.2), h1, Res.ok_bind, scan_balanced hb _ _ _ (by simp),
        scan_cons _ _ _ _ (by simp), h2]
      rfl
    have ho : o ∉ [' ', '\t'] := by
      rcases hm with ⟨rfl, rfl⟩ | ⟨rfl, rfl⟩ | ⟨rfl, rfl⟩ <;> decide
    rcases span_cases (· ∈ [' ', '\t']) a with h | ⟨p, x, u, rfl, hp, hx⟩
    · have hp0 := firstNotOf_append_some (d := []) (t := b ++ c' :: t) h ho
      simp only [List.nil_append, List.length_nil, Nat.zero_add] at hp0
      unfold popName
      rw [hp0]
      simp only
      have := key [] .nil a.length
      rw [List.nil_append] at this
      rw [List.drop_left, this]; rfl
    · have hp0 := firstNotOf_append_some (d := []) (t := u ++ o :: (b ++ c' :: t)) hp hx
      simp only [List.nil_append, List.length_nil, Nat.zero_add] at hp0
      have e0 : p ++ x :: u ++ o :: (b ++ c' :: t) = p ++ x :: (u ++ o :: (b ++ c' :: t)) := by simp
      unfold popName
      rw [e0, hp0]
      simp only
      rw [List.drop_left, ← List.cons_append, key _ (item_drop_blank hp ha)]; rfl
  rw [splitNames, hpop]

example : splitNames "f(x]".toList = .abort :=
  C71_mismatch ['f'] ['x'] [] '(' ')' ']' (.char _ _ (by decide) (by decide) .nil) (.char _ _ (by decide) .nil)
    (.inl ⟨rfl, rfl⟩) (by decide) (by decide)

/-- C71: the prefix of a name up to its first dot is removed. -/
theorem C71_bake (t : Str) : ('.' ∉ t → bakeName t = .ok t) ∧
    ∀ a b, t = a ++ '.' :: b → '.' ∉ a → bakeName t = .ok b := by
  constructor
  · intro h
    have := firstOf_append_none (d := []) (t := t) (cs := ['.']) (by intro c hc hx; simp at hx; exact h (hx ▸ hc))
    simp only [List.nil_append, List.length_nil] at this
    simp [bakeName, this]
  · rintro a b rfl h
    have := firstOf_append_some (d := []) (a := a) (t := b) (cs := ['.']) (c := '.')
      (by intro c hc hx; simp at hx; exact h (hx ▸ hc)) (by simp)
    simp only [List.nil_append, List.length_nil, Nat.zero_add] at this
    simp only [bakeName, this, substrFrom]
    rw [if_neg (by simp)]
    have e : a ++ '.' :: b = (a ++ ['.']) ++ b := by simp
    rw [e, show a.length + 1 = (a ++ ['.']).length by simp, List.drop_left]

/-- Spec: the names of the columns of one argument called `n` -/
def expand (n : Str) : Col → List Str
  | .v1 _ => [n]
  | .v2 _ c _ => (List.range c).map fun k => n ++ '_' :: Nat.toDigits 10 (k + 1)

/-- C71: with one name per argument and no 2-D argument without columns, every 2-D argument gets one numbered
name per column, so that there is exactly one name per column of the table. -/
theorem C71_expand (ns : List Str) (args : List Col) (h : ns.length = args.length) (hc : ∀ a ∈ args, a.cols ≠ 0) :
    ∃ r, fix2d ns args = .ok r ∧ r = (List.zipWith expand ns args).flatten ∧ r.length = ncols args := by
  induction args generalizing ns with
  | nil =>
    cases ns with
    | nil => exact ⟨[], rfl, rfl, rfl⟩
    | cons => simp at h
  | cons a args ih =>
    cases ns with
    | nil => simp at h
    | cons n ns =>
      obtain ⟨r, h1, h2, h3⟩ := ih ns (by simpa using h) fun x hx => hc x (by simp [hx])
      have ha := hc a (by simp)
      cases a with
      | v1 cells =>
        refine ⟨n :: r, by simp [fix2d, h1], by simp [expand, h2], ?_⟩
        simp only [List.length_cons, h3]; simp [ncols, Col.cols]; omega
      | v2 rr c cells =>
        simp only [Col.cols] at ha
        refine ⟨expand n (.v2 rr c cells) ++ r, by simp [fix2d, ha, h1, expand], by simp [h2], ?_⟩
        rw [List.length_append, h3]; simp [ncols, Col.cols, expand]

/-- C71 is false for a 2-D argument without columns: the expansion reads past the end of an empty list. -/
theorem C71_expand_refuted : fix2d ["x".toList] [.v2 3 0 []] = .ub := by decide

/-- Brackets inside string literals are not recognised: a closing one reads the top of an empty stack. -/
theorem C71_literal : popName "f, \")\"".toList = .ok ("f".toList, " \")\"".toList) ∧
    popName " \")\"".toList = .ub := by constructor <;> decide

example : Item ['f', '(', 'b', ',', 'c', ')'] :=
  .char _ _ (by decide) (by decide) (.group '(' ')' ['b', ',', 'c'] [] (.inl ⟨rfl, rfl⟩)
    (.char _ _ (by decide) (.char _ _ (by decide) (.char _ _ (by decide) .nil))) .nil)
example : popName "a, f(b,c) ,x[i]".toList = .ok ("a".toList, " f(b,c) ,x[i]".toList) ∧
    popName " f(b,c) ,x[i]".toList = .ok ("f(b,c)".toList, "x[i]".toList) := by constructor <;> decide

end Verif.Io
