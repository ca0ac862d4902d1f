import Verif.Io.ArgvList
import Verif.Io.ArgvProps
import Mathlib.Data.List.Forall2
/-!
# Properties C160 (reading several variables), C161 (writing variables), C162 (command lines)
-/
namespace Verif.Io
open Verif Verif.Str

/-- Spec: the variable written `e` in the source code is called `n`: what follows the last dot. -/
def IsName (e n : Str) : Prop :=
  ∃ pre last, (e = pre ++ last ∧ (pre = [] ∨ ∃ p, pre = p ++ ['.'])) ∧ '.' ∉ last ∧ IsTrim blanks last n

/-- Spec: the text `e` of one element of `arg_list(...)` and the name it stands for: a variable, or
`name(variable, "label")`. -/
inductive ArgText {V : Type} (s : Slot V) : Str → Str → Prop
  | plain (e n : Str) (h : s.label = none) (hc : ',' ∉ e) (hn : IsName e n) : ArgText s e n
  | label (a n : Str) (h : s.label = some n) (ha : ')' ∉ a) : ArgText s (a ++ [')']) n

/-- Spec: the text of `arg_list(...)` for these variables, and their names -/
inductive ArgsText {V : Type} : List (Slot V) → Str → List Str → Prop
  | one (s : Slot V) (e n : Str) (h : ArgText s e n) : ArgsText [s] e [n]
  | cons (s : Slot V) (e n : Str) (ss : List (Slot V)) (names : Str) (ns : List Str) (h : ArgText s e n)
      (hs : ArgsText ss names ns) : ArgsText (s :: ss) (e ++ ',' :: ' ' :: names) (n :: ns)

/-- Spec: a name that can be used on the command line -/
def GoodName (n : Str) : Prop := '=' ∉ n ∧ n.head? ≠ some '-' ∧ IsTrim blanks n n

open scoped Classical in
/-- Spec: the arguments that set one of the variables are marked as read. -/
noncomputable def markedAny (ns : List Str) (es : List ArgVar) : List ArgVar :=
  es.map fun e => if ∃ n ∈ ns, ∃ o, Names e.arg n o then { e with read := true } else e

/-- Spec: `impl` reads the variable `n` from the texts `args`, all of which convert, to `val`. -/
structure Reads {V : Type} (impl : Str → ArgVar → V → Res (Bool × V × ArgVar)) (n : Str) (args : List Str)
    (val : Option Str → V) : Prop where
  other : ∀ e t, (∀ o, ¬ Names e.arg n o) → impl n e t = .ok (false, t, e)
  hit : ∀ e t o, e.arg ∈ args → Names e.arg n o →
    impl n e t = .ok (true, val o, { e with read := true, valid := true })

/-! ### helpers: names -/

theorem blank_dot : '.' ∉ blanks := by decide

theorem lastOf_dot (a b : Str) (hb : '.' ∉ b) : lastOf (a ++ '.' :: b) ['.'] none = some a.length := by
  unfold lastOf upTo
  simp only
  rw [lastIn_some]
  refine ⟨by simp, ?_, fun j h1 h2 => ?_⟩
  · rw [inSet_lt (by simp)]; simp
  · rw [inSet_lt h2]
    obtain ⟨k, rfl⟩ := Nat.exists_eq_add_of_lt h1
    have hk : k < b.length := by simp at h2; omega
    have : (a ++ '.' :: b)[a.length + k + 1] = b[k] := by
      rw [List.getElem_append_right (by omega)]
      simp [show a.length + k + 1 - a.length = k + 1 by omega]
    rw [this]
    simp only [List.mem_singleton, decide_eq_false_iff_not]
    intro h
    exact hb (h ▸ List.getElem_mem hk)

theorem lastOf_nodot (b : Str) (hb : '.' ∉ b) : lastOf b ['.'] none = none := by
  unfold lastOf upTo
  simp only
  rw [lastIn_none]
  intro j hj
  rw [inSet_lt hj]
  simp only [List.mem_singleton, decide_eq_false_iff_not]
  intro h
  exact hb (h ▸ List.getElem_mem hj)

theorem cut_last {a b a' b' : Str} {c : Char} (h : a ++ c :: b = a' ++ c :: b') (hb : c ∉ b) (hb' : c ∉ b') :
    a = a' ∧ b = b' := by
  have h' : b.reverse ++ c :: a.reverse = b'.reverse ++ c :: a'.reverse := by
    have := congrArg List.reverse h
    simpa using this
  have := cut_unique h' (by simpa using hb) (by simpa using hb')
  exact ⟨List.reverse_injective this.2, List.reverse_injective this.1⟩

/-- the name of a variable as `read_args_` and `write_args_` compute it -/
theorem name_steps (e n : Str) (hn : IsName e n) : ∃ m, trim e blanks = .ok m ∧
    (match lastOf m ['.'] none with
    | none => (.ok m : Res Str)
    | some p => do
      let s ← substrFrom m (p + 1)
      trim s blanks) = .ok n := by
  obtain ⟨m, h1, x, y, he, hx, hy, hh, hl⟩ := C36_trim e blanks
  refine ⟨m, h1, ?_⟩
  obtain ⟨pre, last, ⟨hel, hpre⟩, hdot, htr⟩ := hn
  have hdx : '.' ∉ x := fun h => blank_dot (hx _ h)
  have hdy : '.' ∉ y := fun h => blank_dot (hy _ h)
  by_cases hm : '.' ∈ m
  · obtain ⟨p', l', hm', hl'⟩ : ∃ p l, m = p ++ '.' :: l ∧ '.' ∉ l := by
      rcases span_cases_last (· ≠ '.') m with h | ⟨a, d, u, h3, h5, h4⟩
      · exact absurd rfl (h _ hm)
      · rw [not_not] at h4
        subst h4
        exact ⟨a, u, h3, fun h => h5 _ h rfl⟩
    rw [hm', lastOf_dot _ _ hl']
    simp only
    have h5 : substrFrom (p' ++ '.' :: l') (p'.length + 1) = .ok l' := by
      unfold substrFrom
      rw [if_neg (by simp)]
      rw [show p' ++ '.' :: l' = (p' ++ ['.']) ++ l' by simp, show p'.length + 1 = (p' ++ ['.']).length by simp,
        List.drop_left]
    rw [h5, Res.ok_bind]
    have hlast : last = l' ++ y := by
      rcases hpre with rfl | ⟨p, rfl⟩
      · rw [List.nil_append] at hel
        exfalso
        apply hdot
        rw [← hel, he]
        simp [hm]
      · have : p ++ '.' :: last = (x ++ p') ++ '.' :: (l' ++ y) := by
          rw [hm'] at he
          rw [hel] at he
          simpa using he
        exact (cut_last this hdot (by simp [hl', hdy])).2
    obtain ⟨k, h6, h7⟩ := C36_trim l' blanks
    rw [h6]
    obtain ⟨u, v, h8, h9, h10, h11, h12⟩ := h7
    have : IsTrim blanks last k := ⟨u, v ++ y, by rw [hlast, h8]; simp, h9, by
      intro c hc
      rcases List.mem_append.1 hc with h | h
      · exact h10 c h
      · exact hy c h, h11, h12⟩
    rw [isTrim_unique this htr]
  · rw [lastOf_nodot _ hm]
    simp only
    have hno : '.' ∉ e := by rw [he]; simp [hm, hdx, hdy]
    rcases hpre with rfl | ⟨p, rfl⟩
    · rw [List.nil_append] at hel
      rw [← hel] at htr
      rw [isTrim_unique ⟨x, y, he, hx, hy, hh, hl⟩ htr]
    · exact absurd (by rw [hel]; simp) hno

theorem drop_succ_length (a b : Str) (c : Char) : (a ++ c :: b).drop (a.length + 1) = b := by
  rw [show a ++ c :: b = (a ++ [c]) ++ b by simp, show a.length + 1 = (a ++ [c]).length by simp, List.drop_left]

theorem varName_more (e n rest : Str) (hc : ',' ∉ e) (hn : IsName e n) :
    varName (e ++ ',' :: rest) = .ok (n, some rest) := by
  obtain ⟨m, h1, h2⟩ := name_steps e n hn
  have hf : firstOf (e ++ ',' :: rest) [','] 0 = some e.length := by
    rcases first_eq (e ++ ',' :: rest) ',' with ⟨h, -⟩ | ⟨a, b, h3, h4, h5⟩
    · exact absurd (by simp) h
    · rw [h5, (cut_unique h3 hc h4).1]
  unfold varName
  simp only [hf]
  have h3 : substr (e ++ ',' :: rest) 0 e.length = .ok e := by simp [substr]
  have h4 : substrFrom (e ++ ',' :: rest) (e.length + 1) = .ok rest := by
    unfold substrFrom
    rw [if_neg (by simp), drop_succ_length]
  rw [h3, Res.ok_bind, h1, Res.ok_bind]
  cases hl : lastOf m ['.'] none with
  | none =>
    rw [hl] at h2
    simp only at h2 ⊢
    rw [h2, Res.ok_bind, h4]; rfl
  | some p =>
    rw [hl] at h2
    simp only at h2 ⊢
    obtain ⟨s, hs, h5⟩ := Res.bind_eq_ok.1 h2
    rw [hs, Res.ok_bind, h5, Res.ok_bind, h4]; rfl

theorem varName_last (e n : Str) (hc : ',' ∉ e) (hn : IsName e n) : varName e = .ok (n, none) := by
  obtain ⟨m, h1, h2⟩ := name_steps e n hn
  have hf : firstOf e [','] 0 = none := by
    rcases first_eq e ',' with ⟨-, h⟩ | ⟨a, b, h3, h4, h5⟩
    · exact h
    · exact absurd (by rw [h3]; simp) hc
  unfold varName
  simp only [hf]
  rw [Res.ok_bind, h1, Res.ok_bind]
  cases hl : lastOf m ['.'] none with
  | none =>
    rw [hl] at h2
    simp only at h2 ⊢
    rw [h2, Res.ok_bind]
  | some p =>
    rw [hl] at h2
    simp only at h2 ⊢
    obtain ⟨s, hs, h5⟩ := Res.bind_eq_ok.1 h2
    rw [hs, Res.ok_bind, h5, Res.ok_bind]

theorem afterParen_last (a : Str) (ha : ')' ∉ a) : afterParen (a ++ [')']) = .ok none := by
  have hf : firstOf (a ++ [')']) [')'] 0 = some a.length := by
    rcases first_eq (a ++ [')']) ')' with ⟨h, -⟩ | ⟨x, b, h3, h4, h5⟩
    · exact absurd (by simp) h
    · rw [h5, (cut_unique h3 ha h4).1]
  simp [afterParen, hf]

theorem afterParen_more (a rest : Str) (ha : ')' ∉ a) :
    afterParen (a ++ [')'] ++ ',' :: rest) = .ok (some rest) := by
  have hf : firstOf (a ++ [')'] ++ ',' :: rest) [')'] 0 = some a.length := by
    rcases first_eq (a ++ [')'] ++ ',' :: rest) ')' with ⟨h, -⟩ | ⟨x, b, h3, h4, h5⟩
    · exact absurd (by simp) h
    · rw [h5, (cut_unique (a := a) (b := ',' :: rest) (by simpa using h3) ha h4).1]
  unfold afterParen
  simp only [hf]
  rw [if_neg (by simp)]
  have h4 : substrFrom (a ++ [')'] ++ ',' :: rest) (a.length + 1 + 1) = .ok rest := by
    unfold substrFrom
    rw [if_neg (by simp; omega)]
    have := drop_succ_length (a ++ [')']) rest ','
    rw [List.length_append] at this
    rw [show a.length + 1 + 1 = a.length + [')'].length + 1 from rfl, this]
  rw [h4]; rfl

theorem isName_blank {e n : Str} (h : IsName e n) : IsName (' ' :: e) n := by
  obtain ⟨pre, last, ⟨h1, h2⟩, h3, h4⟩ := h
  rcases h2 with rfl | ⟨p, rfl⟩
  · refine ⟨[], ' ' :: last, ⟨by simpa using h1, .inl rfl⟩, by simpa using h3, ?_⟩
    obtain ⟨a, b, h5, h6, h7, h8⟩ := h4
    refine ⟨' ' :: a, b, by rw [h5]; simp, ?_, h7, h8⟩
    intro c hc
    rcases List.mem_cons.1 hc with rfl | hc
    · decide
    · exact h6 c hc
  · exact ⟨' ' :: (p ++ ['.']), last, ⟨by rw [h1]; simp, .inr ⟨' ' :: p, by simp⟩⟩, h3, h4⟩

theorem argText_blank {V : Type} {s : Slot V} {e n : Str} (h : ArgText s e n) : ArgText s (' ' :: e) n := by
  cases h with
  | plain _ _ h hc hn => exact .plain _ _ h (by simpa using hc) (isName_blank hn)
  | label a _ h ha => exact .label (' ' :: a) n h (by simpa using ha)

theorem argsText_blank {V : Type} {ss : List (Slot V)} {e : Str} {ns : List Str} (h : ArgsText ss e ns) :
    ArgsText ss (' ' :: e) ns := by
  cases h with
  | one _ _ n h => exact .one _ _ n (argText_blank h)
  | cons s e n ss names ns h hs => exact .cons s (' ' :: e) n ss names ns (argText_blank h) hs

/-- reading the variables one after the other -/
def readSeq {V : Type} : List (Slot V × Str) → List ArgVar → Res (List ArgVar × List V)
  | [], es => .ok (es, [])
  | (s, n) :: ss, es => do
    let (es, v) ← readVar (s.impl n) s.write n es s.val
    let (es, vs) ← readSeq ss es
    .ok (es, v :: vs)

theorem readArgs_seq {V : Type} {ss : List (Slot V)} {names : Str} {ns : List Str} (h : ArgsText ss names ns) :
    ∀ es, readArgs ss names es = readSeq (ss.zip ns) es := by
  induction ss generalizing names ns with
  | nil => cases h
  | cons s ss ih =>
    intro es
    cases h with
    | one _ _ n h =>
      cases h with
      | plain _ _ hl hc hn =>
        simp only [readArgs, hl, varName_last _ _ hc hn, Res.ok_bind, List.zip_cons_cons, List.zip_nil_left, readSeq]
        rfl
      | label a _ hl ha =>
        simp only [readArgs, hl, afterParen_last _ ha, Res.ok_bind, List.zip_cons_cons, List.zip_nil_left, readSeq]
        rfl
    | cons _ e n _ names ns h hs =>
      have ih' := ih (argsText_blank hs)
      cases h with
      | plain _ _ hl hc hn =>
        simp only [readArgs, hl, varName_more _ _ _ hc hn, Res.ok_bind, List.zip_cons_cons, readSeq, ih']
      | label a _ hl ha =>
        simp only [readArgs, hl, afterParen_more _ _ ha, Res.ok_bind, List.zip_cons_cons, readSeq, ih']

/-! ### helpers: values -/

theorem readVar_good {V : Type} (impl : ArgVar → V → Res (Bool × V × ArgVar)) (write : V → Str) (name : Str)
    (val : Option Str → V) (es : List ArgVar) (t : V) (hv : ∀ e ∈ es, e.valid = true)
    (h0 : ∀ e ∈ es, ∀ t, (∀ o, ¬ Names e.arg name o) → impl e t = .ok (false, t, e))
    (h1 : ∀ e ∈ es, ∀ t o, Names e.arg name o → impl e t = .ok (true, val o, { e with read := true, valid := true })) :
    ∃ t', LastValue name val es t t' ∧ readVar impl write name es t = .ok ((open scoped Classical in
        if ∃ e ∈ es, ∃ o, Names e.arg name o then marked name es
        else es ++ [⟨name ++ '=' :: write t, true, true⟩]), t') := by
  obtain ⟨t', found', h2, h3, h4⟩ := loop_good impl name val es hv h0 h1 t false
  refine ⟨t', h3, ?_⟩
  unfold readVar
  rw [h2, Res.ok_bind]
  simp only
  by_cases hf : found' = true
  · rw [if_pos hf, if_pos ((h4.1 hf).resolve_left (by simp))]
  · have hno : ¬ ∃ e ∈ es, ∃ o, Names e.arg name o := fun h => hf (h4.2 (.inr h))
    rw [if_neg hf, if_neg hno]
    have hm : marked name es = es := by
      unfold marked
      conv => rhs; rw [← List.map_id es]
      refine List.map_congr_left fun e he => ?_
      rw [if_neg (fun h => hno ⟨e, he, h⟩)]; rfl
    have ht : t' = t := by
      cases h3 with
      | last a b e o _ hx _ => exact absurd ⟨e, by simp, o, hx⟩ hno
      | none _ _ _ => rfl
    rw [hm, ht]

theorem names_self {n w : Str} (hn : GoodName n) : Names (n ++ '=' :: w) n (some w) := by
  refine .value n w rfl hn.1 ?_
  rw [undash_eq, if_neg hn.2.1]
  exact hn.2.2

theorem names_written {n n' w : Str} (hn : GoodName n) {o : Option Str} (h : Names (n ++ '=' :: w) n' o) :
    n' = n ∧ o = some w := by
  cases h with
  | bare h _ => exact absurd (by simp) h
  | value pre v h hp hn' =>
    obtain ⟨rfl, rfl⟩ := cut_unique h hn.1 hp
    rw [undash_eq, if_neg hn.2.1] at hn'
    exact ⟨isTrim_unique hn' hn.2.2, rfl⟩

/-- only the texts of the arguments matter, and arguments added at the end that are for other variables do not -/
theorem lastValue_texts {V : Type} {name : Str} {val : Option Str → V} {es es' app : List ArgVar} {t t' : V}
    (h : LastValue name val (es ++ app) t t') (he : es.map (·.arg) = es'.map (·.arg))
    (ha : ∀ e ∈ app, ∀ o, ¬ Names e.arg name o) : LastValue name val es' t t' := by
  have hmem : ∀ x ∈ es', ∃ y ∈ es, y.arg = x.arg := by
    intro x hx
    have : x.arg ∈ es.map (·.arg) := by rw [he]; exact List.mem_map.2 ⟨x, hx, rfl⟩
    obtain ⟨y, hy, h⟩ := List.mem_map.1 this
    exact ⟨y, hy, h⟩
  generalize hl : es ++ app = l at h
  cases h with
  | none _ _ hn =>
    refine .none _ _ fun x hx o ho => ?_
    obtain ⟨y, hy, hyx⟩ := hmem x hx
    exact hn y (by rw [← hl]; simp [hy]) o (hyx ▸ ho)
  | last a b e o _ hx hb =>
    rcases List.append_eq_append_iff.1 hl with ⟨c, h1, h2⟩ | ⟨c, h1, h2⟩
    · exact absurd hx (ha e (by rw [h2]; simp) o)
    · cases c with
      | nil =>
        exact absurd hx (ha e (by
          rw [List.nil_append] at h2
          rw [← h2]; simp) o)
      | cons d c =>
        rw [List.cons_append] at h2
        obtain ⟨rfl, rfl⟩ := List.cons.inj h2
        rw [h1, List.map_append, List.map_cons] at he
        obtain ⟨a', r, rfl, ha', hr⟩ := List.map_eq_append_iff.1 he.symm
        obtain ⟨d, c', rfl, hd, hc⟩ := List.map_eq_cons_iff.1 hr
        refine .last a' c' d o t (hd ▸ hx) ?_
        intro x hxc o ho
        have : x.arg ∈ c.map (·.arg) := by rw [← hc]; exact List.mem_map.2 ⟨x, hxc, rfl⟩
        obtain ⟨y, hy, hyx⟩ := List.mem_map.1 this
        exact hb y (by simp [hy]) o (hyx ▸ ho)

open scoped Classical in
/-- Spec: what is added to the arguments: the variables that no argument sets, with the values they keep -/
noncomputable def added {V : Type} (es : List ArgVar) (ps : List (Slot V × Str)) : List ArgVar :=
  (ps.filter fun p => ¬ ∃ e ∈ es, ∃ o, Names e.arg p.2 o).map fun p => ⟨p.2 ++ '=' :: p.1.write p.1.val, true, true⟩

theorem marked_map (n : Str) (es : List ArgVar) : (marked n es).map (·.arg) = es.map (·.arg) := by
  unfold marked
  rw [List.map_map]
  refine List.map_congr_left fun e _ => ?_
  simp only [Function.comp]
  split <;> rfl

theorem marked_valid (n : Str) (es : List ArgVar) (h : ∀ e ∈ es, e.valid = true) : ∀ e ∈ marked n es, e.valid = true := by
  intro e he
  obtain ⟨x, hx, rfl⟩ := List.mem_map.1 he
  split
  · exact h x hx
  · exact h x hx

open scoped Classical in
/-- one argument of `marked` and `markedAny` -/
noncomputable def markIf (p : Prop) (e : ArgVar) : ArgVar := if p then { e with read := true } else e

theorem marked_eq (n : Str) (es : List ArgVar) : marked n es = es.map fun e => markIf (∃ o, Names e.arg n o) e := by
  unfold marked
  refine List.map_congr_left fun e _ => ?_
  by_cases h : ∃ o, Names e.arg n o
  · rw [if_pos h, markIf, if_pos h]
  · rw [if_neg h, markIf, if_neg h]

theorem markedAny_eq (ns : List Str) (es : List ArgVar) :
    markedAny ns es = es.map fun e => markIf (∃ n ∈ ns, ∃ o, Names e.arg n o) e := by
  unfold markedAny
  refine List.map_congr_left fun e _ => ?_
  by_cases h : ∃ n ∈ ns, ∃ o, Names e.arg n o
  · rw [if_pos h, markIf, if_pos h]
  · rw [if_neg h, markIf, if_neg h]

theorem markedAny_cons (n : Str) (ns : List Str) (es : List ArgVar) :
    markedAny (n :: ns) es = markedAny ns (marked n es) := by
  rw [markedAny_eq, markedAny_eq, marked_eq, List.map_map]
  refine List.map_congr_left fun e _ => ?_
  simp only [Function.comp]
  have ha : (markIf (∃ o, Names e.arg n o) e).arg = e.arg := by unfold markIf; split <;> rfl
  rw [ha]
  by_cases h : ∃ o, Names e.arg n o
  · have h1 : ∃ m ∈ n :: ns, ∃ o, Names e.arg m o := ⟨n, by simp, h⟩
    unfold markIf
    rw [if_pos h1, if_pos h]
    split <;> rfl
  · unfold markIf
    rw [if_neg h]
    by_cases h2 : ∃ m ∈ ns, ∃ o, Names e.arg m o
    · obtain ⟨m, hm, ho⟩ := h2
      rw [if_pos ⟨m, by simp [hm], ho⟩, if_pos ⟨m, hm, ho⟩]
    · rw [if_neg h2, if_neg]
      rintro ⟨m, hm, ho⟩
      rcases List.mem_cons.1 hm with rfl | hm
      · exact h ho
      · exact h2 ⟨m, hm, ho⟩

theorem readSeq_good {V : Type} (es0 : List ArgVar) (val : Str → Option Str → V) (ps : List (Slot V × Str)) :
    ∀ (es app : List ArgVar), (ps.map (·.2)).Nodup → (∀ p ∈ ps, GoodName p.2) →
    es.map (·.arg) = es0.map (·.arg) → (∀ e ∈ es, e.valid = true) → (∀ e ∈ app, e.valid = true) →
    (∀ p ∈ ps, ∀ e ∈ app, ∀ o, ¬ Names e.arg p.2 o) →
    (∀ p ∈ ps, Reads p.1.impl p.2 (es0.map (·.arg)) (val p.2)) →
    ∃ vs, readSeq ps (es ++ app) = .ok (markedAny (ps.map (·.2)) es ++ (app ++ added es0 ps), vs) ∧
      List.Forall₂ (fun p v => LastValue p.2 (val p.2) es0 p.1.val v) ps vs := by
  induction ps with
  | nil =>
    intro es app _ _ _ _ _ _ _
    refine ⟨[], ?_, .nil⟩
    have : markedAny [] es = es := by simp [markedAny]
    simp [readSeq, this, added]
  | cons p ps ih =>
    intro es app hnd hgood hmap hv hva happ hrd
    obtain ⟨s, n⟩ := p
    have hp := hrd (s, n) (by simp)
    have hargs : ∀ e ∈ es, e.arg ∈ es0.map (·.arg) := fun e he => by
      rw [← hmap]; exact List.mem_map.2 ⟨e, he, rfl⟩
    obtain ⟨t', h1, h2⟩ := readVar_good (s.impl n) s.write n (val n) (es ++ app) s.val
      (by intro e he; rcases List.mem_append.1 he with h | h; exacts [hv e h, hva e h])
      (fun e _ t h => hp.other e t h)
      (by
        intro e he t o ho
        rcases List.mem_append.1 he with h | h
        · exact hp.hit e t o (hargs e h) ho
        · exact absurd ho (happ (s, n) (by simp) e h o))
    have hlast : LastValue n (val n) es0 s.val t' := lastValue_texts h1 hmap (happ (s, n) (by simp))
    have hiff : (∃ e ∈ es ++ app, ∃ o, Names e.arg n o) ↔ ∃ e ∈ es0, ∃ o, Names e.arg n o := by
      constructor
      · rintro ⟨e, he, o, ho⟩
        rcases List.mem_append.1 he with h | h
        · obtain ⟨x, hx, hxe⟩ := List.mem_map.1 (hargs e h)
          exact ⟨x, hx, o, hxe ▸ ho⟩
        · exact absurd ho (happ (s, n) (by simp) e h o)
      · rintro ⟨e, he, o, ho⟩
        have : e.arg ∈ es.map (·.arg) := by rw [hmap]; exact List.mem_map.2 ⟨e, he, rfl⟩
        obtain ⟨x, hx, hxe⟩ := List.mem_map.1 this
        exact ⟨x, by simp [hx], o, hxe ▸ ho⟩
    rw [List.map_cons, List.nodup_cons] at hnd
    have hmapp : marked n (es ++ app) = marked n es ++ app := by
      unfold marked
      rw [List.map_append]
      congr 1
      conv => rhs; rw [← List.map_id app]
      refine List.map_congr_left fun e he => ?_
      rw [if_neg (fun ⟨o, ho⟩ => happ (s, n) (by simp) e he o ho)]; rfl
    by_cases hex : ∃ e ∈ es0, ∃ o, Names e.arg n o
    · rw [if_pos (hiff.2 hex), hmapp] at h2
      obtain ⟨vs, h3, h4⟩ := ih (marked n es) app hnd.2 (fun p hp => hgood p (by simp [hp]))
        (by rw [marked_map, hmap]) (marked_valid n es hv) hva (fun p hp => happ p (by simp [hp]))
        (fun p hp => hrd p (by simp [hp]))
      refine ⟨t' :: vs, ?_, .cons hlast h4⟩
      simp only [readSeq, h2, Res.ok_bind, h3, List.map_cons]
      have : added es0 ((s, n) :: ps) = added es0 ps := by
        unfold added
        rw [List.filter_cons_of_neg (by simpa using hex)]
      rw [this, markedAny_cons]
    · rw [if_neg (fun h => hex (hiff.1 h)), List.append_assoc] at h2
      have hm : marked n es = es := by
        unfold marked
        conv => rhs; rw [← List.map_id es]
        refine List.map_congr_left fun e he => ?_
        rw [if_neg (fun h => hex (hiff.1 ⟨e, by simp [he], h⟩))]; rfl
      obtain ⟨vs, h3, h4⟩ := ih es (app ++ [⟨n ++ '=' :: s.write s.val, true, true⟩]) hnd.2
        (fun p hp => hgood p (by simp [hp])) hmap hv
        (by intro e he; rcases List.mem_append.1 he with h | h
            · exact hva e h
            · simp at h; rw [h])
        (by
          intro p hp e he o ho
          rcases List.mem_append.1 he with h | h
          · exact happ p (by simp [hp]) e h o ho
          · simp at h
            rw [h] at ho
            have := (names_written (hgood (s, n) (by simp)) ho).1
            exact hnd.1 (List.mem_map.2 ⟨p, hp, this⟩))
        (fun p hp => hrd p (by simp [hp]))
      refine ⟨t' :: vs, ?_, .cons hlast h4⟩
      simp only [readSeq, h2, Res.ok_bind, h3, List.map_cons]
      have : added es0 ((s, n) :: ps) = ⟨n ++ '=' :: s.write s.val, true, true⟩ :: added es0 ps := by
        unfold added
        rw [List.filter_cons_of_pos (by simpa using hex)]
        rfl
      rw [this, markedAny_cons, hm]
      simp

theorem argsText_length {V : Type} {ss : List (Slot V)} {names : Str} {ns : List Str} (h : ArgsText ss names ns) :
    ss.length = ns.length := by
  induction h with
  | one => rfl
  | cons _ _ _ _ _ _ _ _ ih => simp [ih]

/-! ### C160 -/

/-- C160 for variables whose names are all different, when no argument failed to convert before and all the
arguments that set a variable convert: each variable takes the value of the last argument that sets it, whatever
the other variables are, or keeps its value; the arguments that set a variable are marked as read and no other;
the variables that are not set are added to the arguments in order. -/
theorem C160_read_partial {V : Type} (ss : List (Slot V)) (names : Str) (ns : List Str) (es : List ArgVar)
    (val : Str → Option Str → V) (ht : ArgsText ss names ns) (hd : ns.Nodup) (hg : ∀ n ∈ ns, GoodName n)
    (hv : ∀ e ∈ es, e.valid = true) (hr : ∀ p ∈ ss.zip ns, Reads p.1.impl p.2 (es.map (·.arg)) (val p.2)) :
    ∃ vs, readArgs ss names es = .ok (markedAny ns es ++ added es (ss.zip ns), vs) ∧
      List.Forall₂ (fun p v => LastValue p.2 (val p.2) es p.1.val v) (ss.zip ns) vs := by
  have hl := argsText_length ht
  have hz : (ss.zip ns).map (·.2) = ns := List.map_snd_zip (by omega)
  obtain ⟨vs, h1, h2⟩ := readSeq_good es val (ss.zip ns) es [] (by rw [hz]; exact hd)
    (fun p hp => hg p.2 (by rw [← hz]; exact List.mem_map.2 ⟨p, hp, rfl⟩)) rfl hv (by simp) (by simp) hr
  refine ⟨vs, ?_, h2⟩
  rw [readArgs_seq ht]
  simpa [hz] using h1

open scoped Classical in
/-- C160: after reading, the arguments that are reported as unrecognized are those that set no variable. -/
theorem C160_unrecognized {V : Type} (ss : List (Slot V)) (names : Str) (ns : List Str) (es : List ArgVar)
    (val : Str → Option Str → V) (ht : ArgsText ss names ns) (hd : ns.Nodup) (hg : ∀ n ∈ ns, GoodName n)
    (hv : ∀ e ∈ es, e.valid = true ∧ e.read = false)
    (hr : ∀ p ∈ ss.zip ns, Reads p.1.impl p.2 (es.map (·.arg)) (val p.2)) :
    ∃ es' vs, readArgs ss names es = .ok (es', vs) ∧
      unrecognized es' = (es.map (·.arg)).filter fun a => ¬ ∃ n ∈ ns, ∃ o, Names a n o := by
  obtain ⟨vs, h1, -⟩ := C160_read_partial ss names ns es val ht hd hg (fun e he => (hv e he).1) hr
  refine ⟨_, vs, h1, ?_⟩
  unfold unrecognized
  rw [List.filter_append, List.map_append]
  have h2 : (added es (ss.zip ns)).filter (fun e => !e.read) = [] := by
    rw [List.filter_eq_nil_iff]
    intro e he
    obtain ⟨p, -, rfl⟩ := List.mem_map.1 he
    simp
  rw [h2, List.map_nil, List.append_nil]
  clear h1 h2 hr ht
  induction es with
  | nil => rfl
  | cons e es ih =>
    have ih' := ih fun x hx => hv x (by simp [hx])
    unfold markedAny at ih' ⊢
    rw [List.map_cons, List.map_cons]
    by_cases h : ∃ n ∈ ns, ∃ o, Names e.arg n o
    · rw [if_pos h, List.filter_cons_of_neg (by simp), List.filter_cons_of_neg (by simpa using h)]
      exact ih'
    · rw [if_neg h, List.filter_cons_of_pos (by simp [(hv e (by simp)).2]),
        List.filter_cons_of_pos (by simpa using h), List.map_cons, ih']

/-- variables of natural numbers, for the examples -/
def natSlot (label : Option Str) (v : Nat) : Slot Nat :=
  ⟨label, v, readScalar digits, fun n => Nat.toDigits 10 n⟩

/-- C160 is false for two variables whose names end in the same way: without any argument, the second one
receives the value of the first, because the argument that was added for the first is read by the second. -/
theorem C160_same_refuted : readArgs [natSlot none 3, natSlot none 8] "a.n, b.n".toList [] =
    .ok ([⟨"n=3".toList, true, true⟩], [3, 3]) := by decide +kernel

/-- C160 is false for `arg_list(name(v[idx(i)], "first"), n)`: the text of the first variable is cut at its first
closing parenthesis, `n=5` is ignored and the variable `n` is called by an empty name. -/
theorem C160_paren_refuted : readArgs [natSlot (some "first".toList) 3, natSlot none 8]
    "name(v[idx(i)], \"first\"), n".toList [⟨"n=5".toList, false, true⟩] =
    .ok ([⟨"n=5".toList, false, true⟩, ⟨"first=3".toList, true, true⟩, ⟨"=8".toList, true, true⟩], [3, 8]) := by
  decide +kernel

/-- the conversion of the examples satisfies the condition of C160 when the arguments are numbers -/
theorem digits_reads (n : Str) (args : List Str) (val : Str → Nat)
    (h : ∀ a ∈ args, ∀ v m, Names a n (some v) → IsUnquoted v m → ∀ t, digits.conv m t = (true, val v)) :
    Reads (readScalar digits) n args fun o => o.elim 1 val where
  other e t hn := by
    obtain ⟨o, h1, h2⟩ := matchArg_spec e.arg n
    cases o with
    | none => simp [readScalar, h1]
    | some v => exact absurd ((h2 v).1 rfl) (hn v)
  hit e t o he ho := by
    obtain ⟨o', h1, h2⟩ := matchArg_spec e.arg n
    have := (h2 o).2 ho
    subst this
    cases o with
    | none => simp [readScalar, h1, digits]
    | some v =>
      obtain ⟨m, h3, h4⟩ := unquote_spec v
      simp [readScalar, h1, h3, h e.arg he v m ho h4]

example : readArgs [natSlot none 3, natSlot (some "len".toList) 8, natSlot none 1]
      "opts.n, name(x, \"len\"), k".toList [⟨"n=5".toList, false, true⟩, ⟨"m=2".toList, false, true⟩, ⟨"len=7".toList, false, true⟩] =
    .ok ([⟨"n=5".toList, true, true⟩, ⟨"m=2".toList, false, true⟩, ⟨"len=7".toList, true, true⟩,
      ⟨"k=1".toList, true, true⟩], [5, 7, 1]) := by decide +kernel

theorem goodName_of (n : Str) (h : ∀ c ∈ n, c ≠ '=' ∧ c ≠ '-' ∧ c ∉ blanks) : GoodName n := by
  refine ⟨fun hc => (h _ hc).1 rfl, ?_, [], [], by simp, by simp, by simp, ?_, ?_⟩
  · intro hc; exact (h _ (List.mem_of_mem_head? hc)).2.1 rfl
  · intro c hc; exact (h _ (List.mem_of_mem_head? hc)).2.2
  · intro c hc; exact (h _ (List.mem_of_getLast? hc)).2.2

theorem isName_plain (e : Str) (h : ∀ c ∈ e, c ≠ '.' ∧ c ∉ blanks) : IsName e e := by
  refine ⟨[], e, ⟨rfl, .inl rfl⟩, fun hc => (h _ hc).1 rfl, [], [], by simp, by simp, by simp, ?_, ?_⟩
  · intro c hc; exact (h _ (List.mem_of_mem_head? hc)).2
  · intro c hc; exact (h _ (List.mem_of_getLast? hc)).2

/-- the hypotheses of C160 hold for two variables, one set and one not -/
example : ∃ vs, readArgs [natSlot none 3, natSlot none 8] "n, k".toList [⟨"n=5".toList, false, true⟩] =
      .ok (markedAny ["n".toList, "k".toList] [⟨"n=5".toList, false, true⟩] ++
        added [⟨"n=5".toList, false, true⟩] [(natSlot none 3, "n".toList), (natSlot none 8, "k".toList)], vs) := by
  have hn : ∀ o, Names "n=5".toList "n".toList o → o = some "5".toList := fun o h =>
    (names_written (n := "n".toList) (goodName_of _ (by decide)) h).2
  have hk : ∀ o, ¬ Names "n=5".toList "k".toList o := fun o h =>
    absurd (names_written (n := "n".toList) (goodName_of _ (by decide)) h).1 (by decide)
  have h5 : ∀ m, IsUnquoted "5".toList m → m = "5".toList := fun m h =>
    unquoted_unique h ⟨"5".toList, ⟨[], [], by decide, by simp, by simp, by decide, by decide⟩,
      ⟨[], [], by decide, by simp, by simp, by decide, by decide⟩⟩
  obtain ⟨vs, h, -⟩ := C160_read_partial [natSlot none 3, natSlot none 8] "n, k".toList ["n".toList, "k".toList]
    [⟨"n=5".toList, false, true⟩] (fun _ o => o.elim 1 fun _ => 5)
    (.cons _ "n".toList _ _ "k".toList _ (.plain _ _ rfl (by decide) (isName_plain _ (by decide)))
      (.one _ _ _ (.plain _ _ rfl (by decide) (isName_plain _ (by decide)))))
    (by decide) (by
      intro n hn
      simp only [List.mem_cons, List.not_mem_nil, or_false] at hn
      rcases hn with rfl | rfl <;> exact goodName_of _ (by decide)) (by simp)
    (by
      intro p hp
      simp only [List.zip_cons_cons, List.zip_nil_left, List.mem_cons, List.not_mem_nil, or_false] at hp
      rcases hp with rfl | rfl
      · refine digits_reads _ _ (fun _ => 5) ?_
        intro a ha v m hv hm t
        simp only [List.map_cons, List.map_nil, List.mem_singleton] at ha
        subst ha
        have := hn _ hv
        simp only [Option.some.injEq] at this
        rw [this] at hm
        rw [h5 m hm]
        rfl
      · refine digits_reads _ _ (fun _ => 5) ?_
        intro a ha v m hv hm t
        simp only [List.map_cons, List.map_nil, List.mem_singleton] at ha
        subst ha
        exact absurd hv (hk _))
  exact ⟨vs, h⟩

/-! ### C161 -/

/-- C161 for variables without labels: each is written as `name=value`, in order, and no variable changes. -/
theorem C161_write_partial {V : Type} (ss : List (Slot V)) (names : Str) (ns : List Str) (es : List ArgVar)
    (ht : ArgsText ss names ns) (hl : ∀ s ∈ ss, s.label = none) :
    writeArgs ss names es = .ok (es ++ (ss.zip ns).map (fun p => ⟨p.2 ++ '=' :: p.1.write p.1.val, true, true⟩),
      ss.map (·.val)) := by
  induction ss generalizing names ns es with
  | nil => cases ht
  | cons s ss ih =>
    have hs := hl s (by simp)
    cases ht with
    | one _ _ n h =>
      cases h with
      | plain _ _ _ hc hn => simp [writeArgs, hs, varName_last _ _ hc hn, written]
      | label a _ hl' _ => rw [hs] at hl'; simp at hl'
    | cons _ e n _ names ns h hs' =>
      cases h with
      | plain _ _ _ hc hn =>
        simp [writeArgs, hs, varName_more _ _ _ hc hn, ih _ _ _ (argsText_blank hs') (fun x hx => hl x (by simp [hx])),
          written]
      | label a _ hl' _ => rw [hs] at hl'; simp at hl'

theorem lastValue_written {V : Type} {name : Str} {val : Option Str → V} {es : List ArgVar} {t v : V} (a b : List ArgVar)
    (e : ArgVar) (o : Option Str) (he : es = a ++ e :: b) (ho : Names e.arg name o)
    (hu : ∀ o', Names e.arg name o' → o' = o) (hb : ∀ x ∈ b, ∀ o, ¬ Names x.arg name o)
    (h : LastValue name val es t v) : v = val o := by
  cases h with
  | none _ _ hn => exact absurd ho (hn e (by rw [he]; simp) o)
  | last a' b' e' o' _ hx hb' =>
    rcases List.append_eq_append_iff.1 he with ⟨c, h1, h2⟩ | ⟨c, h1, h2⟩
    · cases c with
      | nil =>
        obtain ⟨rfl, rfl⟩ := List.cons.inj h2
        rw [hu o' hx]
      | cons d c =>
        rw [List.cons_append] at h2
        obtain ⟨rfl, h3⟩ := List.cons.inj h2
        exact absurd ho (hb' e (by rw [h3]; simp) o)
    · cases c with
      | nil =>
        obtain ⟨rfl, rfl⟩ := List.cons.inj h2
        rw [hu o' hx]
      | cons d c =>
        rw [List.cons_append] at h2
        obtain ⟨rfl, h3⟩ := List.cons.inj h2
        exact absurd hx (hb e' (by rw [h3]; simp) o')

/-- C161: variables that are written and then read again from the same list of arguments get the values that
were written, whatever arguments were there before. -/
theorem C161_roundtrip {V : Type} (ss ss' : List (Slot V)) (names names' : Str) (ns : List Str) (es : List ArgVar)
    (val : Str → Option Str → V) (ht : ArgsText ss names ns) (hl : ∀ s ∈ ss, s.label = none)
    (ht' : ArgsText ss' names' ns) (hd : ns.Nodup) (hg : ∀ n ∈ ns, GoodName n) (hv : ∀ e ∈ es, e.valid = true)
    (hr : ∀ p ∈ ss'.zip ns, Reads p.1.impl p.2
      (es.map (·.arg) ++ (ss.zip ns).map fun p => p.2 ++ '=' :: p.1.write p.1.val) (val p.2))
    (hw : ∀ p ∈ ss.zip ns, val p.2 (some (p.1.write p.1.val)) = p.1.val) :
    ∃ es1 vs1 es2, writeArgs ss names es = .ok (es1, vs1) ∧ readArgs ss' names' es1 = .ok (es2, ss.map (·.val)) := by
  obtain ⟨vs, h1, h2⟩ := C160_read_partial ss' names' ns
    (es ++ (ss.zip ns).map (fun p => ⟨p.2 ++ '=' :: p.1.write p.1.val, true, true⟩)) val ht' hd hg
    (by
      intro e he
      rcases List.mem_append.1 he with h | h
      · exact hv e h
      · obtain ⟨p, -, rfl⟩ := List.mem_map.1 h
        rfl)
    (by
      intro p hp
      have := hr p hp
      rw [List.map_append, List.map_map]
      exact this)
  suffices hvs : vs = ss.map (·.val) by
    rw [hvs] at h1
    exact ⟨_, _, _, C161_write_partial ss names ns es ht hl, h1⟩
  have hlen := argsText_length ht
  have hlen' := argsText_length ht'
  apply List.ext_getElem
  · rw [← h2.length_eq, List.length_zip, List.length_map]; omega
  intro i hi hi'
  have hi1 : i < (ss'.zip ns).length := by rw [h2.length_eq]; exact hi
  have hiv := List.Forall₂.get h2 hi1 hi
  have hs : i < ss.length := by simpa using hi'
  have hn : i < ns.length := by omega
  have hz : i < (ss.zip ns).length := by rw [List.length_zip]; omega
  simp only [List.get_eq_getElem, List.getElem_zip] at hiv
  rw [List.getElem_map]
  have hsplit : (ss.zip ns).map (fun p : Slot V × Str => (⟨p.2 ++ '=' :: p.1.write p.1.val, true, true⟩ : ArgVar)) =
      ((ss.zip ns).take i).map (fun p : Slot V × Str => (⟨p.2 ++ '=' :: p.1.write p.1.val, true, true⟩ : ArgVar)) ++
        ⟨ns[i] ++ '=' :: ss[i].write ss[i].val, true, true⟩ ::
        ((ss.zip ns).drop (i + 1)).map (fun p : Slot V × Str => (⟨p.2 ++ '=' :: p.1.write p.1.val, true, true⟩ : ArgVar)) := by
    conv => lhs; rw [← List.take_append_drop i (ss.zip ns), List.drop_eq_getElem_cons hz]
    rw [List.map_append, List.map_cons, List.getElem_zip]
  have := lastValue_written (es ++ ((ss.zip ns).take i).map
      (fun p : Slot V × Str => (⟨p.2 ++ '=' :: p.1.write p.1.val, true, true⟩ : ArgVar))) _
    ⟨ns[i] ++ '=' :: ss[i].write ss[i].val, true, true⟩ (some (ss[i].write ss[i].val))
    (by rw [hsplit, ← List.append_assoc]) (names_self (hg _ (List.getElem_mem hn)))
    (fun o' h => (names_written (hg _ (List.getElem_mem hn)) h).2)
    (by
      intro x hx o ho
      obtain ⟨p, hp, rfl⟩ := List.mem_map.1 hx
      have hpn := (List.of_mem_zip (List.mem_of_mem_drop hp)).2
      have h3 := (names_written (hg _ hpn) ho).1
      obtain ⟨j, hj, hpj⟩ := List.getElem_of_mem hp
      rw [List.length_drop, List.length_zip] at hj
      rw [List.getElem_drop, List.getElem_zip] at hpj
      rw [← hpj] at h3
      exact List.pairwise_iff_getElem.1 hd i (i + 1 + j) hn (by omega) (by omega) h3) hiv
  rw [this]
  have hm := hw (ss[i], ns[i]) (by
    rw [← List.getElem_zip (h := hz)]
    exact List.getElem_mem hz)
  exact hm

/-- C161 is false after a variable with a label: the variables that follow are read instead of being written.
Here `n` takes the value of an argument and no `n=8` is written. -/
theorem C161_label_refuted : writeArgs [natSlot (some "first".toList) 3, natSlot none 8]
    "name(a, \"first\"), n".toList [⟨"n=5".toList, true, true⟩] =
    .ok ([⟨"n=5".toList, true, true⟩, ⟨"first=3".toList, true, true⟩], [3, 5]) := by decide +kernel

example : writeArgs [natSlot none 3, natSlot none 8] "o.a, n".toList [⟨"n=5".toList, true, true⟩] =
    .ok ([⟨"n=5".toList, true, true⟩, ⟨"a=3".toList, true, true⟩, ⟨"n=8".toList, true, true⟩], [3, 8]) := by decide +kernel

/-- the hypotheses of the round trip hold for a variable that an earlier argument already sets -/
example : ∃ es1 vs1 es2, writeArgs [natSlot none 8] "o.n".toList [⟨"n=5".toList, true, true⟩] = .ok (es1, vs1) ∧
    readArgs [natSlot none 0] "n".toList es1 = .ok (es2, [8]) := by
  have h1 : ∀ v m, (v = "5".toList ∨ v = "8".toList) → IsUnquoted v m → m = v := by
    intro v m hv h
    refine unquoted_unique h ⟨v, ?_, ?_⟩
    · rcases hv with rfl | rfl <;> exact ⟨[], [], by decide, by simp, by simp, by decide, by decide⟩
    · rcases hv with rfl | rfl <;> exact ⟨[], [], by decide, by simp, by simp, by decide, by decide⟩
  refine C161_roundtrip [natSlot none 8] [natSlot none 0] "o.n".toList "n".toList ["n".toList] _
    (fun _ o => o.elim 1 fun v => if v = "5".toList then 5 else 8)
    (.one _ _ _ (.plain _ _ rfl (by decide) ⟨"o.".toList, "n".toList, ⟨by decide, .inr ⟨"o".toList, by decide⟩⟩, by decide,
      [], [], by decide, by simp, by simp, by decide, by decide⟩)) (by simp [natSlot])
    (.one _ _ _ (.plain _ _ rfl (by decide) (isName_plain _ (by decide)))) (by simp)
    (by intro n hn; simp only [List.mem_singleton] at hn; subst hn; exact goodName_of _ (by decide)) (by simp) ?_ ?_
  · intro p hp
    simp only [List.zip_cons_cons, List.zip_nil_left, List.mem_cons, List.not_mem_nil, or_false] at hp
    subst hp
    refine digits_reads _ _ (fun v => if v = "5".toList then 5 else 8) ?_
    intro a ha v m hv hm t
    simp only [List.map_cons, List.map_nil, List.zip_cons_cons, List.zip_nil_left, List.cons_append, List.nil_append,
      List.mem_cons, List.not_mem_nil, or_false] at ha
    rcases ha with rfl | rfl
    · have := (names_written (n := "n".toList) (w := "5".toList) (goodName_of _ (by decide)) hv).2
      simp only [Option.some.injEq] at this
      subst this
      rw [h1 _ _ (.inl rfl) hm]; rfl
    · have := (names_written (n := "n".toList) (w := "8".toList) (goodName_of _ (by decide)) hv).2
      simp only [Option.some.injEq] at this
      subst this
      rw [h1 _ _ (.inr rfl) hm]; rfl
  · intro p hp
    simp only [List.zip_cons_cons, List.zip_nil_left, List.mem_cons, List.not_mem_nil, or_false] at hp
    subst hp
    decide +kernel

/-! ### C162 -/

/-- Spec: characters that mean something to a shell wherever they are, apart from blanks and double quotes -/
def shellSpecial : Str := ['\\', '$', '`', '!']

/-- Spec: characters that mean something to a shell outside of quotes, apart from blanks and double quotes -/
def shellOutside : Str := shellSpecial ++ ['\'', '\n', ';', '&', '|', '<', '>', '(', ')', '#', '~', '*', '?', '{', '}']

/-- Spec: the words of a command line: they are separated by blanks, those between double quotes do not count.
`none` if the command line is more than that.  The first argument says if we are between quotes, the second is
the word that was started. -/
def shellGo : Bool → Option Str → Str → Option (List Str)
  | q, cur, [] => if q then none else some cur.toList
  | false, cur, c :: s =>
    if c = '"' then shellGo true (some (cur.getD [])) s
    else if c = ' ' ∨ c = '\t' then
      match cur with
      | none => shellGo false none s
      | some w => (shellGo false none s).map (w :: ·)
    else if c ∈ shellOutside then none
    else shellGo false (some (cur.getD [] ++ [c])) s
  | true, cur, c :: s =>
    if c = '"' then shellGo false cur s
    else if c ∈ shellSpecial then none
    else shellGo true (some (cur.getD [] ++ [c])) s

def shellWords (s : Str) : Option (List Str) := shellGo false none s

/-- Spec: text without blanks that a shell leaves as it is -/
def Bare (s : Str) : Prop := ∀ c ∈ s, c ≠ '"' ∧ c ≠ ' ' ∧ c ≠ '\t' ∧ c ∉ shellOutside

/-- Spec: text that a shell leaves as it is between double quotes -/
def Quotable (s : Str) : Prop := ∀ c ∈ s, c ≠ '"' ∧ c ∉ shellSpecial

theorem shellGo_out (cur : Option Str) (c : Char) (s : Str) : shellGo false cur (c :: s) =
    if c = '"' then shellGo true (some (cur.getD [])) s
    else if c = ' ' ∨ c = '\t' then
      match cur with
      | none => shellGo false none s
      | some w => (shellGo false none s).map (w :: ·)
    else if c ∈ shellOutside then none
    else shellGo false (some (cur.getD [] ++ [c])) s := by cases cur <;> rfl

theorem shellGo_in (cur : Option Str) (c : Char) (s : Str) : shellGo true cur (c :: s) =
    if c = '"' then shellGo false cur s
    else if c ∈ shellSpecial then none
    else shellGo true (some (cur.getD [] ++ [c])) s := by cases cur <;> rfl

theorem shellGo_bare (a s : Str) (ha : Bare a) : ∀ w, a ≠ [] ∨ (∃ x, w = some x) →
    shellGo false w (a ++ s) = shellGo false (some (w.getD [] ++ a)) s := by
  induction a with
  | nil =>
    intro w hw
    rcases hw with h | ⟨x, rfl⟩
    · exact absurd rfl h
    · simp
  | cons c a ih =>
    intro w _
    obtain ⟨h1, h2, h3, h4⟩ := ha c (by simp)
    rw [List.cons_append, shellGo_out, if_neg h1, if_neg (by simp [h2, h3]), if_neg h4,
      ih (fun x hx => ha x (by simp [hx])) _ (.inr ⟨_, rfl⟩)]
    simp

theorem shellGo_quoted (a s : Str) (ha : Quotable a) : ∀ w,
    shellGo true (some w) (a ++ '"' :: s) = shellGo false (some (w ++ a)) s := by
  induction a with
  | nil => intro w; simp [shellGo]
  | cons c a ih =>
    intro w
    obtain ⟨h1, h2⟩ := ha c (by simp)
    rw [List.cons_append, shellGo_in, if_neg h1, if_neg h2, Option.getD_some, ih (fun x hx => ha x (by simp [hx]))]
    simp

/-- Spec: arguments that `make_cmd` can protect: they are not empty and, when they contain blanks, these are after
the first `=`, if there is one, and nothing has to be escaped. -/
inductive Protectable : Str → Prop
  | bare (a : Str) (h : Bare a) (hne : a ≠ []) : Protectable a
  | quoted (a : Str) (h : Quotable a) (hb : ' ' ∈ a ∨ '\t' ∈ a) (he : '=' ∉ a) : Protectable a
  | value (a b : Str) (ha : Bare a) (he : '=' ∉ a) (hq : Quotable b) (hb : ' ' ∈ b ∨ '\t' ∈ b) : Protectable (a ++ '=' :: b)

theorem firstOf_blank (t : Str) (h : ' ' ∈ t ∨ '\t' ∈ t) : ∃ p, firstOf t [' ', '\t'] 0 = some p := by
  rcases span_cases (· ∉ ([' ', '\t'] : Str)) t with hn | ⟨a, d, u, rfl, h1, h2⟩
  · rcases h with h | h
    · exact absurd (by simp) (hn _ h)
    · exact absurd (by simp) (hn _ h)
  · rw [not_not] at h2
    have := firstOf_append_some (d := []) (a := a) (t := u) (cs := [' ', '\t']) (c := d) h1 h2
    exact ⟨_, by simpa using this⟩

theorem eq_bare : Bare ['='] := by
  intro c hc
  simp only [List.mem_singleton] at hc
  subst hc
  decide

/-- a protected argument is one word of the command line -/
theorem quoteArg_word (t : Str) (h : Protectable t) : ∃ q, quoteArg t = .ok q ∧
    ∀ s, shellGo false none (q ++ s) = shellGo false (some t) s := by
  cases h with
  | bare _ h hne =>
    refine ⟨t, ?_, fun s => by rw [shellGo_bare t s h none (.inl hne)]; rfl⟩
    unfold quoteArg
    have : firstOf t [' ', '\t'] 0 = none := by
      have := firstOf_append_none (d := []) (t := t) (cs := [' ', '\t'])
        (by intro c hc; simp [(h c hc).2.1, (h c hc).2.2.1])
      simpa using this
    rw [this]
  | quoted _ h hb he =>
    obtain ⟨p, hp⟩ := firstOf_blank t hb
    refine ⟨'"' :: t ++ ['"'], ?_, fun s => ?_⟩
    · unfold quoteArg
      rw [hp]
      rcases first_eq t '=' with ⟨-, h⟩ | ⟨x, b, h3, -, -⟩
      · simp only [h]
      · exact absurd (by rw [h3]; simp) he
    · rw [List.cons_append, List.cons_append, shellGo_out, if_pos rfl, List.append_assoc, List.singleton_append]
      have := shellGo_quoted t s h []
      simpa using this
  | value a b ha he hq hb =>
    obtain ⟨p, hp⟩ := firstOf_blank (a ++ '=' :: b) (by rcases hb with h | h <;> simp [h])
    refine ⟨a ++ ['='] ++ '"' :: b ++ ['"'], ?_, fun s => ?_⟩
    · unfold quoteArg
      rw [hp]
      rcases first_eq (a ++ '=' :: b) '=' with ⟨h, -⟩ | ⟨x, y, h3, h4, h5⟩
      · exact absurd (by simp) h
      · obtain ⟨rfl, rfl⟩ := cut_unique h3 he h4
        simp only [h5]
        have e1 : substr (a ++ '=' :: b) 0 (a.length + 1) = .ok (a ++ ['=']) := by
          unfold substr
          rw [if_neg (by simp), List.drop_zero,
            show a ++ '=' :: b = (a ++ ['=']) ++ b by simp, show a.length + 1 = (a ++ ['=']).length by simp, List.take_left]
        have e2 : substrFrom (a ++ '=' :: b) (a.length + 1) = .ok b := by
          unfold substrFrom
          rw [if_neg (by simp), drop_succ_length]
        rw [e1, e2]
        rfl
    · have hbare : Bare (a ++ ['=']) := by
        intro c hc
        rcases List.mem_append.1 hc with h | h
        · exact ha c h
        · exact eq_bare c h
      have e : a ++ ['='] ++ '"' :: b ++ ['"'] ++ s = (a ++ ['=']) ++ ('"' :: (b ++ '"' :: s)) := by simp
      rw [e, shellGo_bare _ _ hbare none (.inl (by simp)), shellGo_out, if_pos rfl]
      have := shellGo_quoted b s hq (a ++ ['='])
      simpa using this

theorem cmdLoop_words (ts : List Str) (h : ∀ t ∈ ts, Protectable t) : ∀ cmd, ∃ r, cmdLoop ts cmd = .ok (cmd ++ r) ∧
    ∀ w, shellGo false (some w) r = some (w :: ts) := by
  induction ts with
  | nil => exact fun cmd => ⟨[], by simp [cmdLoop], fun w => by simp [shellGo]⟩
  | cons t ts ih =>
    intro cmd
    obtain ⟨q, h1, h2⟩ := quoteArg_word t (h t (by simp))
    obtain ⟨r, h3, h4⟩ := ih (fun x hx => h x (by simp [hx])) (cmd ++ ' ' :: q)
    refine ⟨' ' :: q ++ r, ?_, fun w => ?_⟩
    · rw [cmdLoop, h1, Res.ok_bind, h3]; simp
    · rw [List.cons_append, shellGo_out, if_neg (by decide), if_pos (.inl rfl)]
      simp only [h2, h4, Option.map_some]

/-- C162 for a program name without blanks and for arguments whose blanks, if any, are in the value: a shell that
reads the command line made by `make_cmd` finds the same words. -/
theorem C162_make_cmd_partial (prog : Str) (ts : List Str) (hp : Bare prog) (hne : prog ≠ [])
    (h : ∀ t ∈ ts, Protectable t) : ∃ cmd, makeCmd (prog :: ts) = .ok cmd ∧ shellWords cmd = some (prog :: ts) := by
  obtain ⟨r, h1, h2⟩ := cmdLoop_words ts h prog
  refine ⟨prog ++ r, h1, ?_⟩
  unfold shellWords
  rw [shellGo_bare prog r hp none (.inl hne)]
  exact h2 prog

/-- C162 is false for blanks in the name of a program or of a variable, for quotes and for empty arguments. -/
theorem C162_refuted :
    (∃ c, makeCmd ["my prog".toList] = .ok c ∧ shellWords c = some ["my".toList, "prog".toList]) ∧
    (∃ c, makeCmd ["p".toList, "a b=c d".toList] = .ok c ∧ shellWords c = some ["p".toList, "a".toList, "b=c d".toList]) ∧
    (∃ c, makeCmd ["p".toList, "a=\"b c\"".toList] = .ok c ∧ shellWords c = some ["p".toList, "a=b".toList, "c".toList]) ∧
    (∃ c, makeCmd ["p".toList, "a=\"b\"".toList] = .ok c ∧ shellWords c = some ["p".toList, "a=b".toList]) ∧
    (∃ c, makeCmd ["p".toList, [], "a".toList] = .ok c ∧ shellWords c = some ["p".toList, "a".toList]) := by
  refine ⟨⟨_, rfl, ?_⟩, ⟨_, rfl, ?_⟩, ⟨_, rfl, ?_⟩, ⟨_, rfl, ?_⟩, ⟨_, rfl, ?_⟩⟩ <;> decide +kernel

theorem saveArgs_words (ts : List Str) (h : ∀ t ∈ ts, Bare t ∧ t ≠ []) : ∀ s, ∃ r, saveArgs s ts = s ++ r ∧
    ∀ w, shellGo false (some w) r = some (w :: ts) := by
  induction ts with
  | nil => exact fun s => ⟨[], by simp [saveArgs], fun w => by simp [shellGo]⟩
  | cons t ts ih =>
    intro s
    obtain ⟨r, h3, h4⟩ := ih (fun x hx => h x (by simp [hx])) (s ++ ' ' :: t)
    refine ⟨' ' :: t ++ r, ?_, fun w => ?_⟩
    · have : saveArgs s (t :: ts) = saveArgs (s ++ ' ' :: t) ts := rfl
      rw [this, h3]; simp
    · rw [List.cons_append, shellGo_out, if_neg (by decide), if_pos (.inl rfl)]
      simp only [shellGo_bare t r (h t (by simp)).1 none (.inl (h t (by simp)).2), Option.getD_none, List.nil_append, h4,
        Option.map_some]

/-- C162 for `save_args`, when no argument contains blanks. -/
theorem C162_save_args_partial (prog : Str) (ts : List Str) (hp : Bare prog) (hne : prog ≠ [])
    (h : ∀ t ∈ ts, Bare t ∧ t ≠ []) : shellWords (saveArgs prog ts) = some (prog :: ts) := by
  obtain ⟨r, h1, h2⟩ := saveArgs_words ts h prog
  unfold shellWords
  rw [h1, shellGo_bare prog r hp none (.inl hne)]
  exact h2 prog

/-- C162 is false for `save_args` as soon as an argument contains blanks: no quotes are written. -/
theorem C162_save_args_refuted : shellWords (saveArgs "p".toList ["a=b c".toList]) =
    some ["p".toList, "a=b".toList, "c".toList] := by decide +kernel

example : ∃ cmd, makeCmd ["./p".toList, "a=b c".toList, "x=[1,2]".toList, "say hello".toList] = .ok cmd ∧
    shellWords cmd = some ["./p".toList, "a=b c".toList, "x=[1,2]".toList, "say hello".toList] :=
  C162_make_cmd_partial _ _ (by unfold Bare; decide) (by decide) (by
    intro t ht
    simp only [List.mem_cons, List.not_mem_nil, or_false] at ht
    rcases ht with rfl | rfl | rfl
    · exact .value "a".toList "b c".toList (by unfold Bare; decide) (by decide) (by unfold Quotable; decide) (by decide)
    · exact .bare _ (by unfold Bare; decide) (by decide)
    · exact .quoted _ (by unfold Quotable; decide) (by decide) (by decide))

end Verif.Io
