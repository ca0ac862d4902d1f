import Verif.Io.Argv
import Verif.Str.TrimProps
import Verif.Str.WordProps
import Verif.Str.SplitProps
/-!
# Properties C46 (reading program arguments) and C85 (vectors as arguments)
-/
namespace Verif.Io
open Verif Verif.Str

/-- Spec: the argument without the dash in front of it -/
def undash : Str → Str
  | '-' :: s => s
  | s => s

/-- Spec: the argument sets the variable `name`, either as a bare name (`none`) or with the text `v`. -/
inductive Names (arg name : Str) : Option Str → Prop
  | bare (h : '=' ∉ arg) (hn : undash arg = name) : Names arg name none
  | value (pre v : Str) (h : arg = pre ++ '=' :: v) (hp : '=' ∉ pre) (hn : IsTrim blanks (undash pre) name) :
      Names arg name (some v)

/-- Spec: `m` is the text `v` without the blanks and then the quotes around it -/
def IsUnquoted (v m : Str) : Prop := ∃ a, IsTrim blanks v a ∧ IsTrim quotes a m

/-! ### helpers -/

theorem undash_eq (s : Str) : undash s = if s.head? = some '-' then s.tail else s := by
  unfold undash
  split
  · rfl
  · rename_i h
    cases s with
    | nil => rfl
    | cons c t =>
      rw [if_neg]
      intro hc
      simp only [List.head?_cons, Option.some.injEq] at hc
      exact h t (by rw [hc])

theorem first_eq (s : Str) (c : Char) : (c ∉ s ∧ firstOf s [c] 0 = none) ∨
    ∃ a b, s = a ++ c :: b ∧ c ∉ a ∧ firstOf s [c] 0 = some a.length := by
  rcases span_cases (· ≠ c) s with h | ⟨a, d, u, rfl, h1, h2⟩
  · refine .inl ⟨fun hc => h c hc rfl, ?_⟩
    have := firstOf_append_none (d := []) (t := s) (cs := [c]) (by intro x hx hxc; simp at hxc; exact h x hx hxc)
    simpa using this
  · rw [not_not] at h2
    subst h2
    refine .inr ⟨a, u, rfl, fun hc => h1 d hc rfl, ?_⟩
    have := firstOf_append_some (d := []) (a := a) (t := u) (cs := [d]) (c := d)
      (by intro x hx hxc; simp at hxc; exact h1 x hx hxc) (by simp)
    simpa using this

theorem cut_unique {a b a' b' : Str} {c : Char} (h : a ++ c :: b = a' ++ c :: b') (ha : c ∉ a) (ha' : c ∉ a') :
    a = a' ∧ b = b' := by
  induction a generalizing a' with
  | nil =>
    cases a' with
    | nil => simpa using h
    | cons x a' =>
      simp only [List.nil_append, List.cons_append, List.cons.injEq] at h
      exact absurd (by rw [h.1]; simp) ha'
  | cons y a ih =>
    cases a' with
    | nil =>
      simp only [List.nil_append, List.cons_append, List.cons.injEq] at h
      exact absurd (by rw [h.1]; simp) ha
    | cons x a' =>
      simp only [List.cons_append, List.cons.injEq] at h
      have := ih h.2 (by intro hc; exact ha (by simp [hc])) (by intro hc; exact ha' (by simp [hc]))
      rw [h.1, this.1]
      exact ⟨rfl, this.2⟩

theorem matchArg_spec (arg name : Str) : ∃ o, matchArg arg name = .ok o ∧ ∀ v, o = some v ↔ Names arg name v := by
  unfold matchArg
  rcases first_eq arg '=' with ⟨hno, h1⟩ | ⟨a, b, rfl, ha, h1⟩
  · rw [h1]
    simp only
    have h2 : (if arg.head? = some '-' then substrFrom arg 1 else .ok arg) = .ok (undash arg) := by
      rw [undash_eq]
      split
      · rename_i hd
        cases arg with
        | nil => simp at hd
        | cons c t => simp [substrFrom]
      · rfl
    rw [h2, Res.ok_bind]
    refine ⟨_, rfl, fun v => ?_⟩
    constructor
    · intro h
      split at h
      · rename_i hn
        simp only [Option.some.injEq] at h
        subst h
        exact .bare hno hn
      · simp at h
    · intro h
      cases h with
      | bare h hn => rw [if_pos hn]
      | value pre v h hp hn => exact absurd (by rw [h]; simp) hno
  · rw [h1]
    simp only
    have h2 : substr (a ++ '=' :: b) (if (a ++ '=' :: b).head? = some '-' then 1 else 0)
        (a.length - (if (a ++ '=' :: b).head? = some '-' then 1 else 0)) = .ok (undash a) := by
      rw [undash_eq]
      cases a with
      | nil => simp [substr]
      | cons c t =>
        by_cases hc : c = '-'
        · subst hc; simp [substr]
        · simp [substr, hc]
    rw [h2, Res.ok_bind]
    obtain ⟨m, h3, h4⟩ := C36_trim (undash a) blanks
    rw [h3, Res.ok_bind]
    have h5 : substrFrom (a ++ '=' :: b) (a.length + 1) = .ok b := by
      unfold substrFrom
      rw [if_neg (by simp)]
      have : a ++ '=' :: b = (a ++ ['=']) ++ b := by simp
      rw [this, show a.length + 1 = (a ++ ['=']).length by simp, List.drop_left]
    by_cases hn : m = name
    · rw [if_pos hn, h5, Res.ok_bind]
      refine ⟨_, rfl, fun v => ?_⟩
      constructor
      · intro h
        simp only [Option.some.injEq] at h
        subst h
        exact .value a b rfl ha (hn ▸ h4)
      · intro h
        cases h with
        | bare h hn => exact absurd (by simp) h
        | value pre v h hp hn => rw [(cut_unique h ha hp).2]
    · rw [if_neg hn]
      refine ⟨_, rfl, fun v => ?_⟩
      constructor
      · intro h; simp at h
      · intro h
        cases h with
        | bare h hn => exact absurd (by simp) h
        | value pre v h hp hn' =>
          rw [← (cut_unique h ha hp).1] at hn'
          exact absurd (isTrim_unique h4 hn') hn

theorem undash_suffix (s : Str) : ∃ d, s = d ++ undash s := by
  rw [undash_eq]
  split
  · rename_i h
    cases s with
    | nil => simp at h
    | cons c t => exact ⟨[c], rfl⟩
  · exact ⟨[], rfl⟩

theorem names_contains {arg name : Str} {o : Option Str} (h : Names arg name o) : (find arg name).isSome = true := by
  have key : ∃ a b, arg = a ++ name ++ b := by
    cases h with
    | bare h hn =>
      obtain ⟨d, hd⟩ := undash_suffix arg
      rw [hn] at hd
      exact ⟨d, [], by simpa using hd⟩
    | value pre v h hp hn =>
      obtain ⟨d, hd⟩ := undash_suffix pre
      obtain ⟨x, y, h1, -⟩ := hn
      rw [h1] at hd
      exact ⟨d ++ x, y ++ '=' :: v, by rw [h, hd]; simp⟩
  obtain ⟨a, b, rfl⟩ := key
  cases hf : find (a ++ name ++ b) name with
  | some k => rfl
  | none =>
    exact absurd (occursAt_mid name a b) (sfind_none.1 hf a.length (by omega) (by simp))

theorem unquote_spec (v : Str) : ∃ m, unquote v = .ok m ∧ IsUnquoted v m := by
  obtain ⟨a, h1, h2⟩ := C36_trim v blanks
  obtain ⟨m, h3, h4⟩ := C36_trim a quotes
  exact ⟨m, by simp [unquote, h1, h3], a, h2, h4⟩

theorem unquoted_unique {v m m' : Str} (h : IsUnquoted v m) (h' : IsUnquoted v m') : m = m' := by
  obtain ⟨a, h1, h2⟩ := h
  obtain ⟨a', h1', h2'⟩ := h'
  rw [isTrim_unique h1 h1'] at h2
  exact isTrim_unique h2 h2'

theorem unquote_of {v m : Str} (h : IsUnquoted v m) : unquote v = .ok m := by
  obtain ⟨m', h1, h2⟩ := unquote_spec v
  rw [h1, unquoted_unique h2 h]

/-! ### C46: the loop over the arguments -/

open scoped Classical in
/-- Spec: the arguments after the variable has been read: the ones that name it are marked as read. -/
noncomputable def marked (name : Str) (es : List ArgVar) : List ArgVar :=
  es.map fun e => if ∃ o, Names e.arg name o then { e with read := true } else e

/-- Spec: the value of the variable after reading the arguments: that of the last argument that names it,
otherwise the value it had. -/
inductive LastValue {T : Type} (name : Str) (val : Option Str → T) : List ArgVar → T → T → Prop
  | last (a b : List ArgVar) (e : ArgVar) (o : Option Str) (t : T) (h : Names e.arg name o)
      (hb : ∀ x ∈ b, ∀ o, ¬ Names x.arg name o) : LastValue name val (a ++ e :: b) t (val o)
  | none (es : List ArgVar) (t : T) (h : ∀ x ∈ es, ∀ o, ¬ Names x.arg name o) : LastValue name val es t t

theorem lastValue_cons {T : Type} {name : Str} {val : Option Str → T} {es : List ArgVar} {e : ArgVar} {t t' : T}
    (h : (∀ o, ¬ Names e.arg name o) ∧ LastValue name val es t t' ∨
      ∃ o, Names e.arg name o ∧ LastValue name val es (val o) t') : LastValue name val (e :: es) t t' := by
  rcases h with ⟨h1, h2⟩ | ⟨o, h1, h2⟩
  · cases h2 with
    | last a b x o _ hx hb => exact .last (e :: a) b x o t hx hb
    | none _ _ hn => exact .none (e :: es) _ (by intro x hx; rcases List.mem_cons.1 hx with rfl | hx; exacts [h1, hn x hx])
  · cases h2 with
    | last a b x o' _ hx hb => exact .last (e :: a) b x o' t hx hb
    | none _ _ hn => exact .last [] es e o t h1 hn

theorem loop_good {T : Type} (impl : ArgVar → T → Res (Bool × T × ArgVar)) (name : Str) (val : Option Str → T) (es : List ArgVar)
    (hv : ∀ e ∈ es, e.valid = true)
    (h0 : ∀ e ∈ es, ∀ t, (∀ o, ¬ Names e.arg name o) → impl e t = .ok (false, t, e))
    (h1 : ∀ e ∈ es, ∀ t o, Names e.arg name o → impl e t = .ok (true, val o, { e with read := true, valid := true })) :
    ∀ (t : T) (found : Bool), ∃ t' found', readLoopArgs impl name es t found = .ok (marked name es, t', found') ∧
      LastValue name val es t t' ∧ (found' = true ↔ found = true ∨ ∃ e ∈ es, ∃ o, Names e.arg name o) := by
  induction es with
  | nil => exact fun t found => ⟨t, found, rfl, .none [] t (by simp), by simp⟩
  | cons e es ih =>
    intro t found
    have ih' := ih (fun x hx => hv x (by simp [hx])) (fun x hx => h0 x (by simp [hx])) fun x hx => h1 x (by simp [hx])
    by_cases hn : ∃ o, Names e.arg name o
    · obtain ⟨o, ho⟩ := hn
      obtain ⟨t', found', h2, h3, h4⟩ := ih' (val o) (found || true)
      refine ⟨t', found', ?_, lastValue_cons (.inr ⟨o, ho, h3⟩), ?_⟩
      · simp only [readLoopArgs, names_contains ho, if_true, h1 e (by simp) t o ho, Res.ok_bind, h2]
        have hve := hv e (by simp)
        simp only [marked, List.map_cons]
        rw [if_pos ⟨o, ho⟩]
        simp [hve]
      · rw [h4]
        simp only [Bool.or_true, true_or, true_iff]
        exact .inr ⟨e, by simp, o, ho⟩
    · have hn' : ∀ o, ¬ Names e.arg name o := fun o ho => hn ⟨o, ho⟩
      have hm : marked name (e :: es) = e :: marked name es := by
        simp only [marked, List.map_cons]; rw [if_neg hn]
      have hex : (∃ x ∈ e :: es, ∃ o, Names x.arg name o) ↔ ∃ x ∈ es, ∃ o, Names x.arg name o := by
        constructor
        · rintro ⟨x, hx, o, ho⟩
          rcases List.mem_cons.1 hx with rfl | hx
          · exact absurd ho (hn' o)
          · exact ⟨x, hx, o, ho⟩
        · rintro ⟨x, hx, ho⟩; exact ⟨x, by simp [hx], ho⟩
      obtain ⟨t', found', h2, h3, h4⟩ := ih' t found
      refine ⟨t', found', ?_, lastValue_cons (.inl ⟨hn', h3⟩), by rw [h4, hex]⟩
      simp only [readLoopArgs]
      rw [hm]
      split
      · rw [h0 e (by simp) t hn', Res.ok_bind]
        simp only [hv e (by simp), if_true, Bool.or_false, h2, Res.ok_bind]
      · simp only [h2, Res.ok_bind]

/-- C46 for a scalar variable, when no argument failed to convert for an earlier variable and all the
arguments that name the variable convert: it takes the value of the last of them, or keeps its value; only
the arguments that name it are marked as read; without one, the default is appended to the list. -/
theorem C46_scalar_partial {T : Type} (c : Conv T) (write : T → Str) (name : Str) (es : List ArgVar) (t : T)
    (hv : ∀ e ∈ es, e.valid = true) (val : Str → T)
    (hc : ∀ e ∈ es, ∀ v m, Names e.arg name (some v) → IsUnquoted v m → ∀ t, c.conv m t = (true, val v)) :
    ∃ t', LastValue name (fun o => o.elim c.one val) es t t' ∧
      readVar (readScalar c name) write name es t = .ok ((open scoped Classical in
        if ∃ e ∈ es, ∃ o, Names e.arg name o then marked name es
        else es ++ [⟨name ++ '=' :: write t, true, true⟩]), t') := by
  have h0 : ∀ e ∈ es, ∀ t, (∀ o, ¬ Names e.arg name o) → readScalar c name e t = .ok (false, t, e) := by
    intro e _ t hn
    obtain ⟨o, h1, h2⟩ := matchArg_spec e.arg name
    cases o with
    | none => simp [readScalar, h1]
    | some v => exact absurd ((h2 v).1 rfl) (hn v)
  have h1 : ∀ e ∈ es, ∀ t o, Names e.arg name o →
      readScalar c name e t = .ok (true, o.elim c.one val, { e with read := true, valid := true }) := by
    intro e he t o ho
    obtain ⟨o', h1, h2⟩ := matchArg_spec e.arg name
    have := (h2 o).2 ho
    subst this
    cases o with
    | none => simp [readScalar, h1]
    | some v =>
      obtain ⟨m, h3, h4⟩ := unquote_spec v
      simp [readScalar, h1, h3, hc e he v m ho h4]
  obtain ⟨t', found', h2, h3, h4⟩ := loop_good (readScalar c name) name (fun o => o.elim c.one val) es hv h0 h1 t false
  refine ⟨t', h3, ?_⟩
  unfold readVar
  rw [h2, Res.ok_bind]
  simp only
  by_cases hf : found' = true
  · rw [if_pos hf, if_pos ((h4.1 hf).resolve_left (by simp))]
  · have hno : ¬ ∃ e ∈ es, ∃ o, Names e.arg name o := fun h => hf (h4.2 (.inr h))
    rw [if_neg hf, if_neg hno]
    have hm : marked name es = es := by
      unfold marked
      conv => rhs; rw [← List.map_id es]
      refine List.map_congr_left fun e he => ?_
      rw [if_neg (fun h => hno ⟨e, he, h⟩)]; rfl
    have ht : t' = t := by
      cases h3 with
      | last a b e o _ hx _ => exact absurd ⟨e, by simp, o, hx⟩ hno
      | none _ _ _ => rfl
    rw [hm, ht]

/-! ### C46: vectors -/

/-- Spec: the text `v` denotes the list of values `ts`: either `[a,b,...]`, or a single value. -/
inductive VecText {T : Type} (conv : Str → Option T) (v : Str) : List T → Prop
  | empty (h : IsTrim blanks v ['[', ']']) : VecText conv v []
  | list (body : Str) (ps : List Str) (ts : List T) (h : IsTrim blanks v ('[' :: body ++ [']'])) (hb : body ≠ [])
      (hs : IsSplit [','] body ps) (hc : List.Forall₂ (fun p t => ∃ m, IsUnquoted p m ∧ conv m = some t) ps ts) : VecText conv v ts
  | single (w m : Str) (t : T) (h : IsTrim blanks v w) (hw : ¬ (w.head? = some '[' ∧ w.getLast? = some ']')) (hm : IsUnquoted w m)
      (hc : conv m = some t) : VecText conv v [t]

theorem readElems_ok {T : Type} (c : VConv T) {ps : List Str} {ts : List T}
    (h : List.Forall₂ (fun p t => ∃ m, IsUnquoted p m ∧ c.conv m = some t) ps ts) : readElems c ps = .ok (some ts) := by
  induction h with
  | nil => rfl
  | cons h _ ih =>
    obtain ⟨m, h1, h2⟩ := h
    simp [readElems, unquote_of h1, h2, ih]

theorem readVector_ok {T : Type} (c : VConv T) (name : Str) (e : ArgVar) (t ts : List T) (v : Str)
    (hn : Names e.arg name (some v)) (h : VecText c.conv v ts) :
    readVector c name e t = .ok (true, ts, { e with read := true, valid := true }) := by
  obtain ⟨o, h1, h2⟩ := matchArg_spec e.arg name
  have := (h2 _).2 hn
  subst this
  obtain ⟨w, h3, h4⟩ := C36_trim v blanks
  unfold readVector
  rw [h1]
  simp only [Res.ok_bind, h3]
  cases h with
  | empty h =>
    rw [isTrim_unique h4 h]
    simp
  | list body ps ts h hb hs hc =>
    rw [isTrim_unique h4 h]
    rw [if_pos ⟨by simp, by simp, List.getLast?_concat⟩]
    simp only [List.cons_append, List.tail_cons, List.dropLast_concat]
    rw [if_neg hb]
    obtain ⟨l, h5, h6⟩ := C34_split body [','] (by simp)
    rw [h5, isSplit_unique (by simp) h6 hs]
    simp only [Res.ok_bind, readElems_ok c hc]
  | single w' m t h hw hm hc =>
    rw [isTrim_unique h4 h]
    rw [if_neg (fun h => hw h.2), unquote_of hm]
    simp [hc]

/-- C46 for a vector variable, under the same conditions as for scalars. -/
theorem C46_vector_partial {T : Type} (c : VConv T) (write : List T → Str) (name : Str) (es : List ArgVar) (t : List T)
    (hv : ∀ e ∈ es, e.valid = true) (val : Str → List T)
    (hc : ∀ e ∈ es, ∀ v, Names e.arg name (some v) → VecText c.conv v (val v)) :
    ∃ t', LastValue name (fun o => o.elim [c.one] val) es t t' ∧
      readVar (readVector c name) write name es t = .ok ((open scoped Classical in
        if ∃ e ∈ es, ∃ o, Names e.arg name o then marked name es
        else es ++ [⟨name ++ '=' :: write t, true, true⟩]), t') := by
  have h0 : ∀ e ∈ es, ∀ t, (∀ o, ¬ Names e.arg name o) → readVector c name e t = .ok (false, t, e) := by
    intro e _ t hn
    obtain ⟨o, h1, h2⟩ := matchArg_spec e.arg name
    cases o with
    | none => simp [readVector, h1]
    | some v => exact absurd ((h2 v).1 rfl) (hn v)
  have h1 : ∀ e ∈ es, ∀ t o, Names e.arg name o →
      readVector c name e t = .ok (true, o.elim [c.one] val, { e with read := true, valid := true }) := by
    intro e he t o ho
    cases o with
    | none =>
      obtain ⟨o', h1, h2⟩ := matchArg_spec e.arg name
      have := (h2 none).2 ho
      subst this
      simp [readVector, h1]
    | some v => exact readVector_ok c name e t _ v ho (hc e he v ho)
  obtain ⟨t', found', h2, h3, h4⟩ := loop_good (readVector c name) name (fun o => o.elim [c.one] val) es hv h0 h1 t false
  refine ⟨t', h3, ?_⟩
  unfold readVar
  rw [h2, Res.ok_bind]
  simp only
  by_cases hf : found' = true
  · rw [if_pos hf, if_pos ((h4.1 hf).resolve_left (by simp))]
  · have hno : ¬ ∃ e ∈ es, ∃ o, Names e.arg name o := fun h => hf (h4.2 (.inr h))
    rw [if_neg hf, if_neg hno]
    have hm : marked name es = es := by
      unfold marked
      conv => rhs; rw [← List.map_id es]
      refine List.map_congr_left fun e he => ?_
      rw [if_neg (fun h => hno ⟨e, he, h⟩)]; rfl
    have ht : t' = t := by
      cases h3 with
      | last a b e o _ hx _ => exact absurd ⟨e, by simp, o, hx⟩ hno
      | none _ _ _ => rfl
    rw [hm, ht]

/-! ### C46: failures -/

/-- a conversion to a number as `operator >>` does it: a failure stores zero -/
def digits : Conv Nat where
  one := 1
  conv s _ := if s ≠ [] ∧ s.all Char.isDigit then (true, s.foldl (fun n c => 10 * n + (c.toNat - 48)) 0) else (false, 0)

/-- C46 is false for an argument that cannot be converted: the variable is overwritten (the documentation says
it is not modified) and later valid arguments for the same variable are ignored. -/
theorem C46_failed_refuted :
    readVar (readScalar digits "n".toList) (fun _ => []) "n".toList
      [⟨"n=abc".toList, false, true⟩, ⟨"n=5".toList, false, true⟩] 7 =
    .ok ([⟨"n=abc".toList, true, false⟩, ⟨"n=5".toList, false, true⟩], 0) := by decide

/-- C46 is false across variables: after an argument of `len` failed to convert, a valid argument for `n` that
comes later is ignored, because the failed one contains the letter `n`. -/
theorem C46_other_refuted : ∃ es, readVar (readScalar digits "len".toList) (fun _ => []) "len".toList
      [⟨"len=abc".toList, false, true⟩, ⟨"n=5".toList, false, true⟩] 7 = .ok (es, 0) ∧
    readVar (readScalar digits "n".toList) (fun _ => []) "n".toList es 7 = .ok (es ++ [⟨"n=".toList, true, true⟩], 7) := by
  refine ⟨[⟨"len=abc".toList, true, false⟩, ⟨"n=5".toList, false, true⟩], by decide, by decide⟩

/-- The form `--name=value` of the documentation is not recognised: only one dash is removed. -/
theorem C46_dashes : matchArg "--n=5".toList "n".toList = .ok none ∧ matchArg "-n=5".toList "n".toList = .ok (some (some "5".toList)) := by
  constructor <;> decide

example : readVar (readScalar digits "n".toList) (fun _ => []) "n".toList
    [⟨"n=3".toList, false, true⟩, ⟨"nn=8".toList, false, true⟩, ⟨"-n = '42' ".toList, false, true⟩] 7 =
    .ok ([⟨"n=3".toList, true, true⟩, ⟨"nn=8".toList, false, true⟩, ⟨"-n = '42' ".toList, true, true⟩], 42) := by decide

/-! ### C85 -/

theorem writeArg_eq {T : Type} (toStr : T → Str) (ts : List T) :
    writeArg toStr ts = '[' :: List.intercalate [','] (ts.map toStr) ++ [']'] := by
  have key : ∀ (l : List T) (n : Nat) (s : Str), n ≠ 0 → (l.zipIdx n).foldl (fun s (x : T × Nat) =>
      s ++ (if x.2 ≠ 0 then [','] else []) ++ toStr x.1) s = s ++ (l.map toStr).flatMap ([','] ++ ·) := by
    intro l
    induction l with
    | nil => intro n s _; simp
    | cons x l ih =>
      intro n s hn
      rw [List.zipIdx_cons, List.foldl_cons, ih (n + 1) _ (by omega)]
      simp [hn]
  have hj : ∀ (sep x : Str) (l : List Str), List.intercalate sep (x :: l) = x ++ l.flatMap (sep ++ ·) := by
    intro sep x l
    induction l generalizing x with
    | nil => simp
    | cons y l ih => rw [List.intercalate_cons_cons, ih]; simp
  unfold writeArg
  cases ts with
  | nil => rfl
  | cons x l =>
    rw [List.zipIdx_cons, List.foldl_cons, key l 1 _ (by simp), List.map_cons, hj]
    simp

/-- Spec: text that `trim(trim(s), quotes)` does not change -/
def Plain (s : Str) : Prop := IsTrim blanks s s ∧ IsTrim quotes s s

/-- C85: a vector written as an argument by the library (`name=[a,b,...]`) is read back unchanged, provided that
the text of each element contains no comma, has no blanks or quotes around it, converts back, and that the
vector is not the one with a single element whose text is empty. -/
theorem C85_roundtrip {T : Type} (c : VConv T) (toStr : T → Str) (name : Str) (ts t : List T)
    (hname : '=' ∉ name ∧ name.head? ≠ some '-' ∧ IsTrim blanks name name)
    (hs : ∀ x ∈ ts, ',' ∉ toStr x ∧ Plain (toStr x) ∧ c.conv (toStr x) = some x) (h1 : ts.map toStr ≠ [[]]) :
    readVector c name ⟨name ++ '=' :: writeArg toStr ts, true, true⟩ t =
      .ok (true, ts, ⟨name ++ '=' :: writeArg toStr ts, true, true⟩) := by
  have hn : Names (name ++ '=' :: writeArg toStr ts) name (some (writeArg toStr ts)) := by
    refine .value name _ rfl hname.1 ?_
    rw [undash_eq, if_neg hname.2.1]
    exact hname.2.2
  refine readVector_ok c name _ t ts _ hn ?_
  have htrim : IsTrim blanks (writeArg toStr ts) (writeArg toStr ts) := by
    refine ⟨[], [], by simp, by simp, by simp, ?_, ?_⟩
    · intro x hx
      rw [writeArg_eq] at hx
      simp at hx
      rw [← hx]; decide
    · intro x hx
      rw [writeArg_eq] at hx
      rw [List.getLast?_concat] at hx
      simp at hx
      rw [← hx]; decide
  rw [writeArg_eq] at htrim ⊢
  cases ts with
  | nil => exact .empty htrim
  | cons x l =>
    refine .list _ ((x :: l).map toStr) (x :: l) htrim ?_ (isSplit_of_chars ',' _ (by simp) ?_) ?_
    · intro h
      cases l with
      | nil =>
        simp at h
        exact h1 (by simp [h])
      | cons y l =>
        rw [List.map_cons, List.map_cons, List.intercalate_cons_cons] at h
        simp at h
    · intro s hs'
      obtain ⟨y, hy, rfl⟩ := List.mem_map.1 hs'
      exact (hs y hy).1
    · generalize x :: l = ts at hs
      induction ts with
      | nil => exact .nil
      | cons y ts ih =>
        obtain ⟨-, h2, h3⟩ := hs y (by simp)
        exact .cons ⟨toStr y, ⟨toStr y, h2.1, h2.2⟩, h3⟩ (ih fun z hz => hs z (by simp [hz]))

/-- C85 is false for the vector with one empty string, which is read back without elements. -/
theorem C85_empty_refuted : readVector (T := Str) ⟨"1".toList, some⟩ "s".toList ⟨"s=".toList ++ writeArg id [[]], true, true⟩ [] =
    .ok (true, [], ⟨"s=[]".toList, true, true⟩) := by decide

example : readVector (T := Str) ⟨"1".toList, some⟩ "s".toList ⟨"s=".toList ++ writeArg id ["a".toList, "b c".toList], true, true⟩ [] =
    .ok (true, ["a".toList, "b c".toList], ⟨"s=".toList ++ writeArg id ["a".toList, "b c".toList], true, true⟩) :=
  C85_roundtrip ⟨"1".toList, some⟩ id "s".toList ["a".toList, "b c".toList] []
    ⟨by decide, by decide, [], [], by decide, by simp, by simp, by decide, by decide⟩
    (by
      intro x hx
      simp only [List.mem_cons, List.not_mem_nil, or_false] at hx
      rcases hx with rfl | rfl
      · exact ⟨by decide, ⟨⟨[], [], by decide, by simp, by simp, by decide, by decide⟩,
          ⟨[], [], by decide, by simp, by simp, by decide, by decide⟩⟩, rfl⟩
      · exact ⟨by decide, ⟨⟨[], [], by decide, by simp, by simp, by decide, by decide⟩,
          ⟨[], [], by decide, by simp, by simp, by decide, by decide⟩⟩, rfl⟩)
    (by decide)

end Verif.Io
