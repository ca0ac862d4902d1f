import Verif.Str.Model
/-!
# Properties C34 (split and collapse) and C35 (replace)
-/
namespace Verif.Str
open Verif

/-- Spec: the pieces of `s` between the successive leftmost non-overlapping occurrences of `pat`. -/
inductive IsSplit (pat : Str) : Str → List Str → Prop
  | last (s : Str) (h : ∀ p ≤ s.length, ¬ OccursAt pat s p) : IsSplit pat s [s]
  | cons (a t : Str) (rest : List Str) (h : ∀ p < a.length, ¬ OccursAt pat (a ++ pat ++ t) p)
      (hr : IsSplit pat t rest) : IsSplit pat (a ++ pat ++ t) (a :: rest)

/-- Spec: `pat` occurs somewhere in `s`. -/
def Contains (s pat : Str) : Prop := ∃ a b, s = a ++ pat ++ b

/-! ### helpers -/

theorem occursAt_append (pat d t : Str) (p : Nat) : OccursAt pat (d ++ t) (d.length + p) ↔ OccursAt pat t p := by
  unfold OccursAt
  rw [← List.drop_drop]; simp

theorem sfind_append_none {d t pat : Str} (h : ∀ p ≤ t.length, ¬ OccursAt pat t p) :
    sfind (d ++ t) pat d.length = none := by
  rw [sfind_none]
  intro j h1 h2 h3
  obtain ⟨k, rfl⟩ := Nat.exists_eq_add_of_le h1
  rw [occursAt_append] at h3
  rw [List.length_append] at h2
  exact h k (by omega) h3

theorem occursAt_mid (pat a t : Str) : OccursAt pat (a ++ pat ++ t) a.length := by
  unfold OccursAt; simp

theorem sfind_append_some {d a t pat : Str} (h : ∀ p < a.length, ¬ OccursAt pat (a ++ pat ++ t) p) :
    sfind (d ++ (a ++ pat ++ t)) pat d.length = some (d.length + a.length) := by
  rw [sfind_some]
  refine ⟨by omega, by simp, (occursAt_append _ _ _ _).2 (occursAt_mid pat a t), fun j h1 h2 h3 => ?_⟩
  obtain ⟨k, rfl⟩ := Nat.exists_eq_add_of_le h1
  rw [occursAt_append] at h3
  exact h k (by omega) h3

/-- the first occurrence, if any -/
theorem split_first (s pat : Str) : (∀ p ≤ s.length, ¬ OccursAt pat s p) ∨
    ∃ a t, s = a ++ pat ++ t ∧ ∀ p < a.length, ¬ OccursAt pat (a ++ pat ++ t) p := by
  cases h : sfind s pat 0 with
  | none => exact .inl fun p hp => sfind_none.1 h p (by omega) hp
  | some k =>
    right
    obtain ⟨-, h2, ⟨t, h3⟩, h4⟩ := sfind_some.1 h
    have hs : s = s.take k ++ pat ++ t := by
      rw [List.append_assoc, h3, List.take_append_drop]
    refine ⟨s.take k, t, hs, ?_⟩
    intro p hp
    rw [← hs]
    rw [List.length_take] at hp
    exact h4 p (by omega) (by omega)

theorem isSplit_exists (pat : Str) (hp : pat ≠ []) (s : Str) : ∃ l, IsSplit pat s l := by
  induction hn : s.length using Nat.strongRecOn generalizing s with
  | _ n ih =>
    rcases split_first s pat with h | ⟨a, t, rfl, h⟩
    · exact ⟨_, .last s h⟩
    · have : pat.length ≠ 0 := by simpa using hp
      obtain ⟨l, hl⟩ := ih t.length (by simp at hn; omega) t rfl
      exact ⟨_, .cons a t l h hl⟩

theorem isSplit_unique {pat : Str} (hp : pat ≠ []) {s : Str} {l l' : List Str} (h : IsSplit pat s l)
    (h' : IsSplit pat s l') : l = l' := by
  induction h generalizing l' with
  | last s h =>
    cases h' with
    | last => rfl
    | cons a t rest h2 hr => exact absurd (occursAt_mid pat a t) (h _ (by simp))
  | cons a t rest h1 hr ih =>
    generalize hs : a ++ pat ++ t = s at h'
    cases h' with
    | last _ h2 => exact absurd (occursAt_mid pat a t) (hs ▸ h2 _ (by simp [← hs]))
    | cons a' t' rest' h2 hr' =>
      have hlen : a.length = a'.length := by
        rcases Nat.lt_trichotomy a.length a'.length with hc | hc | hc
        · exact absurd (occursAt_mid pat a t) (hs ▸ h2 _ hc)
        · exact hc
        · exact absurd (occursAt_mid pat a' t') (hs ▸ h1 _ hc)
      rw [List.append_assoc, List.append_assoc] at hs
      obtain ⟨rfl, he⟩ := List.append_inj hs hlen
      have := List.append_cancel_left he
      subst this
      rw [ih hr']

theorem splitLoop_spec {pat : Str} (hp : pat ≠ []) {t : Str} {l : List Str} (h : IsSplit pat t l) (d : Str)
    (ret : List Str) : splitLoop (d ++ t) pat d.length ret = .ok (ret ++ l) := by
  induction h generalizing d ret with
  | last s h =>
    unfold splitLoop
    rw [sfind_append_none h]
    unfold substrFrom
    rw [if_neg (by simp)]
    simp
  | cons a t rest h1 hr ih =>
    unfold splitLoop
    rw [sfind_append_some h1]
    have : pat.length ≠ 0 := by simpa using hp
    simp only
    have e1 : substr (d ++ (a ++ pat ++ t)) d.length (d.length + a.length - d.length) = .ok a := by
      unfold substr
      rw [if_neg (by simp)]
      simp
    rw [e1, Res.ok_bind, if_pos ⟨by omega, by simp⟩]
    have := ih (d ++ (a ++ pat)) (ret ++ [a])
    rw [List.append_assoc d, List.length_append (as := d), List.length_append (as := a), ← Nat.add_assoc] at this
    rw [this]; simp

theorem collapseSep_eq (v : List Str) (sep : Str) : collapseSep v sep = List.intercalate sep v := by
  have aux : ∀ (v : List Str) (r : Str),
      (v.foldl (fun (r : Str × Bool) s => ((if r.2 then r.1 else r.1 ++ sep) ++ s, false)) (r, false)).1 =
        r ++ (v.map (sep ++ ·)).flatten := by
    intro v
    induction v with
    | nil => intro r; simp
    | cons x v ih => intro r; rw [List.foldl_cons]; simp only [Bool.false_eq_true, if_false]; rw [ih]; simp
  cases v with
  | nil => rfl
  | cons x v =>
    unfold collapseSep
    rw [List.foldl_cons]
    simp only [if_true, List.nil_append]
    rw [aux]
    induction v generalizing x with
    | nil => simp
    | cons y v ih =>
      have := ih y
      simp only [List.map_cons, List.flatten_cons] at this ⊢
      rw [List.intercalate_cons_cons, ← this]
      simp

theorem isSplit_ne_nil {pat s : Str} {l : List Str} (h : IsSplit pat s l) : l ≠ [] := by cases h <;> simp

theorem isSplit_intercalate {pat s : Str} {l : List Str} (h : IsSplit pat s l) : List.intercalate pat l = s := by
  induction h with
  | last => simp
  | cons a t rest h1 hr ih =>
    cases rest with
    | nil => exact absurd rfl (isSplit_ne_nil hr)
    | cons b rest => rw [List.intercalate_cons_cons, ih]

theorem isSplit_pieces {pat : Str} (hp : pat ≠ []) {s : Str} {l : List Str} (h : IsSplit pat s l) :
    ∀ x ∈ l, ¬ Contains x pat := by
  induction h with
  | last s h =>
    rintro x hx ⟨a, b, hab⟩
    obtain rfl : x = s := by simpa using hx
    exact h a.length (by rw [hab]; simp) (by rw [hab]; exact occursAt_mid pat a b)
  | cons a t rest h1 hr ih =>
    rintro x hx ⟨u, v, huv⟩
    rcases List.mem_cons.1 hx with rfl | hx
    · have : pat.length ≠ 0 := by simpa using hp
      refine h1 u.length (by rw [huv]; simp; omega) ?_
      rw [huv]
      unfold OccursAt
      simp
    · exact ih x hx ⟨u, v, huv⟩

theorem occursAt_single {c : Char} {s : Str} {p : Nat} (h : OccursAt [c] s p) : c ∈ s := by
  obtain ⟨t, ht⟩ := h
  have : c ∈ s.drop p := by rw [← ht]; simp
  exact List.mem_of_mem_drop this

theorem isSplit_of_chars (c : Char) (v : List Str) (hv : v ≠ []) (h : ∀ x ∈ v, c ∉ x) :
    IsSplit [c] (List.intercalate [c] v) v := by
  induction v with
  | nil => exact absurd rfl hv
  | cons x v ih =>
    cases v with
    | nil =>
      rw [List.intercalate_singleton]
      exact .last x fun p _ ho => h x (by simp) (occursAt_single ho)
    | cons y v =>
      rw [List.intercalate_cons_cons]
      refine .cons x _ _ ?_ (ih (by simp) fun z hz => h z (by simp [hz]))
      rintro p hp ⟨t, ht⟩
      apply h x (by simp)
      have h2 : ((x ++ [c] ++ List.intercalate [c] (y :: v)).drop p)[0]? = some c := by rw [← ht]; rfl
      rw [List.getElem?_drop, List.append_assoc, List.getElem?_append_left (by omega)] at h2
      exact List.mem_of_getElem? h2

/-! ### C34 -/

/-- C34: `split` returns the pieces between the leftmost occurrences, for every non-empty separator. -/
theorem C34_split (s pat : Str) (hp : pat ≠ []) : ∃ l, split s pat = .ok l ∧ IsSplit pat s l := by
  obtain ⟨l, hl⟩ := isSplit_exists pat hp s
  refine ⟨l, ?_, hl⟩
  have := splitLoop_spec hp hl [] []
  simpa [split] using this

/-- C34: joining the pieces gives back the string and no piece contains the separator. -/
theorem C34_collapse_split (s pat : Str) (l : List Str) (hp : pat ≠ []) (h : split s pat = .ok l) :
    collapseSep l pat = s ∧ (∀ x ∈ l, ¬ Contains x pat) ∧ l ≠ [] := by
  obtain ⟨l', h1, h2⟩ := C34_split s pat hp
  rw [h, Res.ok.injEq] at h1
  subst h1
  exact ⟨by rw [collapseSep_eq, isSplit_intercalate h2], isSplit_pieces hp h2, isSplit_ne_nil h2⟩

/-- C34: splitting a joined list at a character that occurs in no piece gives back the list. -/
theorem C34_split_collapse (v : List Str) (c : Char) (hv : v ≠ []) (h : ∀ x ∈ v, c ∉ x) :
    split (collapseSep v [c]) [c] = .ok v := by
  obtain ⟨l, h1, h2⟩ := C34_split (collapseSep v [c]) [c] (by simp)
  rw [collapseSep_eq] at h2
  rw [h1, isSplit_unique (by simp) h2 (isSplit_of_chars c v hv h)]

/-- C34: `collapse` without separator is concatenation. -/
theorem C34_collapse (v : List Str) : collapse v = v.flatten := by
  unfold collapse
  have : ∀ (v : List Str) (r : Str), v.foldl (fun r s => r ++ s) r = r ++ v.flatten := by
    intro v
    induction v with
    | nil => simp
    | cons x v ih => intro r; rw [List.foldl_cons, ih]; simp
  rw [this]; simp

/-- Finding: with an empty separator `split` never returns. -/
theorem C34_empty_separator (s : Str) : split s [] = .diverge := by
  unfold split splitLoop
  have : sfind s [] 0 = some 0 := by rw [sfind_some]; simp [OccursAt]
  rw [this]
  simp [substr]

example : split "a,b,,c,".toList ",".toList = .ok ["a".toList, "b".toList, [], "c".toList, []] := by
  obtain ⟨l, h1, h2⟩ := C34_split "a,b,,c,".toList ",".toList (by simp)
  rw [h1]
  congr 1
  exact isSplit_unique (by simp) h2 (isSplit_of_chars ',' ["a".toList, "b".toList, [], "c".toList, []] (by simp) (by simp))

/-! ### C35 -/

theorem replaceLoop_spec {pat : Str} (hp : pat ≠ []) {t : Str} {l : List Str} (h : IsSplit pat t l) (rep d : Str) :
    replaceLoop pat rep (d ++ t) (sfind (d ++ t) pat d.length) = .ok (d ++ List.intercalate rep l) := by
  induction h generalizing d with
  | last s h => rw [sfind_append_none h]; unfold replaceLoop; simp
  | cons a t rest h1 hr ih =>
    rw [sfind_append_some h1]
    unfold replaceLoop
    have hl : pat.length ≠ 0 := by simpa using hp
    have e1 : (d ++ (a ++ pat ++ t)).take (d.length + a.length) = d ++ a := by
      rw [show d ++ (a ++ pat ++ t) = (d ++ a) ++ (pat ++ t) by simp, ← List.length_append, List.take_left]
    have e2 : (d ++ (a ++ pat ++ t)).drop (d.length + a.length + pat.length) = t := by
      rw [show d ++ (a ++ pat ++ t) = (d ++ a ++ pat) ++ t by simp, ← List.length_append, ← List.length_append,
        List.drop_left]
    simp only [e1, e2]
    rw [if_pos (by simp; omega)]
    have := ih (d ++ a ++ rep)
    rw [List.length_append, List.length_append] at this
    rw [this]
    cases rest with
    | nil => exact absurd rfl (isSplit_ne_nil hr)
    | cons b rest => rw [List.intercalate_cons_cons]; simp

/-- C35: `replace` returns (for any replacement, also one that contains the pattern) and its result is the
pieces joined with the replacement. -/
theorem C35_replace (s pat rep : Str) (hp : pat ≠ []) :
    ∃ l, IsSplit pat s l ∧ replace s pat rep = .ok (List.intercalate rep l) := by
  obtain ⟨l, hl⟩ := isSplit_exists pat hp s
  refine ⟨l, hl, ?_⟩
  have := replaceLoop_spec hp hl rep []
  simpa [replace] using this

/-- C35: the same in terms of the API: `replace(s,a,b) = collapse(split(s,a),b)`. -/
theorem C35_split_collapse (s pat rep : Str) (hp : pat ≠ []) :
    replace s pat rep = (split s pat).map (collapseSep · rep) := by
  obtain ⟨l, h1, h2⟩ := C35_replace s pat rep hp
  obtain ⟨l', h3, h4⟩ := C34_split s pat hp
  rw [h2, h3, Res.map_ok, collapseSep_eq, isSplit_unique hp h1 h4]

/-- C35: replacing a pattern by itself is the identity. -/
theorem C35_identity (s pat : Str) (hp : pat ≠ []) : replace s pat pat = .ok s := by
  obtain ⟨l, h1, h2⟩ := C35_replace s pat pat hp
  rw [h2, isSplit_intercalate h1]

/-- C35: a string that does not contain the pattern is unchanged. -/
theorem C35_absent (s pat rep : Str) (hp : pat ≠ []) (h : ¬ Contains s pat) : replace s pat rep = .ok s := by
  obtain ⟨l, h1, h2⟩ := C35_replace s pat rep hp
  rw [h2]
  cases h1 with
  | last => simp
  | cons a t rest => exact absurd ⟨a, t, rfl⟩ h

/-- Finding: with an empty pattern `replace` never returns. -/
theorem C35_empty_pattern (s rep : Str) : replace s [] rep = .diverge := by
  unfold replace
  have : sfind s [] 0 = some 0 := by rw [sfind_some]; simp [OccursAt]
  rw [this]
  unfold replaceLoop
  simp

example : replace "aXbXc".toList "X".toList "XX".toList = .ok "aXXbXXc".toList := by
  rw [C35_split_collapse _ _ _ (by simp)]
  have : "aXbXc".toList = collapseSep ["a".toList, "b".toList, "c".toList] ['X'] := by decide
  rw [this, show "X".toList = ['X'] by decide, C34_split_collapse _ _ (by simp) (by decide)]
  decide

end Verif.Str
