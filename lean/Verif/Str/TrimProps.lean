import Verif.Str.Model
/-!
# Properties C36 (trim, prefixes, suffixes), C37 (distance), C38 (alignment)
-/
namespace Verif.Str
open Verif

/-- Spec: `m` is `s` without its maximal prefix and suffix of characters from `cs`. -/
def IsTrim (cs s m : Str) : Prop :=
  ∃ a b, s = a ++ m ++ b ∧ (∀ c ∈ a, c ∈ cs) ∧ (∀ c ∈ b, c ∈ cs) ∧ (∀ c, m.head? = some c → c ∉ cs) ∧
    (∀ c, m.getLast? = some c → c ∉ cs)

theorem firstOf_zero {s cs : Str} : firstOf s cs 0 = some 0 ↔ ∃ c ∈ cs, s.head? = some c := by
  unfold firstOf
  rw [firstIn_some, inSet_iff]
  constructor
  · rintro ⟨-, -, ⟨c, hc, h⟩, -⟩
    exact ⟨c, hc, by rw [← h, List.head?_eq_getElem?]⟩
  · rintro ⟨c, hc, h⟩
    rw [List.head?_eq_getElem?] at h
    exact ⟨Nat.le_refl _, (List.getElem?_eq_some_iff.1 h).1, ⟨c, hc, h⟩, fun j _ h => by omega⟩

theorem trimFront_spec (s cs : Str) : ∃ o, trimFront s cs = .ok o ∧
    match o with
    | none => ∀ c ∈ s, c ∈ cs
    | some m => ∃ a, s = a ++ m ∧ (∀ c ∈ a, c ∈ cs) ∧ (∀ c, m.head? = some c → c ∉ cs) := by
  unfold trimFront
  by_cases h : firstOf s cs 0 = some 0
  · rw [if_pos h]
    cases h2 : firstNotOf s cs 0 with
    | none =>
      refine ⟨none, rfl, fun c hc => ?_⟩
      obtain ⟨i, hi, rfl⟩ := List.getElem_of_mem hc
      have := firstIn_none.1 h2 i (by omega) hi
      simpa [inSet_lt hi] using this
    | some e =>
      obtain ⟨-, h3, h4, h5⟩ := firstIn_some.1 h2
      refine ⟨some (s.drop e), ?_, s.take e, by rw [List.take_append_drop], fun c hc => ?_, fun c hc => ?_⟩
      · simp only [substrFrom]
        rw [if_neg (by omega)]; rfl
      · obtain ⟨i, hi, rfl⟩ := List.getElem_of_mem hc
        rw [List.length_take] at hi
        have := h5 i (by omega) (by omega)
        simpa [inSet_lt (show i < s.length by omega)] using this
      · rw [List.head?_drop, List.getElem?_eq_getElem h3, Option.some.injEq] at hc
        simpa [inSet_lt h3, hc] using h4
  · rw [if_neg h]
    refine ⟨some s, rfl, [], rfl, by simp, fun c hc hcs => h (firstOf_zero.2 ⟨c, hcs, hc⟩)⟩

theorem trimBack_spec (s cs : Str) : ∃ b, s = trimBack s cs ++ b ∧ (∀ c ∈ b, c ∈ cs) ∧
    (∀ c, (trimBack s cs).getLast? = some c → c ∉ cs) := by
  unfold trimBack
  by_cases h : lastOf s cs none = (if s.length = 0 then none else some (s.length - 1))
  · rw [if_pos h]
    cases h2 : lastNotOf s cs none with
    | none =>
      refine ⟨s, by simp, fun c hc => ?_, by simp⟩
      obtain ⟨i, hi, rfl⟩ := List.getElem_of_mem hc
      have := lastIn_none.1 h2 i hi
      simpa [inSet_lt hi] using this
    | some e =>
      obtain ⟨h3, h4, h5⟩ := lastIn_some.1 h2
      simp only [upTo] at h3 h5
      refine ⟨s.drop (e + 1), by simp, fun c hc => ?_, fun c hc => ?_⟩
      · obtain ⟨i, hi, rfl⟩ := List.getElem_of_mem hc
        rw [List.length_drop] at hi
        rw [List.getElem_drop]
        have := h5 (e + 1 + i) (by omega) (by omega)
        simpa [inSet_lt (show e + 1 + i < s.length by omega)] using this
      · simp only at hc
        rw [List.getLast?_eq_getElem?, List.getElem?_take, List.length_take, if_pos (by omega),
          show min (e + 1) s.length - 1 = e by omega, List.getElem?_eq_getElem h3, Option.some.injEq] at hc
        simpa [inSet_lt h3, hc] using h4
  · rw [if_neg h]
    refine ⟨[], by simp, by simp, fun c hc hcs => h ?_⟩
    have hl : s ≠ [] := by rintro rfl; simp at hc
    have hp : 0 < s.length := List.length_pos_iff.2 hl
    rw [if_neg (by omega)]
    unfold lastOf
    rw [lastIn_some]
    refine ⟨by simp only [upTo]; omega, ?_, fun j h1 h2 => by simp only [upTo] at h2; omega⟩
    rw [inSet_iff]
    exact ⟨c, hcs, by rw [← List.getLast?_eq_getElem?, hc]⟩

theorem isTrim_unique {cs s m m' : Str} (h : IsTrim cs s m) (h' : IsTrim cs s m') : m = m' := by
  obtain ⟨a, b, e1, h1, h2, h3, h4⟩ := h
  obtain ⟨a', b', e1', h1', h2', h3', h4'⟩ := h'
  -- a trimmed string equals the double dropWhile
  have key : ∀ a b m : Str, (∀ c ∈ a, c ∈ cs) → (∀ c ∈ b, c ∈ cs) → (∀ c, m.head? = some c → c ∉ cs) →
      (∀ c, m.getLast? = some c → c ∉ cs) →
      (((a ++ m ++ b).dropWhile (· ∈ cs)).reverse.dropWhile (· ∈ cs)).reverse = m := by
    intro a b m h1 h2 h3 h4
    rw [List.append_assoc, List.dropWhile_append_of_pos (by simpa using h1)]
    cases m with
    | nil =>
      have : b.dropWhile (· ∈ cs) = [] := by
        rw [← List.append_nil b, List.dropWhile_append_of_pos (by simpa using h2)]; rfl
      simp [this]
    | cons c m =>
      have hc := h3 c rfl
      rw [List.cons_append, List.dropWhile_cons_of_neg (by simpa using hc), ← List.cons_append, List.reverse_append,
        List.dropWhile_append_of_pos (by simpa using h2)]
      obtain ⟨x, hx⟩ : ∃ x, (c :: m).getLast? = some x := ⟨_, List.getLast?_cons⟩
      have : (c :: m).reverse.dropWhile (· ∈ cs) = (c :: m).reverse := by
        cases hr : (c :: m).reverse with
        | nil => rfl
        | cons y l =>
          have : (c :: m).getLast? = some y := by rw [← List.head?_reverse, hr]; rfl
          rw [List.dropWhile_cons_of_neg (by simpa using h4 y this)]
      rw [this, List.reverse_reverse]
  rw [← key a b m h1 h2 h3 h4, ← key a' b' m' h1' h2' h3' h4', ← e1, ← e1']

/-- C36: `trim` removes exactly the maximal prefix and suffix of the given characters. -/
theorem C36_trim (s cs : Str) : ∃ m, trim s cs = .ok m ∧ IsTrim cs s m := by
  obtain ⟨o, h1, h2⟩ := trimFront_spec s cs
  unfold trim
  rw [h1, Res.ok_bind]
  cases o with
  | none => exact ⟨[], rfl, s, [], by simp, h2, by simp, by simp, by simp⟩
  | some m =>
    obtain ⟨a, e, ha, hm⟩ := h2
    obtain ⟨b, e', hb, hm'⟩ := trimBack_spec m cs
    refine ⟨trimBack m cs, rfl, a, b, by rw [List.append_assoc, ← e', e], ha, hb, fun c hc => hm c ?_, hm'⟩
    rw [e']
    cases ht : trimBack m cs with
    | nil => rw [ht] at hc; simp at hc
    | cons y l => rw [ht] at hc; simpa using hc

/-- C36: `trim` is idempotent. -/
theorem C36_idempotent (s cs m : Str) (h : trim s cs = .ok m) : trim m cs = .ok m := by
  obtain ⟨m', h1, a, b, e, ha, hb, hh, hl⟩ := C36_trim s cs
  rw [h, Res.ok.injEq] at h1
  subst h1
  obtain ⟨m2, h3, h4⟩ := C36_trim m cs
  rw [h3, isTrim_unique h4 ⟨[], [], by simp, by simp, by simp, hh, hl⟩]

/-- C36: `begins_with` decides being a prefix. -/
theorem C36_begins_with (s pat : Str) : beginsWith s pat = true ↔ pat <+: s := by
  unfold beginsWith
  by_cases hc : s.length < pat.length
  · rw [if_pos hc]
    simp only [Bool.false_eq_true, false_iff]
    intro h; have := h.length_le; omega
  · rw [if_neg hc, List.all_eq_true, List.prefix_iff_getElem?]
    simp only [List.mem_range, beq_iff_eq]
    constructor
    · intro h i hi
      rw [h i hi, List.getElem?_eq_getElem hi]
    · intro h i hi
      rw [h i hi, List.getElem?_eq_getElem hi]

/-- C36: `ends_with` decides being a suffix. -/
theorem C36_ends_with (s pat : Str) : endsWith s pat = true ↔ pat <:+ s := by
  unfold endsWith
  by_cases hc : s.length < pat.length
  · rw [if_pos hc]
    simp only [Bool.false_eq_true, false_iff]
    intro h; have := h.length_le; omega
  · rw [if_neg hc, List.all_eq_true, List.suffix_iff_getElem?]
    simp only [List.mem_range'_1, beq_iff_eq]
    constructor
    · intro h
      refine ⟨by omega, fun i hi => ?_⟩
      have := h (pat.length - i) (by omega)
      rw [show pat.length - (pat.length - i) = i by omega, List.getElem?_eq_getElem hi] at this
      rw [← this]; congr 1; omega
    · rintro ⟨-, h⟩ i hi
      have := h (pat.length - i) (by omega)
      rw [List.getElem?_eq_getElem (show pat.length - i < pat.length by omega), ← this]
      congr 1; omega

/-- C36: `erase_begin(p + s, p) = s`, and it aborts exactly for other prefixes. -/
theorem C36_erase_begin (s pat : Str) : eraseBegin (pat ++ s) pat = .ok s ∧
    (eraseBegin s pat = .abort ↔ ¬ pat <+: s) ∧ (eraseBegin s pat).Safe := by
  have h1 : ∀ s, pat <+: s → eraseBegin s pat = .ok (s.drop pat.length) := by
    intro s h
    unfold eraseBegin
    rw [Res.check_pos (by simpa using (C36_begins_with s pat).2 h)]; rfl
  have h2 : ∀ s, ¬ pat <+: s → eraseBegin s pat = .abort := by
    intro s h
    unfold eraseBegin
    rw [Res.check_neg (by rw [C36_begins_with]; exact h)]; rfl
  refine ⟨by rw [h1 _ (List.prefix_append _ _)]; simp, ?_, ?_⟩
  · by_cases hp : pat <+: s
    · simp [h1 s hp, hp]
    · simp [h2 s hp, hp]
  · by_cases hp : pat <+: s
    · simp [h1 s hp]
    · simp [h2 s hp]

/-- C36: `erase_end(s + p, p) = s`, and it aborts exactly for other suffixes. -/
theorem C36_erase_end (s pat : Str) : eraseEnd (s ++ pat) pat = .ok s ∧
    (eraseEnd s pat = .abort ↔ ¬ pat <:+ s) ∧ (eraseEnd s pat).Safe := by
  have h1 : ∀ s, pat <:+ s → eraseEnd s pat = .ok (s.take (s.length - pat.length)) := by
    intro s h
    unfold eraseEnd
    rw [Res.check_pos (by simpa using (C36_ends_with s pat).2 h)]; rfl
  have h2 : ∀ s, ¬ pat <:+ s → eraseEnd s pat = .abort := by
    intro s h
    unfold eraseEnd
    rw [Res.check_neg (by rw [C36_ends_with]; exact h)]; rfl
  refine ⟨by rw [h1 _ (List.suffix_append _ _)]; simp, ?_, ?_⟩
  · by_cases hp : pat <:+ s
    · simp [h1 s hp, hp]
    · simp [h2 s hp, hp]
  · by_cases hp : pat <:+ s
    · simp [h1 s hp]
    · simp [h2 s hp]

/-- C36: the versions with a number of characters, and `keep_first`, `keep_last`: complementary parts. -/
theorem C36_counts (s : Str) (n : Nat) : eraseBeginN s n = s.drop n ∧ eraseEndN s n = s.take (s.length - n) ∧
    keepFirst s n ++ eraseBeginN s n = s ∧ eraseEndN s n ++ keepLast s n = s ∧
    (keepFirst s n).length = min n s.length ∧ (keepLast s n).length = min n s.length := by
  have h1 : eraseBeginN s n = s.drop n := by
    unfold eraseBeginN; split
    · rw [List.drop_eq_nil_of_le (by omega)]
    · rfl
  have h2 : eraseEndN s n = s.take (s.length - n) := by
    unfold eraseEndN; split
    · rw [show s.length - n = 0 by omega]; simp
    · rfl
  have h3 : keepFirst s n = s.take n := by
    unfold keepFirst; split
    · rfl
    · rw [List.take_of_length_le (by omega)]
  have h4 : keepLast s n = s.drop (s.length - n) := by
    unfold keepLast; split
    · rfl
    · rw [show s.length - n = 0 by omega]; simp
  refine ⟨h1, h2, by rw [h1, h3, List.take_append_drop], by rw [h2, h4, List.take_append_drop], by rw [h3]; simp,
    by rw [h4]; simp; omega⟩

example : trim "  a b \n".toList blanks = .ok "a b".toList := by decide
example : IsTrim blanks "  a b \n".toList "a b".toList := by
  obtain ⟨m, h1, h2⟩ := C36_trim "  a b \n".toList blanks
  have : trim "  a b \n".toList blanks = .ok "a b".toList := by decide
  rw [this, Res.ok.injEq] at h1
  exact h1 ▸ h2

/-! ### C37 -/

/-- the distance counts the positions where the strings differ, a missing character differing from any -/
theorem distance_eq (t u : Str) (N : Nat) (h1 : t.length ≤ N) (h2 : u.length ≤ N) :
    distance t u = (List.range N).countP (fun i => decide (t[i]? ≠ u[i]?)) := by
  have hf : ∀ (n d : Nat), (List.range n).foldl (fun d i => if t[i]? ≠ u[i]? then d + 1 else d) d =
      d + (List.range n).countP (fun i => decide (t[i]? ≠ u[i]?)) := by
    intro n d
    induction n with
    | zero => simp
    | succ n ih =>
      rw [List.range_succ, List.foldl_append, ih, List.countP_append]
      simp only [List.foldl_cons, List.foldl_nil, List.countP_cons, List.countP_nil, decide_eq_true_eq]
      split <;> omega
  have hc : ∀ (n m : Nat), n ≤ m → (∀ i, n ≤ i → i < m → t[i]? ≠ u[i]?) →
      (List.range m).countP (fun i => decide (t[i]? ≠ u[i]?)) =
      (List.range n).countP (fun i => decide (t[i]? ≠ u[i]?)) + (m - n) := by
    intro n m hnm h
    induction m with
    | zero => obtain rfl : n = 0 := by omega
              simp
    | succ m ih =>
      by_cases he : n = m + 1
      · subst he; simp
      · rw [List.range_succ, List.countP_append, ih (by omega) fun i a b => h i a (by omega)]
        have := h m (by omega) (by omega)
        simp [this]; omega
  have hz : ∀ (n m : Nat), n ≤ m → (∀ i, n ≤ i → i < m → t[i]? = u[i]?) →
      (List.range m).countP (fun i => decide (t[i]? ≠ u[i]?)) =
      (List.range n).countP (fun i => decide (t[i]? ≠ u[i]?)) := by
    intro n m hnm h
    induction m with
    | zero => obtain rfl : n = 0 := by omega
              simp
    | succ m ih =>
      by_cases he : n = m + 1
      · subst he; simp
      · rw [List.range_succ, List.countP_append, ih (by omega) fun i a b => h i a (by omega)]
        have := h m (by omega) (by omega)
        simp [this]
  unfold distance
  simp only
  rw [hf]
  by_cases hlt : t.length < u.length
  · rw [if_pos hlt, if_pos hlt, hz u.length N h2 (fun i a _ => by
      rw [List.getElem?_eq_none (by omega), List.getElem?_eq_none (by omega)]),
      hc t.length u.length (by omega) (fun i a b => by
        rw [List.getElem?_eq_none (by omega), List.getElem?_eq_getElem b]; simp)]
    omega
  · rw [if_neg hlt, if_neg hlt, hz t.length N h1 (fun i a _ => by
      rw [List.getElem?_eq_none (by omega), List.getElem?_eq_none (by omega)]),
      hc u.length t.length (by omega) (fun i a b => by
        rw [List.getElem?_eq_getElem b, List.getElem?_eq_none (by omega)]; simp)]
    omega

/-- C37: `distance` is a metric. -/
theorem C37_metric (a b c : Str) : (distance a b = 0 ↔ a = b) ∧ distance a b = distance b a ∧
    distance a c ≤ distance a b + distance b c := by
  let N := max a.length (max b.length c.length)
  have e : ∀ x ∈ [a, b, c], ∀ y ∈ [a, b, c],
      distance x y = (List.range N).countP (fun i => decide (x[i]? ≠ y[i]?)) := by
    intro x hx y hy
    apply distance_eq
    · simp only [List.mem_cons, List.not_mem_nil, or_false] at hx; rcases hx with rfl | rfl | rfl <;> omega
    · simp only [List.mem_cons, List.not_mem_nil, or_false] at hy; rcases hy with rfl | rfl | rfl <;> omega
  rw [e a (by simp) b (by simp), e b (by simp) a (by simp), e a (by simp) c (by simp), e b (by simp) c (by simp)]
  refine ⟨?_, by congr 1; funext i; simp [eq_comm], ?_⟩
  · rw [List.countP_eq_zero]
    constructor
    · intro h
      apply List.ext_getElem?
      intro i
      by_cases hi : i < N
      · simpa using h i (List.mem_range.2 hi)
      · rw [List.getElem?_eq_none (by omega), List.getElem?_eq_none (by omega)]
    · rintro rfl; simp
  · generalize List.range N = l
    induction l with
    | nil => simp
    | cons i l ih =>
      simp only [List.countP_cons, decide_eq_true_eq]
      have : (if a[i]? ≠ c[i]? then 1 else 0) ≤ (if a[i]? ≠ b[i]? then 1 else 0) + (if b[i]? ≠ c[i]? then 1 else 0) := by
        by_cases h1 : a[i]? = b[i]?
        · rw [h1]; simp
        · simp only [ne_eq, h1, not_false_eq_true, if_true]; split <;> omega
      omega

/-- C37: the value: positions that differ, plus the difference of the lengths. -/
theorem C37_value (a b : Str) : distance a b =
    (List.range (min a.length b.length)).countP (fun i => decide (a[i]? ≠ b[i]?)) +
      (max a.length b.length - min a.length b.length) := by
  have hf : ∀ (n d : Nat), (List.range n).foldl (fun d i => if a[i]? ≠ b[i]? then d + 1 else d) d =
      d + (List.range n).countP (fun i => decide (a[i]? ≠ b[i]?)) := by
    intro n d
    induction n with
    | zero => simp
    | succ n ih =>
      rw [List.range_succ, List.foldl_append, ih, List.countP_append]
      simp only [List.foldl_cons, List.foldl_nil, List.countP_cons, List.countP_nil, decide_eq_true_eq]
      split <;> omega
  unfold distance
  simp only
  rw [hf]
  by_cases h : a.length < b.length
  · rw [if_pos h, if_pos h, Nat.min_eq_left (by omega), Nat.max_eq_right (by omega)]; omega
  · rw [if_neg h, if_neg h, Nat.min_eq_right (by omega), Nat.max_eq_left (by omega)]; omega

example : distance "abc".toList "axcd".toList = 2 := by decide

/-! ### C38 -/

/-- C38: all alignments keep the text, reach the width and put the padding on the documented sides. -/
theorem C38_align (s : Str) (w : Nat) (f : Char) :
    (∃ n, alignLeft s w f = s ++ List.replicate n f ∧ (alignLeft s w f).length = max w s.length) ∧
    (∃ n, alignRight s w f = List.replicate n f ++ s ∧ (alignRight s w f).length = max w s.length) ∧
    (∃ n m, alignCenter s w f = List.replicate n f ++ s ++ List.replicate m f ∧
      (alignCenter s w f).length = max w s.length ∧ n ≤ m ∧ m ≤ n + 1) := by
  refine ⟨?_, ?_, ?_⟩
  · unfold alignLeft
    split
    · exact ⟨_, rfl, by simp; omega⟩
    · exact ⟨0, by simp, by omega⟩
  · unfold alignRight
    split
    · exact ⟨_, rfl, by simp; omega⟩
    · exact ⟨0, by simp, by omega⟩
  · unfold alignCenter
    split
    · exact ⟨_, _, rfl, by simp; omega, by omega, by omega⟩
    · exact ⟨0, 0, by simp, by omega, by omega, by omega⟩

example : alignCenter "ab".toList 5 '.' = ".ab..".toList := by decide

end Verif.Str
