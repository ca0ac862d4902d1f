import Verif.Io.Progress
import Verif.Str.TrimProps
import Mathlib.Tactic.Ring
import Mathlib.Tactic.Linarith
/-!
# C177: progress bars
-/
namespace Verif.Progress
open Verif Verif.Str

/-- Spec: `q` is the whole part of `a / b` -/
def Whole (q a b : Nat) : Prop := q * b ≤ a ∧ a < (q + 1) * b

/-- Spec: the line shown for the iteration of index `i` among `n`: a bar of `dashes` characters filled in proportion of the iterations done, their number,
the percentage, the timings, and spaces -/
def IsLine (dashes n i : Nat) (timing text : Str) : Prop :=
  ∃ d q a b pad, Whole d (dashes * (i + 1)) n ∧ d ≤ dashes ∧ Whole q (100 * (i + 1)) n ∧
    text = ['['] ++ List.replicate d '-' ++ List.replicate (dashes - d) ' ' ++ [']', ' '] ++ List.replicate a ' ' ++ Nat.toDigits 10 (i + 1) ++ [' '] ++
      List.replicate b ' ' ++ Nat.toDigits 10 q ++ ['%', ',', ' '] ++ timing ++ List.replicate pad ' '

theorem whole_div (a b : Nat) (hb : 0 < b) : Whole (a / b) a b := by
  refine ⟨Nat.div_mul_le_self a b, ?_⟩
  rw [Nat.add_mul, one_mul]
  have := Nat.div_add_mod a b
  have h2 := Nat.mod_lt a hb
  rw [Nat.mul_comm] at this
  omega

theorem alignRight_form (s : Str) (w : Nat) : ∃ a, alignRight s w ' ' = List.replicate a ' ' ++ s := by
  obtain ⟨n, h, -⟩ := (C38_align s w ' ').2.1
  exact ⟨n, h⟩

theorem show_ok (dashes : Nat) (timing : Str) (p : P) (hn : 0 < p.n) (hd : dashes * (p.i + 1) / p.n ≤ dashes) :
    ∃ m text, show_ dashes timing p = .ok ({ p with maxLength := m }, text) ∧ IsLine dashes p.n p.i timing text ∧ text.length = m ∧ p.maxLength ≤ m := by
  obtain ⟨a, ha⟩ := alignRight_form (natText (p.i + 1)) (Nat.log 10 p.n + 1)
  obtain ⟨b, hb⟩ := alignRight_form (natText (100 * (p.i + 1) / p.n)) 3
  unfold show_
  rw [if_neg (by omega), if_neg (by omega)]
  refine ⟨_, _, rfl, ?_, ?_, le_max_left _ _⟩
  · unfold IsLine
    generalize max p.maxLength _ - _ = pad
    refine ⟨dashes * (p.i + 1) / p.n, 100 * (p.i + 1) / p.n, a, b, pad, whole_div _ _ hn, hd, whole_div _ _ hn, ?_⟩
    rw [ha, hb]
    unfold natText
    simp only [List.append_assoc]
  · rw [List.length_append, List.length_replicate]
    omega

/-- Spec: the iterations that are shown: one in `mod`, and the last one -/
def Shown (mod n i : Nat) : Bool := i % mod = 0 || i + 1 = n

theorem bar_le (dashes n i : Nat) (h : i < n) : dashes * (i + 1) / n ≤ dashes := by
  rcases Nat.eq_zero_or_pos n with h0 | h0
  · omega
  · rw [Nat.div_le_iff_le_mul_add_pred h0]
    have : dashes * (i + 1) ≤ dashes * n := Nat.mul_le_mul_left _ h
    rw [Nat.mul_comm n]
    omega

/-- `progress` for an iteration that is not the last one, and for the last one -/
theorem progress_step (dashes mod : Nat) (hm : 0 < mod) (timing : Str) (p : P) (hp : p.i < p.n) (he : p.ended = false) :
    ∃ m text, progress dashes mod timing p = .ok (⟨p.lastTick, p.i + 1, p.n, if Shown mod p.n p.i then m else p.maxLength, decide (p.i + 1 = p.n)⟩,
      (if Shown mod p.n p.i then [.line text] else []) ++ (if p.i + 1 = p.n then [.newline] else [])) ∧
      IsLine dashes p.n p.i timing text ∧ text.length = m ∧ p.maxLength ≤ m := by
  obtain ⟨m, text, h1, h2, h3, h4⟩ := show_ok dashes timing p (by omega) (bar_le _ _ _ hp)
  refine ⟨m, text, ?_, h2, h3, h4⟩
  unfold progress
  rw [he, if_neg (by simp), if_neg (by omega)]
  by_cases hs : Shown mod p.n p.i = true
  · have hs' : p.i % mod = 0 ∨ p.i + 1 = p.n := by simpa [Shown] using hs
    rw [if_pos hs', h1, if_pos hs, if_pos hs]
    simp only [Res.map, Res.ok_bind]
    by_cases hl : p.i + 1 = p.n
    · rw [if_pos (by omega)]
      simp [hl]
    · rw [if_neg (by omega)]
      simp [hl, he]
  · have hs' : ¬ (p.i % mod = 0 ∨ p.i + 1 = p.n) := by simpa [Shown] using hs
    rw [if_neg hs', if_neg hs, if_neg hs]
    simp only [Res.ok_bind]
    have hl : ¬ p.i + 1 = p.n := fun h => hs' (.inr h)
    rw [if_neg (by omega)]
    simp [hl, he]

theorem loop_spec (dashes mod : Nat) (hm : 0 < mod) (timing : Nat → Str) : ∀ (m : Nat) (p : P), 0 < m → p.i + m = p.n → p.ended = false →
    ∃ L : Nat → Str, ∃ M, calls (fun k => progress dashes mod (timing k)) (List.range' p.i m) p =
      .ok (⟨p.lastTick, p.n, p.n, M, true⟩, ((List.range' p.i m).filter (Shown mod p.n)).map (fun i => Ev.line (L i)) ++ [.newline]) ∧
      ∀ i, p.i ≤ i → i < p.n → Shown mod p.n i = true → IsLine dashes p.n i (timing i) (L i) ∧ p.maxLength ≤ (L i).length ∧
        ∀ j, i ≤ j → j < p.n → Shown mod p.n j = true → (L i).length ≤ (L j).length := by
  intro m
  induction m with
  | zero => intro p h; omega
  | succ m ih =>
    intro p _ hp he
    obtain ⟨m1, text, h1, h2, h3, h4⟩ := progress_step dashes mod hm (timing p.i) p (by omega) he
    rw [List.range'_succ]
    unfold calls
    rw [h1, Res.ok_bind]
    by_cases hl : p.i + 1 = p.n
    · have hm0 : m = 0 := by omega
      subst hm0
      have hs : Shown mod p.n p.i = true := by simp [Shown, hl]
      simp only [List.range'_zero, calls, Res.ok_bind]
      refine ⟨fun _ => text, m1, ?_, ?_⟩
      · rw [if_pos hs, if_pos hs, if_pos hl]
        simp [hl, hs]
      · intro i hi1 hi2 _
        obtain rfl : i = p.i := by omega
        exact ⟨h2, by show p.maxLength ≤ text.length; omega, fun _ _ _ _ => le_refl _⟩
    · obtain ⟨L, M, e, hL⟩ := ih ⟨p.lastTick, p.i + 1, p.n, if Shown mod p.n p.i then m1 else p.maxLength, decide (p.i + 1 = p.n)⟩ (by omega) (by show p.i + 1 + m = p.n; omega)
        (by simp [hl])
      simp only at e hL
      refine ⟨fun i => if i = p.i then text else L i, M, ?_, ?_⟩
      · simp only
        rw [e, Res.ok_bind, if_neg hl]
        congr 2
        have hmap : ((List.range' (p.i + 1) m).filter (Shown mod p.n)).map (fun i => Ev.line (L i)) =
            ((List.range' (p.i + 1) m).filter (Shown mod p.n)).map (fun i => Ev.line (if i = p.i then text else L i)) := by
          apply List.map_congr_left
          intro i hi
          have := (List.mem_range'_1.1 (List.mem_filter.1 hi).1).1
          rw [if_neg (by omega)]
        rw [hmap]
        by_cases hs : Shown mod p.n p.i = true
        · rw [List.filter_cons_of_pos hs, if_pos hs]
          simp
        · rw [List.filter_cons_of_neg hs, if_neg hs]
          simp
      · intro i hi1 hi2 hi3
        beta_reduce
        by_cases hi : i = p.i
        · subst hi
          rw [if_pos rfl]
          refine ⟨h2, by omega, fun j hj1 hj2 hj3 => ?_⟩
          by_cases hj : j = p.i
          · rw [if_pos hj]
          · rw [if_neg hj]
            have := (hL j (by omega) hj2 hj3).2.1
            rw [if_pos hi3] at this
            omega
        · rw [if_neg hi]
          obtain ⟨g1, g2, g3⟩ := hL i (by omega) hi2 hi3
          refine ⟨g1, ?_, fun j hj1 hj2 hj3 => ?_⟩
          · split at g2 <;> omega
          · rw [if_neg (show j ≠ p.i by omega)]
            exact g3 j hj1 hj2 hj3

/-- A loop of `n` iterations with one call of `progress` in each: the lines of one iteration in `mod` and of the last one are written in order, each one as
long as those before (nothing of an older line is left), then the end of line, once; calls after that do nothing. -/
theorem C177_loop (dashes mod n : Nat) (hm : 0 < mod) (hn : 0 < n) (timing : Nat → Str) : ∃ (L : Nat → Str) (p : P),
    calls (fun k => progress dashes mod (timing k)) (List.range n) (start n) =
      .ok (p, ((List.range n).filter (Shown mod n)).map (fun i => Ev.line (L i)) ++ [.newline]) ∧
    (∀ i < n, Shown mod n i = true → IsLine dashes n i (timing i) (L i) ∧ ∀ j < n, i ≤ j → Shown mod n j = true → (L i).length ≤ (L j).length) ∧
    (∀ d' mod' t', progress d' mod' t' p = .ok (p, [])) := by
  obtain ⟨L, M, h1, h2⟩ := loop_spec dashes mod hm timing n (start n) hn (by simp [start]) rfl
  refine ⟨L, _, by rw [List.range_eq_range']; exact h1, ?_, fun _ _ _ => rfl⟩
  intro i hi hs
  obtain ⟨g1, -, g3⟩ := h2 i (Nat.zero_le i) hi hs
  exact ⟨g1, fun j hj hij hsj => g3 j hij hj hsj⟩

theorem whole_self (q a n : Nat) (hn : 0 < n) (h : Whole q (a * n) n) : q = a := by
  obtain ⟨h1, h2⟩ := h
  have h1 := Nat.le_of_mul_le_mul_right h1 hn
  have h2 := Nat.lt_of_mul_lt_mul_right h2
  omega

/-- The line of the last iteration has a full bar and 100%. -/
theorem C177_last (dashes n : Nat) (hn : 0 < n) (timing text : Str) (h : IsLine dashes n (n - 1) timing text) :
    ∃ a b pad, text = ['['] ++ List.replicate dashes '-' ++ [']', ' '] ++ List.replicate a ' ' ++ Nat.toDigits 10 n ++ [' '] ++ List.replicate b ' ' ++ "100%, ".toList ++ timing ++
      List.replicate pad ' ' := by
  obtain ⟨d, q, a, b, pad, h1, h2, h3, rfl⟩ := h
  have e : n - 1 + 1 = n := by omega
  rw [e] at h1 h3 ⊢
  obtain rfl := whole_self _ _ _ hn h1
  obtain rfl := whole_self _ _ _ hn h3
  refine ⟨a, b, pad, ?_⟩
  have : Nat.toDigits 10 100 = ['1', '0', '0'] := by decide +kernel
  rw [Nat.sub_self, this]
  simp

/-- `print_progress` with the index of the iteration: the line is that of the iteration, or that of the last one if the index is too large; the bar is
ended then. -/
theorem C177_print (dashes mod ti : Nat) (hm : 0 < mod) (timing : Str) (p : P) (hn : 0 < p.n) (he : p.ended = false) :
    ∃ p' ev, printProgress dashes mod ti timing p = .ok (p', ev) ∧ p'.n = p.n ∧ p'.i = min ti (p.n - 1) ∧ (p'.ended = true ↔ p.n ≤ ti + 1) ∧ p.maxLength ≤ p'.maxLength ∧
      ((ti + 1 < p.n ∧ ti % mod ≠ 0 ∧ ev = []) ∨
        ∃ text, IsLine dashes p.n (min ti (p.n - 1)) timing text ∧ p'.maxLength = text.length ∧ ev = if p.n ≤ ti + 1 then [.line text, .newline] else [.line text]) := by
  unfold printProgress
  rw [if_neg (by simp [he])]
  by_cases h : ti ≥ p.n - 1
  · rw [if_pos ⟨by omega, h⟩]
    obtain ⟨m, text, h1, h2, h3, h4⟩ := show_ok dashes timing { p with i := p.n - 1 } hn (bar_le _ _ _ (by show p.n - 1 < p.n; omega))
    rw [h1, Res.ok_bind]
    refine ⟨_, _, rfl, rfl, by show p.n - 1 = _; omega, ⟨fun _ => by omega, fun _ => rfl⟩, h4, .inr ⟨text, ?_, h3.symm, ?_⟩⟩
    · rw [Nat.min_eq_right h]; exact h2
    · rw [if_pos (by omega)]
  · rw [if_neg (fun hh => h hh.2), if_neg (by omega)]
    by_cases hmod : ti % mod = 0
    · rw [if_pos hmod]
      obtain ⟨m, text, h1, h2, h3, h4⟩ := show_ok dashes timing { p with i := ti } hn (bar_le _ _ _ (by show ti < p.n; omega))
      rw [h1]
      refine ⟨_, _, rfl, rfl, by show ti = _; omega, ⟨fun hh => ?_, fun hh => absurd hh (by omega)⟩, h4, .inr ⟨text, ?_, h3.symm, ?_⟩⟩
      · have : p.ended = true := hh
        rw [he] at this; simp at this
      · rw [Nat.min_eq_left (by omega)]; exact h2
      · rw [if_neg (by omega)]
    · rw [if_neg hmod]
      refine ⟨_, _, rfl, rfl, by show ti = _; omega, ⟨fun hh => ?_, fun hh => absurd hh (by omega)⟩, le_refl _, .inl ⟨by omega, hmod, rfl⟩⟩
      have : p.ended = true := hh
      rw [he] at this; simp at this

/-- `progress_tick` before the last iteration -/
theorem tick_step (dashes : Nat) (slow : Bool) (t t' : Str) (p : P) (hp : p.i + 1 < p.n) (he : p.ended = false) :
    ∃ p' ev, progressTick dashes slow t t' p = .ok (p', ev) ∧ p'.i = p.i + 1 ∧ p'.n = p.n ∧ p'.ended = false ∧ .newline ∉ ev := by
  unfold progressTick
  rw [if_neg (by simp [he])]
  by_cases hs : p.i < 10 ∨ slow = true
  · obtain ⟨m, text, h1, h2, h3, h4⟩ := show_ok dashes t { p with lastTick := p.i } (by show 0 < p.n; omega) (bar_le _ _ _ (by show p.i < p.n; omega))
    rw [if_pos hs, h1]
    simp only [Res.map, Res.ok_bind]
    rw [if_neg (by omega)]
    exact ⟨_, _, rfl, rfl, rfl, he, by simp⟩
  · rw [if_neg hs]
    simp only [Res.ok_bind]
    rw [if_neg (by omega)]
    exact ⟨_, _, rfl, rfl, rfl, he, by simp⟩

theorem tick_loop (dashes : Nat) (slow : Nat → Bool) (t t' : Nat → Str) : ∀ (m : Nat) (p : P), p.i + m < p.n → p.ended = false →
    ∃ p' ev, calls (fun k => progressTick dashes (slow k) (t k) (t' k)) (List.range' p.i m) p = .ok (p', ev) ∧ p'.i = p.i + m ∧ p'.n = p.n ∧ p'.ended = false ∧
      .newline ∉ ev := by
  intro m
  induction m with
  | zero => intro p _ he; exact ⟨p, [], rfl, rfl, rfl, he, by simp⟩
  | succ m ih =>
    intro p hp he
    obtain ⟨p1, e1, h1, h2, h3, h4, h5⟩ := tick_step dashes (slow p.i) (t p.i) (t' p.i) p (by omega) he
    obtain ⟨p2, e2, g1, g2, g3, g4, g5⟩ := ih p1 (by omega) h4
    refine ⟨p2, e1 ++ e2, ?_, by omega, by rw [g3, h3], g4, by simp [h5, g5]⟩
    rw [List.range'_succ]
    unfold calls
    rw [h1, Res.ok_bind, ← h2]
    simp only
    rw [g1, Res.ok_bind]

theorem calls_append (f : Nat → P → Res (P × List Ev)) (l l' : List Nat) (p : P) :
    calls f (l ++ l') p = (do let (p, e) ← calls f l p; let (p, e') ← calls f l' p; .ok (p, e ++ e')) := by
  induction l generalizing p with
  | nil =>
    simp only [List.nil_append, calls, Res.ok_bind]
    cases calls f l' p <;> rfl
  | cons k l ih =>
    rw [List.cons_append, calls, calls]
    cases f k p with
    | ok r =>
      obtain ⟨r1, r2⟩ := r
      simp only [Res.ok_bind]
      rw [ih]
      cases calls f l r1 with
      | ok r2 =>
        simp only [Res.ok_bind]
        cases calls f l' r2.1 with
        | ok r3 => simp only [Res.ok_bind, List.append_assoc]
        | _ => rfl
      | _ => rfl
    | _ => rfl

/-- A loop with `progress_tick` and more iterations than the bar has characters ends with one end of line; the last line is that of an iteration that
does not exist: it shows `n+1` iterations and possibly more than 100%. -/
theorem C177_tick_partial (dashes n : Nat) (hn : 0 < n) (hd : dashes < n) (slow : Nat → Bool) (t t' : Nat → Str) :
    ∃ p ev text, calls (fun k => progressTick dashes (slow k) (t k) (t' k)) (List.range n) (start n) = .ok (p, ev ++ [.line text, .newline]) ∧ .newline ∉ ev ∧
      p.ended = true ∧ IsLine dashes n n (t' (n - 1)) text := by
  obtain ⟨p1, e1, h1, h2, h3, h4, h5⟩ := tick_loop dashes slow t t' (n - 1) (start n) (by show 0 + (n - 1) < n; omega) rfl
  have h2 : p1.i = n - 1 := by rw [h2]; show 0 + (n - 1) = _; omega
  have h3 : p1.n = n := h3
  have hr : List.range n = List.range' 0 (n - 1) ++ [n - 1] := by
    rw [← List.range_eq_range', ← List.range_succ]
    congr 1; omega
  rw [hr, calls_append]
  have h1' : calls (fun k => progressTick dashes (slow k) (t k) (t' k)) (List.range' 0 (n - 1)) (start n) = .ok (p1, e1) := h1
  rw [h1', Res.ok_bind]
  have hdiv : dashes * (n + 1) / n ≤ dashes := by
    rw [Nat.div_le_iff_le_mul_add_pred hn, Nat.mul_add, Nat.mul_comm n]
    omega
  have hstep : ∃ p ev text, progressTick dashes (slow (n - 1)) (t (n - 1)) (t' (n - 1)) p1 = .ok (p, ev ++ [.line text, .newline]) ∧ .newline ∉ ev ∧ p.ended = true ∧
      IsLine dashes n n (t' (n - 1)) text := by
    unfold progressTick
    rw [if_neg (by simp [h4])]
    by_cases hs : p1.i < 10 ∨ slow (n - 1) = true
    · obtain ⟨m, text, a1, a2, a3, a4⟩ := show_ok dashes (t (n - 1)) { p1 with lastTick := p1.i } (by show 0 < p1.n; omega) (bar_le _ _ _ (by show p1.i < p1.n; omega))
      rw [if_pos hs, a1]
      simp only [Res.map, Res.ok_bind]
      rw [if_pos (by omega)]
      obtain ⟨m', text', b1, b2, b3, b4⟩ := show_ok dashes (t' (n - 1)) ⟨p1.i, p1.i + 1, p1.n, m, p1.ended⟩ (by show 0 < p1.n; omega)
        (by simp only; rw [h2, h3, show n - 1 + 1 = n by omega]; exact hdiv)
      rw [b1, Res.ok_bind]
      refine ⟨_, _, text', rfl, by simp, rfl, ?_⟩
      simp only [h2, h3, show n - 1 + 1 = n by omega] at b2
      exact b2
    · rw [if_neg hs]
      simp only [Res.ok_bind]
      rw [if_pos (by omega)]
      obtain ⟨m', text', b1, b2, b3, b4⟩ := show_ok dashes (t' (n - 1)) ⟨p1.lastTick, p1.i + 1, p1.n, p1.maxLength, p1.ended⟩ (by show 0 < p1.n; omega)
        (by simp only; rw [h2, h3, show n - 1 + 1 = n by omega]; exact hdiv)
      rw [b1, Res.ok_bind]
      refine ⟨_, [], text', rfl, by simp, rfl, ?_⟩
      simp only [h2, h3, show n - 1 + 1 = n by omega] at b2
      exact b2
  obtain ⟨p, ev, text, e, g1, g2, g3⟩ := hstep
  refine ⟨p, e1 ++ ev, text, ?_, by simp [h5, g1], g2, g3⟩
  simp only [calls]
  rw [e, Res.ok_bind, Res.ok_bind, Res.ok_bind]
  simp

/-- Finding: a loop with `progress_tick` and no more iterations than the bar has characters (32 by default) ends with undefined behaviour: the length of the
rest of the bar is -1. -/
theorem C177_tick_refuted (dashes n : Nat) (hn : 0 < n) (hd : n ≤ dashes) (slow : Nat → Bool) (t t' : Nat → Str) :
    calls (fun k => progressTick dashes (slow k) (t k) (t' k)) (List.range n) (start n) = .ub := by
  obtain ⟨p1, e1, h1, h2, h3, h4, h5⟩ := tick_loop dashes slow t t' (n - 1) (start n) (by show 0 + (n - 1) < n; omega) rfl
  have h2 : p1.i = n - 1 := by rw [h2]; show 0 + (n - 1) = _; omega
  have h3 : p1.n = n := h3
  have hr : List.range n = List.range' 0 (n - 1) ++ [n - 1] := by
    rw [← List.range_eq_range', ← List.range_succ]
    congr 1; omega
  rw [hr, calls_append]
  have h1' : calls (fun k => progressTick dashes (slow k) (t k) (t' k)) (List.range' 0 (n - 1)) (start n) = .ok (p1, e1) := h1
  rw [h1', Res.ok_bind]
  have hdiv : dashes < dashes * (n + 1) / n := by
    rw [Nat.lt_div_iff_mul_lt hn]
    rw [Nat.mul_add]
    omega
  have hub : ∀ q : P, q.i = n → q.n = n → show_ dashes (t' (n - 1)) q = .ub := by
    intro q a b
    unfold show_
    rw [if_neg (by omega), a, b, if_pos hdiv]
  have hstep : progressTick dashes (slow (n - 1)) (t (n - 1)) (t' (n - 1)) p1 = .ub := by
    unfold progressTick
    rw [if_neg (by simp [h4])]
    by_cases hs : p1.i < 10 ∨ slow (n - 1) = true
    · obtain ⟨m, text, a1, a2, a3, a4⟩ := show_ok dashes (t (n - 1)) { p1 with lastTick := p1.i } (by show 0 < p1.n; omega) (bar_le _ _ _ (by show p1.i < p1.n; omega))
      rw [if_pos hs, a1]
      simp only [Res.map, Res.ok_bind]
      rw [if_pos (by omega)]
      rw [hub _ ?_ ?_]
      · rfl
      · show p1.i + 1 = n; omega
      · exact h3
    · rw [if_neg hs]
      simp only [Res.ok_bind]
      rw [if_pos (by omega)]
      rw [hub _ ?_ ?_]
      · rfl
      · show p1.i + 1 = n; omega
      · exact h3
  simp only [calls]
  rw [hstep]
  rfl

/-- a bar of 4 characters for 3 iterations, all shown -/
example : calls (fun _ => progress 4 2 "t".toList) (List.range 3) (start 3) =
    .ok (⟨0, 3, 3, 16, true⟩, [.line "[-   ] 1  33%, t".toList, .line "[----] 3 100%, t".toList, .newline]) := by decide +kernel

/-- the last line of `progress_tick` for 50 iterations: 51 iterations, 102% -/
example : IsLine 32 50 50 [] ("[".toList ++ List.replicate 32 '-' ++ "] 51 102%, ".toList) := by
  refine ⟨32, 102, 0, 0, 0, ⟨by decide, by decide⟩, by decide, ⟨by decide, by decide⟩, ?_⟩
  decide +kernel

end Verif.Progress
