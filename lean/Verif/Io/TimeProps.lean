import Verif.Io.Time
import Mathlib.Tactic.Linarith
import Mathlib.Tactic.Positivity
import Mathlib.Tactic.FieldSimp
import Mathlib.Tactic.Ring
import Mathlib.Algebra.Order.Floor.Semifield
import Mathlib.Tactic.NormNum
import Mathlib.Tactic.IntervalCases
/-!
# Property C43: durations printed by `time_str` and `seconds_str` can be read back
-/
namespace Verif.Io
open Verif Verif.Str

/-- Spec: the number of seconds a text such as `1d02h03m04s` stands for: digits are collected, a unit adds the
number collected times its length -/
def readTime : Nat → Nat → Str → Nat
  | acc, _, [] => acc
  | acc, cur, c :: s =>
    if c = 'd' then readTime (acc + cur * 86400) 0 s
    else if c = 'h' then readTime (acc + cur * 3600) 0 s
    else if c = 'm' then readTime (acc + cur * 60) 0 s
    else if c = 's' then readTime (acc + cur) 0 s
    else readTime acc (10 * cur + (c.toNat - '0'.toNat)) s

/-- Spec: the number of nanoseconds a text such as `1s002ms003us004ns` stands for: `m`, `u`, `n` announce the unit
that the next `s` completes -/
def readNano : Nat → Nat → Nat → Str → Nat
  | acc, _, _, [] => acc
  | acc, cur, unit, c :: s =>
    if c = 'm' then readNano acc cur 1000000 s
    else if c = 'u' then readNano acc cur 1000 s
    else if c = 'n' then readNano acc cur 1 s
    else if c = 's' then readNano (acc + cur * unit) 0 1000000000 s
    else readNano acc (10 * cur + (c.toNat - '0'.toNat)) unit s

/-- nanoseconds of a whole text -/
def nano (s : Str) : Nat := readNano 0 0 1000000000 s

/-! ### decimal texts -/

/-- a text made of digits -/
def Digits (s : Str) : Prop := ∀ c ∈ s, c.isDigit = true

theorem digits_dec (n : Nat) : Digits (dec n) := fun _ hc => Nat.isDigit_of_mem_toDigits (by omega) (by omega) hc

theorem digits_align (n w : Nat) : Digits (alignRight (dec n) w '0') := by
  unfold alignRight
  split
  · intro c hc
    rcases List.mem_append.1 hc with h | h
    · rw [(List.mem_replicate.1 h).2]; decide
    · exact digits_dec n c h
  · exact digits_dec n

/-- value of a digit text -/
def val (s : Str) : Nat := Nat.ofDigitChars 10 s 0

theorem val_dec (n : Nat) : val (dec n) = n := Nat.ofDigitChars_ten_toDigits

theorem ofDigits_zeros (k : Nat) (s : Str) : Nat.ofDigitChars 10 (List.replicate k '0' ++ s) 0 = Nat.ofDigitChars 10 s 0 := by
  induction k with
  | zero => rfl
  | succ k ih =>
    rw [List.replicate_succ, List.cons_append, Nat.ofDigitChars_cons]
    exact ih

theorem val_align (n w : Nat) : val (alignRight (dec n) w '0') = n := by
  unfold val alignRight
  split
  · rw [ofDigits_zeros]; exact val_dec n
  · exact val_dec n

theorem digit_ne {c : Char} (h : c.isDigit = true) : c ≠ 'd' ∧ c ≠ 'h' ∧ c ≠ 'm' ∧ c ≠ 's' ∧ c ≠ 'u' ∧ c ≠ 'n' := by
  refine ⟨?_, ?_, ?_, ?_, ?_, ?_⟩ <;> rintro rfl <;> revert h <;> decide

theorem readTime_digits (acc cur : Nat) (s t : Str) (h : Digits s) :
    readTime acc cur (s ++ t) = readTime acc (Nat.ofDigitChars 10 s cur) t := by
  induction s generalizing cur with
  | nil => rw [Nat.ofDigitChars_nil]; rfl
  | cons c s ih =>
    obtain ⟨h1, h2, h3, h4, -⟩ := digit_ne (h c (by simp))
    rw [List.cons_append, readTime, if_neg h1, if_neg h2, if_neg h3, if_neg h4, ih _ (fun c hc => h c (by simp [hc])),
      Nat.ofDigitChars_cons]

theorem readNano_digit (acc cur u : Nat) (c : Char) (s : Str) (h : c.isDigit = true) :
    readNano acc cur u (c :: s) = readNano acc (10 * cur + (c.toNat - '0'.toNat)) u s := by
  obtain ⟨-, -, h3, h4, h5, h6⟩ := digit_ne h
  rw [readNano, if_neg h3, if_neg h5, if_neg h6, if_neg h4]

theorem readNano_s (a c : Nat) (r : Str) : readNano a c 1000000000 ('s' :: r) = readNano (a + c * 1000000000) 0 1000000000 r := by
  rw [readNano, if_neg (by decide), if_neg (by decide), if_neg (by decide), if_pos rfl]
theorem readNano_ms (a c : Nat) (r : Str) : readNano a c 1000000000 ('m' :: 's' :: r) = readNano (a + c * 1000000) 0 1000000000 r := by
  rw [readNano, if_pos rfl, readNano, if_neg (by decide), if_neg (by decide), if_neg (by decide), if_pos rfl]
theorem readNano_us (a c : Nat) (r : Str) : readNano a c 1000000000 ('u' :: 's' :: r) = readNano (a + c * 1000) 0 1000000000 r := by
  rw [readNano, if_neg (by decide), if_pos rfl, readNano, if_neg (by decide), if_neg (by decide), if_neg (by decide), if_pos rfl]
theorem readNano_ns (a c : Nat) (r : Str) : readNano a c 1000000000 ('n' :: 's' :: r) = readNano (a + c * 1) 0 1000000000 r := by
  rw [readNano, if_neg (by decide), if_neg (by decide), if_pos rfl, readNano, if_neg (by decide), if_neg (by decide),
    if_neg (by decide), if_pos rfl]

theorem readNano_digits (acc cur u : Nat) (s t : Str) (h : Digits s) :
    readNano acc cur u (s ++ t) = readNano acc (Nat.ofDigitChars 10 s cur) u t := by
  induction s generalizing cur with
  | nil => rw [Nat.ofDigitChars_nil]; rfl
  | cons c s ih =>
    rw [List.cons_append, readNano_digit _ _ _ _ _ (h c (by simp)), ih _ (fun c hc => h c (by simp [hc])),
      Nat.ofDigitChars_cons]

theorem readTime_zero (acc : Nat) (s : Str) : readTime acc 0 ('0' :: s) = readTime acc 0 s := by
  rw [readTime, if_neg (by decide), if_neg (by decide), if_neg (by decide), if_neg (by decide)]; rfl

theorem readNano_zero (acc u : Nat) (s : Str) : readNano acc 0 u ('0' :: s) = readNano acc 0 u s := by
  rw [readNano_digit _ _ _ _ _ (by decide)]; rfl

/-! ### time_str -/

/-- Spec: the text for given numbers of days, hours, minutes and seconds: zero units are left out, except the
seconds; two digits per unit, except the days -/
def clock (D H M S : Nat) : Str :=
  (if D ≠ 0 then dec D ++ ['d'] else []) ++ (if H ≠ 0 then alignRight (dec H) 2 '0' ++ ['h'] else []) ++
  (if M ≠ 0 then alignRight (dec M) 2 '0' ++ ['m'] else []) ++ (alignRight (dec S) 2 '0' ++ ['s'])

theorem readTime_clock (D H M S acc : Nat) :
    readTime acc 0 (clock D H M S) = acc + (86400 * D + 3600 * H + 60 * M + S) := by
  have u : ∀ (acc n w : Nat) (c : Char) (k : Nat) (t : Str),
      (∀ a cur s, readTime a cur (c :: s) = readTime (a + cur * k) 0 s) →
      readTime acc 0 (alignRight (dec n) w '0' ++ [c] ++ t) = readTime (acc + n * k) 0 t := by
    intro acc n w c k t hc
    have := val_align n w
    unfold val at this
    rw [List.append_assoc, readTime_digits _ _ _ _ (digits_align n w), this]
    exact hc _ _ _
  have ud : ∀ (acc n : Nat) (t : Str), readTime acc 0 (dec n ++ ['d'] ++ t) = readTime (acc + n * 86400) 0 t := by
    intro acc n t
    have := val_dec n
    unfold val at this
    rw [List.append_assoc, readTime_digits _ _ _ _ (digits_dec n), this]
    simp [readTime]
  have h1 : ∀ acc t, readTime acc 0 ((if D ≠ 0 then dec D ++ ['d'] else []) ++ t) = readTime (acc + D * 86400) 0 t := by
    intro acc t
    split
    · exact ud _ _ _
    · rename_i h; simp at h; simp [h]
  have h2 : ∀ acc t, readTime acc 0 ((if H ≠ 0 then alignRight (dec H) 2 '0' ++ ['h'] else []) ++ t) =
      readTime (acc + H * 3600) 0 t := by
    intro acc t
    split
    · exact u _ _ _ _ _ _ (by intros; simp [readTime])
    · rename_i h; simp at h; simp [h]
  have h3 : ∀ acc t, readTime acc 0 ((if M ≠ 0 then alignRight (dec M) 2 '0' ++ ['m'] else []) ++ t) =
      readTime (acc + M * 60) 0 t := by
    intro acc t
    split
    · exact u _ _ _ _ _ _ (by intros; simp [readTime])
    · rename_i h; simp at h; simp [h]
  have h4 := fun acc => u acc S 2 's' 1 [] (by intros; simp [readTime])
  unfold clock
  rw [List.append_assoc, List.append_assoc, h1, h2, h3]
  rw [List.append_nil] at h4
  rw [h4, readTime]
  omega

theorem floor_floor (x : ℝ) (hx : 0 ≤ x) : ⌊(⌊x⌋ : ℝ)⌋₊ = ⌊x⌋₊ := by
  rw [← natCast_floor_eq_intCast_floor hx, Nat.floor_natCast]

/-- the numbers printed -/
theorem timeStrLong_eq (t : ℝ) (ht : 1 ≤ t) : ∃ D H M S, 86400 * D + 3600 * H + 60 * M + S = ⌊t⌋₊ ∧ H < 24 ∧ M < 60 ∧ S < 60 ∧
    timeStrLong t = if (clock D H M S).head? = some '0' ∧ (clock D H M S).length ≠ 2 then (clock D H M S).drop 1
      else clock D H M S := by
  have h0 : 0 ≤ t := by linarith
  have fl : ∀ k : Nat, (⌊t / k⌋ : ℝ) = ((⌊t⌋₊ / k : Nat) : ℝ) := by
    intro k
    rw [← natCast_floor_eq_intCast_floor (by positivity), Nat.floor_div_natCast]
  have f1 : (⌊t / (24 * 60 * 60)⌋ : ℝ) = ((⌊t⌋₊ / 86400 : Nat) : ℝ) := by
    rw [← fl 86400]; norm_num
  have f2 : (⌊t / (60 * 60)⌋ : ℝ) = ((⌊t⌋₊ / 3600 : Nat) : ℝ) := by
    rw [← fl 3600]; norm_num
  have f3 : (⌊t / 60⌋ : ℝ) = ((⌊t⌋₊ / 60 : Nat) : ℝ) := by
    rw [← fl 60]; norm_num
  have f4 : (⌊t⌋ : ℝ) = ((⌊t⌋₊ : Nat) : ℝ) := (natCast_floor_eq_intCast_floor h0).symm
  unfold timeStrLong
  rw [f1, f2, f3, f4]
  generalize ⌊t⌋₊ = N
  have sub : ∀ a b : Nat, b ≤ a → ⌊(a : ℝ) - (b : ℝ)⌋₊ = a - b := by
    intro a b h
    rw [← Nat.cast_sub h, Nat.floor_natCast]
  have e1 : ⌊((N / 86400 : Nat) : ℝ)⌋₊ = N / 86400 := Nat.floor_natCast _
  simp only [e1]
  have e2 : ⌊((N / 3600 : Nat) : ℝ) - ((N / 86400 * 24 : Nat) : ℝ)⌋₊ = N / 3600 - N / 86400 * 24 := sub _ _ (by omega)
  simp only [e2]
  have e3 : ⌊((N / 60 : Nat) : ℝ) - ((N / 86400 * 24 * 60 : Nat) : ℝ) - (((N / 3600 - N / 86400 * 24) * 60 : Nat) : ℝ)⌋₊ =
      N / 60 - N / 3600 * 60 := by
    rw [sub_sub, ← Nat.cast_add, sub _ _ (by omega)]; omega
  simp only [e3]
  have e4 : ⌊((N : Nat) : ℝ) - ((N / 86400 * 24 * 60 * 60 : Nat) : ℝ) - (((N / 3600 - N / 86400 * 24) * 60 * 60 : Nat) : ℝ) -
      (((N / 60 - N / 3600 * 60) * 60 : Nat) : ℝ)⌋₊ = N - N / 60 * 60 := by
    rw [sub_sub, sub_sub, ← Nat.cast_add, ← Nat.cast_add, sub _ _ (by omega)]; omega
  simp only [e4]
  refine ⟨N / 86400, N / 3600 - N / 86400 * 24, N / 60 - N / 3600 * 60, N - N / 60 * 60, by omega, by omega, by omega, by omega, ?_⟩
  have : ∀ D H M S : Nat, (let date : Str := []
      let date := if D ≠ 0 then date ++ dec D ++ ['d'] else date
      let date := if H ≠ 0 then date ++ alignRight (dec H) 2 '0' ++ ['h'] else date
      let date := if M ≠ 0 then date ++ alignRight (dec M) 2 '0' ++ ['m'] else date
      date ++ alignRight (dec S) 2 '0' ++ ['s']) = clock D H M S := by
    intro D H M S
    unfold clock
    by_cases h1 : D = 0 <;> by_cases h2 : H = 0 <;> by_cases h3 : M = 0 <;> simp [h1, h2, h3]
  simp only [this]

/-- C43: the text of a duration of at least one second stands for its whole number of seconds. -/
theorem C43_time_str (t : ℝ) (ht : 1 ≤ t) : ∃ s, timeStr t = .ok s ∧ readTime 0 0 s = ⌊t⌋₊ := by
  obtain ⟨D, H, M, S, h1, -, -, -, h2⟩ := timeStrLong_eq t ht
  refine ⟨timeStrLong t, by unfold timeStr; rw [if_neg (by linarith)], ?_⟩
  have hc := readTime_clock D H M S 0
  rw [h2]
  split
  · rename_i h
    cases hcl : clock D H M S with
    | nil => rw [hcl] at h; simp at h
    | cons c s =>
      rw [hcl] at h hc
      simp at h
      rw [h.1, readTime_zero] at hc
      rw [List.drop_one, List.tail_cons, hc]; omega
  · rw [hc]; omega

/-- C43: the units are in range, zero units are left out, and at most one leading zero is dropped. -/
theorem C43_form (t : ℝ) (ht : 1 ≤ t) : ∃ D H M S s, timeStr t = .ok s ∧ 86400 * D + 3600 * H + 60 * M + S = ⌊t⌋₊ ∧
    H < 24 ∧ M < 60 ∧ S < 60 ∧ (s = clock D H M S ∨ '0' :: s = clock D H M S) ∧ s.head? ≠ some '0' := by
  obtain ⟨D, H, M, S, h1, hH, hM, hS, h2⟩ := timeStrLong_eq t ht
  refine ⟨D, H, M, S, timeStrLong t, by unfold timeStr; rw [if_neg (by linarith)], h1, hH, hM, hS, ?_⟩
  have hN : 1 ≤ ⌊t⌋₊ := Nat.le_floor (by simpa using ht)
  have dpos : ∀ n, n ≠ 0 → (dec n).head? ≠ some '0' := by
    intro n hn h
    unfold dec at h
    induction n using Nat.strongRecOn with
    | _ n ih =>
      by_cases hl : n < 10
      · rw [Nat.toDigits_of_lt_base hl] at h
        interval_cases n <;> simp_all [Nat.digitChar]
      · rw [Nat.toDigits_of_base_le (by omega) (by omega)] at h
        rw [List.head?_append_of_ne_nil _ Nat.toDigits_ne_nil] at h
        exact ih (n / 10) (by omega) (by omega) h
  -- at most one leading zero
  have hz : ∀ r, clock D H M S = '0' :: r → r.head? ≠ some '0' ∧ (clock D H M S).length ≠ 2 := by
    have al : ∀ n c t r, n ≠ 0 → n < 100 → alignRight (dec n) 2 '0' ++ c :: t = '0' :: r → c ≠ '0' → r.head? ≠ some '0' ∧
        2 ≤ r.length := by
      intro n c t r hn hn2 he hc
      unfold alignRight at he
      split at he
      · rename_i hl
        have hlen : (dec n).length = 1 := by
          have : (dec n).length ≠ 0 := by simpa [dec] using Nat.toDigits_ne_nil
          omega
        rw [hlen] at he
        simp at he
        rw [← he]
        constructor
        · rw [List.head?_append_of_ne_nil _ (by intro h; rw [h] at hlen; simp at hlen)]
          exact dpos n hn
        · simp [hlen]; omega
      · exfalso
        have : ((dec n) ++ c :: t).head? = some '0' := by rw [he]; rfl
        rw [List.head?_append_of_ne_nil _ (by simpa [dec] using Nat.toDigits_ne_nil)] at this
        exact dpos n hn this
    intro r hr
    unfold clock at hr ⊢
    by_cases h1' : D = 0
    · by_cases h2' : H = 0
      · by_cases h3' : M = 0
        · have : S ≠ 0 := by omega
          simp [h1', h2', h3'] at hr
          have := al S 's' [] r this (by omega) hr (by decide)
          refine ⟨this.1, ?_⟩
          simp only [h1', h2', h3', ne_eq, not_true_eq_false, if_false, List.nil_append]
          rw [hr]; simp; omega
        · simp [h1', h2', h3'] at hr
          have := al M 'm' _ r h3' (by omega) hr (by decide)
          refine ⟨this.1, ?_⟩
          simp only [h1', h2', h3', ne_eq, not_true_eq_false, not_false_eq_true, if_true, if_false, List.nil_append,
            List.append_assoc, List.singleton_append, List.cons_append]
          rw [hr]; simp; omega
      · simp [h1', h2'] at hr
        have := al H 'h' _ r h2' (by omega) hr (by decide)
        refine ⟨this.1, ?_⟩
        have e : ∀ a b : Str, (if ¬M = 0 then a else b) = if M = 0 then b else a := by
          intro a b; by_cases h : M = 0 <;> simp [h]
        simp only [h1', h2', ne_eq, not_true_eq_false, not_false_eq_true, if_true, if_false, List.nil_append,
          List.append_assoc, List.singleton_append, List.cons_append, e]
        rw [hr]; simp; omega
    · exfalso
      simp [h1'] at hr
      have : (dec D ++ 'd' :: ((if H = 0 then [] else alignRight (dec H) 2 '0' ++ ['h']) ++
        ((if M = 0 then [] else alignRight (dec M) 2 '0' ++ ['m']) ++ (alignRight (dec S) 2 '0' ++ ['s'])))).head? = some '0' := by
        rw [hr]; rfl
      rw [List.head?_append_of_ne_nil _ (by simpa [dec] using Nat.toDigits_ne_nil)] at this
      exact dpos D h1' this
  rw [h2]
  cases hcl : clock D H M S with
  | nil => simp
  | cons c s =>
    by_cases hc0 : c = '0'
    · subst hc0
      obtain ⟨g1, g2⟩ := hz s hcl
      rw [hcl] at g2
      rw [if_pos ⟨rfl, g2⟩]
      exact ⟨.inr rfl, g1⟩
    · rw [if_neg (by simp [hc0])]
      exact ⟨.inl rfl, by simpa using hc0⟩

/-- C43: different whole durations have different texts. -/
theorem C43_injective (t u : ℝ) (ht : 1 ≤ t) (hu : 1 ≤ u) (h : timeStr t = timeStr u) : ⌊t⌋₊ = ⌊u⌋₊ := by
  obtain ⟨s, h1, h2⟩ := C43_time_str t ht
  obtain ⟨s', h3, h4⟩ := C43_time_str u hu
  rw [h1, h3, Res.ok.injEq] at h
  rw [← h2, ← h4, h]

/-- C43: a duration below one second is printed in the unit of its magnitude, rounded to the nearest. -/
theorem C43_short (t : ℝ) (h0 : 0 < t) (h1 : t < 1) : ∃ (n : Nat) (u : Str) (x : ℝ), timeStr t = .ok (dec n ++ u) ∧
    ((u = "ms".toList ∧ x = 1e-3 ∧ 1e-3 ≤ t) ∨ (u = "us".toList ∧ x = 1e-6 ∧ 1e-6 ≤ t ∧ t < 1e-3) ∨
      (u = "ns".toList ∧ x = 1e-9 ∧ t < 1e-6)) ∧ |t - n * x| ≤ x / 2 := by
  have rd : ∀ y : ℝ, 0 ≤ y → |y - roundHalf y| ≤ 1 / 2 := by
    intro y hy
    unfold roundHalf
    have a := Nat.floor_le (show 0 ≤ y + 1 / 2 by linarith)
    have b := Nat.lt_floor_add_one (y + 1 / 2)
    rw [abs_le]; constructor <;> linarith
  have mag : ∀ k : ℤ, ⌊Real.logb 10 t⌋ ≥ k ↔ (10 : ℝ) ^ k ≤ t := by
    intro k
    rw [ge_iff_le, Int.le_floor, Real.le_logb_iff_rpow_le (by norm_num) h0, Real.rpow_intCast]
  have scale : ∀ (c x : ℝ), 0 < x → c * x = 1 → |t - roundHalf (t * c) * x| ≤ x / 2 := by
    intro c x hx hcx
    have hc : 0 < c := by
      by_contra h
      have : c * x ≤ 0 := mul_nonpos_of_nonpos_of_nonneg (by linarith) hx.le
      linarith
    have := rd (t * c) (by positivity)
    have e : t - roundHalf (t * c) * x = (t * c - roundHalf (t * c)) * x := by
      have : t * c * x = t := by rw [mul_assoc, hcx, mul_one]
      rw [sub_mul, this]
    rw [e, abs_mul, abs_of_pos hx]
    have := mul_le_mul_of_nonneg_right this hx.le
    linarith
  unfold timeStr
  rw [if_pos h1, if_neg (by linarith)]
  unfold timeStrShort
  simp only
  have m3 := mag (-3)
  have m6 := mag (-6)
  have e3 : (10 : ℝ) ^ (-3 : ℤ) = 1e-3 := by norm_num
  have e6 : (10 : ℝ) ^ (-6 : ℤ) = 1e-6 := by norm_num
  rw [e3] at m3
  rw [e6] at m6
  by_cases c3 : ⌊Real.logb 10 t⌋ ≥ -3
  · rw [if_pos c3]
    exact ⟨_, _, 1e-3, rfl, .inl ⟨rfl, rfl, m3.1 c3⟩, scale _ _ (by norm_num) (by norm_num)⟩
  · rw [if_neg c3]
    have c3' : t < 1e-3 := by rw [m3] at c3; linarith
    by_cases c6 : ⌊Real.logb 10 t⌋ ≥ -6
    · rw [if_pos c6]
      exact ⟨_, _, 1e-6, rfl, .inr (.inl ⟨rfl, rfl, m6.1 c6, c3'⟩), scale _ _ (by norm_num) (by norm_num)⟩
    · rw [if_neg c6]
      have c6' : t < 1e-6 := by rw [m6] at c6; linarith
      exact ⟨_, _, 1e-9, rfl, .inr (.inr ⟨rfl, rfl, c6'⟩), scale _ _ (by norm_num) (by norm_num)⟩

/-! ### seconds_str -/

theorem readNano_eraseZeros (acc u : Nat) (s : Str) : readNano acc 0 u (eraseZeros s) = readNano acc 0 u s := by
  induction s with
  | nil => rfl
  | cons c s ih =>
    unfold eraseZeros
    split
    · rename_i h
      rw [ih, h.1, readNano_zero]
    · rfl

/-- C43: the text of `seconds_str` stands for the whole number of nanoseconds, and each part below a second has
three digits. -/
theorem C43_seconds_str (t : ℝ) (ht : 0 ≤ t) : ∃ s, secondsStr t = .ok s ∧ nano s = ⌊t * 10 ^ 9⌋₊ := by
  unfold secondsStr
  rw [if_neg (by linarith)]
  refine ⟨_, rfl, ?_⟩
  unfold nano
  rw [readNano_eraseZeros]
  have step : ∀ y : ℝ, 0 ≤ y → y < 1 → ∃ n : Nat, ⌊y * 1000⌋₊ = n ∧ n < 1000 ∧ 0 ≤ y * 1000 - n ∧ y * 1000 - n < 1 := by
    intro y h0 h1
    refine ⟨_, rfl, ?_, ?_, ?_⟩
    · rw [Nat.floor_lt (by positivity)]
      push_cast; linarith
    · have := Nat.floor_le (show 0 ≤ y * 1000 by positivity); linarith
    · have := Nat.lt_floor_add_one (y * 1000); linarith
  have s0 := Nat.floor_le ht
  have s1 := Nat.lt_floor_add_one t
  obtain ⟨ms, hms, _, a1, a2⟩ := step (t - ⌊t⌋₊) (by linarith) (by linarith)
  obtain ⟨us, hus, _, b1, b2⟩ := step _ a1 a2
  obtain ⟨ns, hns, _, c1, c2⟩ := step _ b1 b2
  simp only [hms, hus, hns]
  have hN : ⌊t * 10 ^ 9⌋₊ = ⌊t⌋₊ * 1000000000 + ms * 1000000 + us * 1000 + ns := by
    rw [Nat.floor_eq_iff (by positivity)]
    push_cast
    constructor <;> linarith
  rw [hN]
  generalize ⌊t⌋₊ = sec
  have u : ∀ (acc n w : Nat) (c : Str) (k : Nat) (t : Str),
      (∀ a cur s, readNano a cur 1000000000 (c ++ s) = readNano (a + cur * k) 0 1000000000 s) →
      readNano acc 0 1000000000 (alignRight (dec n) w '0' ++ c ++ t) = readNano (acc + n * k) 0 1000000000 t := by
    intro acc n w c k t hc
    have := val_align n w
    unfold val at this
    rw [List.append_assoc, readNano_digits _ _ _ _ _ (digits_align n w), this]
    exact hc _ _ _
  have ud : ∀ (acc n : Nat) (t : Str), readNano acc 0 1000000000 (dec n ++ ['s'] ++ t) = readNano (acc + n * 1000000000) 0 1000000000 t := by
    intro acc n t
    have := val_dec n
    unfold val at this
    rw [List.append_assoc, readNano_digits _ _ _ _ _ (digits_dec n), this]
    exact readNano_s _ _ _
  have um := fun acc n t => u acc n 3 ['m', 's'] 1000000 t readNano_ms
  have uu := fun acc n t => u acc n 3 ['u', 's'] 1000 t readNano_us
  have un := fun acc n => u acc n 3 ['n', 's'] 1 [] readNano_ns
  simp only [List.append_nil] at un
  have nil : ∀ a b u, readNano a b u [] = a := by intro a b u; rw [readNano]
  by_cases h1 : sec = 0
  · by_cases h2 : ms = 0
    · by_cases h3 : us = 0
      · simp [h1, h2, h3]
        have := un 0 ns
        simp [nil] at this
        exact this
      · simp [h1, h2, h3]
        have := uu 0 us (alignRight (dec ns) 3 '0' ++ ['n', 's'])
        rw [un] at this
        simp [nil] at this
        rw [this]
    · simp [h1, h2]
      have := um 0 ms (alignRight (dec us) 3 '0' ++ ['u', 's'] ++ (alignRight (dec ns) 3 '0' ++ ['n', 's']))
      rw [uu, un] at this
      simp [nil] at this
      rw [this]
  · simp [h1]
    have := ud 0 sec (alignRight (dec ms) 3 '0' ++ ['m', 's'] ++ (alignRight (dec us) 3 '0' ++ ['u', 's'] ++ (alignRight (dec ns) 3 '0' ++ ['n', 's'])))
    rw [um, uu, un] at this
    simp [nil] at this
    rw [this]

/-- durations that meet the hypotheses, and texts read back -/
example : (1 : ℝ) ≤ 93784.5 := by norm_num
example : readTime 0 0 "1d02h03m04s".toList = 93784 := by decide
example : nano "1s002ms000us004ns".toList = 1002000004 := by decide

end Verif.Io
