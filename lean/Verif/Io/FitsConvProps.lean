import Verif.Io.FitsTableProps
import Mathlib.Data.Rat.Lemmas
import Mathlib.Algebra.Order.Field.Basic
import Mathlib.Algebra.Order.Ring.Rat
import Mathlib.Tactic.Positivity
import Mathlib.Tactic.Linarith
import Mathlib.Tactic.NormNum
/-!
# C126: which columns can be read in a vector: types and dimensions
-/
namespace Verif.FitsTable
open Verif Verif.Str Verif.Core

variable {α : Type}

/-! ### Types -/

/-- numbers with a mantissa of `b` bits (no bound on the exponent) -/
def Floating (b : Nat) (q : ℚ) : Prop := ∃ m : ℤ, ∃ k : ℤ, |m| < 2 ^ b ∧ q = m * 2 ^ k

/-- integers between two bounds -/
def Between (a b : ℤ) (q : ℚ) : Prop := ∃ n : ℤ, a ≤ n ∧ n ≤ b ∧ q = n

/-- the numbers in a column -/
def ColValue : CT → ℚ → Prop
  | .logical => Between 0 1
  | .bit => Between 0 1
  | .byte => Between 0 255
  | .short => Between (-2 ^ 15) (2 ^ 15 - 1)
  | .long => Between (-2 ^ 31) (2 ^ 31 - 1)
  | .longlong => Between (-2 ^ 63) (2 ^ 63 - 1)
  | .float => Floating 24
  | .double => Floating 53
  | .string => fun _ => False
  | .other => fun _ => True

/-- the numbers of a type of C++ -/
def Value : ET → ℚ → Prop
  | .bool => Between 0 1
  | .char => Between (-128) 127
  | .short => Between (-2 ^ 15) (2 ^ 15 - 1)
  | .int => Between (-2 ^ 63) (2 ^ 63 - 1)
  | .uint => Between 0 (2 ^ 64 - 1)
  | .float => Floating 24
  | .double => Floating 53
  | .string => fun _ => False

/-- the conversions allowed by default that can change values -/
def lossy : ET → CT → Bool
  | .bool, .byte => true
  | .char, .byte => true
  | .uint, .short => true
  | .uint, .long => true
  | .uint, .longlong => true
  | .float, .long => true
  | .float, .longlong => true
  | .double, .longlong => true
  | _, _ => false

/-- a vector can be read in a vector of the same type, with or without narrowing, and narrowing only adds conversions -/
theorem C126_types (e : ET) (c : CT) : convertible e (writtenAs e) = true ∧ convertibleNarrow e (writtenAs e) = true ∧
    (convertible e c = true → convertibleNarrow e c = true) := by
  cases e <;> cases c <;> decide

/-- texts are only converted to texts -/
theorem C126_strings (e : ET) (c : CT) (h : convertibleNarrow e c = true) : e = .string ↔ c = .string := by
  revert h
  cases e <;> cases c <;> decide

theorem between_mono {a b a' b' : ℤ} (h1 : a' ≤ a) (h2 : b ≤ b') (q : ℚ) (h : Between a b q) : Between a' b' q := by
  obtain ⟨n, h3, h4, h5⟩ := h
  exact ⟨n, by omega, by omega, h5⟩

theorem between_floating {a b : ℤ} {k : Nat} (h1 : -2 ^ k < a) (h2 : b < 2 ^ k) (q : ℚ) (h : Between a b q) : Floating k q := by
  obtain ⟨n, h3, h4, h5⟩ := h
  refine ⟨n, 0, abs_lt.2 ⟨by omega, by omega⟩, by rw [h5]; simp⟩

theorem floating_mono {b b' : Nat} (h : b ≤ b') (q : ℚ) (hq : Floating b q) : Floating b' q := by
  obtain ⟨m, k, h1, h2⟩ := hq
  exact ⟨m, k, lt_of_lt_of_le h1 (pow_le_pow_right₀ (by norm_num) h), h2⟩

/-- an odd number that has too many bits -/
theorem not_floating {b : Nat} {n : ℤ} (h1 : n % 2 = 1) (h2 : 2 ^ b ≤ n) : ¬ Floating b (n : ℚ) := by
  rintro ⟨m, k, h3, h4⟩
  have hn : 0 < n := lt_of_lt_of_le (by positivity) h2
  rcases le_or_gt 1 k with hk | hk
  · obtain ⟨j, rfl⟩ : ∃ j : Nat, k = (j : ℤ) + 1 := ⟨(k - 1).toNat, by omega⟩
    have h5 : n = m * 2 ^ (j + 1) := by
      have : (n : ℚ) = ((m * 2 ^ (j + 1) : ℤ) : ℚ) := by
        rw [h4]
        push_cast
        rw [show ((j : ℤ) + 1) = ((j + 1 : Nat) : ℤ) by push_cast; rfl, zpow_natCast]
      exact_mod_cast this
    rw [h5, pow_succ, ← mul_assoc] at h1
    omega
  · obtain ⟨j, rfl⟩ : ∃ j : Nat, k = -(j : ℤ) := ⟨(-k).toNat, by omega⟩
    have h5 : n * 2 ^ j = m := by
      have : ((n * 2 ^ j : ℤ) : ℚ) = (m : ℚ) := by
        rw [zpow_neg, zpow_natCast] at h4
        push_cast
        rw [h4]
        rw [mul_assoc, inv_mul_cancel₀ (by positivity), mul_one]
      exact_mod_cast this
    have h6 : n ≤ m := by
      rw [← h5]
      have : (1 : ℤ) ≤ 2 ^ j := one_le_pow₀ (by norm_num)
      nlinarith
    have h7 := (abs_lt.1 h3).2
    omega

/-- the conversions that are allowed without narrowing keep all the numbers that a column can have, except for eight pairs of types, and for each of these
there is a number that cannot be kept -/
theorem C126_exact_partial (e : ET) (c : CT) (h : convertible e c = true) : (∀ q, ColValue c q → Value e q) ↔ lossy e c = false := by
  have big : ∀ {a b : ℤ} {n : ℤ} {P : ℚ → Prop}, a ≤ n → n ≤ b → ¬ P n → ¬ ∀ q, Between a b q → P q :=
    fun h1 h2 h3 h4 => h3 (h4 _ ⟨_, h1, h2, rfl⟩)
  have out : ∀ {a b n : ℤ}, (n < a ∨ b < n) → ¬ Between a b (n : ℚ) := by
    rintro a b n hn ⟨m, h1, h2, h3⟩
    have : n = m := by exact_mod_cast h3
    omega
  cases e <;> cases c <;> simp only [convertible, Bool.false_eq_true] at h <;> simp only [lossy, Bool.true_eq_false, iff_false, iff_true, ColValue, Value]
  all_goals first
    | exact fun q hq => hq
    | exact fun q => between_mono (by norm_num) (by norm_num) q
    | exact fun q => between_floating (by norm_num) (by norm_num) q
    | exact fun q => floating_mono (by norm_num) q
    | (refine big (n := 255) ?_ ?_ (out ?_) <;> norm_num; done)
    | (refine big (n := -1) ?_ ?_ (out ?_) <;> norm_num; done)
    | (refine big (n := 2 ^ 24 + 1) ?_ ?_ (not_floating ?_ ?_) <;> norm_num; done)
    | (refine big (n := 2 ^ 53 + 1) ?_ ?_ (not_floating ?_ ?_) <;> norm_num; done)

/-- with the default options, some numbers are changed -/
theorem C126_exact_refuted : ∃ e c, convertible e c = true ∧ ¬ ∀ q, ColValue c q → Value e q := by
  refine ⟨.uint, .short, rfl, fun h => ?_⟩
  have := (C126_exact_partial .uint .short rfl).1 h
  simp [lossy] at this

example : ColValue .short (-3) ∧ Value .int (-3) := ⟨⟨-3, by norm_num, by norm_num, by norm_num⟩, ⟨-3, by norm_num, by norm_num, by norm_num⟩⟩

/-! ### Dimensions -/

/-- the dimensions of the data of a column, in the order of the dimensions of vectors: the rows are before the others, and alone if rows have one number -/
def shape (f : Format) (t : Tbl α) (c : Col α) : List Nat := match f with
  | .column => c.tdim.reverse
  | .row => if c.tdim = [1] then [t.nrow] else t.nrow :: c.tdim.reverse

/-- the dimensions of the vector: the same, or with ones before, or all of them in one -/
inductive Dims (o : Opts) (s : List Nat) (dim : Nat) : List Nat → Prop
  | same : s.length = dim → Dims o s dim s
  | promote : s.length < dim → o.promote = true → Dims o s dim (List.replicate (dim - s.length) 1 ++ s)
  | flatten : dim = 1 → 1 < s.length → o.flatten = true → Dims o s dim [s.prod]

/-- all the elements of a column are read, in order, in a vector whose dimensions are those of the column; dimensions can only be added or flattened if this is
allowed -/
theorem C126_dims (f : Format) (o : Opts) (t : Tbl α) (name : Str) (c : Col α) (e : ET) (dim : Nat) (z : α) (hl : lookup t name = some c)
    (hd : c.data.length = t.nrow * c.count) (hf : f = .column → t.nrow = 1) (hs : c.type ≠ .string) :
    (∀ d, checkType o e c.type = true → Dims o (shape f t c) dim d → readColumn f o t name e dim z = .ok (some ⟨c.data, d⟩)) ∧
    (checkType o e c.type = false ∨ (∀ d, ¬ Dims o (shape f t c) dim d) → readColumn f o t name e dim z = .abort) := by
  have hk : c.count = c.tdim.prod := by simp [Col.count, hs]
  have hax : axesOf f (⟨t.nrow, []⟩ : Tbl α) c = (shape f t c).reverse := by
    cases f with
    | column => simp [axesOf, shape]
    | row =>
      simp only [axesOf, shape, hs, ne_eq, not_false_eq_true, and_true]
      split
      · rfl
      · simp
  have hprod : (shape f t c).prod = c.data.length := by
    rw [hd, hk]
    cases f with
    | column => rw [hf rfl, Nat.one_mul]; exact prod_reverse _
    | row =>
      simp only [shape]
      split
      · next h => rw [h]; simp
      · rw [List.prod_cons, prod_reverse]
  have hrows : rowsOf f (⟨t.nrow, []⟩ : Tbl α) = 0 → c.data.length = 0 := by
    intro h
    cases f with
    | column => simp [rowsOf] at h
    | row => simp only [rowsOf] at h; rw [hd, h, Nat.zero_mul]
  rw [readColumn_eq, hl]
  constructor
  · intro d ht h
    have hck : checkDim o (shape f t c).reverse.length dim = true ∧ resizeDims (shape f t c).reverse dim = d ∧ d.prod = c.data.length := by
      rw [List.length_reverse]
      cases h with
      | same h =>
        refine ⟨by unfold checkDim; rw [if_neg (by omega), if_neg (by omega)], ?_, hprod⟩
        rw [resize_eq (by simp [h])]
        simp [h]
      | promote h ho =>
        refine ⟨by unfold checkDim; rw [if_pos h, ho], ?_, ?_⟩
        · rw [resize_eq (by rw [List.length_reverse]; omega), List.length_reverse, List.reverse_reverse]
        · rw [List.prod_append, List.prod_replicate, one_pow, one_mul, hprod]
      | flatten h1 h2 ho =>
        subst h1
        refine ⟨by unfold checkDim; rw [if_neg (by omega), if_pos h2, ho]; rfl, ?_, by simp [hprod]⟩
        unfold resizeDims
        rw [if_pos ⟨rfl, by simpa using h2⟩, prod_reverse]
    unfold readLook
    simp only [hax, hck.2.1]
    rw [Res.check_pos ht, Res.ok_bind, Res.check_pos hck.1, Res.ok_bind, hck.2.2]
    by_cases h0 : c.data.length = 0
    · rw [if_pos h0, List.eq_nil_of_length_eq_zero h0]
    · rw [if_neg h0, if_neg (fun h => h0 (hrows h))]
      have hpos : 1 ≤ c.count := by
        rcases Nat.eq_zero_or_pos c.count with h | h
        · rw [h, Nat.mul_zero] at hd; omega
        · exact h
      unfold readData
      rw [if_neg (by omega), if_pos (by simp)]
      simp only [Nat.sub_self, Nat.zero_mul, Nat.zero_add, List.drop_zero, List.take_length, Res.ok_bind]
  · rintro (h | h)
    · simp only [readLook]
      rw [Res.check_neg (by simp [h])]
      rfl
    · have hck : checkDim o (shape f t c).reverse.length dim = false := by
        unfold checkDim
        rw [List.length_reverse]
        rcases Nat.lt_trichotomy (shape f t c).length dim with h1 | h1 | h1
        · rw [if_pos h1]
          by_contra hp
          exact h _ (.promote h1 (by simpa using hp))
        · exact absurd (.same h1) (h _)
        · rw [if_neg (by omega), if_pos h1]
          by_contra hp
          simp only [Bool.not_eq_false, Bool.and_eq_true, decide_eq_true_eq] at hp
          exact h _ (.flatten hp.1 (by omega) hp.2)
      unfold readLook
      simp only [hax, hck]
      by_cases ht : checkType o e c.type = true
      · rw [Res.check_pos ht, Res.ok_bind]
        rfl
      · rw [Res.check_neg ht]
        rfl

/-- the types from the narrowest to the widest -/
def rank : ET → Nat
  | .bool => 0
  | .char => 0
  | .short => 1
  | .int => 2
  | .uint => 2
  | .float => 3
  | .double => 4
  | .string => 5

def colRank : CT → Nat
  | .logical => 0
  | .bit => 0
  | .byte => 0
  | .short => 1
  | .long => 2
  | .longlong => 2
  | .float => 3
  | .double => 4
  | .string => 5
  | .other => 6

/-- a column of a type that is wider than the one of the vector is refused, unless narrowing is allowed; then a `double` column is read in `float`s -/
theorem C126_narrow (f : Format) (o : Opts) (t : Tbl α) (name : Str) (c : Col α) (e : ET) (dim : Nat) (z : α) (hl : lookup t name = some c)
    (hr : rank e < colRank c.type) : (o.narrow = false → readColumn f o t name e dim z = .abort) ∧
      (o.narrow = true → e = .float → c.type = .double → checkType o e c.type = true) := by
  constructor
  · intro ho
    have hc : checkType o e c.type = false := by
      unfold checkType
      rw [ho]
      revert hr
      cases e <;> cases c.type <;> decide
    rw [readColumn_eq, hl]
    simp only [readLook]
    rw [Res.check_neg (by simp [hc])]
    rfl
  · rintro ho rfl h
    rw [h]
    unfold checkType
    rw [ho]
    rfl

/-- a column of two rows with a 2 by 3 array -/
def c23 : Col Nat := ⟨"A".toList, .longlong, [3, 2], List.range 12⟩

example : shape .row ⟨2, [c23]⟩ c23 = [2, 2, 3] ∧ c23.data.length = 2 * c23.count ∧ lookup (⟨2, [c23]⟩ : Tbl Nat) "a".toList = some c23 ∧
    Dims { flatten := true } [2, 2, 3] 1 [12] ∧ Dims { promote := true } [2, 2, 3] 4 [1, 2, 2, 3] :=
  ⟨rfl, rfl, rfl, .flatten rfl (by decide) rfl, .promote (by decide) rfl⟩

end Verif.FitsTable
