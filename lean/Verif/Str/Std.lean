import Verif.Basic
import Mathlib.Data.List.Basic
/-!
# The part of `std::string` used by vif

Strings are lists of characters.  `npos` is `none`; positions are natural numbers.  The search
functions are modelled by their contract in the C++ standard ([string.find] ff.): the smallest (largest)
position that satisfies the condition.
-/
namespace Verif.Str
open Verif

abbrev Str := List Char

/-- smallest position in `[lo, hi)` satisfying `p` -/
def firstIn (p : Nat → Bool) (lo hi : Nat) : Option Nat := (List.range' lo (hi - lo)).find? p

/-- largest position in `[0, hi)` satisfying `p` -/
def lastIn (p : Nat → Bool) (hi : Nat) : Option Nat := (List.range hi).reverse.find? p

/-- does the character at position `i` belong to `cs` -/
def inSet (s cs : Str) (i : Nat) : Bool := (s[i]?).any fun c => decide (c ∈ cs)

/-- `s.find(pat, pos)` -/
def sfind (s pat : Str) (pos : Nat) : Option Nat :=
  firstIn (fun p => pat.isPrefixOf (s.drop p)) pos (s.length + 1)

/-- `s.find_first_of(cs, pos)` -/
def firstOf (s cs : Str) (pos : Nat) : Option Nat := firstIn (fun i => inSet s cs i) pos s.length

/-- `s.find_first_not_of(cs, pos)` -/
def firstNotOf (s cs : Str) (pos : Nat) : Option Nat := firstIn (fun i => !inSet s cs i) pos s.length

/-- number of characters at positions up to `pos`; `none` is `npos` -/
def upTo (s : Str) : Option Nat → Nat
  | none => s.length
  | some p => min (p + 1) s.length

/-- `s.find_last_of(cs, pos)` -/
def lastOf (s cs : Str) (pos : Option Nat) : Option Nat :=
  lastIn (fun i => inSet s cs i) (upTo s pos)

/-- `s.find_last_not_of(cs, pos)` -/
def lastNotOf (s cs : Str) (pos : Option Nat) : Option Nat :=
  lastIn (fun i => !inSet s cs i) (upTo s pos)

/-- `s.substr(pos, len)`: throws if `pos > size` -/
def substr (s : Str) (pos len : Nat) : Res Str :=
  if s.length < pos then .abort else .ok ((s.drop pos).take len)

/-- `s.substr(pos)` -/
def substrFrom (s : Str) (pos : Nat) : Res Str :=
  if s.length < pos then .abort else .ok (s.drop pos)

/-! ### Facts -/

theorem firstIn_some {p : Nat → Bool} {lo hi k : Nat} :
    firstIn p lo hi = some k ↔ lo ≤ k ∧ k < hi ∧ p k = true ∧ ∀ j, lo ≤ j → j < k → p j = false := by
  unfold firstIn
  rw [List.find?_eq_some_iff_getElem]
  constructor
  · rintro ⟨hp, i, hi', he, hb⟩
    rw [List.getElem_range'] at he
    rw [List.length_range'] at hi'
    subst he
    refine ⟨by omega, by omega, hp, fun j h1 h2 => ?_⟩
    have := hb (j - lo) (by omega)
    rw [List.getElem_range'] at this
    simpa [show lo + (j - lo) = j by omega] using this
  · rintro ⟨h1, h2, h3, h4⟩
    refine ⟨h3, k - lo, by rw [List.length_range']; omega, by rw [List.getElem_range']; omega, fun j hj => ?_⟩
    rw [List.getElem_range']
    simpa using h4 (lo + j) (by omega) (by omega)

theorem firstIn_none {p : Nat → Bool} {lo hi : Nat} :
    firstIn p lo hi = none ↔ ∀ j, lo ≤ j → j < hi → p j = false := by
  unfold firstIn
  rw [List.find?_eq_none]
  constructor
  · intro h j h1 h2
    simpa using h j (by rw [List.mem_range'_1]; omega)
  · intro h j hj
    rw [List.mem_range'_1] at hj
    simpa using h j (by omega) (by omega)

theorem lastIn_some {p : Nat → Bool} {hi k : Nat} :
    lastIn p hi = some k ↔ k < hi ∧ p k = true ∧ ∀ j, k < j → j < hi → p j = false := by
  unfold lastIn
  rw [List.find?_eq_some_iff_getElem]
  constructor
  · rintro ⟨hp, i, hi', he, hb⟩
    rw [List.getElem_reverse, List.getElem_range, List.length_range] at he
    rw [List.length_reverse, List.length_range] at hi'
    subst he
    refine ⟨by omega, hp, fun j h1 h2 => ?_⟩
    have := hb (hi - 1 - j) (by omega)
    rw [List.getElem_reverse, List.getElem_range, List.length_range] at this
    simpa [show hi - 1 - (hi - 1 - j) = j by omega] using this
  · rintro ⟨h2, h3, h4⟩
    refine ⟨h3, hi - 1 - k, by rw [List.length_reverse, List.length_range]; omega, by
      rw [List.getElem_reverse, List.getElem_range, List.length_range]; omega, fun j hj => ?_⟩
    rw [List.getElem_reverse, List.getElem_range, List.length_range]
    simpa using h4 (hi - 1 - j) (by omega) (by omega)

theorem lastIn_none {p : Nat → Bool} {hi : Nat} :
    lastIn p hi = none ↔ ∀ j, j < hi → p j = false := by
  unfold lastIn
  rw [List.find?_eq_none]
  simp

/-- `pat` occurs in `s` at position `p` -/
def OccursAt (pat s : Str) (p : Nat) : Prop := pat <+: s.drop p

theorem OccursAt.le {pat s : Str} {p : Nat} (h : OccursAt pat s p) (hp : p ≤ s.length) :
    p + pat.length ≤ s.length := by
  have := h.length_le
  rw [List.length_drop] at this
  omega

theorem sfind_some {s pat : Str} {pos k : Nat} :
    sfind s pat pos = some k ↔ pos ≤ k ∧ k ≤ s.length ∧ OccursAt pat s k ∧
      ∀ j, pos ≤ j → j < k → ¬ OccursAt pat s j := by
  unfold sfind
  rw [firstIn_some]
  simp only [List.isPrefixOf_iff_prefix, ← Bool.not_eq_true, OccursAt, Nat.lt_succ_iff]

theorem sfind_none {s pat : Str} {pos : Nat} :
    sfind s pat pos = none ↔ ∀ j, pos ≤ j → j ≤ s.length → ¬ OccursAt pat s j := by
  unfold sfind
  rw [firstIn_none]
  simp only [List.isPrefixOf_iff_prefix, ← Bool.not_eq_true, OccursAt, Nat.lt_succ_iff]

theorem inSet_iff {s cs : Str} {i : Nat} : inSet s cs i = true ↔ ∃ c ∈ cs, s[i]? = some c := by
  unfold inSet
  cases h : s[i]? with
  | none => simp
  | some c => simp

theorem inSet_lt {s cs : Str} {i : Nat} (h : i < s.length) : inSet s cs i = decide (s[i] ∈ cs) := by
  unfold inSet; simp [h]

end Verif.Str
