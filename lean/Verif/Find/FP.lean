import Verif.Basic
import Mathlib.Order.Basic
import Mathlib.Order.Defs.LinearOrder
/-!
# Values with NaN

A C++ floating point value is modelled as `Option α` with `α` linearly ordered: `none` is NaN.
For integer element types use values `some _` only. Rounding is not modelled.
-/
namespace Verif.FP
variable {α : Type} [LinearOrder α]

/-- C++ `a < b` -/
def lt : Option α → Option α → Bool
  | some a, some b => decide (a < b)
  | _, _ => false

/-- C++ `a == b` -/
def eq : Option α → Option α → Bool
  | some a, some b => decide (a = b)
  | _, _ => false

/-- C++ `a != b` -/
def ne (a b : Option α) : Bool := !eq a b

/-- `strict_comparator_less` (`core/bits/helpers.hpp:404-411`), used by every sort and search:
NaN comes after all numbers. -/
def less : Option α → Option α → Bool
  | none, _ => false
  | some _, none => true
  | some a, some b => decide (a < b)

/-- not greater, the preorder of `less` -/
def le (a b : Option α) : Bool := !less b a

theorem le_trans (a b c : Option α) : le a b → le b c → le a c := by
  cases a <;> cases b <;> cases c <;> simp [le, less]
  intro h1 h2; exact _root_.le_trans h1 h2

theorem le_total (a b : Option α) : (le a b || le b a) := by
  cases a <;> cases b <;> simp [le, less]
  exact _root_.le_total _ _

@[simp] theorem le_some (a b : α) : le (some a) (some b) = decide (a ≤ b) := by
  rw [Bool.eq_iff_iff]; simp [le, less]

@[simp] theorem less_some (a b : α) : less (some a) (some b) = decide (a < b) := rfl

theorem less_iff (a b : Option α) : less a b = true ↔ le a b ∧ ¬ le b a := by
  cases a <;> cases b <;> simp [le, less]
  intro h; exact le_of_lt h

theorem eq_of_le_le {a b : α} (h1 : le (some a) (some b)) (h2 : le (some b) (some a)) : a = b := by
  simp at h1 h2; exact le_antisymm h1 h2

end Verif.FP
