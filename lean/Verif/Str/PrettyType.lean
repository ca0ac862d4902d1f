import Verif.Basic
/-!
# Names of types (C252)

`pretty_type` names the type of a variable in messages, and in the text from which `hash` is computed. The overloads of the function for references, pointers and constants come before those for the types with a name; since `vif::impl` is not a namespace that is associated with their argument `meta::type_list<T>`, they only see the overloads that come before them.
-/
namespace Verif.PrettyType
open Verif

/-! ### Model -/

/-- the types that have an overload (`string_conversion.hpp:245-299`) -/
inductive Base
  | char | short | int | long | llong | uchar | ushort | uint | ulong | ullong | bool | float | double | string
deriving DecidableEq

/-- a type; `other` are the types without overload -/
inductive Ty
  | base (b : Base)
  | ref (t : Ty)
  | ptr (t : Ty)
  | const (t : Ty)
  | vec (dim : Nat) (t : Ty)
  | other (n : Nat)
deriving DecidableEq

abbrev S := List Char

/-- `pretty_type_` for the types with a name (`string_conversion.hpp:245-299`) -/
def baseName : Base → S
  | .char => ['c', 'h', 'a', 'r']
  | .short => ['s', 'h', 'o', 'r', 't']
  | .int => ['i', 'n', 't']
  | .long => ['l', 'o', 'n', 'g']
  | .llong => ['l', 'l', 'o', 'n', 'g']
  | .uchar => ['u', 'c', 'h', 'a', 'r']
  | .ushort => ['u', 's', 'h', 'o', 'r', 't']
  | .uint => ['u', 'i', 'n', 't']
  | .ulong => ['u', 'l', 'o', 'n', 'g']
  | .ullong => ['u', 'l', 'l', 'o', 'n', 'g']
  | .bool => ['b', 'o', 'o', 'l']
  | .float => ['f', 'l', 'o', 'a', 't']
  | .double => ['d', 'o', 'u', 'b', 'l', 'e']
  | .string => ['s', 't', 'r', 'i', 'n', 'g']

/-- the call in the overload for pointers (`string_conversion.hpp:235-238`), which sees the general function, that for references, and itself; `tid` is `typeid(T).name()`; there are no pointers to references -/
def atPtr (tid : Ty → S) : Ty → S
  | .ptr t => atPtr tid t ++ ['*']
  | t => tid t

/-- the call in the overload for constants (`string_conversion.hpp:240-243`), which also sees that for pointers; there are no constant references -/
def atConst (tid : Ty → S) : Ty → S
  | .ptr t => atPtr tid t ++ ['*']
  | t => tid t

/-- `pretty_type_t` (`string_conversion.hpp:225-308`): the macro sees all overloads, and so does that for `vec`, which comes last; the call in the overload for references (`string_conversion.hpp:230-233`) only sees the general function -/
def pretty (tid : Ty → S) : Ty → S
  | .base b => baseName b
  | .ref t => tid t ++ ['&']
  | .ptr t => atPtr tid t ++ ['*']
  | .const t => ['c', 'o', 'n', 's', 't', ' '] ++ atConst tid t
  | .vec d t => ['v', 'e', 'c', '<'] ++ Nat.toDigits 10 d ++ [','] ++ pretty tid t ++ ['>']
  | .other n => tid (.other n)

/-! ### Specification -/

/-- a type with a name, or a `vec` of such a type -/
inductive Plain : Ty → Prop
  | base (b : Base) : Plain (.base b)
  | vec (d : Nat) (t : Ty) : Plain t → Plain (.vec d t)

/-- `typeid` does not see constants (C++ standard) -/
def Std (tid : Ty → S) : Prop := ∀ t, tid (.const t) = tid t

/-! ### Helpers -/

theorem comma_inj {a b x y : S} (ha : ',' ∉ a) (hb : ',' ∉ b) (h : a ++ ',' :: x = b ++ ',' :: y) : a = b ∧ x = y := by
  induction a generalizing b with
  | nil =>
    cases b with
    | nil => simpa using h
    | cons c b =>
      simp only [List.nil_append, List.cons_append, List.cons.injEq] at h
      exact absurd (h.1 ▸ List.mem_cons_self) hb
  | cons c a ih =>
    cases b with
    | nil =>
      simp only [List.nil_append, List.cons_append, List.cons.injEq] at h
      exact absurd (h.1 ▸ List.mem_cons_self) ha
    | cons d b =>
      simp only [List.cons_append, List.cons.injEq] at h
      obtain ⟨h1, h2⟩ := ih (fun hm => ha (List.mem_cons_of_mem _ hm)) (fun hm => hb (List.mem_cons_of_mem _ hm)) h.2
      exact ⟨by rw [h.1, h1], h2⟩

theorem digits_comma (n : Nat) : ',' ∉ Nat.toDigits 10 n := fun h => by
  have := Nat.isDigit_of_mem_toDigits (by omega) (by omega) h
  exact absurd this (by decide)

theorem digits_inj {n m : Nat} (h : Nat.toDigits 10 n = Nat.toDigits 10 m) : n = m := by
  rw [← Nat.ofDigitChars_toDigits (b := 10) (n := n) (by decide) (by decide), h, Nat.ofDigitChars_toDigits (by decide) (by decide)]

theorem base_inj {a b : Base} (h : baseName a = baseName b) : a = b := by
  revert h
  cases a <;> cases b <;> decide

theorem base_vec (tid : Ty → S) (b : Base) (d : Nat) (t : Ty) : baseName b ≠ pretty tid (.vec d t) := by
  intro h
  have h := congrArg List.head? h
  revert h
  cases b <;> simp [pretty, baseName]

/-! ### C252 -/

/-- C252 (partial): types with a name, and vectors of them, with any number of dimensions and vectors in vectors, have different names if they are different. -/
theorem C252_distinct_partial (tid : Ty → S) (t u : Ty) (ht : Plain t) (hu : Plain u) (h : pretty tid t = pretty tid u) : t = u := by
  induction ht generalizing u with
  | base b =>
    cases hu with
    | base c => rw [base_inj h]
    | vec d v => exact absurd h (base_vec tid b d v)
  | vec d t ht ih =>
    cases hu with
    | base c => exact absurd h.symm (base_vec tid c d t)
    | vec e v hv =>
      simp only [pretty, List.append_assoc, List.append_cancel_left_eq, List.singleton_append] at h
      obtain ⟨h1, h2⟩ := comma_inj (digits_comma d) (digits_comma e) h
      rw [digits_inj h1, ih v hv (List.append_cancel_right h2)]

/-- C252 (partial): the name of these types does not depend on the names that the compiler makes. -/
theorem C252_readable_partial (tid tid' : Ty → S) (t : Ty) (ht : Plain t) : pretty tid t = pretty tid' t := by
  induction ht with
  | base b => rfl
  | vec d t _ ih => simp only [pretty, ih]

/-- C252 fails: a reference to a constant and a reference have the same name, and so have a pointer to a constant and a pointer. -/
theorem C252_const_refuted (tid : Ty → S) (h : Std tid) (b : Base) :
    pretty tid (.ref (.const (.base b))) = pretty tid (.ref (.base b)) ∧ pretty tid (.ptr (.const (.base b))) = pretty tid (.ptr (.base b)) := by
  simp only [pretty, atPtr, h (.base b), and_self]

/-- C252 fails: references, pointers and constants have the name that the compiler makes, not that of the type: with the name `i` of GCC for `int`, they are `i&`, `i*` and `const i`. -/
theorem C252_name_refuted (tid : Ty → S) (h : tid (.base .int) = ['i']) :
    pretty tid (.base .int) = ['i', 'n', 't'] ∧ pretty tid (.ref (.base .int)) = ['i', '&'] ∧ pretty tid (.ptr (.base .int)) = ['i', '*'] ∧
    pretty tid (.const (.base .int)) = ['c', 'o', 'n', 's', 't', ' ', 'i'] := by
  simp only [pretty, atPtr, atConst, h, baseName, List.cons_append, List.nil_append, and_self]

example (tid : Ty → S) : Plain (.vec 2 (.vec 1 (.base .float))) ∧ pretty tid (.vec 2 (.vec 1 (.base .float))) = "vec<2,vec<1,float>>".toList :=
  ⟨.vec _ _ (.vec _ _ (.base _)), rfl⟩

example : Std (fun _ => ['i']) := fun _ => rfl

end Verif.PrettyType
