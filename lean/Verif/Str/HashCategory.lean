import Verif.Str.HashProps
import Verif.Str.PrettyType
/-!
# C253: `hash` and the way its arguments are passed

`hash_(std::string s, T&& t, Args&& ... args)` (`string-hash.hpp:159-162`) takes the name of the type from `pretty_type(t)`, that is from `decltype(t)`: `X&` or `const X&` for a variable, `X&&` or `const X&&` for a temporary. The categories are kept by `std::forward`.
-/
namespace Verif.HashCategory
open Verif Verif.Sha Verif.PrettyType

/-! ### Model -/

/-- how an argument is passed: a variable or a temporary, constant or not -/
structure Cat where
  lvalue : Bool
  const : Bool
deriving DecidableEq

/-- the bytes of a text -/
def bytes (s : S) : List Byte := s.map fun c => BitVec.ofNat 8 c.toNat

/-- `T` of the parameter, without the reference -/
def refd (c : Cat) (t : Ty) : Ty := if c.const then .const t else t

/-- `pretty_type(t)` in `hash_` (`string-hash.hpp:161`): the overload for `T&` of `string_conversion.hpp:230-233` for a variable; for a temporary the general function of `string_conversion.hpp:225-228`, as `typeid(T&&)` is `typeid(T)` -/
def typeName (tid : Ty → S) (c : Cat) (t : Ty) : S :=
  if c.lvalue then pretty tid (.ref (refd c t)) else tid (refd c t)

/-- an argument: its type, the text of its value, and how it is passed -/
structure Passed where
  type : Ty
  text : List Byte
  cat : Cat

/-- what is hashed of the argument (`string-hash.hpp:159-162`) -/
def toArg (tid : Ty → S) (p : Passed) : Arg := ⟨bytes (typeName tid p.cat p.type), p.text⟩

/-- `hash(args...)` (`string-hash.hpp:166-169`) -/
def hashOf (tid : Ty → S) (ps : List Passed) (w : Buf) : List Char := hash (ps.map (toArg tid)) w

/-! ### Specification -/

/-- the same types and values -/
def SameValues (ps qs : List Passed) : Prop := ps.map (fun p => (p.type, p.text)) = qs.map (fun p => (p.type, p.text))

/-- the same arguments are temporaries -/
def SameKinds (ps qs : List Passed) : Prop := ps.map (·.cat.lvalue) = qs.map (·.cat.lvalue)

/-! ### C253 -/

/-- C253 (partial): if the same values are passed, and each as a variable in both calls or as a temporary in both, the hash is the same, whatever is constant. -/
theorem C253_const_partial (tid : Ty → S) (h : Std tid) (ps qs : List Passed) (w : Buf) (hv : SameValues ps qs) (hk : SameKinds ps qs) :
    hashOf tid ps w = hashOf tid qs w := by
  have key : ps.map (toArg tid) = qs.map (toArg tid) := by
    unfold SameValues at hv
    unfold SameKinds at hk
    induction ps generalizing qs with
    | nil =>
      cases qs with
      | nil => rfl
      | cons q qs => simp at hv
    | cons p ps ih =>
      cases qs with
      | nil => simp at hv
      | cons q qs =>
        simp only [List.map_cons, List.cons.injEq, Prod.mk.injEq] at hv hk ⊢
        refine ⟨?_, ih qs hv.2 hk.2⟩
        have e : ∀ c : Cat, ∀ t, typeName tid c t = if c.lvalue then tid t ++ ['&'] else tid t := by
          intro c t
          unfold typeName refd
          cases c.const <;> simp [pretty, h t]
        unfold toArg
        rw [e, e, hv.1.1, hv.1.2, hk.1]
  unfold hashOf
  rw [key]

/-- C253 fails: for any type, a variable and a temporary of the same value give different texts to hash: with the name `i` of GCC for `int` they are `i&5` and `i5`. -/
theorem C253_category_refuted (tid : Ty → S) (t : Ty) (text : List Byte) (k k' : Bool) (h : Std tid) :
    hashInput [] [toArg tid ⟨t, text, ⟨true, k⟩⟩] ≠ hashInput [] [toArg tid ⟨t, text, ⟨false, k'⟩⟩] := by
  intro he
  have he := congrArg List.length he
  simp only [hashInput, toArg, typeName, refd, bytes, List.nil_append, List.length_append, List.length_map] at he
  cases k <;> cases k' <;> simp [pretty, h t] at he

/-- the texts of `int x = 5; hash(x)` and `hash(5)` -/
example (tid : Ty → S) (h : tid (.base .int) = ['i']) :
    hashInput [] [toArg tid ⟨.base .int, bytes ['5'], ⟨true, false⟩⟩] = bytes ['i', '&', '5'] ∧
    hashInput [] [toArg tid ⟨.base .int, bytes ['5'], ⟨false, false⟩⟩] = bytes ['i', '5'] := by
  simp [hashInput, toArg, typeName, refd, pretty, h, bytes]

example : SameValues [⟨.base .int, [], ⟨true, true⟩⟩] [⟨.base .int, [], ⟨true, false⟩⟩] ∧ SameKinds [⟨.base .int, [], ⟨true, true⟩⟩] [⟨.base .int, [], ⟨true, false⟩⟩] := ⟨rfl, rfl⟩

end Verif.HashCategory
