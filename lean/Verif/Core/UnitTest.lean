import Mathlib.Algebra.Order.Field.Basic
import Verif.Core.Ops
import Verif.Core.Vectorize
import Verif.Str.Conv
/-!
# Unit tests (`test/unit_test.hpp`)

The numbers of tests do not exceed the range of `uint_t`. The text of the message is given by the caller; the expressions are evaluated once.
-/
namespace Verif.UnitTest
open Verif Verif.Core Verif.StrConv
variable {K : Type} [Field K] [LinearOrder K]

/-- subtraction of floating point numbers, without rounding -/
def sub : Fl K → Fl K → Fl K
  | .nan, _ => .nan
  | _, .nan => .nan
  | .inf a, .inf b => if a = b then .nan else .inf a
  | .inf a, .fin _ => .inf a
  | .fin _, .inf b => .inf (!b)
  | .fin x, .fin y => .fin (x - y)

/-- `abs` -/
def fabs : Fl K → Fl K
  | .fin x => .fin |x|
  | .nan => .nan
  | .inf _ => .inf false

/-- `<=` with a finite number on the right -/
def fle : Fl K → K → Bool
  | .fin x, y => decide (x ≤ y)
  | .nan, _ => false
  | .inf neg, _ => neg

/-- `is_nan` (`math/base.hpp`) -/
def isNan : Fl K → Bool
  | .nan => true
  | _ => false

/-- `is_same_` for floating point numbers (unit_test.hpp:48-52) -/
def isSame (eps : K) (v1 v2 : Fl K) : Bool :=
  fle (fabs (sub v1 v2)) eps || (isNan v1 && isNan v2) || isNan (sub v1 v2)

/-- `is_same_` for vectors of floating point numbers (unit_test.hpp:48-52): each function and operator is applied to whole vectors -/
def isSameVec (eps : K) (v1 v2 : Vec (Fl K)) : Res (Vec Bool) := do
  let d ← Ops.binop sub v1 v2
  let d ← Vectorize.unary (fun x => .ok (fabs x)) d
  let a ← Ops.scalarOp fle d eps
  let n1 ← Vectorize.unary (fun x => .ok (isNan x)) v1
  let n2 ← Vectorize.unary (fun x => .ok (isNan x)) v2
  let b ← Ops.binop (· && ·) n1 n2
  let ab ← Ops.binop (· || ·) a b
  let d ← Ops.binop sub v1 v2
  let c ← Vectorize.unary (fun x => .ok (isNan x)) d
  Ops.binop (· || ·) ab c

/-- `is_same_` for other vectors (unit_test.hpp:43-46) -/
def isEqVec {α : Type} [DecidableEq α] (v1 v2 : Vec α) : Res (Vec Bool) := Ops.binop (fun a b => decide (a = b)) v1 v2

/-- `reduce_and` (unit_test.hpp:17-24) -/
def reduceAnd (b : Vec Bool) : Bool := b.data.foldl (fun res v => res && v) true

/-- `tested`, `failed` (unit_test.hpp:10-11) and what was printed -/
structure Counts where
  tested : Nat
  failed : Nat
  out : List String
deriving DecidableEq

/-- `check_base_` (unit_test.hpp:62-69) -/
def checkBase (showLine : Bool) (place msg : String) (cond : Bool) (s : Counts) : Counts :=
  let s := if showLine then { s with out := s.out ++ [place] } else s
  let s := if !cond then { s with out := s.out ++ [msg], failed := s.failed + 1 } else s
  { s with tested := s.tested + 1 }

/-- one use of the macro `check` (unit_test.hpp:73-74) on vectors or numbers: the comparison, the place in the source and the message -/
structure Check where
  same : Res (Vec Bool)
  place : String
  msg : String

/-- a test program: the checks in order; one that stops the program stops the following ones too -/
def run (showLine : Bool) : List Check → Counts → Res Counts
  | [], s => .ok s
  | c :: l, s => do
    let b ← c.same
    run showLine l (checkBase showLine c.place c.msg (reduceAnd b) s)

end Verif.UnitTest
