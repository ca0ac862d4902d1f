import Verif.Core.Vec
import Mathlib.Logic.Function.Basic
/-!
# Views: assignment and compound assignment with aliasing

Models `core/vec.hpp:153-197` (assignment to a vector), `568-602` (compound operators of a vector),
`681-812` (views: parent pointer, assignment, `view_same`), `1116-1144` (compound operators of a
view) and `core/bits/access.hpp:153-161,643-657` (which parent a new view records).

Memory maps addresses to values. A vector object has an identity and owns a list of addresses. A
view has a parent identity, a flag telling whether it points to `const` elements, and the list of
addresses of its elements.
-/
namespace Verif.Core.View
open Verif
variable {α : Type}

abbrev Mem (α : Type) := Nat → α

/-- A vector expression: a vector object or a view. -/
inductive Operand where
  | vec (id : Nat) (addrs : List Nat)
  | view (parent : Nat) (cst : Bool) (addrs : List Nat)
deriving Repr, DecidableEq

def Operand.addrs : Operand → List Nat
  | .vec _ a => a
  | .view _ _ a => a

/-- `view_same` between target and source, `vec.hpp:189-197,799-812`: two views with the same
element type (including constness) and the same parent, or a vector and a view of the same element
type whose parent it is. The generic overload returns false: in particular for a view of `const`
elements against a modifiable view or vector, and for two vectors. The target is modifiable. -/
def viewSame : Operand → Operand → Bool
  | .view p _ _, .view q cst _ => !cst && p == q
  | .view p _ _, .vec q _ => p == q
  | .vec p _, .view q cst _ => !cst && p == q
  | .vec _ _, .vec _ _ => false

/-- `*data[i] op v.safe[i]` for every `i`, reading the source while writing. -/
def writeDirect (f : α → α → α) : List Nat → List Nat → Mem α → Mem α
  | a :: as, b :: bs, m => writeDirect f as bs (Function.update m a (f (m a) (m b)))
  | _, _, m => m

/-- `*data[i] op t[i]` with the values `t` copied before. -/
def writeValues (f : α → α → α) : List Nat → List α → Mem α → Mem α
  | a :: as, t :: ts, m => writeValues f as ts (Function.update m a (f (m a) t))
  | _, _, m => m

/-- Assignment to a view (`f = fun _ x => x`, `vec.hpp:752-797`; only the sizes are compared) and
the compound operators on views and vectors (`vec.hpp:568-587,1116-1136`). -/
def assign (f : α → α → α) (dst src : Operand) (m : Mem α) : Res (Mem α) :=
  if dst.addrs.length = src.addrs.length then
    if viewSame dst src then .ok (writeValues f dst.addrs (src.addrs.map m) m)
    else .ok (writeDirect f dst.addrs src.addrs m)
  else .abort

/-- `v = view` for a vector object, `vec.hpp:153-187`: returns the new element values. When the
source is not recognised as a view of the target, `data.resize` happens before reading; if the
addresses read belong to the target this reads released or moved storage unless the size is
unchanged. -/
def assignVec (own : List Nat) (id : Nat) (src : Operand) (m : Mem α) : Res (List α) :=
  if viewSame (.vec id own) src then .ok (src.addrs.map m)
  else if ∀ a ∈ src.addrs, a ∉ own then .ok (src.addrs.map m)
  else if src.addrs.length = own.length then
    .ok (own.map (writeDirect (fun _ x => x) own src.addrs m))
  else .ub

/-- `view = scalar`, `vec.hpp:740-745`: the scalar is taken by reference, it lives at address `s`. -/
def assignScalar (as : List Nat) (s : Nat) (m : Mem α) : Mem α :=
  as.foldl (fun m a => Function.update m a (m s)) m

/-- `view op= scalar`, `vec.hpp:1138-1144`: by value. -/
def compoundScalarView (f : α → α → α) (as : List Nat) (u : α) (m : Mem α) : Mem α :=
  as.foldl (fun m a => Function.update m a (f (m a) u)) m

/-- `vector op= scalar`, `vec.hpp:588-596`: by reference, the scalar lives at address `s`. -/
def compoundScalarVec (f : α → α → α) (as : List Nat) (s : Nat) (m : Mem α) : Mem α :=
  as.foldl (fun m a => Function.update m a (f (m a) (m s))) m

/-- parent recorded by `v(...)` and `v[ids]`, `access.hpp:153-161,469,525,540`. -/
def accessParent : Operand → Nat
  | .vec id _ => id
  | .view p _ _ => p

/-- parent recorded by `v[range]`, `access.hpp:643-657` with the constructor `vec.hpp:729-733`: the
address of the indexed object itself, even if it is a view (`obj` is that address). -/
def bracketParent (obj : Nat) (_v : Operand) : Nat := obj

end Verif.Core.View
