import Verif.Core.Vec
/-!
# Calling a scalar function on vectors

Models `core/bits/vectorize.hpp:10-139` (the macros that give a scalar function its overloads for
vectors) and `core/bits/vectorize.hpp:141-331` (`vectorize_lambda_first`, `vectorize_lambda`).
The extra arguments `args...` of a function are part of the function here; an argument given twice
or a function that keeps a reference to an element of its vector argument is not modelled.
-/
namespace Verif.Core
open Verif
variable {α β γ ε : Type}

namespace Vectorize

/-- write `v.safe[i] = y`: outside the data it is undefined. -/
def wr (l : List α) (i : Nat) (y : α) : Res (List α) := if i < l.length then .ok (l.set i y) else .ub

/-- `name(const vec& v, args...)`, `vectorize.hpp:11-20` (and `_REN`, 117-126): the data are walked
and the values appended. -/
def unary (f : α → Res β) (v : Vec α) : Res (Vec β) := do
  let data ← v.data.foldlM (fun r t => do let y ← f t; pure (r ++ [y])) []
  .ok ⟨data, v.dims⟩

/-- the loop `for (i ...) v.safe[i] = g(i, v.safe[i])` of every overload that reuses its argument -/
def inPlace (g : Nat → α → Res α) : List Nat → List α → Res (List α)
  | [], l => .ok l
  | i :: is, l => do
    let t ← Res.rd l i
    let y ← g i t
    let l ← wr l i y
    inPlace g is l

/-- `name(vec&& v, args...)`, `vectorize.hpp:21-29` (and `_REN`, 127-135): each element is replaced. -/
def unaryMove (f : α → Res α) (v : Vec α) : Res (Vec α) := do
  let data ← inPlace (fun _ => f) (List.range v.data.length) v.data
  .ok ⟨data, v.dims⟩

/-- `name(const vec& v1, const vec& v2, args...)`, `vectorize.hpp:32-43`. -/
def binary (f : α → β → Res γ) (v1 : Vec α) (v2 : Vec β) : Res (Vec γ) := do
  Res.check (v1.dims = v2.dims)
  let data ← (List.range v1.data.length).foldlM (fun r i => do
    let a ← Res.rd v1.data i
    let b ← Res.rd v2.data i
    let y ← f a b
    pure (r ++ [y])) []
  .ok ⟨data, v1.dims⟩

/-- `name(vec&& v1, const vec& v2, args...)` and `name(vec&& v1, vec&& v2, args...)`,
`vectorize.hpp:44-54,66-76`: the result is written over `v1`. -/
def binaryMove1 (f : α → β → Res α) (v1 : Vec α) (v2 : Vec β) : Res (Vec α) := do
  Res.check (v1.dims = v2.dims)
  let data ← inPlace (fun i a => do let b ← Res.rd v2.data i; f a b) (List.range v1.data.length) v1.data
  .ok ⟨data, v1.dims⟩

/-- `name(const vec& v1, vec&& v2, args...)`, `vectorize.hpp:55-65`: the result is written over
`v2`, the loop runs over the positions of `v1`. -/
def binaryMove2 (f : α → β → Res β) (v1 : Vec α) (v2 : Vec β) : Res (Vec β) := do
  Res.check (v1.dims = v2.dims)
  let data ← inPlace (fun i b => do let a ← Res.rd v1.data i; f a b) (List.range v1.data.length) v2.data
  .ok ⟨data, v2.dims⟩

/-- `name(v1, const vec& v2, args...)` with a scalar `v1`, `vectorize.hpp:77-86`; the other order
(87-96) is the same with the arguments of `f` exchanged. -/
def scalarVec (f : α → β → Res γ) (a : α) (v : Vec β) : Res (Vec γ) := do
  let data ← (List.range v.data.length).foldlM (fun r i => do
    let b ← Res.rd v.data i
    let y ← f a b
    pure (r ++ [y])) []
  .ok ⟨data, v.dims⟩

/-- `name(v1, vec&& v2, args...)`, `vectorize.hpp:97-105` (and 106-114 with the order exchanged) -/
def scalarVecMove (f : α → β → Res β) (a : α) (v : Vec β) : Res (Vec β) := do
  let data ← inPlace (fun _ b => f a b) (List.range v.data.length) v.data
  .ok ⟨data, v.dims⟩

/-- the loop `for (i ...) ret.safe[i] = lambda(t.safe[i], std::forward<Args>(args)...)`,
`vectorize.hpp:161-164`. `ε` is the type of the extra arguments; `f` returns its value and what it
leaves in them. -/
def firstLoop (f : α → ε → Res (β × ε)) (t : List α) : List Nat → ε → List β → Res (List β)
  | [], _, r => .ok r
  | i :: is, e, r => do
    let x ← Res.rd t i
    let y ← f x e
    let r ← wr r i y.1
    firstLoop f t is y.2 r

/-- `vectorize_lambda_first(lambda)(t, args...)` for a vector `t`, `vectorize.hpp:155-178`: the
result is created with the dimensions of `t` and filled. -/
def lambdaFirst [Inhabited β] (f : α → ε → Res (β × ε)) (t : Vec α) (e : ε) : Res (Vec β) := do
  let data ← firstLoop f t.data (List.range t.data.length) e (List.replicate t.dims.prod default)
  .ok ⟨data, t.dims⟩

/-- the call of a lambda taking its extra argument by value, as the loop above makes it when the
argument is a temporary: the parameter is constructed by moving, which leaves the argument in its
moved-from state `gone` (empty, for strings and vectors). -/
def byValue (g : α → ε → β) (gone : ε) : α → ε → Res (β × ε) := fun x e => .ok (g x e, gone)

/-- an argument of a vectorised lambda: a scalar or a vector -/
inductive Arg (α : Type) where
  | scalar (a : α)
  | vec (v : Vec α)

/-- `lambda_check_dims(dims, set, u)`, `vectorize.hpp:206-218`: the first vector seen sets the
dimensions, the others must have the same. -/
def checkDims : Option (List Nat) → List (Arg α) → Res (Option (List Nat))
  | d, [] => .ok d
  | d, .scalar _ :: as => checkDims d as
  | none, .vec v :: as => checkDims (some v.dims) as
  | some d, .vec v :: as => do
    Res.check (d = v.dims)
    checkDims (some d) as

/-- `get(i, arg)`, `vectorize.hpp:226-245` -/
def get (i : Nat) : Arg α → Res α
  | .scalar a => .ok a
  | .vec v => Res.rd v.data i

/-- an argument after the lambda has assigned `x` to the parameter bound to `get(i, arg)` -/
def put (i : Nat) : Arg α → α → Arg α
  | .scalar _, x => .scalar x
  | .vec v, x => .vec { v with data := v.data.set i x }

/-- one call `lambda(get(i, args)...)`: `f` returns its value and what its parameters hold after
the call (parameters taken by value or by constant reference keep theirs). -/
def call (f : List α → Res (β × List α)) (i : Nat) (args : List (Arg α)) :
    Res (β × List (Arg α)) := do
  let xs ← args.mapM (get i)
  let r ← f xs
  .ok (r.1, List.zipWith (put i) args r.2)

/-- the loop of the vectorised call, `vectorize.hpp:304-306` -/
def callLoop (f : List α → Res (β × List α)) : List Nat → List (Arg α) → List β →
    Res (List β × List (Arg α))
  | [], args, r => .ok (r, args)
  | i :: is, args, r => do
    let c ← call f i args
    let r ← wr r i c.1
    callLoop f is c.2 r

/-- the vectorised call with a value, `vectorize.hpp:292-309`, when at least one argument is a
vector. `order` is the order in which the compiler evaluates the pack expansion
`swallow((lambda_check_dims(...), 0)...)`: the arguments of a function are evaluated in any order.
Returns the vector and the arguments after the call. -/
def lambdaAll [Inhabited β] (f : List α → Res (β × List α)) (args order : List (Arg α)) :
    Res (Vec β × List (Arg α)) := do
  let d ← checkDims none order
  match d with
  | none => .abort
  | some dims => do
    let r ← callLoop f (List.range dims.prod) args (List.replicate dims.prod default)
    .ok (⟨r.1, dims⟩, r.2)

/-- the loop of the vectorised call without value, `vectorize.hpp:287-289` -/
def voidLoop (f : List α → Res (List α)) : List Nat → List (Arg α) → Res (List (Arg α))
  | [], args => .ok args
  | i :: is, args => do
    let xs ← args.mapM (get i)
    let r ← f xs
    voidLoop f is (List.zipWith (put i) args r)

/-- the vectorised call of a lambda returning `void`, `vectorize.hpp:272-290` -/
def lambdaVoid (f : List α → Res (List α)) (args order : List (Arg α)) : Res (List (Arg α)) := do
  let d ← checkDims none order
  match d with
  | none => .abort
  | some dims => voidLoop f (List.range (dims.foldl (· * ·) 1)) args

end Vectorize
end Verif.Core
